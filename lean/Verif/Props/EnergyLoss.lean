import Verif.Lemmas.FixedGrid
import Verif.Model.Compton
import Verif.Props.Opacity

/- C55: energy-loss rates. -/

namespace Verif

open MathUtils in
/-- the trapezoidal sum grows with the samples -/
theorem trapz_mono {α : Type} (l : List α) (f g e : α → ℝ) (hc : (l.map e).IsChain (· ≤ ·))
    (h : ∀ x ∈ l, f x ≤ g x) : trapz (l.map f) (l.map e) ≤ trapz (l.map g) (l.map e) := by
  induction l with
  | nil => simp [trapz]
  | cons x l ih =>
    cases l with
    | nil => simp [trapz]
    | cons y l =>
      simp only [List.map_cons, trapz] at ih hc ⊢
      rw [List.isChain_cons_cons] at hc
      have h1 := ih hc.2 fun z hz => h z (List.mem_cons_of_mem _ hz)
      have h2 := h x (by simp)
      have h3 := h y (by simp)
      have h4 : 0 ≤ e y - e x := by linarith [hc.1]
      have := mul_le_mul_of_nonneg_left (add_le_add h2 h3) h4
      linarith

namespace Compton

open MathUtils Spectra Region Absorption

/-! ### synchrotron -/

/-- C55: the synchrotron loss in terms of the magnetic energy density of the blob; it is a loss -/
theorem C55_synch {k : Consts} (hk : k.Pos) (b : Blob) (gamma : ℝ) :
    Synchrotron.energyLossRate k b.B gamma = 4 / 3 * k.sigma_T * k.c * b.U_B * gamma ^ 2
      ∧ 0 ≤ Synchrotron.energyLossRate k b.B gamma := by
  refine ⟨rfl, ?_⟩
  unfold Synchrotron.energyLossRate
  have := hk.sigma_T; have := hk.c; have := Real.pi_pos
  positivity

/-! ### the Klein-Nishina factor -/

theorem log_ten_lt : Real.log 10 < 28 / 10 := by
  have h := Real.log_two_lt_d9
  have e : Real.log 16 = 4 * Real.log 2 := by
    rw [show (16 : ℝ) = 2 ^ 4 by norm_num, Real.log_pow]; norm_num
  have : Real.log 10 < Real.log 16 := Real.log_lt_log (by norm_num) (by norm_num)
  linarith

theorem fmax_large : (10 : ℝ) ^ 4 ≤ fmax := by
  unfold fmax
  have : (2 : ℝ) ^ 1024 = 2 ^ 971 * 2 ^ 53 := by rw [← pow_add]
  rw [this]
  have : (1 : ℝ) ≤ 2 ^ 971 := one_le_pow₀ (by norm_num)
  generalize (2 : ℝ) ^ 971 = X at this ⊢
  norm_num
  linarith

theorem clog_four : MathUtils.log (10 ^ 4) = 4 * Real.log 10 := by
  rw [clog_eq (by norm_num), min_eq_left fmax_large, Real.log_pow]
  norm_num

/-- the clipped logarithm does not grow faster than the logarithm -/
theorem clog_sub {b b' : ℝ} (h : 1 ≤ b) (hb : b ≤ b') :
    MathUtils.log b ≤ MathUtils.log b' ∧ MathUtils.log b' - MathUtils.log b ≤ b' / b - 1 := by
  have hf : (1 : ℝ) ≤ fmax := le_trans (by norm_num) fmax_large
  have h0 : 0 < b := by linarith
  rw [clog_eq h, clog_eq (h.trans hb)]
  have h1 : 0 < min b fmax := lt_min h0 (by linarith)
  have hle : min b fmax ≤ min b' fmax := min_le_min_right _ hb
  refine ⟨Real.log_le_log h1 hle, ?_⟩
  rw [← Real.log_div (by linarith) h1.ne']
  have h2 := Real.log_le_sub_one_of_pos (x := min b' fmax / min b fmax) (by
    exact div_pos (lt_of_lt_of_le h1 hle) h1)
  refine h2.trans (sub_le_sub_right ?_ 1)
  rw [div_le_div_iff₀ h1 h0]
  rcases le_total b fmax with hc | hc
  · rw [min_eq_left hc]
    exact mul_le_mul_of_nonneg_right (min_le_left _ _) h0.le
  · rw [min_eq_right hc, min_eq_right (hc.trans hb)]
    nlinarith

theorem clog_ge {b : ℝ} (h : 10 ^ 4 ≤ b) : 8 ≤ MathUtils.log b := by
  have h1 := (clog_sub (by norm_num) h).1
  rw [clog_four] at h1
  have := two_lt_log_ten
  linarith

theorem fKN_high {b : ℝ} (h : 10 ^ 4 ≤ b) : fKN b = 9 / (2 * b ^ 2) * (MathUtils.log b - 11 / 6) := by
  unfold fKN
  rw [if_neg (not_lt.2 h)]

theorem fKN_low {b : ℝ} (h : b < 10 ^ 4) : fKN b = 1 / (1 + b) ^ (3 / 2 : ℝ) := by
  unfold fKN
  rw [if_pos h]

/-- C55: the Klein-Nishina factor is positive and at most 1 on both branches -/
theorem C55_factor {b : ℝ} (h : 0 ≤ b) : fKN b ∈ Set.Ioc 0 1 := by
  rcases lt_or_ge b (10 ^ 4) with hb | hb
  · rw [fKN_low hb]
    have : 1 ≤ (1 + b) ^ (3 / 2 : ℝ) := Real.one_le_rpow (by linarith) (by norm_num)
    exact ⟨by positivity, by rw [div_le_one (by linarith)]; exact this⟩
  · rw [fKN_high hb]
    have hl := clog_ge hb
    have h0 : 0 < b := by linarith
    refine ⟨mul_pos (by positivity) (by linarith), ?_⟩
    have hu : MathUtils.log b ≤ b := by
      have := (clog_sub le_rfl (by linarith : 1 ≤ b)).2
      rw [clog_eq le_rfl, min_eq_left (le_trans (by norm_num) fmax_large), Real.log_one] at this
      linarith
    rw [div_mul_eq_mul_div, div_le_one (by positivity)]
    nlinarith

theorem fKN_split : 2 * fKN (10 ^ 4) < 1 / (1 + 10 ^ 4 : ℝ) ^ (3 / 2 : ℝ) := by
  rw [fKN_high le_rfl, clog_four]
  have h := log_ten_lt
  have hs : (1 + 10 ^ 4 : ℝ) ^ (3 / 2 : ℝ) ≤ 10001 * 101 := by
    rw [show (3 / 2 : ℝ) = 1 + 1 / 2 by norm_num, Real.rpow_add (by norm_num), Real.rpow_one, ← Real.sqrt_eq_rpow]
    have : √(1 + 10 ^ 4 : ℝ) ≤ 101 := by
      rw [Real.sqrt_le_left (by norm_num)]
      norm_num
    nlinarith
  have h0 : (0 : ℝ) < (1 + 10 ^ 4 : ℝ) ^ (3 / 2 : ℝ) := by positivity
  refine lt_of_lt_of_le ?_ (one_div_le_one_div_of_le h0 hs)
  norm_num
  linarith

theorem fKN_high_antitone {b b' : ℝ} (h : 10 ^ 4 ≤ b) (hb : b ≤ b') : fKN b' ≤ fKN b := by
  rw [fKN_high h, fKN_high (h.trans hb)]
  have h0 : 0 < b := by linarith
  have h0' : 0 < b' := by linarith
  have hl := clog_ge h
  have hs := (clog_sub (by linarith) hb).2
  rw [div_mul_eq_mul_div, div_mul_eq_mul_div, div_le_div_iff₀ (by positivity) (by positivity)]
  have ht : b' = b' / b * b := by field_simp
  have ht1 : 1 ≤ b' / b := by rwa [le_div_iff₀ h0, one_mul]
  generalize b' / b = t at ht ht1 hs
  subst ht
  generalize MathUtils.log (t * b) = L' at hs ⊢
  generalize MathUtils.log b = L at hs hl ⊢
  have key : L' - 11 / 6 ≤ (L - 11 / 6) * t ^ 2 := by
    have h2 : 0 ≤ t ^ 2 - 1 := by nlinarith
    nlinarith [mul_nonneg (by linarith : 0 ≤ L - 11 / 6 - 1) h2]
  have := mul_le_mul_of_nonneg_right key (by positivity : 0 ≤ 18 * b ^ 2)
  nlinarith

/-- C55: harder collisions are suppressed more -/
theorem C55_factor_antitone : AntitoneOn fKN (Set.Ici 0) := by
  intro b hb b' hb' hle
  have hb0 : (0 : ℝ) ≤ b := hb
  rcases lt_or_ge b' (10 ^ 4) with h' | h'
  · rw [fKN_low h', fKN_low (lt_of_le_of_lt hle h')]
    apply one_div_le_one_div_of_le (by positivity)
    exact Real.rpow_le_rpow (by linarith) (by linarith) (by norm_num)
  · rcases lt_or_ge b (10 ^ 4) with h | h
    · refine (fKN_high_antitone le_rfl h').trans ?_
      have h1 := fKN_split
      have h2 := (C55_factor (b := 10 ^ 4) (by norm_num)).1
      refine le_trans (by linarith) (le_of_lt (lt_of_lt_of_le h1 ?_))
      rw [fKN_low h]
      apply one_div_le_one_div_of_le (by positivity)
      exact Real.rpow_le_rpow (by linarith) (by linarith) (by norm_num)
    · exact fKN_high_antitone h hle

/-- C55: the factor is not continuous: it falls by more than a half at `4 γ ε = 10⁴` -/
theorem C55_factor_jump {b : ℝ} (h0 : 0 ≤ b) (h : b < 10 ^ 4) : 2 * fKN (10 ^ 4) < fKN b := by
  refine lt_of_lt_of_le fKN_split ?_
  rw [fKN_low h]
  apply one_div_le_one_div_of_le (by positivity)
  exact Real.rpow_le_rpow (by linarith) (by linarith) (by norm_num)

/-! ### the loss rate -/

variable {k : Consts} {b : Blob}

/-- C55: the loss in the Thomson regime is a loss, growing with the square of the energy -/
theorem C55_thomson (h : BlobOK k b) (gamma : ℝ) :
    0 ≤ energyLossRateThomson k b gamma
      ∧ energyLossRateThomson k b gamma = gamma ^ 2 * energyLossRateThomson k b 1 := by
  have hu : 0 ≤ b.u_ph_synch k := by
    unfold Blob.u_ph_synch Blob.U_B
    rw [h.grid.evaluate, zipWith_mul_map]
    have := h.consts.sigma_T; have := h.R_b; have := Real.pi_pos
    apply mul_nonneg (by positivity)
    apply C33_trapz_nonneg _ _ h.grid.chain
    intro y hy
    obtain ⟨g, _, rfl⟩ := List.mem_map.1 hy
    exact mul_nonneg (sq_nonneg _) (C23_nonneg h.dist g)
  unfold energyLossRateThomson
  have := h.consts.sigma_T; have := h.consts.c
  exact ⟨by positivity, by ring⟩

theorem uEpsilon_nonneg (h : BlobOK k b) {nu : ℝ} (hn : 0 < nu) : 0 ≤ uEpsilon k b nu := by
  have hs : 0 ≤ Synchrotron.sedFlux k trapz false nu b.z b.d_L b.delta_D b.B b.R_b b.n_e gammaToIntegrate := by
    refine Synchrotron.C51_nonneg (h.physical hn) nonneg_trapz false ?_ ?_
    · exact afterCall_chain h.grid.max_pos (by norm_num) (by norm_num) (by norm_num)
    · exact afterCall_pos_fixed h.grid.max_pos
  have := Synchrotron.nuToEps_pos h.consts hn h.z h.delta
  have := h.consts.c; have := h.R_b; have := h.delta; have := h.d_L
  unfold uEpsilon uPhSynchDiff
  positivity

/-- the grid of photon energies is increasing and positive -/
theorem epsilon_chain (h : BlobOK k b) : (nuToIntegrate.map fun nu => nuToEps k nu b.z b.delta_D).IsChain (· ≤ ·) := by
  rw [List.isChain_iff_pairwise, List.pairwise_map]
  refine (logspace_pairwise (by norm_num) 200 (by norm_num)).imp ?_
  intro x y hxy
  unfold nuToEps Consts.mec2
  have := h.consts.h; have := h.consts.m_e; have := h.consts.c; have := h.z; have := h.delta
  gcongr

/-- total energy density of the synchrotron photons of the blob, from their spectrum -/
noncomputable def photonDensity (k : Consts) (b : Blob) : ℝ :=
  trapz (nuToIntegrate.map (uEpsilon k b)) (nuToIntegrate.map fun nu => nuToEps k nu b.z b.delta_D)

/-- C55: the loss by self-Compton scattering is a loss, never larger than the one without Klein-Nishina suppression -/
theorem C55_ssc (h : BlobOK k b) {gamma : ℝ} (hg : 0 ≤ gamma) :
    0 ≤ energyLossRate k b gamma
      ∧ energyLossRate k b gamma ≤ 4 / 3 * k.sigma_T * k.c * photonDensity k b * gamma ^ 2 := by
  have hc := epsilon_chain h
  have hf : ∀ nu ∈ nuToIntegrate, fKN (4 * gamma * nuToEps k nu b.z b.delta_D) ∈ Set.Ioc 0 1 := by
    intro nu hnu
    have := Synchrotron.nuToEps_pos h.consts (logspace_pos nu hnu) h.z h.delta
    exact C55_factor (by positivity)
  have hu : ∀ nu ∈ nuToIntegrate, 0 ≤ uEpsilon k b nu := fun nu hnu => uEpsilon_nonneg h (logspace_pos nu hnu)
  have hpre : 0 ≤ 4 / 3 * k.sigma_T * k.c := by
    have := h.consts.sigma_T; have := h.consts.c
    positivity
  unfold energyLossRate photonDensity
  dsimp only
  constructor
  · apply mul_nonneg (mul_nonneg hpre _) (sq_nonneg _)
    apply C33_trapz_nonneg _ _ hc
    intro y hy
    obtain ⟨nu, hnu, rfl⟩ := List.mem_map.1 hy
    exact mul_nonneg (hf nu hnu).1.le (hu nu hnu)
  · apply mul_le_mul_of_nonneg_right _ (sq_nonneg _)
    apply mul_le_mul_of_nonneg_left _ hpre
    apply trapz_mono _ _ _ _ hc
    intro nu hnu
    exact mul_le_of_le_one_left (hu nu hnu) (hf nu hnu).2

/-- C55: relative to the square of the energy, more energetic electrons lose less -/
theorem C55_ssc_suppression (h : BlobOK k b) {gamma gamma' : ℝ} (hg : 0 < gamma) (hle : gamma ≤ gamma') :
    energyLossRate k b gamma' / gamma' ^ 2 ≤ energyLossRate k b gamma / gamma ^ 2 := by
  have hg' : 0 < gamma' := lt_of_lt_of_le hg hle
  have hpre : 0 ≤ 4 / 3 * k.sigma_T * k.c := by
    have := h.consts.sigma_T; have := h.consts.c
    positivity
  unfold energyLossRate
  dsimp only
  rw [mul_div_cancel_right₀ _ (by positivity), mul_div_cancel_right₀ _ (by positivity)]
  apply mul_le_mul_of_nonneg_left _ hpre
  apply trapz_mono _ _ _ _ (epsilon_chain h)
  intro nu hnu
  have he := Synchrotron.nuToEps_pos h.consts (logspace_pos nu hnu) h.z h.delta
  apply mul_le_mul_of_nonneg_right _ (uEpsilon_nonneg h (logspace_pos nu hnu))
  apply C55_factor_antitone
  · exact Set.mem_Ici.2 (by positivity)
  · exact Set.mem_Ici.2 (by positivity)
  · gcongr

/-- a blob meeting the hypotheses -/
example : BlobOK ⟨1, 1, 1, 1, 1, 1, 1, 1, 1, 1⟩ Synchrotron.demoBlob := by
  refine ⟨by constructor <;> norm_num, Synchrotron.demoBlob_good, ?_, ?_, ?_, ?_, ?_, ?_, ?_⟩ <;>
    norm_num [Synchrotron.demoBlob, Dist.Positive, Dist.NonEmpty]

end Compton

end Verif
