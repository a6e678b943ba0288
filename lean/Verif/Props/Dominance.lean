import Verif.Props.SSCEnergy

/-
C110: the Compton dominance of a blob is the ratio of the energy densities of its photons and its magnetic field, less what
Klein and Nishina's cross-section takes away.
-/

namespace Verif.Compton

open MathUtils Spectra Geometry Kernels Region MeasureTheory Synchrotron
open Absorption (BlobOK)

variable {k : Consts} {b : Blob} {m : ℝ}

/-- energy density of the synchrotron photons in the blob per epsilon, at the frequency `nu`, as in `SynchrotronSelfCompton` -/
noncomputable def photonEnergy (k : Consts) (b : Blob) (nu : ℝ) : ℝ :=
  uPhSynchDiff k b.R_b b.d_L b.delta_D (nuToEps k nu b.z b.delta_D)
    (sedFlux k trapz false nu b.z b.d_L b.delta_D b.B b.R_b b.n_e b.gamma_e)

/-- energy density of the synchrotron photons on the frequencies of `SynchrotronSelfCompton`, each weighted with `w` -/
noncomputable def photonSum (k : Consts) (b : Blob) (w : ℝ → ℝ) : ℝ :=
  trapz (nuToIntegrate.map fun nu => photonEnergy k b nu * w (nuToEps k nu b.z b.delta_D))
    (nuToIntegrate.map fun nu => nuToEps k nu b.z b.delta_D)

/-- energy received as synchrotron light -/
noncomputable def synchReceived (k : Consts) (b : Blob) : ℝ :=
  wholeFlux fun nu => sedFlux k trapz false nu b.z b.d_L b.delta_D b.B b.R_b b.n_e b.gamma_e

/-- energy received as self-Compton light, up to the frequency `m` -/
noncomputable def comptonReceived (k : Consts) (b : Blob) (m : ℝ) : ℝ :=
  energyFlux m fun nu => sscSed k trapz false nu b.z b.d_L b.delta_D b.B b.R_b b.n_e b.gamma_e

theorem over_le_over {grid : List ℝ} {f f' : ℝ → ℝ} (hc : grid.IsChain (· ≤ ·)) (h : ∀ x ∈ grid, f x ≤ f' x) :
    Verif.over trapz grid f ≤ Verif.over trapz grid f' := by
  have hid : grid.map (fun g => g) = grid := List.map_id' _
  have := trapz_le (nus := grid) (eps := fun g => g) (by rw [hid]; exact hc) h
  rw [hid] at this
  exact this

theorem photonEnergy_nonneg (h : BlobOK k b) {nu : ℝ} (hn : nu ∈ nuToIntegrate) : 0 ≤ photonEnergy k b nu := by
  have h0 : 0 < nu := logspace_pos nu hn
  have h1 := Synchrotron.C51_blob_pos h.grid h.nonempty (h.physical h0) false
  have h2 := Synchrotron.nuToEps_pos h.consts h0 h.z h.delta
  have := h.consts.c; have := h.R_b; have := h.delta
  unfold photonEnergy uPhSynchDiff
  positivity

theorem synchReceived_eq (h : BlobOK k b) (hσ : k.sigma_T = thomson k k.m_e) :
    synchReceived k b = quality * (b.delta_D ^ 4 / (4 * Real.pi * b.d_L ^ 2)
      * Verif.over trapz b.gamma_e fun g =>
          (4 / 3 * Real.pi * b.R_b ^ 3) * b.n_e.call g * Synchrotron.energyLossRate k b.B g) := by
  have e := C106_electrons (z := b.z) (d_L := b.d_L) (R_b := b.R_b) h.consts (by linarith [h.z]) h.delta h.B (d := b.n_e)
    (gamma := b.gamma_e) (by rw [h.grid.afterCall]; exact b.gamma_e_pos) hσ
  rw [h.grid.afterCall] at e
  exact e

/-- the energy that would be lost to photons of the energy density `u` by Thomson scattering is `u / U_B` of the
synchrotron losses -/
theorem losses_ratio (h : BlobOK k b) (u : ℝ) :
    b.U_B * (b.delta_D ^ 4 / (4 * Real.pi * b.d_L ^ 2)
      * Verif.over trapz b.gamma_e fun g =>
          (4 / 3 * Real.pi * b.R_b ^ 3) * b.n_e.call g * (4 / 3 * k.sigma_T * k.c * g ^ 2 * u))
    = u * (b.delta_D ^ 4 / (4 * Real.pi * b.d_L ^ 2)
      * Verif.over trapz b.gamma_e fun g =>
          (4 / 3 * Real.pi * b.R_b ^ 3) * b.n_e.call g * Synchrotron.energyLossRate k b.B g) := by
  have e : ∀ c : ℝ, ∀ f : ℝ → ℝ, c * Verif.over trapz b.gamma_e f = Verif.over trapz b.gamma_e fun g => c * f g :=
    fun c f => (over_trapz_mul _ c f).symm
  rw [mul_left_comm, mul_left_comm u]
  congr 1
  rw [e, e]
  congr 1
  funext g
  unfold Region.Blob.U_B Synchrotron.energyLossRate
  ring

/-- **C110** (upper bound).  The ratio of self-Compton and synchrotron light is at most that of the energy densities of the
photons and of the magnetic field (the number `quality`, between 0.95 and 1.045, is the error of the approximate
synchrotron spectrum, C106). -/
theorem C110_upper (h : BlobOK k b) (hσ : k.sigma_T = thomson k k.m_e) (h1 : 1 ≤ b.n_e.gmin)
    (hr : ftiny ≤ 1 / (4 * b.n_e.gmax ^ 2)) (hm : 0 ≤ m) (hM : b.n_e.gmax ≤ perNu k.m_e k b.z b.delta_D * m) :
    quality * b.U_B * comptonReceived k b m ≤ photonSum k b (fun _ => 1) * synchReceived k b := by
  have key := (C107_blob h h1 hr hm hM).2
  have hq := C106_quality.1
  have hU : 0 < b.U_B := by
    have := h.B; have := Real.pi_pos
    unfold Region.Blob.U_B; positivity
  have e1 : photonSum k b (fun _ => 1) = trapz (nuToIntegrate.map (photonEnergy k b))
      (nuToIntegrate.map fun nu => nuToEps k nu b.z b.delta_D) := by
    unfold photonSum
    simp only [mul_one]
  rw [synchReceived_eq h hσ, mul_left_comm, ← losses_ratio h, e1, mul_assoc]
  refine mul_le_mul_of_nonneg_left (mul_le_mul_of_nonneg_left key hU.le) (by linarith)

/-- **C110** (lower bound).  At least the photons of low energy are scattered as in Thomson's limit: weighted with the third
power of `1 / (1 + 4 gamma epsilon)` for the most energetic electrons. -/
theorem C110_lower (h : BlobOK k b) (hσ : k.sigma_T = thomson k k.m_e) (h1 : 1 ≤ b.n_e.gmin)
    (hr : ftiny ≤ 1 / (4 * b.n_e.gmax ^ 2)) (hm : 0 ≤ m) (hM : b.n_e.gmax ≤ perNu k.m_e k b.z b.delta_D * m) :
    photonSum k b (fun ε => 1 / (1 + 4 * b.n_e.gmax * ε) ^ 3 - omittedBound b.n_e.gmin ε) * synchReceived k b
      ≤ quality * b.U_B * comptonReceived k b m := by
  have key := (C107_blob h h1 hr hm hM).1
  have hq := C106_quality.1
  have hU : 0 < b.U_B := by
    have := h.B; have := Real.pi_pos
    unfold Region.Blob.U_B; positivity
  rw [synchReceived_eq h hσ, mul_left_comm, ← losses_ratio h, mul_assoc quality b.U_B]
  have hR := h.R_b
  have hL := h.d_L
  have hd := h.delta
  have hπ := Real.pi_pos
  have hc := h.consts.c; have hs := h.consts.sigma_T
  refine mul_le_mul_of_nonneg_left (mul_le_mul_of_nonneg_left ?_ hU.le) (by linarith)
  refine le_trans (mul_le_mul_of_nonneg_left ?_ (by positivity)) key.ge
  refine over_le_over h.grid.chain fun g hg => ?_
  obtain ⟨g1, g2⟩ := logspace_mem_Icc h.grid.pos h.grid.lt h.grid.size hg
  have g0 : 0 < g := h.grid.pos.trans_le g1
  refine mul_le_mul_of_nonneg_left ?_ (mul_nonneg (by positivity) (Spectra.C23_nonneg h.dist g))
  have hpos : ∀ nu ∈ nuToIntegrate, 0 < nuToEps k nu b.z b.delta_D := fun nu hnu =>
    nuToEps_pos h.consts (logspace_pos nu hnu) h.z h.delta
  refine le_trans ?_ (C107_thomson h.consts (h1.trans g1) (hr.trans (one_div_le_one_div_of_le (by positivity) (by gcongr)))
    (epsilon_chain h) hpos fun nu hnu => photonEnergy_nonneg h hnu).2
  refine mul_le_mul_of_nonneg_left ?_ (by positivity)
  unfold photonSum
  refine trapz_le (epsilon_chain h) fun nu hnu => mul_le_mul_of_nonneg_left ?_ (photonEnergy_nonneg h hnu)
  have he := hpos nu hnu
  have a1 : 1 / (1 + 4 * b.n_e.gmax * nuToEps k nu b.z b.delta_D) ^ 3
      ≤ 1 / (1 + 4 * g * nuToEps k nu b.z b.delta_D) ^ 3 :=
    one_div_le_one_div_of_le (by positivity) (by gcongr)
  have a2 : omittedBound g (nuToEps k nu b.z b.delta_D) ≤ omittedBound b.n_e.gmin (nuToEps k nu b.z b.delta_D) := by
    have := h.grid.pos
    unfold omittedBound
    gcongr
  linarith

/-- **C110** (observers).  In the numbers a user sees: the self-Compton light is at most 1.06 U_ph / U_B of the synchrotron
light. -/
theorem C110_ratio (h : BlobOK k b) (hσ : k.sigma_T = thomson k k.m_e) (h1 : 1 ≤ b.n_e.gmin)
    (hr : ftiny ≤ 1 / (4 * b.n_e.gmax ^ 2)) (hm : 0 ≤ m) (hM : b.n_e.gmax ≤ perNu k.m_e k b.z b.delta_D * m) :
    comptonReceived k b m ≤ 106 / 100 * (photonSum k b (fun _ => 1) / b.U_B) * synchReceived k b := by
  have key := C110_upper h hσ h1 hr hm hM
  have hq := C106_quality.1
  have hU : 0 < b.U_B := by
    have := h.B; have := Real.pi_pos
    unfold Region.Blob.U_B; positivity
  have h0 : 0 ≤ photonSum k b (fun _ => 1) * synchReceived k b := by
    refine mul_nonneg ?_ ?_
    · unfold photonSum
      have := trapz_le (f := fun _ => 0) (f' := fun nu => photonEnergy k b nu * 1) (epsilon_chain h)
        fun nu hnu => by rw [mul_one]; exact photonEnergy_nonneg h hnu
      refine le_trans (le_of_eq ?_) this
      have e := C33_trapz_scale 0 (nuToIntegrate.map fun _ => (1 : ℝ))
        (nuToIntegrate.map fun nu => nuToEps k nu b.z b.delta_D)
      simpa using e.symm
    · rw [synchReceived_eq h hσ]
      have := losses_nonneg (h.physical one_pos) (gamma := b.gamma_e) (by rw [h.grid.afterCall]; exact h.grid.chain)
        (by rw [h.grid.afterCall]; exact b.gamma_e_pos)
      rw [h.grid.afterCall] at this
      exact mul_nonneg (by linarith) this
  have e : 106 / 100 * (photonSum k b (fun _ => 1) / b.U_B) * synchReceived k b
      = 106 / 100 * (photonSum k b (fun _ => 1) * synchReceived k b) / b.U_B := by ring
  rw [e, le_div_iff₀ hU]
  revert key h0
  generalize photonSum k b (fun _ => 1) * synchReceived k b = P
  intro key h0
  by_cases hc : 0 ≤ comptonReceived k b m * b.U_B
  · nlinarith
  · linarith [not_le.1 hc]

/-- a blob meeting the hypotheses -/
example : comptonReceived naturalConsts demoBlob 10000
    ≤ 106 / 100 * (photonSum naturalConsts demoBlob (fun _ => 1) / demoBlob.U_B) * synchReceived naturalConsts demoBlob := by
  refine C110_ratio ⟨natural_physical.1.consts, demoBlob_good, ?_, ?_, ?_, ?_, ?_, ?_, ?_⟩ natural_physical.2 ?_ ?_
    (by norm_num) ?_
  case refine_9 => exact ftiny_small (by norm_num [demoBlob, Dist.gmax]) (by norm_num [demoBlob, Dist.gmax])
  case refine_10 => norm_num [demoBlob, Dist.gmax, perNu, naturalConsts]
  all_goals norm_num [demoBlob, Dist.Positive, Dist.NonEmpty, Dist.gmin]

end Verif.Compton
