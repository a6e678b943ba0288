import Verif.Lemmas.Radiation
import Verif.Props.Synchrotron

/- C45, C46 (kinematics) and C47 (energetics) of the blob. -/

namespace Verif.Region.Blob

open MathUtils Spectra

/-! ### C46 and C45 -/

/-- C46: the velocity of the blob, for a Lorentz factor of at least 1, is that of special relativity -/
theorem C46_beta {b : Blob} (h : 1 ≤ b.Gamma) : b.Beta ∈ Set.Ico 0 1 ∧ b.Gamma = 1 / √(1 - b.Beta ^ 2) := by
  have hg : 0 < b.Gamma := by linarith
  have h1 : 1 / b.Gamma ^ 2 ≤ 1 := by
    rw [div_le_one (by positivity)]
    exact one_le_pow₀ h
  have h0 : 0 < 1 / b.Gamma ^ 2 := by positivity
  refine ⟨⟨Real.sqrt_nonneg _, ?_⟩, ?_⟩
  · unfold Beta
    rw [Real.sqrt_lt' one_pos]
    linarith
  · unfold Beta
    rw [Real.sq_sqrt (by linarith), sub_sub_cancel, Real.sqrt_div (by norm_num), Real.sqrt_sq hg.le, Real.sqrt_one,
      one_div_one_div]

theorem beta_pos {b : Blob} (h : 1 < b.Gamma) : 0 < b.Beta := by
  unfold Beta
  apply Real.sqrt_pos.2
  have : 1 / b.Gamma ^ 2 < 1 := by
    rw [div_lt_one (by positivity)]
    exact one_lt_pow₀ h (by norm_num)
  linarith

/-- `Γ² (1 - β²) = 1` -/
theorem gamma_beta {b : Blob} (h : 1 ≤ b.Gamma) : b.Gamma ^ 2 * (1 - b.Beta ^ 2) = 1 := by
  have hg : 0 < b.Gamma := by linarith
  have h1 : 1 / b.Gamma ^ 2 ≤ 1 := by
    rw [div_le_one (by positivity)]
    exact one_le_pow₀ h
  unfold Beta
  rw [Real.sq_sqrt (by linarith)]
  field_simp
  ring

/-- C46: a real viewing angle belongs to the Doppler factor exactly when it is kinematically allowed -/
theorem C46_allowed {b : Blob} (h : 1 < b.Gamma) (hd : 0 < b.delta_D) :
    b.mu_s ∈ Set.Icc (-1) 1
      ↔ 1 / (b.Gamma * (1 + b.Beta)) ≤ b.delta_D ∧ b.delta_D ≤ b.Gamma * (1 + b.Beta) := by
  have hg : 0 < b.Gamma := by linarith
  have hb := beta_pos h
  have hb1 := (C46_beta h.le).1.2
  have hgb := gamma_beta h.le
  have e : b.Gamma * (1 + b.Beta) = 1 / (b.Gamma * (1 - b.Beta)) := by
    have : 0 < 1 - b.Beta := by linarith
    rw [eq_div_iff (by positivity)]
    nlinarith
  unfold mu_s
  rw [Set.mem_Icc, le_div_iff₀ hb, div_le_one hb]
  generalize b.Beta = β at hb hb1 hgb e ⊢
  generalize b.Gamma = Γ at hg h hgb e ⊢
  generalize b.delta_D = δ at hd ⊢
  have h1 : 0 < 1 - β := by linarith
  apply and_congr
  · rw [div_le_iff₀ (by positivity)]
    have : -1 * β ≤ 1 - 1 / (Γ * δ) ↔ 1 / (Γ * δ) ≤ 1 + β := by constructor <;> intro h <;> linarith
    rw [this, div_le_iff₀ (by positivity)]
    constructor <;> intro h <;> linarith
  · rw [e, le_div_iff₀ (by positivity)]
    have : 1 - 1 / (Γ * δ) ≤ β ↔ 1 - β ≤ 1 / (Γ * δ) := by constructor <;> intro h <;> linarith
    rw [this, le_div_iff₀ (by positivity)]
    constructor <;> intro h <;> linarith

/-- C46: the Doppler factor is recovered from Lorentz factor and angle, `δ = 1/(Γ(1 - β cos θ))` -/
theorem C46_doppler {b : Blob} (h : 1 < b.Gamma) (hd : 0 < b.delta_D) :
    b.delta_D = 1 / (b.Gamma * (1 - b.Beta * b.mu_s)) := by
  have hg : 0 < b.Gamma := by linarith
  have hb := beta_pos h
  unfold mu_s
  rw [mul_div_cancel₀ _ hb.ne']
  field_simp
  ring

/-- C45: `set_delta_D` followed by reading the viewing angle gives it back, and the Doppler factor is positive -/
theorem C45_roundtrip (b : Blob) {Γ θ : ℝ} (h : 1 < Γ) (hθ : θ ∈ Set.Icc (0 : ℝ) 180) :
    (b.setDeltaD Γ θ).Gamma = Γ
      ∧ 0 < (b.setDeltaD Γ θ).delta_D
      ∧ (b.setDeltaD Γ θ).mu_s = Real.cos (θ * Real.pi / 180)
      ∧ (b.setDeltaD Γ θ).theta_s = θ := by
  have hG : 0 < Γ := by linarith
  set b' := b.setDeltaD Γ θ with hb'
  have hbeta : b'.Beta = { b with Gamma := Γ }.Beta := rfl
  have hpos : 0 < b'.Beta := beta_pos (b := b') h
  have hlt : b'.Beta < 1 := (C46_beta (b := b') (show 1 ≤ Γ by linarith)).1.2
  have hδ : b'.delta_D = 1 / (Γ * (1 - b'.Beta * Real.cos (θ * Real.pi / 180))) := rfl
  have hc1 := Real.cos_le_one (θ * Real.pi / 180)
  have hc : 0 < 1 - b'.Beta * Real.cos (θ * Real.pi / 180) := by nlinarith
  have hmu : b'.mu_s = Real.cos (θ * Real.pi / 180) := by
    unfold mu_s
    rw [hδ]
    have hg' : b'.Gamma = Γ := rfl
    rw [hg']
    field_simp
    ring
  refine ⟨rfl, ?_, hmu, ?_⟩
  · rw [hδ]; positivity
  · unfold theta_s
    rw [hmu, Real.arccos_cos]
    · field_simp
    · have := hθ.1; positivity
    · have := hθ.2
      have hp := Real.pi_pos
      nlinarith

/-- C45: the constructor accepts exactly the positive Doppler factors and takes the arguments over; in particular it
accepts the Doppler factors `set_delta_D` computes -/
theorem C45_accepted (b : Blob) :
    (∀ b', Region.mk b = .ok b' ↔ 0 < b.delta_D ∧ b' = b)
      ∧ (∀ e, Region.mk b = .error e ↔ b.delta_D ≤ 0 ∧ e = .valueError)
      ∧ ∀ Γ θ : ℝ, 1 < Γ → θ ∈ Set.Icc (0 : ℝ) 180 → Region.mk (b.setDeltaD Γ θ) = .ok (b.setDeltaD Γ θ) := by
  have h1 : ∀ c : Blob, ∀ b', Region.mk c = .ok b' ↔ 0 < c.delta_D ∧ b' = c := by
    intro c b'
    unfold Region.mk
    split
    · rename_i h
      simp [not_lt.2 h]
    · rename_i h
      simp [not_le.1 h, eq_comm]
  refine ⟨h1 b, fun e => ?_, fun Γ θ h hθ => (h1 _ _).2 ⟨(C45_roundtrip b h hθ).2.1, rfl⟩⟩
  unfold Region.mk
  split
  · rename_i h
    simp [h, eq_comm]
  · rename_i h
    simp [h]

/-- C45: nothing else of the blob is changed -/
theorem C45_rest (b : Blob) (Γ θ : ℝ) :
    b.setDeltaD Γ θ = { b with Gamma := Γ, delta_D := (b.setDeltaD Γ θ).delta_D } := rfl

/-- C45: for smaller angles the Doppler factor is larger -/
theorem C45_monotone (b : Blob) {Γ θ θ' : ℝ} (h : 1 < Γ) (h0 : 0 ≤ θ) (hlt : θ < θ') (h1 : θ' ≤ 180) :
    (b.setDeltaD Γ θ').delta_D < (b.setDeltaD Γ θ).delta_D := by
  have hG : 0 < Γ := by linarith
  have hpos : 0 < (b.setDeltaD Γ θ).Beta := beta_pos (b := b.setDeltaD Γ θ) h
  have hlt1 : (b.setDeltaD Γ θ).Beta < 1 := (C46_beta (b := b.setDeltaD Γ θ) (show 1 ≤ Γ by linarith)).1.2
  have e : (b.setDeltaD Γ θ).Beta = (b.setDeltaD Γ θ').Beta := rfl
  show 1 / (Γ * (1 - (b.setDeltaD Γ θ').Beta * Real.cos (θ' * Real.pi / 180)))
    < 1 / (Γ * (1 - (b.setDeltaD Γ θ).Beta * Real.cos (θ * Real.pi / 180)))
  rw [← e]
  generalize (b.setDeltaD Γ θ).Beta = β at hpos hlt1 ⊢
  have hp := Real.pi_pos
  have hcos : Real.cos (θ' * Real.pi / 180) < Real.cos (θ * Real.pi / 180) := by
    apply Real.cos_lt_cos_of_nonneg_of_le_pi
    · positivity
    · nlinarith
    · nlinarith
  have hc1 := Real.cos_le_one (θ * Real.pi / 180)
  have hc : 0 < 1 - β * Real.cos (θ * Real.pi / 180) := by nlinarith
  apply one_div_lt_one_div_of_lt (by positivity)
  apply mul_lt_mul_of_pos_left _ hG
  nlinarith

example : (60 : ℝ) ∈ Set.Icc (0 : ℝ) 180 ∧ (1 : ℝ) < 10 := by norm_num

/-! ### C47 -/

/-- energy density of the particles of the blob: electrons, and protons if there are any -/
noncomputable def particleEnergy (k : Consts) (b : Blob) : ℝ :=
  b.u_e k + match b.u_p k with
    | .ok u => u
    | .error _ => 0

theorem u_p_none {k : Consts} {b : Blob} (h : b.n_p = none) : b.u_p k = .error .attributeError := by
  unfold u_p protons
  rw [h]
  rfl

theorem u_p_some {k : Consts} {b : Blob} {n : Dist} (h : b.n_p = some n) : ∃ u, b.u_p k = .ok u := by
  unfold u_p protons gamma_p
  rw [h]
  exact ⟨_, rfl⟩

/-- C47: without protons every proton quantity raises AttributeError, with protons none does -/
theorem C47_protons (k : Consts) (b : Blob) :
    (b.n_p = none → b.protons = .error .attributeError ∧ b.gamma_p = .error .attributeError
      ∧ b.n_p_tot = .error .attributeError ∧ b.N_p_tot = .error .attributeError
      ∧ b.u_p k = .error .attributeError ∧ b.W_p k = .error .attributeError)
    ∧ (b.n_p ≠ none → (∃ x, b.protons = .ok x) ∧ (∃ x, b.gamma_p = .ok x) ∧ (∃ x, b.n_p_tot = .ok x)
      ∧ (∃ x, b.N_p_tot = .ok x) ∧ (∃ x, b.u_p k = .ok x) ∧ ∃ x, b.W_p k = .ok x) := by
  unfold W_p N_p_tot u_p n_p_tot protons gamma_p
  cases b.n_p with
  | none => exact ⟨fun _ => ⟨rfl, rfl, rfl, rfl, rfl, rfl⟩, fun h => absurd rfl h⟩
  | some n => exact ⟨fun h => (by simp at h), fun _ => ⟨⟨_, rfl⟩, ⟨_, rfl⟩, ⟨_, rfl⟩, ⟨_, rfl⟩, ⟨_, rfl⟩, ⟨_, rfl⟩⟩⟩

/-- C47: the equipartition parameter never fails, and times the magnetic energy density gives the energy density of all
particles -/
theorem C47_equipartition (k : Consts) {b : Blob} (hB : b.B ≠ 0) :
    ∃ q, b.k_eq k = .ok q ∧ q * b.U_B = b.particleEnergy k := by
  have hU : b.U_B ≠ 0 := by
    unfold U_B
    have := Real.pi_pos
    positivity
  unfold k_eq particleEnergy
  cases h : b.n_p with
  | none => exact ⟨_, rfl, by rw [u_p_none h, div_mul_cancel₀ _ hU, add_zero]⟩
  | some n =>
    obtain ⟨u, hu⟩ := u_p_some (k := k) h
    rw [hu]
    exact ⟨_, rfl, div_mul_cancel₀ _ hU⟩

/-- C47: the power of the jet in particles is `2π R² β Γ² c` times the energy density of all particles -/
theorem C47_power (k : Consts) (b : Blob) :
    b.P_jet_ke k = .ok (2 * Real.pi * b.R_b ^ 2 * b.Beta * b.Gamma ^ 2 * k.c * b.particleEnergy k) := by
  unfold P_jet_ke particleEnergy
  cases h : b.n_p with
  | none => rw [u_p_none h, add_zero]; rfl
  | some n =>
    obtain ⟨u, hu⟩ := u_p_some (k := k) h
    rw [hu]
    rfl

/-- C47: the powers in particles and magnetic field are in the ratio of the equipartition parameter -/
theorem C47_ratio (k : Consts) {b : Blob} (hB : b.B ≠ 0) {q p : ℝ} (hq : b.k_eq k = .ok q) (hp : b.P_jet_ke k = .ok p) :
    p = q * b.P_jet_B k := by
  obtain ⟨q', h1, h2⟩ := C47_equipartition k hB
  rw [hq] at h1
  obtain rfl : q = q' := by injection h1
  rw [C47_power, Except.ok.injEq] at hp
  rw [← hp, ← h2]
  unfold P_jet_B jetPrefactor
  ring

theorem zipWith_scale (c : ℝ) (xs ys : List ℝ) :
    List.zipWith (· * ·) xs (ys.map (c * ·)) = (List.zipWith (· * ·) xs ys).map (c * ·) := by
  induction xs generalizing ys with
  | nil => simp
  | cons x xs ih =>
    cases ys with
    | nil => simp
    | cons y ys =>
      simp only [List.map_cons, List.zipWith_cons_cons, ih]
      congr 1
      ring

/-- C47: the total energy in electrons is the energy of the particles counted by `N_e(γ)` -/
theorem C47_total (k : Consts) (b : Blob) :
    b.W_e k = k.mec2 * trapz (List.zipWith (· * ·) b.gamma_e (b.N_e b.gamma_e)) b.gamma_e
      ∧ b.N_e_tot = trapz (b.N_e b.gamma_e) b.gamma_e := by
  unfold W_e u_e N_e N_e_tot n_e_tot
  rw [zipWith_scale, C33_trapz_scale, C33_trapz_scale]
  exact ⟨by ring, rfl⟩

/-- C47: the same for the protons -/
theorem C47_total_protons (k : Consts) (b : Blob) {n : Dist} (hn : b.n_p = some n) :
    ∃ g, b.gamma_p = .ok g
      ∧ b.W_p k = .ok (k.mpc2 * trapz (List.zipWith (· * ·) g ((n.evaluate g).2.map (b.V_b * ·))) g)
      ∧ b.N_p_tot = .ok (trapz ((n.evaluate g).2.map (b.V_b * ·)) g) := by
  refine ⟨logspace (log10 n.gmin) (log10 n.gmax) b.gamma_p_size, ?_, ?_, ?_⟩
  · simp only [gamma_p, hn]
  · simp only [W_p, u_p, protons, gamma_p, hn, bind, Except.bind, zipWith_scale, C33_trapz_scale]
    congr 1
    ring
  · simp only [N_p_tot, n_p_tot, protons, gamma_p, hn, bind, Except.bind, C33_trapz_scale]

/-- C47: the mean energy of the electrons lies between the limits of their distribution -/
theorem C47_mean_energy {k : Consts} (hk : k.Pos) {b : Blob} (hg : b.GoodGrid) (hd : b.n_e.Positive) :
    b.n_e.gmin * k.mec2 * b.n_e_tot ≤ b.u_e k ∧ b.u_e k ≤ b.n_e.gmax * k.mec2 * b.n_e_tot ∧ 0 ≤ b.n_e_tot := by
  have hm : 0 < k.mec2 := by
    unfold Consts.mec2
    have := hk.m_e; have := hk.c
    positivity
  have hin : ∀ g ∈ b.gamma_e, b.n_e.gmin ≤ g ∧ g ≤ b.n_e.gmax := by
    obtain ⟨mid, hmid⟩ := hg.ends
    have hp := hg.pairwise
    rw [hmid] at hp ⊢
    intro g hgm
    have h1 := (List.pairwise_cons.1 hp).1
    have h2 := (List.pairwise_append.1 (List.pairwise_cons.1 hp).2).2.2
    rcases List.mem_cons.1 hgm with rfl | hgm
    · exact ⟨le_rfl, hg.lt.le⟩
    · refine ⟨(h1 g hgm).le, ?_⟩
      rcases List.mem_append.1 hgm with h | h
      · exact (h2 g h _ (by simp)).le
      · rw [List.mem_singleton.1 h]
  have e1 : b.n_e_tot = trapz (b.gamma_e.map b.n_e.call) b.gamma_e := by
    unfold n_e_tot
    rw [hg.evaluate]
  have e2 : b.u_e k = k.mec2 * trapz (b.gamma_e.map fun g => g * b.n_e.call g) b.gamma_e := by
    unfold u_e
    rw [hg.evaluate]
    congr 2
    have := zipWith_mul_map id b.n_e.call b.gamma_e
    rwa [List.map_id] at this
  have e3 : ∀ c : ℝ, c * b.n_e_tot = trapz (b.gamma_e.map fun g => c * b.n_e.call g) b.gamma_e := by
    intro c
    rw [e1, ← C33_trapz_scale, List.map_map]
    rfl
  have hn := fun g => C23_nonneg hd g
  refine ⟨?_, ?_, ?_⟩
  · have h := C33_trapz_mono (fun g => b.n_e.gmin * b.n_e.call g) (fun g => g * b.n_e.call g) b.gamma_e hg.chain
      fun g hgm => mul_le_mul_of_nonneg_right (hin g hgm).1 (hn g)
    rw [← e3] at h
    rw [e2]
    nlinarith
  · have h := C33_trapz_mono (fun g => g * b.n_e.call g) (fun g => b.n_e.gmax * b.n_e.call g) b.gamma_e hg.chain
      fun g hgm => mul_le_mul_of_nonneg_right (hin g hgm).2 (hn g)
    rw [← e3] at h
    rw [e2]
    nlinarith
  · rw [e1]
    apply C33_trapz_nonneg _ _ hg.chain
    intro y hy
    obtain ⟨g, _, rfl⟩ := List.mem_map.1 hy
    exact hn g

example : Synchrotron.demoBlob.GoodGrid ∧ Synchrotron.demoBlob.B ≠ 0 :=
  ⟨Synchrotron.demoBlob_good, by norm_num [Synchrotron.demoBlob]⟩

end Verif.Region.Blob
