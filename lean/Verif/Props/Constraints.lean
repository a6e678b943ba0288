import Verif.Model.Constraints
import Verif.Model.Compton
import Verif.Props.Targets

/- C56: the spectral constraints are the Lorentz factors at which two time scales or energy rates balance. -/

namespace Verif.Constraints

open MathUtils Spectra Geometry Region Targets Absorption

variable {k : Consts} {b : Blob}

/-! ### the physics the constraints stand for -/

/-- Larmor radius of an electron -/
noncomputable def larmorRadius (k : Consts) (b : Blob) (gamma : ℝ) : ℝ := gamma * k.mec2 / (k.e * b.B)

/-- energy of an electron -/
noncomputable def energy (k : Consts) (gamma : ℝ) : ℝ := gamma * k.mec2

/-- acceleration, `xi c E / R_L` -/
noncomputable def acceleration (k : Consts) (b : Blob) (gamma : ℝ) : ℝ :=
  b.xi * k.c * energy k gamma / larmorRadius k b gamma

/-- energy loss in a field of energy density `U`, `4/3 sigma_T c U gamma^2` -/
noncomputable def loss (k : Consts) (U gamma : ℝ) : ℝ := 4 / 3 * k.sigma_T * k.c * U * gamma ^ 2

/-- time to cross the blob -/
noncomputable def crossing (k : Consts) (b : Blob) : ℝ := b.R_b / k.c

/-- hypotheses on blob and constants -/
structure Fine (k : Consts) (b : Blob) : Prop where
  consts : k.Pos
  B : 0 < b.B
  R_b : 0 < b.R_b
  xi : 0 < b.xi

theorem mec2_pos (hk : k.Pos) : 0 < k.mec2 := by
  have := hk.m_e; have := hk.c
  unfold Consts.mec2
  positivity

/-- C56: electrons up to `gamma_max_larmor` are those whose Larmor radius fits into the blob -/
theorem C56_larmor (h : Fine k b) (gamma : ℝ) : gamma ≤ gammaMaxLarmor k b ↔ larmorRadius k b gamma ≤ b.R_b := by
  have := mec2_pos h.consts; have := h.consts.e; have := h.B
  unfold gammaMaxLarmor larmorRadius
  rw [le_div_iff₀ (by positivity), div_le_iff₀ (by positivity), mul_assoc b.R_b]

/-- C56: electrons up to `gamma_max_ballistic` are accelerated within the crossing time -/
theorem C56_ballistic (h : Fine k b) {gamma : ℝ} (hg : 0 < gamma) :
    gamma ≤ gammaMaxBallistic k b ↔ energy k gamma / acceleration k b gamma ≤ crossing k b := by
  have h1 := mec2_pos h.consts; have h2 := h.consts.e; have h3 := h.B; have h4 := h.xi; have h5 := h.consts.c
  have e1 : energy k gamma / acceleration k b gamma = larmorRadius k b gamma / (b.xi * k.c) := by
    unfold acceleration energy larmorRadius
    field_simp
  rw [e1]
  unfold gammaMaxBallistic gammaMaxLarmor crossing larmorRadius
  rw [div_le_div_iff₀ (by positivity) h5, ← mul_div_assoc, le_div_iff₀ h1, div_mul_eq_mul_div,
    div_le_iff₀ (by positivity)]
  rw [show b.R_b * (b.xi * k.c) * (k.e * b.B) = b.xi * (b.R_b * k.e * b.B) * k.c by ring]
  exact (mul_le_mul_iff_left₀ h5).symm

theorem acceleration_eq (h : Fine k b) {gamma : ℝ} (hg : 0 < gamma) :
    acceleration k b gamma = b.xi * k.c * k.e * b.B := by
  have h1 := mec2_pos h.consts; have h2 := h.consts.e; have h3 := h.B
  unfold acceleration energy larmorRadius
  field_simp

/-- electrons up to the square root are accelerated faster than they lose energy -/
theorem loss_le_iff (h : Fine k b) {gamma U : ℝ} (hg : 0 < gamma) (hU : 0 < U) :
    gamma ≤ √(3 * b.xi * k.e * b.B / (4 * k.sigma_T * U)) ↔ loss k U gamma ≤ acceleration k b gamma := by
  have h2 := h.consts.e; have h3 := h.B; have h4 := h.xi; have h5 := h.consts.c; have h6 := h.consts.sigma_T
  rw [acceleration_eq h hg, Real.le_sqrt' hg, le_div_iff₀ (by positivity)]
  unfold loss
  rw [show 4 / 3 * k.sigma_T * k.c * U * gamma ^ 2 = k.c / 3 * (gamma ^ 2 * (4 * k.sigma_T * U)) by ring,
    show b.xi * k.c * k.e * b.B = k.c / 3 * (3 * b.xi * k.e * b.B) by ring]
  exact (mul_le_mul_iff_right₀ (by positivity)).symm

theorem U_B_pos (h : Fine k b) : 0 < b.U_B := by
  have := h.B; have := Real.pi_pos
  unfold Blob.U_B
  positivity

/-- C56: electrons up to `gamma_max_synch` are accelerated faster than they lose energy by synchrotron radiation -/
theorem C56_synch (h : Fine k b) {gamma : ℝ} (hg : 0 < gamma) :
    gamma ≤ gammaMaxSynch k b ↔ loss k b.U_B gamma ≤ acceleration k b gamma := by
  rw [← loss_le_iff h hg (U_B_pos h)]
  unfold gammaMaxSynch Blob.U_B
  have h2 := h.consts.e; have h3 := h.B; have h6 := h.consts.sigma_T; have := Real.pi_pos
  rw [show 6 * Real.pi * b.xi * k.e / (k.sigma_T * b.B)
    = 3 * b.xi * k.e * b.B / (4 * k.sigma_T * (b.B ^ 2 / (8 * Real.pi))) by field_simp; ring]

/-- the energy density of the synchrotron photons is positive -/
theorem u_ph_synch_pos (h : BlobOK k b) : 0 < b.u_ph_synch k := by
  have := h.consts.sigma_T; have := h.R_b; have := h.B; have := Real.pi_pos
  unfold Blob.u_ph_synch Blob.U_B
  rw [h.grid.evaluate, zipWith_mul_map]
  apply mul_pos (by positivity)
  have hnn : ∀ g ∈ b.gamma_e, 0 ≤ g ^ 2 * b.n_e.call g := fun g _ =>
    mul_nonneg (sq_nonneg _) (C23_nonneg h.dist g)
  refine lt_of_le_of_ne (over_trapz_nonneg h.grid.chain hnn) fun e => ?_
  obtain ⟨mid, hm⟩ := h.grid.ends
  have hl : 2 ≤ b.gamma_e.length := by rw [hm]; simp
  have h0 := (over_trapz_eq_zero_iff (List.isChain_iff_pairwise.2 h.grid.pairwise) hl hnn).1 e.symm b.n_e.gmin
    (by rw [hm]; simp)
  have hp := C23_inside h.dist h.nonempty le_rfl h.grid.lt.le
  have := h.grid.pos
  have : 0 < b.n_e.gmin ^ 2 * b.n_e.call b.n_e.gmin := by positivity
  linarith

/-- C56: electrons up to `gamma_max_SSC` are accelerated faster than they lose energy by scattering synchrotron photons -/
theorem C56_ssc (h : Fine k b) (hb : BlobOK k b) {gamma : ℝ} (hg : 0 < gamma) :
    gamma ≤ gammaMaxSSC k b ↔ loss k (b.u_ph_synch k) gamma ≤ acceleration k b gamma :=
  loss_le_iff h hg (u_ph_synch_pos hb)

theorem dt_u_pos (hk : k.Pos) (hG : 1 ≤ b.Gamma) {t : DT} {r : ℝ} (ht : DTOK t r) : 0 < t.u k r (some b) := by
  rw [C48_dt]
  have h1 := ht.L_disk; have h2 := ht.xi_dt; have h3 := ht.R_dt; have h4 := ht.r; have := hk.c; have := Real.pi_pos
  have hβ := (Blob.C46_beta hG).1
  have hm := ring_angle (R := t.R_dt) (l := r)
  have hw : 0 < weight b (r / xReRing t.R_dt r) := by
    unfold weight
    have : 0 < 1 - b.Beta * (r / xReRing t.R_dt r) := by nlinarith [hm.1, hm.2, hβ.1, hβ.2]
    positivity
  apply mul_pos hw
  unfold DT.u
  positivity

/-- C56: electrons up to `gamma_max_EC_DT` are accelerated faster than they lose energy by scattering photons of
the torus -/
theorem C56_torus (h : Fine k b) (hG : 1 ≤ b.Gamma) {t : DT} {r : ℝ} (ht : DTOK t r) {gamma : ℝ} (hg : 0 < gamma) :
    gamma ≤ gammaMaxECDT k b t r ↔ loss k (t.u k r (some b)) gamma ≤ acceleration k b gamma :=
  loss_le_iff h hg (dt_u_pos h.consts hG ht)

/-- electrons up to the break need longer than the crossing time to cool -/
theorem cooling_iff (h : Fine k b) {gamma U : ℝ} (hg : 0 < gamma) (hU : 0 < U) :
    gamma ≤ 3 * k.mec2 / (4 * k.sigma_T * U * b.R_b) ↔ crossing k b ≤ energy k gamma / loss k U gamma := by
  have h1 := mec2_pos h.consts; have h4 := h.R_b; have h5 := h.consts.c; have h6 := h.consts.sigma_T
  have e1 : energy k gamma / loss k U gamma = 3 * k.mec2 / (4 * k.sigma_T * U * gamma) / k.c := by
    unfold energy loss
    field_simp
  rw [e1]
  unfold crossing
  rw [div_le_div_iff_of_pos_right h5, le_div_iff₀ (by positivity), le_div_iff₀ (by positivity)]
  rw [show gamma * (4 * k.sigma_T * U * b.R_b) = b.R_b * (4 * k.sigma_T * U * gamma) by ring]

/-- C56: electrons up to `gamma_break_synch` do not cool by synchrotron radiation within the crossing time -/
theorem C56_break_synch (h : Fine k b) {gamma : ℝ} (hg : 0 < gamma) :
    gamma ≤ gammaBreakSynch k b ↔ crossing k b ≤ energy k gamma / loss k b.U_B gamma := by
  rw [← cooling_iff h hg (U_B_pos h)]
  unfold gammaBreakSynch Blob.U_B
  have h3 := h.B; have h4 := h.R_b; have h6 := h.consts.sigma_T; have := Real.pi_pos
  rw [show 6 * Real.pi * k.mec2 / (k.sigma_T * b.B ^ 2 * b.R_b)
    = 3 * k.mec2 / (4 * k.sigma_T * (b.B ^ 2 / (8 * Real.pi)) * b.R_b) by field_simp; ring]

/-- C56: likewise for scattering of synchrotron photons -/
theorem C56_break_ssc (h : Fine k b) (hb : BlobOK k b) {gamma : ℝ} (hg : 0 < gamma) :
    gamma ≤ gammaBreakSSC k b ↔ crossing k b ≤ energy k gamma / loss k (b.u_ph_synch k) gamma :=
  cooling_iff h hg (u_ph_synch_pos hb)

/-- C56: likewise for scattering of photons of the torus -/
theorem C56_break_torus (h : Fine k b) (hG : 1 ≤ b.Gamma) {t : DT} {r : ℝ} (ht : DTOK t r) {gamma : ℝ}
    (hg : 0 < gamma) :
    gamma ≤ gammaBreakECDT k b t r ↔ crossing k b ≤ energy k gamma / loss k (t.u k r (some b)) gamma :=
  cooling_iff h hg (dt_u_pos h.consts hG ht)

/-- C56: the loss compared with is the one the blob and `SynchrotronSelfCompton` themselves report -/
theorem C56_loss (k : Consts) (b : Blob) (gamma : ℝ) :
    Compton.energyLossRateThomson k b gamma = loss k (b.u_ph_synch k) gamma := by
  unfold Compton.energyLossRateThomson loss
  ring

example : Fine ⟨1, 1, 1, 1, 1, 1, 1, 1, 1, 1⟩ Synchrotron.demoBlob ∧ 1 ≤ Synchrotron.demoBlob.Gamma := by
  refine ⟨⟨by constructor <;> norm_num, ?_, ?_, ?_⟩, ?_⟩ <;> norm_num [Synchrotron.demoBlob]

end Verif.Constraints
