import Mathlib.Analysis.Complex.ExponentialBounds
import Verif.Model.Kernels
import Verif.Lemmas.MathUtils
import Verif.Props.Geometry

/-
C39, C40: support and sign of the Compton kernels.

Specification used here: with `ε̄ = γ ε (1 - cos ψ)` the energy of the target photon in the frame of the
electron, the scattered photon (head-on approximation) has an energy of at most
`2 γ ε̄ / (1 + 2 ε̄)`.
-/

namespace Verif.Kernels

open MathUtils Geometry

/-! ### C39 -/

/-- the kinematic limit: energy of the scattered photon not above the maximal one -/
def Allowed (γ εs ε c : ℝ) : Prop := εs * (1 + 2 * (γ * ε * (1 - c))) ≤ 2 * γ * (γ * ε * (1 - c))

theorem gammaMin_le_iff {γ εs ε c : ℝ} (hγ : 0 < γ) (hs : 0 < εs) (he : 0 < ε) (hc : c < 1) :
    εs / 2 * (1 + √(1 + 2 / (ε * εs * (1 - c)))) ≤ γ ↔ Allowed γ εs ε c := by
  have hd : 0 < 1 - c := by linarith
  have hD : 0 < ε * εs * (1 - c) := by positivity
  unfold Allowed
  have e1 : εs / 2 * (1 + √(1 + 2 / (ε * εs * (1 - c)))) ≤ γ
      ↔ √(1 + 2 / (ε * εs * (1 - c))) ≤ 2 * γ / εs - 1 := by
    rw [le_sub_iff_add_le, le_div_iff₀ hs]
    constructor <;> intro h <;> nlinarith
  rw [e1, Real.sqrt_le_iff]
  have e2 : 1 + 2 / (ε * εs * (1 - c)) ≤ (2 * γ / εs - 1) ^ 2
      ↔ εs * (1 + 2 * (γ * ε * (1 - c))) ≤ 2 * γ * (γ * ε * (1 - c)) := by
    have : (2 * γ / εs - 1) ^ 2 - (1 + 2 / (ε * εs * (1 - c)))
        = 2 / (ε * εs ^ 2 * (1 - c)) * (2 * γ * (γ * ε * (1 - c)) - εs * (1 + 2 * (γ * ε * (1 - c)))) := by
      field_simp
      ring
    have hp : 0 < 2 / (ε * εs ^ 2 * (1 - c)) := by positivity
    rw [← sub_nonneg, this, mul_nonneg_iff_of_pos_left hp, sub_nonneg]
  rw [e2]
  constructor
  · rintro ⟨_, h⟩; exact h
  · intro h
    refine ⟨?_, h⟩
    have hlt : εs < γ := by
      by_contra hle
      push Not at hle
      have hb : 0 < γ * ε * (1 - c) := by positivity
      nlinarith
    rw [sub_nonneg, le_div_iff₀ hs]
    linarith

theorem allowed_lt {γ εs ε c : ℝ} (hγ : 0 < γ) (hs : 0 < εs) (he : 0 < ε) (hc : c < 1)
    (h : Allowed γ εs ε c) : εs < γ := by
  have hd : 0 < 1 - c := by linarith
  have hb : 0 < γ * ε * (1 - c) := by positivity
  unfold Allowed at h
  by_contra hle
  push Not at hle
  nlinarith

/-- the documented minimum is a real number unless the photon moves along the line of sight -/
theorem getGammaMin_of_lt {εs ε mu_s mu φ : ℝ} (hs : 0 < εs) (he : 0 < ε) (hc : cosPsi mu_s mu φ < 1) :
    getGammaMin εs ε mu_s mu φ
      = ((εs / 2 * (1 + √(1 + 2 / (ε * εs * (1 - cosPsi mu_s mu φ)))) : ℝ) : WithTop ℝ) := by
  have hd : 0 < 1 - cosPsi mu_s mu φ := by linarith
  unfold getGammaMin
  dsimp only
  rw [if_neg (by positivity)]

/-- C39: γ reaches the documented minimum exactly when the kinematics allow the scattered energy -/
theorem C39_threshold {γ εs ε mu_s mu φ : ℝ} (hγ : 0 < γ) (hs : 0 < εs) (he : 0 < ε)
    (hc : cosPsi mu_s mu φ < 1) :
    getGammaMin εs ε mu_s mu φ ≤ (γ : WithTop ℝ) ↔ Allowed γ εs ε (cosPsi mu_s mu φ) := by
  rw [getGammaMin_of_lt hs he hc, WithTop.coe_le_coe, gammaMin_le_iff hγ hs he hc]

/-- C39: the kernel vanishes where the kinematics forbid the scattering, in particular for a photon moving along
the line of sight -/
theorem C39_zero {γ εs ε mu_s mu φ : ℝ} (hγ : 0 < γ) (hs : 0 < εs) (he : 0 < ε)
    (hc : cosPsi mu_s mu φ ≤ 1) (h : cosPsi mu_s mu φ = 1 ∨ ¬ Allowed γ εs ε (cosPsi mu_s mu φ)) :
    comptonKernel γ εs ε mu_s mu φ = 0 := by
  unfold comptonKernel
  dsimp only
  apply if_neg
  by_cases h1 : cosPsi mu_s mu φ = 1
  · unfold getGammaMin
    dsimp only
    rw [if_pos (by rw [h1]; ring)]
    simp
  · rw [C39_threshold hγ hs he (lt_of_le_of_ne hc h1)]
    exact h.resolve_left h1

/-- C39: the kernel is at least one where the kinematics allow the scattering -/
theorem C39_ge_one {γ εs ε mu_s mu φ : ℝ} (hγ : 0 < γ) (hs : 0 < εs) (he : 0 < ε)
    (hc : cosPsi mu_s mu φ < 1) (h : Allowed γ εs ε (cosPsi mu_s mu φ)) :
    1 ≤ comptonKernel γ εs ε mu_s mu φ := by
  have hlt := allowed_lt hγ hs he hc h
  have hy : 0 < 1 - εs / γ := by rw [sub_pos, div_lt_one hγ]; exact hlt
  unfold comptonKernel
  dsimp only
  rw [if_pos ((C39_threshold hγ hs he hc).2 h)]
  generalize γ * (γ * ε * (1 - cosPsi mu_s mu φ)) * (1 - εs / γ) = d
  generalize 1 - εs / γ = y at hy
  have e : y + 1 / y + -(2 * εs) / d + εs ^ 2 / d ^ 2 = (y + 1 / y - 2) + 1 + (1 - εs / d) ^ 2 := by
    rw [← div_pow]; ring
  have h2 : 0 ≤ y + 1 / y - 2 := by
    have : y + 1 / y - 2 = (y - 1) ^ 2 / y := by field_simp; ring
    rw [this]; positivity
  rw [e]
  nlinarith [sq_nonneg (1 - εs / d)]

/-- C39: zero exactly where scattering is forbidden -/
theorem C39_zero_iff {γ εs ε mu_s mu φ : ℝ} (hγ : 0 < γ) (hs : 0 < εs) (he : 0 < ε)
    (hc : cosPsi mu_s mu φ < 1) :
    comptonKernel γ εs ε mu_s mu φ = 0 ↔ (γ : WithTop ℝ) < getGammaMin εs ε mu_s mu φ := by
  rw [← not_le, C39_threshold hγ hs he hc]
  constructor
  · intro h0 h
    have := C39_ge_one hγ hs he hc h
    rw [h0] at this
    linarith
  · intro h; exact C39_zero hγ hs he hc.le (Or.inr h)

/-- the kernel is never negative -/
theorem comptonKernel_nonneg {γ εs ε mu_s mu φ : ℝ} (hγ : 0 < γ) (hs : 0 < εs) (he : 0 < ε)
    (h1 : mu_s ∈ Set.Icc (-1) 1) (h2 : mu ∈ Set.Icc (-1) 1) : 0 ≤ comptonKernel γ εs ε mu_s mu φ := by
  have hc := (C38_range h1 h2 φ).2
  by_cases h : cosPsi mu_s mu φ = 1
  · rw [C39_zero hγ hs he hc (Or.inl h)]
  · by_cases h' : Allowed γ εs ε (cosPsi mu_s mu φ)
    · linarith [C39_ge_one hγ hs he (lt_of_le_of_ne hc h) h']
    · rw [C39_zero hγ hs he hc (Or.inr h')]

/-- the hypotheses of C39 hold in a concrete case, with an allowed and a forbidden scattered energy -/
example : cosPsi 1 0 0 < 1 ∧ Allowed 1000 1 (1 / 10) (cosPsi 1 0 0) ∧ ¬ Allowed 1000 999 (1 / 10) (cosPsi 1 0 0) := by
  rw [C38_aligned]; norm_num [Allowed]

/-! ### C40 -/

/-- clipping does not lower the logarithm of a number in (0, 1] -/
theorem log_le_clipped {q : ℝ} (h0 : 0 < q) (h1 : q ≤ 1) : Real.log q ≤ MathUtils.log q := by
  unfold MathUtils.log clip
  apply Real.log_le_log h0
  refine le_min (le_max_left _ _) ?_
  exact h1.trans one_lt_fmax.le

theorem jones_nonneg {q : ℝ} (h0 : 0 < q) (h1 : q ≤ 1) : 0 ≤ 2 * q * Real.log q + (1 + 2 * q) * (1 - q) := by
  have hl : 1 - 1 / q ≤ Real.log q := by
    have := Real.one_sub_inv_le_log_of_pos h0
    rwa [← one_div] at this
  by_cases hq : 1 / 2 ≤ q
  · have : 2 * q * (1 - 1 / q) ≤ 2 * q * Real.log q := mul_le_mul_of_nonneg_left hl (by positivity)
    have e : 2 * q * (1 - 1 / q) = 2 * q - 2 := by field_simp
    nlinarith
  · push Not at hq
    -- log (2q) ≥ 1 - 1/(2q), log 2 ≤ 0.7
    have h2 : 1 - 1 / (2 * q) ≤ Real.log (2 * q) := by
      have := Real.one_sub_inv_le_log_of_pos (show 0 < 2 * q by positivity)
      rwa [← one_div] at this
    rw [Real.log_mul two_ne_zero h0.ne'] at h2
    have h3 := Real.log_two_lt_d9
    have h4 : 1 - 1 / (2 * q) - 0.6931471808 ≤ Real.log q := by linarith
    have : 2 * q * (1 - 1 / (2 * q) - 0.6931471808) ≤ 2 * q * Real.log q :=
      mul_le_mul_of_nonneg_left h4 (by positivity)
    have e : 2 * q * (1 - 1 / (2 * q) - 0.6931471808) = 2 * q - 1 - 2 * q * 0.6931471808 := by
      field_simp
    nlinarith

theorem Fc_nonneg {q ge : ℝ} (h0 : 0 < q) (h1 : q ≤ 1) (hg : 0 ≤ ge) : 0 ≤ Fc q ge := by
  unfold Fc
  dsimp only
  have hl := log_le_clipped h0 h1
  have hj := jones_nonneg h0 h1
  have : 2 * q * Real.log q ≤ 2 * q * MathUtils.log q := mul_le_mul_of_nonneg_left hl (by positivity)
  have h3 : 0 ≤ 1 / 2 * (ge * q) ^ 2 / (1 + ge * q) * (1 - q) := by
    have : 0 ≤ 1 - q := by linarith
    positivity
  linarith

/-- C40: the isotropic kernel is never negative -/
theorem C40_nonneg {γ ε εs : ℝ} (hγ : 0 < γ) (he : 0 ≤ ε) : 0 ≤ isotropicKernel γ ε εs := by
  unfold isotropicKernel
  dsimp only
  split_ifs with h
  · refine Fc_nonneg (lt_of_lt_of_le ?_ h.1) h.2 (by positivity)
    positivity
  · exact le_refl _

/-- the ratio `q` of the scattered energy to its kinematic maximum, in terms of energies only -/
noncomputable def jonesQ (γ ε εs : ℝ) : ℝ := εs / (4 * γ * ε * (γ - εs))

/-- C40: zero outside `1/(4γ²) ≤ q ≤ 1` -/
theorem C40_support {γ ε εs : ℝ} (hγ : 0 < γ) (h : jonesQ γ ε εs < 1 / (4 * γ ^ 2) ∨ 1 < jonesQ γ ε εs) :
    isotropicKernel γ ε εs = 0 := by
  have e : (εs / γ) / (4 * γ * ε * (1 - εs / γ)) = jonesQ γ ε εs := by
    unfold jonesQ
    by_cases h1 : γ - εs = 0
    · have : εs = γ := by linarith
      subst this
      simp [hγ.ne']
    · by_cases he : ε = 0
      · simp [he]
      · field_simp
  unfold isotropicKernel
  dsimp only
  rw [e]
  apply if_neg
  rintro ⟨a, b⟩
  rcases h with h | h <;> linarith

/-- C40: no photon is scattered to the energy of the electron or above -/
theorem C40_energy {γ ε εs : ℝ} (hγ : 0 < γ) (he : 0 < ε) (h : γ ≤ εs) : isotropicKernel γ ε εs = 0 := by
  apply C40_support hγ
  left
  have hq : jonesQ γ ε εs ≤ 0 := by
    unfold jonesQ
    apply div_nonpos_of_nonneg_of_nonpos (by linarith)
    apply mul_nonpos_of_nonneg_of_nonpos (by positivity) (by linarith)
  exact lt_of_le_of_lt hq (by positivity)

/-- C40: inside the support the kernel is the Jones function of `q` -/
theorem C40_inside {γ ε εs : ℝ} (hγ : 0 < γ) (he : 0 < ε) (h1 : 1 / (4 * γ ^ 2) ≤ jonesQ γ ε εs)
    (h2 : jonesQ γ ε εs ≤ 1) (hr : ftiny ≤ jonesQ γ ε εs) :
    isotropicKernel γ ε εs
      = 2 * jonesQ γ ε εs * Real.log (jonesQ γ ε εs) + (1 + 2 * jonesQ γ ε εs) * (1 - jonesQ γ ε εs)
        + (4 * γ * ε * jonesQ γ ε εs) ^ 2 * (1 - jonesQ γ ε εs) / (2 * (1 + 4 * γ * ε * jonesQ γ ε εs)) := by
  have e : (εs / γ) / (4 * γ * ε * (1 - εs / γ)) = jonesQ γ ε εs := by
    unfold jonesQ
    by_cases h1 : γ - εs = 0
    · have : εs = γ := by linarith
      subst this
      simp [hγ.ne']
    · field_simp
  have hl : MathUtils.log (jonesQ γ ε εs) = Real.log (jonesQ γ ε εs) := by
    unfold MathUtils.log clip
    rw [max_eq_left hr, min_eq_left (h2.trans one_lt_fmax.le)]
  unfold isotropicKernel
  dsimp only
  rw [e, if_pos ⟨h1, h2⟩]
  unfold Fc
  dsimp only
  rw [hl]
  have : 0 < 1 + 4 * γ * ε * jonesQ γ ε εs := by
    have : 0 < jonesQ γ ε εs := lt_of_lt_of_le (by positivity) h1
    positivity
  field_simp

/-- the kernel is positive for a Thomson-like case, zero above the kinematic limit -/
example : 0 < isotropicKernel 100 (1 / 10 ^ 6) (1 / 100) := by
  have hq : jonesQ 100 (1 / 10 ^ 6) (1 / 100) = 1 / (4 * (1 - 1 / 10000)) := by norm_num [jonesQ]
  have hft : ftiny ≤ jonesQ 100 (1 / 10 ^ 6) (1 / 100) := by
    rw [hq]
    have : ftiny ≤ 1 / 4 := by
      unfold ftiny
      rw [div_le_div_iff₀ (by positivity) (by norm_num), one_mul, one_mul,
        show (4 : ℝ) = 2 ^ 2 by norm_num]
      exact pow_le_pow_right₀ (by norm_num) (by norm_num)
    exact this.trans (by norm_num)
  rw [C40_inside (by norm_num) (by norm_num) (by rw [hq]; norm_num) (by rw [hq]; norm_num) hft]
  rw [hq]
  have h : -(14 / 10) < Real.log (1 / (4 * (1 - 1 / 10000 : ℝ))) := by
    rw [one_div, Real.log_inv, Real.log_mul (by norm_num) (by norm_num), show (4 : ℝ) = 2 ^ 2 by norm_num,
      Real.log_pow]
    have h1 := Real.log_two_lt_d9
    have h2 : Real.log (1 - 1 / 10000 : ℝ) ≤ 0 := Real.log_nonpos (by norm_num) (by norm_num)
    push_cast
    linarith
  norm_num at h ⊢
  linarith

end Verif.Kernels
