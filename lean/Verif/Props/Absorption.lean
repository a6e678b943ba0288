import Mathlib.Analysis.Complex.ExponentialBounds
import Verif.Model.Absorption
import Verif.Props.Geometry
import Verif.Props.Synchrotron

/-
C41 (pair-production cross section) and C42 (attenuation).
-/

namespace Verif.Absorption

open MathUtils Spectra Geometry Region Targets

/-! ### C41 -/

theorem fmax_ge : (9 : ℝ) ≤ fmax := by
  unfold fmax
  have h1 : (2 : ℝ) ^ 1024 = 2 ^ 971 * 2 ^ 53 := by rw [← pow_add]
  rw [h1]
  have h2 : (1 : ℝ) ≤ 2 ^ 971 := one_le_pow₀ (by norm_num)
  generalize (2 : ℝ) ^ 971 = a at h2 ⊢
  norm_num
  linarith

theorem ftiny_le_one : ftiny ≤ 1 := by
  unfold ftiny
  rw [div_le_one (by positivity)]
  exact one_le_pow₀ (by norm_num)

theorem clog_eq {x : ℝ} (h : 1 ≤ x) : MathUtils.log x = Real.log (min x fmax) := by
  unfold MathUtils.log clip
  rw [max_eq_left (ftiny_le_one.trans h)]

theorem two_lt_log_nine : 2 < Real.log 9 := by
  have h := Real.log_two_gt_d9
  have e : Real.log 8 = 3 * Real.log 2 := by
    rw [show (8 : ℝ) = 2 ^ 3 by norm_num, Real.log_pow]; norm_num
  have : Real.log 8 < Real.log 9 := Real.log_lt_log (by norm_num) (by norm_num)
  linarith

/-- `2β < log((1+β)/(1-β))`, also for the clipped logarithm -/
theorem log_ratio_gt {b : ℝ} (h0 : 0 < b) (h1 : b < 1) : 2 * b < MathUtils.log ((1 + b) / (1 - b)) := by
  have hb : 0 < 1 - b := by linarith
  have hx : 1 ≤ (1 + b) / (1 - b) := by rw [one_le_div hb]; linarith
  rw [clog_eq hx]
  rcases le_total ((1 + b) / (1 - b)) fmax with h | h
  · rw [min_eq_left h]
    have h2 : (1 + b) / (1 - b) = 1 + 2 * b / (1 - b) := by field_simp; ring
    rw [h2]
    have hp : 0 < 2 * b / (1 - b) := by positivity
    have := Real.lt_log_one_add_of_pos hp
    refine lt_of_eq_of_lt ?_ this
    field_simp
    ring
  · rw [min_eq_right h]
    have h3 : Real.log 9 ≤ Real.log fmax := Real.log_le_log (by norm_num) fmax_ge
    have := two_lt_log_nine
    linarith

/-- `log((1+β)/(1-β)) ≤ 2β/(1-β²)`, also for the clipped logarithm -/
theorem log_ratio_le {b : ℝ} (h0 : 0 ≤ b) (h1 : b < 1) :
    MathUtils.log ((1 + b) / (1 - b)) * (1 - b ^ 2) ≤ 2 * b := by
  have hb : 0 < 1 - b := by linarith
  have hx : 1 ≤ (1 + b) / (1 - b) := by rw [one_le_div hb]; linarith
  have hle : MathUtils.log ((1 + b) / (1 - b)) ≤ Real.log ((1 + b) / (1 - b)) := by
    rw [clog_eq hx]
    apply Real.log_le_log
    · exact lt_min (by positivity) (by linarith [fmax_ge])
    · exact min_le_left _ _
  have h2 : 0 < 1 - b ^ 2 := by nlinarith
  refine (mul_le_mul_of_nonneg_right hle h2.le).trans ?_
  -- f(b) = 2b/(1-b²) - log has non-negative derivative
  have key : ∀ x ∈ Set.Icc (0 : ℝ) b, 0 ≤ 2 * x / (1 - x ^ 2) - (Real.log (1 + x) - Real.log (1 - x)) := by
    have hmono : MonotoneOn (fun x : ℝ => 2 * x / (1 - x ^ 2) - (Real.log (1 + x) - Real.log (1 - x)))
        (Set.Icc 0 b) := by
      have hd : ∀ x ∈ Set.Icc (0 : ℝ) b, HasDerivAt
          (fun x : ℝ => 2 * x / (1 - x ^ 2) - (Real.log (1 + x) - Real.log (1 - x)))
          (4 * x ^ 2 / (1 - x ^ 2) ^ 2) x := by
        intro x hx
        have e1 : 0 < 1 + x := by linarith [hx.1]
        have e2 : 0 < 1 - x := by linarith [hx.2]
        have e3 : 1 - x ^ 2 ≠ 0 := by
          have : 1 - x ^ 2 = (1 + x) * (1 - x) := by ring
          rw [this]; positivity
        have d1 : HasDerivAt (fun x : ℝ => 2 * x) 2 x := by simpa using (hasDerivAt_id x).const_mul 2
        have d2 : HasDerivAt (fun x : ℝ => 1 - x ^ 2) (-(2 * x)) x := by
          simpa using (hasDerivAt_pow 2 x).const_sub 1
        have d3 : HasDerivAt (fun x : ℝ => Real.log (1 + x)) (1 / (1 + x)) x :=
          ((hasDerivAt_id x).const_add 1).log e1.ne'
        have d4 : HasDerivAt (fun x : ℝ => Real.log (1 - x)) (-1 / (1 - x)) x :=
          ((hasDerivAt_id x).const_sub 1).log e2.ne'
        refine ((d1.div d2 e3).sub (d3.sub d4)).congr_deriv ?_
        have e1' := e1.ne'
        have e2' := e2.ne'
        field_simp
        ring
      apply monotoneOn_of_deriv_nonneg (convex_Icc 0 b)
      · intro x hx
        exact (hd x hx).continuousAt.continuousWithinAt
      · intro x hx
        rw [interior_Icc] at hx
        exact (hd x ⟨hx.1.le, hx.2.le⟩).differentiableAt.differentiableWithinAt
      · intro x hx
        rw [interior_Icc] at hx
        rw [(hd x ⟨hx.1.le, hx.2.le⟩).deriv]
        positivity
    intro x hx
    have := hmono ⟨le_rfl, hx.1.trans hx.2⟩ hx hx.1
    simpa using this
  have h3 := key b ⟨h0, le_rfl⟩
  rw [Real.log_div (by linarith) hb.ne']
  have h4 : Real.log (1 + b) - Real.log (1 - b) ≤ 2 * b / (1 - b ^ 2) := by linarith
  calc (Real.log (1 + b) - Real.log (1 - b)) * (1 - b ^ 2) ≤ 2 * b / (1 - b ^ 2) * (1 - b ^ 2) :=
        mul_le_mul_of_nonneg_right h4 h2.le
    _ = 2 * b := by field_simp

theorem beta_range {s : ℝ} (h : 1 ≤ s) : 0 ≤ √(1 - 1 / s) ∧ √(1 - 1 / s) < 1 := by
  refine ⟨Real.sqrt_nonneg _, ?_⟩
  rw [Real.sqrt_lt' one_pos]
  have : 0 < 1 / s := by positivity
  linarith

/-- C41: no pair production up to the threshold `s = 1` -/
theorem C41_below (k : Consts) {s : ℝ} (h : s ≤ 1) : sigma k s = 0 := by
  unfold sigma
  dsimp only
  rcases lt_or_eq_of_le h with h | rfl
  · rw [if_pos h]
  · have h1 : MathUtils.log 1 = 0 := by
      rw [clog_eq le_rfl, min_eq_left (by linarith [fmax_ge]), Real.log_one]
    norm_num [h1]

/-- C41: above the threshold the cross section is positive -/
theorem C41_above {k : Consts} (hk : k.Pos) {s : ℝ} (h : 1 < s) : 0 < sigma k s := by
  obtain ⟨h0, h1⟩ := beta_range h.le
  have hpos : 0 < √(1 - 1 / s) := by
    apply Real.sqrt_pos.2
    have : 1 / s < 1 := by rw [div_lt_one (by linarith)]; exact h
    linarith
  unfold sigma
  dsimp only
  rw [if_neg (not_lt.2 h.le)]
  generalize √(1 - 1 / s) = b at h0 h1 hpos ⊢
  have hl := log_ratio_gt hpos h1
  generalize MathUtils.log ((1 + b) / (1 - b)) = L at hl ⊢
  have hs := hk.sigma_T
  have h2 : 0 < 1 - b ^ 2 := by nlinarith
  have h4 : b ^ 4 < 1 := by nlinarith [sq_nonneg b, sq_nonneg (b ^ 2)]
  have h3 : 0 < (3 - b ^ 4) * L + -2 * b * (2 - b ^ 2) := by
    have e : (3 - b ^ 4) * (2 * b) < (3 - b ^ 4) * L := mul_lt_mul_of_pos_left hl (by linarith)
    have e2 : 0 < 2 * b * (1 - b ^ 4 + b ^ 2) := by
      apply mul_pos (by linarith)
      nlinarith [sq_nonneg b]
    nlinarith
  positivity

/-- C41: never negative -/
theorem sigma_nonneg {k : Consts} (hk : k.Pos) (s : ℝ) : 0 ≤ sigma k s := by
  rcases le_or_gt s 1 with h | h
  · rw [C41_below k h]
  · exact (C41_above hk h).le

/-- C41: zero exactly up to the threshold -/
theorem C41_zero_iff {k : Consts} (hk : k.Pos) (s : ℝ) : sigma k s = 0 ↔ s ≤ 1 := by
  constructor
  · intro h
    by_contra hs
    exact (C41_above hk (not_le.1 hs)).ne' h
  · exact C41_below k

/-- C41: never more than three quarters of the Thomson cross section -/
theorem C41_upper {k : Consts} (hk : k.Pos) (s : ℝ) : sigma k s ≤ 3 / 4 * k.sigma_T := by
  have hs := hk.sigma_T
  rcases lt_or_ge s 1 with h | h
  · rw [C41_below k h.le]; positivity
  · obtain ⟨h0, h1⟩ := beta_range h
    unfold sigma
    dsimp only
    rw [if_neg (not_lt.2 h)]
    generalize √(1 - 1 / s) = b at h0 h1 ⊢
    have hl := log_ratio_le h0 h1
    generalize MathUtils.log ((1 + b) / (1 - b)) = L at hl ⊢
    have h4 : 0 ≤ 3 - b ^ 4 := by have := pow_le_one₀ (n := 4) h0 h1.le; linarith
    have e : 3 / 16 * k.sigma_T * (1 - b ^ 2) * ((3 - b ^ 4) * L + -2 * b * (2 - b ^ 2))
        = 3 / 16 * k.sigma_T * ((3 - b ^ 4) * (L * (1 - b ^ 2)) - 2 * b * (2 - b ^ 2) * (1 - b ^ 2)) := by ring
    rw [e]
    have h5 : (3 - b ^ 4) * (L * (1 - b ^ 2)) ≤ (3 - b ^ 4) * (2 * b) := mul_le_mul_of_nonneg_left hl h4
    have h6 : (3 - b ^ 4) * (2 * b) - 2 * b * (2 - b ^ 2) * (1 - b ^ 2) ≤ 4 := by
      have : (3 - b ^ 4) * (2 * b) - 2 * b * (2 - b ^ 2) * (1 - b ^ 2) = 2 * b + 6 * b ^ 3 - 4 * b ^ 5 := by ring
      rw [this]
      have h7 : 4 - (2 * b + 6 * b ^ 3 - 4 * b ^ 5)
          = (1 - b) ^ 2 * (4 * b ^ 3 + 8 * b ^ 2 + 6 * b + 4) := by ring
      have h8 : 0 ≤ (1 - b) ^ 2 * (4 * b ^ 3 + 8 * b ^ 2 + 6 * b + 4) := by positivity
      linarith
    have h9 : 3 / 16 * k.sigma_T * ((3 - b ^ 4) * (L * (1 - b ^ 2)) - 2 * b * (2 - b ^ 2) * (1 - b ^ 2))
        ≤ 3 / 16 * k.sigma_T * 4 := mul_le_mul_of_nonneg_left (by linarith) (by positivity)
    linarith

/-! ### C42 -/

/-- C42: the attenuation `exp(-τ)` is in (0, 1] for non-negative opacities and falls strictly -/
theorem C42_exp : (∀ t : ℝ, 0 ≤ t → Real.exp (-t) ∈ Set.Ioc 0 1) ∧ StrictAnti fun t : ℝ => Real.exp (-t) := by
  refine ⟨fun t ht => ⟨Real.exp_pos _, ?_⟩, ?_⟩
  · rw [Real.exp_le_one_iff]; linarith
  · intro s t h
    exact Real.exp_lt_exp.2 (by linarith)

/-- C42: the attenuation of a homogeneous source is in (0, 1) for positive opacities, falls strictly, and is never
below that of a source behind the absorber -/
theorem C42_homogeneous : (∀ t : ℝ, 0 < t → homogeneous t ∈ Set.Ioo (Real.exp (-t)) 1)
    ∧ StrictAntiOn homogeneous (Set.Ioi 0) := by
  refine ⟨fun t ht => ⟨?_, Synchrotron.slab_lt_one ht⟩, Synchrotron.slab_strictAnti⟩
  unfold homogeneous
  rw [lt_div_iff₀ ht]
  have h2 := Real.add_one_lt_exp (x := t) ht.ne'
  have h3 : Real.exp (-t) * Real.exp t = 1 := by rw [← Real.exp_add]; simp
  have h4 := Real.exp_pos (-t)
  nlinarith

/-- C42, a defect: with no opacity at all `absorption_homogeneous` is 0/0 (NaN in numpy, 0 in this model), although the
factor tends to 1 -/
theorem C42_homogeneous_zero (k : Consts) (a : Abs) (nu : ℝ) (h : tau k a nu = some 0) :
    absorptionHomogeneous k a nu = some ((1 - Real.exp 0) / 0)
      ∧ Filter.Tendsto homogeneous (nhdsWithin 0 (Set.Ioi 0)) (nhds 1) := by
  constructor
  · unfold absorptionHomogeneous
    rw [h]
    simp [homogeneous]
  · have h1 : HasDerivAt (fun t : ℝ => 1 - Real.exp (-t)) 1 0 := by
      have := ((hasDerivAt_neg (0 : ℝ)).exp).const_sub 1
      simpa using this
    have h2 := hasDerivAt_iff_tendsto_slope.1 h1
    have h3 : Filter.Tendsto (slope (fun t : ℝ => 1 - Real.exp (-t)) 0) (nhdsWithin 0 (Set.Ioi 0)) (nhds 1) :=
      h2.mono_left (nhdsWithin_mono _ fun x hx => ne_of_gt hx)
    refine h3.congr' ?_
    filter_upwards [self_mem_nhdsWithin] with t _
    unfold homogeneous slope
    simp [div_eq_inv_mul]

end Verif.Absorption
