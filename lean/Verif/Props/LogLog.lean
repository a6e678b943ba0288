import Verif.Lemmas.Radiation

/- C65: `trapz_loglog` on negative samples (the self-absorption integrand). -/

namespace Verif.MathUtils

/-- the left Riemann sum -/
noncomputable def leftSum : List ℝ → List ℝ → ℝ
  | y :: y' :: ys, x :: x' :: xs => y * (x' - x) + leftSum (y' :: ys) (x' :: xs)
  | _, _ => 0

/-- C65: on negative samples `trapz_loglog` is the left Riemann sum: the power-law interpolation is lost -/
theorem C65_left_sum (ys xs : List ℝ) (hx : xs.IsChain (· ≤ ·)) (hp : ∀ x ∈ xs, 0 < x) (hy : ∀ y ∈ ys, y < 0) :
    trapzLoglog ys xs = leftSum ys xs := by
  induction xs generalizing ys with
  | nil => cases ys <;> simp [trapzLoglog, leftSum]
  | cons x xs ih =>
    rcases ys with _ | ⟨y, _ | ⟨y', ys⟩⟩
    · simp [trapzLoglog, leftSum]
    · simp [trapzLoglog, leftSum]
    · rcases xs with _ | ⟨x', xs⟩
      · simp [trapzLoglog, leftSum]
      · simp only [trapzLoglog, leftSum]
        rw [List.isChain_cons_cons] at hx
        have hy2 : y' < 0 := hy y' (by simp)
        rw [ih (y' :: ys) hx.2 (fun a ha => hp a (List.mem_cons_of_mem _ ha))
          (fun a ha => hy a (List.mem_cons_of_mem _ ha)),
          loglogVal_nonpos (hp x (by simp)) hx.1 (hy y (by simp)).le hy2.le hy2.ne]

/-- C65 is false of the code: the samples of `-3 x⁻²` on the grid 1, 2, 4 integrate to `-9/2`, those of `3 x⁻²` to
`9/4` (the exact value) -/
theorem C65_violated :
    trapzLoglog [-3, -(3 / 4), -(3 / 16)] [1, 2, 4] = -(9 / 2) ∧ trapzLoglog [3, 3 / 4, 3 / 16] [1, 2, 4] = 9 / 4 := by
  constructor
  · rw [C65_left_sum _ _ (by norm_num) (by norm_num) (by norm_num)]
    norm_num [leftSum]
  · have h := C31_exact demoGrid (Or.inl (by norm_num))
    have e : (([1, 2, 4] : List ℝ).map fun p => 3 * p ^ (-2 : ℝ)) = [3, 3 / 4, 3 / 16] := by
      have h2 : ∀ x : ℝ, x ^ (-2 : ℝ) = (x ^ 2)⁻¹ := by
        intro x
        have := Real.rpow_intCast x (-2)
        push_cast at this
        rw [this, zpow_neg]
        norm_cast
      simp only [List.map_cons, List.map_nil, h2]
      norm_num
    rw [e] at h
    rw [h]
    simp only [List.getLast_cons_cons, List.getLast_singleton]
    rw [intervalIntegral.integral_const_mul, integral_rpow]
    · norm_num
    · right
      norm_num

/-- C65, the part that holds: the sign of the samples is kept.  Missing: the value is not the opposite of that of the
opposite samples (`C65_violated`). -/
theorem C65_sign_partial (ys xs : List ℝ) (hx : xs.IsChain (· ≤ ·)) (hp : ∀ x ∈ xs, 0 < x) (hy : ∀ y ∈ ys, y ≤ 0) :
    trapzLoglog ys xs ≤ 0 := nonpos_loglog ys xs hx hp hy

example : ([1, 2, 4] : List ℝ).IsChain (· ≤ ·) ∧ ∀ y ∈ ([-3, -1, -2] : List ℝ), y ≤ 0 := by norm_num

end Verif.MathUtils
