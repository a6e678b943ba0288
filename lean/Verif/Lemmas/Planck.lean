import Mathlib.NumberTheory.ZetaValues
import Mathlib.Analysis.SpecialFunctions.Gamma.Basic
import Mathlib.Analysis.SpecialFunctions.Gaussian.GaussianIntegral
import Mathlib.MeasureTheory.Integral.DominatedConvergence
import Mathlib.MeasureTheory.Integral.IntegralEqImproper

/- The integral of Planck's law over all frequencies. -/

namespace Verif

open MeasureTheory Set Filter

/-- one term of the geometric series of Planck's law -/
theorem integral_cube_exp {r : ℝ} (hr : 0 < r) :
    IntegrableOn (fun x : ℝ => x ^ 3 * Real.exp (-(r * x))) (Ioi 0)
      ∧ ∫ x in Ioi (0 : ℝ), x ^ 3 * Real.exp (-(r * x)) = 6 * (1 / r ^ 4) := by
  constructor
  · have h := integrableOn_rpow_mul_exp_neg_mul_rpow (p := 1) (s := 3) (b := r) (by norm_num) one_pos hr
    refine h.congr_fun (fun x _ => ?_) measurableSet_Ioi
    have e : x ^ (3 : ℝ) = x ^ 3 := by
      rw [show (3 : ℝ) = ((3 : ℕ) : ℝ) by norm_num, Real.rpow_natCast]
    simp only [Real.rpow_one, e]
    rw [neg_mul]
  · have h := Real.integral_rpow_mul_exp_neg_mul_Ioi (a := 4) (r := r) (by norm_num) hr
    have e : ∀ x : ℝ, x ^ ((4 : ℝ) - 1) = x ^ 3 := by
      intro x
      rw [show (4 : ℝ) - 1 = ((3 : ℕ) : ℝ) by norm_num, Real.rpow_natCast]
    simp only [e] at h
    rw [h, show (4 : ℝ) = ((4 : ℕ) : ℝ) by norm_num, Real.rpow_natCast,
      show ((4 : ℕ) : ℝ) = ((3 : ℕ) : ℝ) + 1 by norm_num, Real.Gamma_nat_eq_factorial]
    norm_num [Nat.factorial]
    ring

/-- the geometric series of Planck's law -/
theorem planck_series {x : ℝ} (hx : 0 < x) :
    HasSum (fun n : ℕ => x ^ 3 * Real.exp (-(((n : ℝ) + 1) * x))) (x ^ 3 / (Real.exp x - 1)) := by
  have h0 : 0 < Real.exp (-x) := Real.exp_pos _
  have h1 : Real.exp (-x) < 1 := by rw [Real.exp_lt_one_iff]; linarith
  have h := (hasSum_geometric_of_lt_one h0.le h1).mul_left (x ^ 3 * Real.exp (-x))
  convert! h using 1
  · funext n
    rw [mul_assoc, ← Real.exp_nat_mul, ← Real.exp_add]
    congr 2; ring
  · have h2 : 1 < Real.exp x := Real.one_lt_exp_iff.2 hx
    have h3 : Real.exp x - 1 ≠ 0 := by linarith
    rw [Real.exp_neg]
    have h4 : 1 - (Real.exp x)⁻¹ ≠ 0 := by
      rw [Real.exp_neg] at h1
      linarith
    field_simp

/-- the integral behind the Stefan-Boltzmann law -/
theorem integral_planck : ∫ x in Ioi (0 : ℝ), x ^ 3 / (Real.exp x - 1) = Real.pi ^ 4 / 15 := by
  have hz : HasSum (fun n : ℕ => 6 * ((1 : ℝ) / ((n : ℝ) + 1) ^ 4)) (6 * (Real.pi ^ 4 / 90)) := by
    have h := (hasSum_nat_add_iff' 1).2 hasSum_zeta_four
    simp only [Finset.range_one, Finset.sum_singleton, Nat.cast_zero, Nat.cast_add, Nat.cast_one] at h
    norm_num at h
    simpa using h.mul_left 6
  have hp : ∀ n : ℕ, (0 : ℝ) < (n : ℝ) + 1 := fun n => by positivity
  have hn : ∀ n : ℕ, ∫ x in Ioi (0 : ℝ), ‖x ^ 3 * Real.exp (-(((n : ℝ) + 1) * x))‖ = 6 * ((1 : ℝ) / ((n : ℝ) + 1) ^ 4) := by
    intro n
    rw [← (integral_cube_exp (hp n)).2]
    refine setIntegral_congr_fun measurableSet_Ioi fun x hx => ?_
    have : (0 : ℝ) < x := hx
    exact Real.norm_of_nonneg (by positivity)
  have h := hasSum_integral_of_summable_integral_norm (μ := volume.restrict (Ioi (0 : ℝ)))
    (F := fun (n : ℕ) (x : ℝ) => x ^ 3 * Real.exp (-(((n : ℝ) + 1) * x))) (fun n => (integral_cube_exp (hp n)).1)
    (by simp only [hn]; exact hz.summable)
  simp only [fun n : ℕ => (integral_cube_exp (hp n)).2] at h
  have e := h.unique hz
  rw [show Real.pi ^ 4 / 15 = 6 * (Real.pi ^ 4 / 90) by ring, ← e]
  exact setIntegral_congr_fun measurableSet_Ioi fun x hx => (planck_series hx).tsum_eq.symm

end Verif
