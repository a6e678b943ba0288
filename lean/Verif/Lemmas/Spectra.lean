import Mathlib.Analysis.SpecialFunctions.Pow.Deriv
import Mathlib.Analysis.SpecialFunctions.ExpDeriv
import Mathlib.Analysis.SpecialFunctions.Log.Deriv
import Mathlib.Tactic.Linarith
import Mathlib.Tactic.FieldSimp
import Mathlib.Tactic.Ring
import Mathlib.Tactic.Positivity
import Verif.Model.Spectra
import Verif.Props.MathUtils

/- Helper facts for the spectra. -/

namespace Verif.Spectra

open MathUtils Classical

theorem deriv_div_sq {n : ℝ → ℝ} {n' g : ℝ} (h : HasDerivAt n n' g) (hg : g ≠ 0) :
    HasDerivAt (fun x => n x / x ^ 2) ((n' - 2 * n g / g) / g ^ 2) g := by
  have h2 : HasDerivAt (fun x : ℝ => x ^ 2) (2 * g) g := by simpa using hasDerivAt_pow 2 g
  have := h.div h2 (pow_ne_zero 2 hg)
  refine (this).congr_deriv ?_
  field_simp

theorem deriv_pow_law {g c : ℝ} (k p : ℝ) (hg : 0 < g) (hc : 0 < c) :
    HasDerivAt (fun x => k * (x / c) ^ (-p)) (-p * (k * (g / c) ^ (-p)) / g) g := by
  have hr : 0 < g / c := div_pos hg hc
  have h1 : HasDerivAt (fun x : ℝ => x / c) (1 / c) g := (hasDerivAt_id g).div_const c
  have h2 := (h1.rpow_const (p := -p) (Or.inl hr.ne')).const_mul k
  refine (h2).congr_deriv ?_
  rw [Real.rpow_sub hr, Real.rpow_one]
  field_simp

theorem deriv_cutoff {g : ℝ} (gc : ℝ) :
    HasDerivAt (fun x => Real.exp (-x / gc)) (-1 / gc * Real.exp (-g / gc)) g := by
  have h : HasDerivAt (fun x : ℝ => -x / gc) (-1 / gc) g := (hasDerivAt_id g).neg.div_const gc
  refine (h.exp).congr_deriv ?_
  ring

theorem deriv_log10 {g : ℝ} (hg : 0 < g) : HasDerivAt log10 (1 / (g * Real.log 10)) g := by
  have h := (Real.hasDerivAt_log hg.ne').div_const (Real.log 10)
  have e : (fun x => Real.log x / Real.log 10) = log10 := rfl
  rw [e] at h
  refine (h).congr_deriv ?_
  rw [one_div, mul_inv, div_eq_mul_inv]

theorem log_ten_pos : 0 < Real.log 10 := Real.log_pos (by norm_num)

theorem deriv_logpar {g g0 : ℝ} (k p q : ℝ) (hg : 0 < g) (h0 : 0 < g0) :
    HasDerivAt (fun x => k * (x / g0) ^ (-p - q * log10 (x / g0)))
      (-(p + 2 * q * log10 (g / g0)) * (k * (g / g0) ^ (-p - q * log10 (g / g0))) / g) g := by
  have hr : 0 < g / g0 := div_pos hg h0
  have h1 : HasDerivAt (fun x : ℝ => x / g0) (1 / g0) g := (hasDerivAt_id g).div_const g0
  have h2 : HasDerivAt (fun x : ℝ => log10 (x / g0)) (1 / (g / g0 * Real.log 10) * (1 / g0)) g :=
    HasDerivAt.comp (h₂ := log10) (h := fun x : ℝ => x / g0) g (deriv_log10 hr) h1
  have h3 : HasDerivAt (fun x : ℝ => -p - q * log10 (x / g0))
      (-(q * (1 / (g / g0 * Real.log 10) * (1 / g0)))) g := by
    simpa using (h2.const_mul q).const_sub (-p)
  have h4 := (h1.rpow h3 hr).const_mul k
  refine (h4).congr_deriv ?_
  rw [Real.rpow_sub hr _ 1, Real.rpow_one]
  have hl := log_ten_pos.ne'
  generalize (g / g0) ^ (-p - q * log10 (g / g0)) = P
  unfold log10
  field_simp
  ring

theorem deriv_interp {f df : ℝ → ℝ} {g : ℝ} (norm : ℝ) (hg : 0 < g)
    (hf : HasDerivAt f (df (log10 g)) (log10 g)) :
    HasDerivAt (fun x => norm * (10 : ℝ) ^ f (log10 x)) (norm * (10 : ℝ) ^ f (log10 g) * df (log10 g) / g) g := by
  have h1 : HasDerivAt (fun x => f (log10 x)) (df (log10 g) * (1 / (g * Real.log 10))) g :=
    HasDerivAt.comp (h₂ := f) (h := log10) g hf (deriv_log10 hg)
  have h2 : HasDerivAt (fun x => norm * (10 : ℝ) ^ f (log10 x)) _ g :=
    (HasDerivAt.comp (h₂ := fun y : ℝ => (10 : ℝ) ^ y) (h := fun x => f (log10 x)) g
      (Real.hasStrictDerivAt_const_rpow (by norm_num : (0:ℝ) < 10) (f (log10 g))).hasDerivAt h1).const_mul norm
  refine (h2).congr_deriv ?_
  have := log_ten_pos.ne'
  field_simp

/-! ### boundary correction -/

theorem correctFirst_length (a : ℝ) (l : List ℝ) : (correctFirst a l).length = l.length := by
  unfold correctFirst; split
  · rfl
  · split_ifs <;> simp

theorem correctLast_length (b : ℝ) (l : List ℝ) : (correctLast b l).length = l.length := by
  unfold correctLast; split
  · rfl
  · dsimp only; split_ifs <;> simp

theorem correctBoundary_length (l : List ℝ) (a b : ℝ) : (correctBoundary l a b).length = l.length := by
  unfold correctBoundary; rw [correctLast_length, correctFirst_length]

theorem afterCall_length (d : Dist) (l : List ℝ) : (d.afterCall l).length = l.length := by
  unfold Dist.afterCall; split
  · rfl
  · exact correctBoundary_length _ _ _

theorem afterSSA_length (d : Dist) (l : List ℝ) : (d.afterSSA l).length = l.length := by
  unfold Dist.afterSSA; split
  · rfl
  · rfl
  · exact afterCall_length _ _

end Verif.Spectra
