import Mathlib.Analysis.SpecialFunctions.Pow.Real
import Mathlib.Analysis.SpecialFunctions.Integrals.Basic
import Mathlib.Analysis.SpecialFunctions.Exponential
import Mathlib.Tactic.Linarith
import Mathlib.Tactic.FieldSimp
import Mathlib.Tactic.Positivity
import Mathlib.Tactic.NormNum
import Mathlib.Tactic.Ring
import Verif.Model.MathUtils

/- Helper facts for utils/math.py. -/

namespace Verif.MathUtils

/-- a positive number that double precision represents as a normal number -/
def InRange (x : ℝ) : Prop := ftiny ≤ x ∧ x ≤ fmax

theorem ftiny_pos : 0 < ftiny := by unfold ftiny; positivity

theorem ftiny_lt_one : ftiny < 1 := by
  unfold ftiny
  rw [div_lt_one (by positivity)]
  exact one_lt_pow₀ (by norm_num) (by norm_num)

theorem one_lt_fmax : 1 < fmax := by
  unfold fmax
  have : (2 : ℝ) ^ 1024 = 2 ^ 971 * 2 ^ 53 := by rw [← pow_add]
  rw [this]
  have h : (1 : ℝ) < 2 ^ 971 := one_lt_pow₀ (by norm_num) (by norm_num)
  have h2 : (2 : ℝ) ≤ 2 ^ 53 := by norm_num
  generalize (2 : ℝ) ^ 971 = p at *
  generalize (2 : ℝ) ^ 53 = q at *
  nlinarith

theorem InRange.pos {x : ℝ} (h : InRange x) : 0 < x := lt_of_lt_of_le ftiny_pos h.1

theorem InRange.clip {x : ℝ} (h : InRange x) : clip x ftiny fmax = x := by
  unfold MathUtils.clip
  rw [max_eq_left h.1, min_eq_left h.2]

theorem InRange.log {x : ℝ} (h : InRange x) : log x = Real.log x := by
  unfold MathUtils.log; rw [h.clip]

theorem inRange_one : InRange 1 := ⟨ftiny_lt_one.le, one_lt_fmax.le⟩

/-- the closed form used by the first branch -/
theorem loglog_branch {xl xu yl m : ℝ} (hl : 0 < xl) (hu : 0 < xu) :
    yl / (m + 1) * (xu * (xu / xl) ^ m - xl) = xl * yl * (((xu / xl) ^ (m + 1) - 1) / (m + 1)) := by
  have hr : 0 < xu / xl := div_pos hu hl
  rw [Real.rpow_add hr, Real.rpow_one]
  field_simp

theorem rpow_sub_one_div_nonneg {r e : ℝ} (hr : 1 ≤ r) : 0 ≤ (r ^ e - 1) / e := by
  rcases lt_trichotomy e 0 with h | h | h
  · apply div_nonneg_of_nonpos _ h.le
    have := Real.rpow_le_one_of_one_le_of_nonpos hr h.le
    linarith
  · simp [h]
  · apply div_nonneg _ h.le
    have := Real.one_le_rpow hr h.le
    linarith

theorem log_nonneg' {x : ℝ} (hx : 1 ≤ x) : 0 ≤ log x := by
  unfold log clip
  apply Real.log_nonneg
  rw [le_min_iff]
  exact ⟨le_max_of_le_left hx, one_lt_fmax.le⟩

theorem loglogVal_nonneg {xl yl xu yu : ℝ} (hl : 0 < xl) (hlu : xl ≤ xu) (hy : 0 ≤ yl) :
    0 ≤ loglogVal xl yl xu yu := by
  have hu : 0 < xu := lt_of_lt_of_le hl hlu
  have hr : 1 ≤ xu / xl := by rwa [le_div_iff₀ hl, one_mul]
  unfold loglogVal
  dsimp only
  split_ifs
  · exact le_refl _
  · rw [loglog_branch hl hu]
    exact mul_nonneg (mul_nonneg hl.le hy) (rpow_sub_one_div_nonneg hr)
  · exact mul_nonneg (mul_nonneg hl.le hy) (log_nonneg' hr)

/-- the slope is recovered on a power law -/
theorem slope_eq {a m xl xu : ℝ} (ha : 0 < a) (hl : InRange xl) (hu : InRange xu) (hlu : xl < xu)
    (hyl : InRange (a * xl ^ m)) (hyu : InRange (a * xu ^ m)) :
    (log (a * xl ^ m) - log (a * xu ^ m)) / (log xl - log xu) = m := by
  rw [hyl.log, hyu.log, hl.log, hu.log, Real.log_mul ha.ne' (Real.rpow_pos_of_pos hl.pos _).ne',
    Real.log_mul ha.ne' (Real.rpow_pos_of_pos hu.pos _).ne', Real.log_rpow hl.pos, Real.log_rpow hu.pos]
  have : Real.log xl - Real.log xu ≠ 0 := by
    have := Real.log_lt_log hl.pos hlu
    linarith
  field_simp
  ring

theorem inRange_ratio {xl xu : ℝ} (hl : 0 < xl) (hlu : xl < xu) (h : xu / xl ≤ fmax) :
    InRange (xu / xl) := by
  refine ⟨ftiny_lt_one.le.trans ?_, h⟩
  rw [le_div_iff₀ hl, one_mul]; exact hlu.le

/-- integral of a power law between positive ends -/
theorem integral_power {a m xl xu : ℝ} (hl : 0 < xl) (hu : 0 < xu) (hm : m ≠ -1) :
    ∫ x in xl..xu, a * x ^ m = a * ((xu ^ (m + 1) - xl ^ (m + 1)) / (m + 1)) := by
  rw [intervalIntegral.integral_const_mul, integral_rpow]
  right
  refine ⟨hm, ?_⟩
  rw [Set.mem_uIcc]
  rintro (⟨h, _⟩ | ⟨h, _⟩) <;> linarith

theorem integral_power_neg_one {a xl xu : ℝ} (hl : 0 < xl) (hu : 0 < xu) :
    ∫ x in xl..xu, a * x ^ (-1 : ℝ) = a * Real.log (xu / xl) := by
  rw [intervalIntegral.integral_const_mul]
  congr 1
  have : ∀ x : ℝ, x ^ (-1 : ℝ) = x⁻¹ := fun x => Real.rpow_neg_one x
  simp only [this]
  exact integral_inv_of_pos hl hu

theorem intervalIntegrable_power {a m xl xu : ℝ} (hl : 0 < xl) (hu : 0 < xu) :
    IntervalIntegrable (fun x => a * x ^ m) MeasureTheory.volume xl xu := by
  apply IntervalIntegrable.const_mul
  apply intervalIntegral.intervalIntegrable_rpow
  right
  rw [Set.mem_uIcc]
  rintro (⟨h, _⟩ | ⟨h, _⟩) <;> linarith

/-- first branch: exact integral -/
theorem loglogVal_pow {a m xl xu : ℝ} (ha : 0 < a) (hl : InRange xl) (hu : InRange xu) (hlu : xl < xu)
    (hyl : InRange (a * xl ^ m)) (hyu : InRange (a * xu ^ m)) (hm : 1 / 10 ^ 10 < |m + 1|) :
    loglogVal xl (a * xl ^ m) xu (a * xu ^ m) = ∫ x in xl..xu, a * x ^ m := by
  have hm1 : m + 1 ≠ 0 := by
    intro h; rw [h, abs_zero] at hm; norm_num at hm
  unfold loglogVal
  dsimp only
  rw [slope_eq ha hl hu hlu hyl hyu, if_neg, if_pos hm, integral_power hl.pos hu.pos
    (fun h => hm1 (by rw [h]; ring)), Real.div_rpow hu.pos.le hl.pos.le,
    Real.rpow_add hl.pos, Real.rpow_add hu.pos, Real.rpow_one, Real.rpow_one]
  · have h1 := (Real.rpow_pos_of_pos hl.pos m).ne'
    field_simp
  · rintro (h | h | h)
    · exact hyl.pos.ne' h
    · exact hyu.pos.ne' h
    · exact hlu.ne h

/-- second branch: the value is that of index -1 -/
theorem loglogVal_band {a m xl xu : ℝ} (ha : 0 < a) (hl : InRange xl) (hu : InRange xu) (hlu : xl < xu)
    (hyl : InRange (a * xl ^ m)) (hyu : InRange (a * xu ^ m)) (hr : xu / xl ≤ fmax)
    (hm : |m + 1| ≤ 1 / 10 ^ 10) :
    loglogVal xl (a * xl ^ m) xu (a * xu ^ m) = xl * (a * xl ^ m) * Real.log (xu / xl) := by
  unfold loglogVal
  dsimp only
  rw [slope_eq ha hl hu hlu hyl hyu, if_neg, if_neg (not_lt.2 hm), (inRange_ratio hl.pos hlu hr).log]
  rintro (h | h | h)
  · exact hyl.pos.ne' h
  · exact hyu.pos.ne' h
  · exact hlu.ne h

/-- `(r^e - 1)/e` against `log r` -/
theorem rpow_log_close {r e : ℝ} (hr : 0 < r) (he : e ≠ 0) (h : |e * Real.log r| ≤ 1) :
    |(r ^ e - 1) / e - Real.log r| ≤ |e| * Real.log r ^ 2 := by
  have h1 := Real.abs_exp_sub_one_sub_id_le h
  rw [Real.rpow_def_of_pos hr, mul_comm (Real.log r) e]
  have h2 : (Real.exp (e * Real.log r) - 1) / e - Real.log r
      = (Real.exp (e * Real.log r) - 1 - e * Real.log r) / e := by field_simp
  rw [h2, abs_div, div_le_iff₀ (abs_pos.2 he)]
  refine h1.trans (le_of_eq ?_)
  rw [mul_pow, ← sq_abs e]; ring

theorem log_fmax_le : Real.log fmax ≤ 1024 := by
  have h : fmax ≤ 2 ^ 1024 := sub_le_self _ (pow_nonneg (by norm_num) _)
  have h1 : Real.log fmax ≤ Real.log (2 ^ 1024) :=
    Real.log_le_log (by linarith [one_lt_fmax]) h
  rw [Real.log_pow] at h1
  have : Real.log 2 ≤ 1 := by
    have := Real.log_le_sub_one_of_pos (by norm_num : (0:ℝ) < 2)
    linarith
  push_cast at h1
  linarith

/-- second branch: relative error at most `1e-10 log (xu/xl)` -/
theorem loglogVal_band_close {a m xl xu : ℝ} (ha : 0 < a) (hl : InRange xl) (hu : InRange xu)
    (hlu : xl < xu) (hyl : InRange (a * xl ^ m)) (hyu : InRange (a * xu ^ m)) (hr : xu / xl ≤ fmax)
    (hm : |m + 1| ≤ 1 / 10 ^ 10) :
    |loglogVal xl (a * xl ^ m) xu (a * xu ^ m) - ∫ x in xl..xu, a * x ^ m|
      ≤ 1 / 10 ^ 10 * Real.log (xu / xl) * loglogVal xl (a * xl ^ m) xu (a * xu ^ m) := by
  rw [loglogVal_band ha hl hu hlu hyl hyu hr hm]
  have hl0 := hl.pos
  have hu0 := hu.pos
  have hr1 : 1 ≤ xu / xl := by rw [le_div_iff₀ hl0, one_mul]; exact hlu.le
  have hlog : 0 ≤ Real.log (xu / xl) := Real.log_nonneg hr1
  have hr0 : 0 < xu / xl := div_pos hu0 hl0
  by_cases hm1 : m = -1
  · subst hm1
    rw [integral_power_neg_one hl0 hu0, Real.rpow_neg_one]
    have : xl * (a * xl⁻¹) * Real.log (xu / xl) - a * Real.log (xu / xl) = 0 := by
      field_simp; ring
    rw [this, abs_zero]
    positivity
  · have he : m + 1 ≠ 0 := fun h => hm1 (by linarith)
    rw [integral_power hl0 hu0 hm1]
    have e1 : a * ((xu ^ (m + 1) - xl ^ (m + 1)) / (m + 1))
        = xl * (a * xl ^ m) * (((xu / xl) ^ (m + 1) - 1) / (m + 1)) := by
      rw [Real.div_rpow hu0.le hl0.le, Real.rpow_add hl0, Real.rpow_one]
      have h1 := (Real.rpow_pos_of_pos hl0 m).ne'
      field_simp
    have hp : 0 < xl * (a * xl ^ m) := mul_pos hl0 (mul_pos ha (Real.rpow_pos_of_pos hl0 m))
    rw [e1, ← mul_sub, abs_mul, abs_of_pos hp]
    have hb : |(m + 1) * Real.log (xu / xl)| ≤ 1 := by
      rw [abs_mul, abs_of_nonneg hlog]
      have h1 : Real.log (xu / xl) ≤ 1024 := (Real.log_le_log hr0 hr).trans log_fmax_le
      calc |m + 1| * Real.log (xu / xl) ≤ 1 / 10 ^ 10 * 1024 :=
            mul_le_mul hm h1 hlog (by norm_num)
        _ ≤ 1 := by norm_num
    have h2 := rpow_log_close hr0 he hb
    rw [abs_sub_comm]
    calc xl * (a * xl ^ m) * |((xu / xl) ^ (m + 1) - 1) / (m + 1) - Real.log (xu / xl)|
        ≤ xl * (a * xl ^ m) * (|m + 1| * Real.log (xu / xl) ^ 2) :=
          mul_le_mul_of_nonneg_left h2 hp.le
      _ ≤ xl * (a * xl ^ m) * (1 / 10 ^ 10 * Real.log (xu / xl) ^ 2) := by
          apply mul_le_mul_of_nonneg_left _ hp.le
          exact mul_le_mul_of_nonneg_right hm (sq_nonneg _)
      _ = _ := by ring

end Verif.MathUtils
