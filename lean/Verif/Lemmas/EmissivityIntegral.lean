import Mathlib.Analysis.SpecialFunctions.Integrals.Basic
import Mathlib.Analysis.SpecialFunctions.ImproperIntegrals
import Mathlib.Analysis.Complex.ExponentialBounds
import Verif.Props.SynchShape

/-
The integral of the function `R` of the synchrotron emission: bounds by step functions on the nodes `(i/8)³`.
-/

noncomputable section

namespace Verif.Synchrotron

open MeasureTheory

/-- `R` without its exponential, by the cubic root of the argument -/
def shapeU (u : ℝ) : ℝ :=
  1808 / 1000 * u / √(1 + 34 / 10 * u ^ 2)
    * ((1 + 221 / 100 * u ^ 2 + 347 / 1000 * u ^ 4) / (1 + 1353 / 1000 * u ^ 2 + 217 / 1000 * u ^ 4))

theorem R_cube {u : ℝ} (hu : 0 ≤ u) : R (u ^ 3) = shapeU u * Real.exp (-u ^ 3) := by
  have h1 : (u ^ 3) ^ (1 / 3 : ℝ) = u := by
    rw [← Real.rpow_natCast, ← Real.rpow_mul hu]; norm_num
  have h2 : (u ^ 3) ^ (2 / 3 : ℝ) = u ^ 2 := by
    rw [← Real.rpow_natCast, ← Real.rpow_mul hu, ← Real.rpow_natCast]; norm_num
  have h4 : (u ^ 3) ^ (4 / 3 : ℝ) = u ^ 4 := by
    rw [← Real.rpow_natCast, ← Real.rpow_mul hu, ← Real.rpow_natCast]; norm_num
  unfold R shapeU
  dsimp only
  rw [h1, h2, h4, mul_div_assoc]

theorem shapeU_nonneg {u : ℝ} (hu : 0 ≤ u) : 0 ≤ shapeU u := by unfold shapeU; positivity

theorem shapeU_mono {u v : ℝ} (hu : 0 ≤ u) (huv : u ≤ v) (hv : v ≤ 2) : shapeU u ≤ shapeU v := by
  have hv0 := hu.trans huv
  have hsq : u ^ 2 ≤ v ^ 2 := pow_le_pow_left₀ hu huv 2
  have hv4 : v ^ 2 ≤ 4 := by nlinarith
  unfold shapeU
  refine mul_le_mul ?_ ?_ (by positivity) (by positivity)
  · have hs : 0 < √(1 + 34 / 10 * u ^ 2) := Real.sqrt_pos.2 (by positivity)
    have ht : 0 < √(1 + 34 / 10 * v ^ 2) := Real.sqrt_pos.2 (by positivity)
    rw [div_le_div_iff₀ hs ht]
    have e : u * √(1 + 34 / 10 * v ^ 2) ≤ v * √(1 + 34 / 10 * u ^ 2) := by
      rw [← abs_of_nonneg (show 0 ≤ u * √(1 + 34 / 10 * v ^ 2) by positivity),
        ← abs_of_nonneg (show 0 ≤ v * √(1 + 34 / 10 * u ^ 2) by positivity), ← sq_le_sq, mul_pow, mul_pow,
        Real.sq_sqrt (by positivity), Real.sq_sqrt (by positivity)]
      nlinarith
    nlinarith
  · rw [show u ^ 4 = (u ^ 2) ^ 2 by ring, show v ^ 4 = (v ^ 2) ^ 2 by ring]
    have a0 : 0 ≤ u ^ 2 := sq_nonneg u
    generalize u ^ 2 = a at *
    generalize v ^ 2 = b at *
    have b0 : 0 ≤ b := a0.trans hsq
    rw [div_le_div_iff₀ (by positivity) (by positivity)]
    have e : (1 + 221 / 100 * b + 347 / 1000 * b ^ 2) * (1 + 1353 / 1000 * a + 217 / 1000 * a ^ 2)
        - (1 + 221 / 100 * a + 347 / 1000 * a ^ 2) * (1 + 1353 / 1000 * b + 217 / 1000 * b ^ 2)
        = (b - a) * (857 / 1000 + 130 / 1000 * (a + b) + (347 / 1000 * 1353 / 1000 - 221 / 100 * 217 / 1000) * (a * b)) := by
      ring
    have h : 0 ≤ 857 / 1000 + 130 / 1000 * (a + b) + (347 / 1000 * 1353 / 1000 - 221 / 100 * 217 / 1000) * (a * b) := by
      have : a * b ≤ 16 := by nlinarith
      nlinarith [mul_nonneg a0 b0]
    nlinarith [mul_nonneg (sub_nonneg.2 hsq) h]

theorem shapeU_ge {u s g : ℝ} (hu : 0 ≤ u) (hs : 0 < s) (h : 1 + 34 / 10 * u ^ 2 ≤ s ^ 2)
    (hg : g * (s * (1 + 1353 / 1000 * u ^ 2 + 217 / 1000 * u ^ 4))
      ≤ 1808 / 1000 * u * (1 + 221 / 100 * u ^ 2 + 347 / 1000 * u ^ 4)) : g ≤ shapeU u := by
  have hq : 0 < √(1 + 34 / 10 * u ^ 2) := Real.sqrt_pos.2 (by positivity)
  have hle : √(1 + 34 / 10 * u ^ 2) ≤ s := Real.sqrt_le_iff.2 ⟨hs.le, h⟩
  have h1 : g ≤ 1808 / 1000 * u / s
      * ((1 + 221 / 100 * u ^ 2 + 347 / 1000 * u ^ 4) / (1 + 1353 / 1000 * u ^ 2 + 217 / 1000 * u ^ 4)) := by
    rw [div_mul_div_comm, le_div_iff₀ (by positivity)]; exact hg
  refine h1.trans ?_
  unfold shapeU
  refine mul_le_mul_of_nonneg_right ?_ (by positivity)
  exact div_le_div_of_nonneg_left (by positivity) hq hle

theorem shapeU_le {u s g : ℝ} (hu : 0 ≤ u) (hs : 0 < s) (h : s ^ 2 ≤ 1 + 34 / 10 * u ^ 2)
    (hg : 1808 / 1000 * u * (1 + 221 / 100 * u ^ 2 + 347 / 1000 * u ^ 4)
      ≤ g * (s * (1 + 1353 / 1000 * u ^ 2 + 217 / 1000 * u ^ 4))) : shapeU u ≤ g := by
  have hle : s ≤ √(1 + 34 / 10 * u ^ 2) := Real.le_sqrt_of_sq_le h
  have h1 : 1808 / 1000 * u / s
      * ((1 + 221 / 100 * u ^ 2 + 347 / 1000 * u ^ 4) / (1 + 1353 / 1000 * u ^ 2 + 217 / 1000 * u ^ 4)) ≤ g := by
    rw [div_mul_div_comm, div_le_iff₀ (by positivity)]; exact hg
  refine le_trans ?_ h1
  unfold shapeU
  refine mul_le_mul_of_nonneg_right ?_ (by positivity)
  exact div_le_div_of_nonneg_left (by positivity) hs hle

theorem continuousOn_R : ContinuousOn R (Set.Ici 0) := by
  intro x hx
  have hx0 : 0 ≤ x := hx
  have c1 : ContinuousAt (fun x : ℝ => x ^ (1 / 3 : ℝ)) x := Real.continuousAt_rpow_const _ _ (Or.inr (by norm_num))
  have c2 : ContinuousAt (fun x : ℝ => x ^ (2 / 3 : ℝ)) x := Real.continuousAt_rpow_const _ _ (Or.inr (by norm_num))
  have c4 : ContinuousAt (fun x : ℝ => x ^ (4 / 3 : ℝ)) x := Real.continuousAt_rpow_const _ _ (Or.inr (by norm_num))
  have n1 : √(1 + 34 / 10 * x ^ (2 / 3 : ℝ)) ≠ 0 := (Real.sqrt_pos.2 (by positivity)).ne'
  have n2 : 1 + 1353 / 1000 * x ^ (2 / 3 : ℝ) + 217 / 1000 * x ^ (4 / 3 : ℝ) ≠ 0 := by positivity
  apply ContinuousAt.continuousWithinAt
  unfold R
  dsimp only
  fun_prop (disch := assumption)

theorem integrable_R : IntegrableOn R (Set.Ioi 0) := by
  refine Integrable.mono' ((integrableOn_exp_neg_Ioi 0).const_mul 2)
    ((continuousOn_R.mono Set.Ioi_subset_Ici_self).aestronglyMeasurable measurableSet_Ioi) ?_
  rw [ae_restrict_iff' measurableSet_Ioi]
  refine Filter.Eventually.of_forall fun x hx => ?_
  have hx0 : (0 : ℝ) ≤ x := (Set.mem_Ioi.1 hx).le
  rw [Real.norm_of_nonneg (R_nonneg hx0)]
  exact R_le hx0

theorem interval_R {a b : ℝ} (ha : 0 ≤ a) (hab : a ≤ b) : IntervalIntegrable R MeasureTheory.volume a b := by
  apply ContinuousOn.intervalIntegrable
  rw [Set.uIcc_of_le hab]
  exact continuousOn_R.mono fun x hx => ha.trans hx.1

theorem integral_decay {a b : ℝ} : ∫ x in a..b, Real.exp (-x) = Real.exp (-a) - Real.exp (-b) := by
  rw [intervalIntegral.integral_comp_neg Real.exp, _root_.integral_exp]

/-- one step -/
theorem step_R {u v : ℝ} (hu : 0 ≤ u) (huv : u ≤ v) (hv : v ≤ 2) :
    shapeU u * (Real.exp (-u ^ 3) - Real.exp (-v ^ 3)) ≤ ∫ x in u ^ 3..v ^ 3, R x
    ∧ ∫ x in u ^ 3..v ^ 3, R x ≤ shapeU v * (Real.exp (-u ^ 3) - Real.exp (-v ^ 3)) := by
  have h0 : (0 : ℝ) ≤ u ^ 3 := by positivity
  have hle : u ^ 3 ≤ v ^ 3 := pow_le_pow_left₀ hu huv 3
  have hi := interval_R h0 hle
  have he : IntervalIntegrable (fun x : ℝ => Real.exp (-x)) MeasureTheory.volume (u ^ 3) (v ^ 3) := by
    apply Continuous.intervalIntegrable; fun_prop
  have key : ∀ x ∈ Set.Icc (u ^ 3) (v ^ 3), shapeU u * Real.exp (-x) ≤ R x ∧ R x ≤ shapeU v * Real.exp (-x) := by
    intro x hx
    have hx0 : 0 ≤ x := h0.trans hx.1
    obtain ⟨t, ht0, rfl⟩ : ∃ t : ℝ, 0 ≤ t ∧ t ^ 3 = x :=
      ⟨x ^ (1 / 3 : ℝ), by positivity, by rw [← Real.rpow_natCast, ← Real.rpow_mul hx0]; norm_num⟩
    have h1 : u ≤ t := le_of_pow_le_pow_left₀ (by norm_num) ht0 hx.1
    have h2 : t ≤ v := le_of_pow_le_pow_left₀ (by norm_num) (hu.trans huv) hx.2
    rw [R_cube ht0]
    exact ⟨mul_le_mul_of_nonneg_right (shapeU_mono hu h1 (h2.trans hv)) (Real.exp_pos _).le,
      mul_le_mul_of_nonneg_right (shapeU_mono ht0 h2 hv) (Real.exp_pos _).le⟩
  rw [← integral_decay, ← intervalIntegral.integral_const_mul, ← intervalIntegral.integral_const_mul]
  exact ⟨intervalIntegral.integral_mono_on hle (he.const_mul _) hi fun x hx => (key x hx).1,
    intervalIntegral.integral_mono_on hle hi (he.const_mul _) fun x hx => (key x hx).2⟩

/-- the exponential at the nodes -/
def decay (i : ℕ) : ℝ := Real.exp (-((i : ℝ) / 8) ^ 3)

theorem decay_bounds (i q r : ℕ) (h : i ^ 3 = 128 * q + r) :
    (7788 / 10000 : ℝ) ^ q * (511 / 512 : ℝ) ^ r ≤ decay i
    ∧ decay i ≤ (778801 / 1000000 : ℝ) ^ q * (523265 / 524288 : ℝ) ^ r := by
  have e : decay i = Real.exp (-(1 / 4)) ^ q * Real.exp (-(1 / 512)) ^ r := by
    unfold decay
    rw [← Real.exp_nat_mul, ← Real.exp_nat_mul, ← Real.exp_add]
    congr 1
    have : (i : ℝ) ^ 3 = 128 * q + r := by exact_mod_cast h
    rw [div_pow, this]
    ring
  have h1 : (511 / 512 : ℝ) ≤ Real.exp (-(1 / 512)) := by
    have := Real.add_one_le_exp (-(1 / 512 : ℝ))
    linarith
  have h2 : Real.exp (-(1 / 512)) ≤ (523265 / 524288 : ℝ) := by
    have h := Real.quadratic_le_exp_of_nonneg (show (0 : ℝ) ≤ 1 / 512 by norm_num)
    have hp := Real.exp_pos (1 / 512 : ℝ)
    rw [Real.exp_neg, inv_le_comm₀ hp (by norm_num)]
    refine le_trans ?_ h
    norm_num
  have e4 : Real.exp (-(1 / 4)) ^ 4 = Real.exp (-1) := by
    rw [← Real.exp_nat_mul]; norm_num
  have p4 := (Real.exp_pos (-(1 / 4 : ℝ))).le
  have h3 : (7788 / 10000 : ℝ) ≤ Real.exp (-(1 / 4)) := by
    refine le_of_pow_le_pow_left₀ (n := 4) (by norm_num) p4 ?_
    rw [e4]
    have := Real.exp_neg_one_gt_d9
    norm_num at this ⊢
    linarith
  have h4 : Real.exp (-(1 / 4)) ≤ (778801 / 1000000 : ℝ) := by
    refine le_of_pow_le_pow_left₀ (n := 4) (by norm_num) (by norm_num) ?_
    rw [e4]
    have := Real.exp_neg_one_lt_d9
    norm_num at this ⊢
    linarith
  rw [e]
  exact ⟨mul_le_mul (pow_le_pow_left₀ (by norm_num) h3 _) (pow_le_pow_left₀ (by norm_num) h1 _) (by positivity)
      (by positivity),
    mul_le_mul (pow_le_pow_left₀ p4 h4 _) (pow_le_pow_left₀ (Real.exp_pos _).le h2 _) (by positivity) (by positivity)⟩

theorem node_1 : 2789 / 12500 ≤ shapeU (1 / 8) ∧ shapeU (1 / 8) ≤ 22313 / 100000 :=
  ⟨shapeU_ge (s := 1026219 / 1000000) (by norm_num) (by norm_num) (by norm_num) (by norm_num),
    shapeU_le (s := 513109 / 500000) (by norm_num) (by norm_num) (by norm_num) (by norm_num)⟩

theorem node_2 : 43093 / 100000 ≤ shapeU (2 / 8) ∧ shapeU (2 / 8) ≤ 21547 / 50000 :=
  ⟨shapeU_ge (s := 68821 / 62500) (by norm_num) (by norm_num) (by norm_num) (by norm_num),
    shapeU_le (s := 220227 / 200000) (by norm_num) (by norm_num) (by norm_num) (by norm_num)⟩

theorem node_3 : 7689 / 12500 ≤ shapeU (3 / 8) ∧ shapeU (3 / 8) ≤ 61513 / 100000 :=
  ⟨shapeU_ge (s := 607891 / 500000) (by norm_num) (by norm_num) (by norm_num) (by norm_num),
    shapeU_le (s := 1215781 / 1000000) (by norm_num) (by norm_num) (by norm_num) (by norm_num)⟩

theorem node_4 : 19349 / 25000 ≤ shapeU (4 / 8) ∧ shapeU (4 / 8) ≤ 77397 / 100000 :=
  ⟨shapeU_ge (s := 340037 / 250000) (by norm_num) (by norm_num) (by norm_num) (by norm_num),
    shapeU_le (s := 1360147 / 1000000) (by norm_num) (by norm_num) (by norm_num) (by norm_num)⟩

theorem node_5 : 727 / 800 ≤ shapeU (5 / 8) ∧ shapeU (5 / 8) ≤ 22719 / 25000 :=
  ⟨shapeU_ge (s := 76291 / 50000) (by norm_num) (by norm_num) (by norm_num) (by norm_num),
    shapeU_le (s := 1525819 / 1000000) (by norm_num) (by norm_num) (by norm_num) (by norm_num)⟩

theorem node_6 : 4087 / 4000 ≤ shapeU (6 / 8) ∧ shapeU (6 / 8) ≤ 3193 / 3125 :=
  ⟨shapeU_ge (s := 341321 / 200000) (by norm_num) (by norm_num) (by norm_num) (by norm_num),
    shapeU_le (s := 426651 / 250000) (by norm_num) (by norm_num) (by norm_num) (by norm_num)⟩

theorem node_7 : 111559 / 100000 ≤ shapeU (7 / 8) ∧ shapeU (7 / 8) ≤ 2789 / 2500 :=
  ⟨shapeU_ge (s := 189819 / 100000) (by norm_num) (by norm_num) (by norm_num) (by norm_num),
    shapeU_le (s := 1898189 / 1000000) (by norm_num) (by norm_num) (by norm_num) (by norm_num)⟩

theorem node_8 : 23859 / 20000 ≤ shapeU (8 / 8) ∧ shapeU (8 / 8) ≤ 3728 / 3125 :=
  ⟨shapeU_ge (s := 1048809 / 500000) (by norm_num) (by norm_num) (by norm_num) (by norm_num),
    shapeU_le (s := 2097617 / 1000000) (by norm_num) (by norm_num) (by norm_num) (by norm_num)⟩

theorem node_9 : 125643 / 100000 ≤ shapeU (9 / 8) ∧ shapeU (9 / 8) ≤ 31411 / 25000 :=
  ⟨shapeU_ge (s := 575713 / 250000) (by norm_num) (by norm_num) (by norm_num) (by norm_num),
    shapeU_le (s := 2302851 / 1000000) (by norm_num) (by norm_num) (by norm_num) (by norm_num)⟩

theorem node_10 : 65421 / 50000 ≤ shapeU (10 / 8) ∧ shapeU (10 / 8) ≤ 130843 / 100000 :=
  ⟨shapeU_ge (s := 2512469 / 1000000) (by norm_num) (by norm_num) (by norm_num) (by norm_num),
    shapeU_le (s := 628117 / 250000) (by norm_num) (by norm_num) (by norm_num) (by norm_num)⟩

theorem node_11 : 135097 / 100000 ≤ shapeU (11 / 8) ∧ shapeU (11 / 8) ≤ 67549 / 50000 :=
  ⟨shapeU_ge (s := 2725459 / 1000000) (by norm_num) (by norm_num) (by norm_num) (by norm_num),
    shapeU_le (s := 1362729 / 500000) (by norm_num) (by norm_num) (by norm_num) (by norm_num)⟩

theorem node_12 : 17323 / 12500 ≤ shapeU (12 / 8) ∧ shapeU (12 / 8) ≤ 27717 / 20000 :=
  ⟨shapeU_ge (s := 2941089 / 1000000) (by norm_num) (by norm_num) (by norm_num) (by norm_num),
    shapeU_le (s := 91909 / 31250) (by norm_num) (by norm_num) (by norm_num) (by norm_num)⟩

theorem node_13 : 17681 / 12500 ≤ shapeU (13 / 8) ∧ shapeU (13 / 8) ≤ 141449 / 100000 :=
  ⟨shapeU_ge (s := 1579409 / 500000) (by norm_num) (by norm_num) (by norm_num) (by norm_num),
    shapeU_le (s := 3158817 / 1000000) (by norm_num) (by norm_num) (by norm_num) (by norm_num)⟩

theorem node_14 : 71903 / 50000 ≤ shapeU (14 / 8) ∧ shapeU (14 / 8) ≤ 143807 / 100000 :=
  ⟨shapeU_ge (s := 10557 / 3125) (by norm_num) (by norm_num) (by norm_num) (by norm_num),
    shapeU_le (s := 3378239 / 1000000) (by norm_num) (by norm_num) (by norm_num) (by norm_num)⟩

theorem node_15 : 29151 / 20000 ≤ shapeU (15 / 8) ∧ shapeU (15 / 8) ≤ 36439 / 25000 :=
  ⟨shapeU_ge (s := 1799523 / 500000) (by norm_num) (by norm_num) (by norm_num) (by norm_num),
    shapeU_le (s := 719809 / 200000) (by norm_num) (by norm_num) (by norm_num) (by norm_num)⟩

theorem node_16 : 147371 / 100000 ≤ shapeU (16 / 8) ∧ shapeU (16 / 8) ≤ 36843 / 25000 :=
  ⟨shapeU_ge (s := 764199 / 200000) (by norm_num) (by norm_num) (by norm_num) (by norm_num),
    shapeU_le (s := 1910497 / 500000) (by norm_num) (by norm_num) (by norm_num) (by norm_num)⟩

theorem decay_1 : 499023/500000 ≤ decay 1 ∧ decay 1 ≤ 998049/1000000 := by
  have := decay_bounds 1 0 1 (by norm_num)
  exact ⟨le_trans (by norm_num) this.1, this.2.trans (by norm_num)⟩

theorem decay_2 : 984481/1000000 ≤ decay 2 ∧ decay 2 ≤ 984497/1000000 := by
  have := decay_bounds 2 0 8 (by norm_num)
  exact ⟨le_trans (by norm_num) this.1, this.2.trans (by norm_num)⟩

theorem decay_3 : 948583/1000000 ≤ decay 3 ∧ decay 3 ≤ 118579/125000 := by
  have := decay_bounds 3 0 27 (by norm_num)
  exact ⟨le_trans (by norm_num) this.1, this.2.trans (by norm_num)⟩

theorem decay_4 : 882389/1000000 ≤ decay 4 ∧ decay 4 ≤ 882497/1000000 := by
  have := decay_bounds 4 0 64 (by norm_num)
  exact ⟨le_trans (by norm_num) this.1, this.2.trans (by norm_num)⟩

theorem decay_5 : 78319/100000 ≤ decay 5 ∧ decay 5 ≤ 391689/500000 := by
  have := decay_bounds 5 0 125 (by norm_num)
  exact ⟨le_trans (by norm_num) this.1, this.2.trans (by norm_num)⟩

theorem decay_6 : 131141/200000 ≤ decay 6 ∧ decay 6 ≤ 655817/1000000 := by
  have := decay_bounds 6 1 88 (by norm_num)
  exact ⟨le_trans (by norm_num) this.1, this.2.trans (by norm_num)⟩

theorem decay_7 : 255831/500000 ≤ decay 7 ∧ decay 7 ≤ 511749/1000000 := by
  have := decay_bounds 7 2 87 (by norm_num)
  exact ⟨le_trans (by norm_num) this.1, this.2.trans (by norm_num)⟩

theorem decay_8 : 367877/1000000 ≤ decay 8 ∧ decay 8 ≤ 9197/25000 := by
  have := decay_bounds 8 4 0 (by norm_num)
  exact ⟨le_trans (by norm_num) this.1, this.2.trans (by norm_num)⟩

theorem decay_9 : 60187/250000 ≤ decay 9 ∧ decay 9 ≤ 240791/1000000 := by
  have := decay_bounds 9 5 89 (by norm_num)
  exact ⟨le_trans (by norm_num) this.1, this.2.trans (by norm_num)⟩

theorem decay_10 : 709/5000 ≤ decay 10 ∧ decay 10 ≤ 141831/1000000 := by
  have := decay_bounds 10 7 104 (by norm_num)
  exact ⟨le_trans (by norm_num) this.1, this.2.trans (by norm_num)⟩

theorem decay_11 : 37147/500000 ≤ decay 11 ∧ decay 11 ≤ 74303/1000000 := by
  have := decay_bounds 11 10 51 (by norm_num)
  exact ⟨le_trans (by norm_num) this.1, this.2.trans (by norm_num)⟩

theorem decay_12 : 34213/1000000 ≤ decay 12 ∧ decay 12 ≤ 34219/1000000 := by
  have := decay_bounds 12 13 64 (by norm_num)
  exact ⟨le_trans (by norm_num) this.1, this.2.trans (by norm_num)⟩

theorem decay_13 : 1369/100000 ≤ decay 13 ∧ decay 13 ≤ 3423/250000 := by
  have := decay_bounds 13 17 21 (by norm_num)
  exact ⟨le_trans (by norm_num) this.1, this.2.trans (by norm_num)⟩

theorem decay_14 : 4703/1000000 ≤ decay 14 ∧ decay 14 ≤ 147/31250 := by
  have := decay_bounds 14 21 56 (by norm_num)
  exact ⟨le_trans (by norm_num) this.1, this.2.trans (by norm_num)⟩

theorem decay_15 : 1371/1000000 ≤ decay 15 ∧ decay 15 ≤ 343/250000 := by
  have := decay_bounds 15 26 47 (by norm_num)
  exact ⟨le_trans (by norm_num) this.1, this.2.trans (by norm_num)⟩

theorem decay_16 : 67/200000 ≤ decay 16 ∧ decay 16 ≤ 21/62500 := by
  have := decay_bounds 16 32 0 (by norm_num)
  exact ⟨le_trans (by norm_num) this.1, this.2.trans (by norm_num)⟩

/-- the integral of `R` between two nodes -/
def cell (i : ℕ) : ℝ := ∫ x in ((i : ℝ) / 8) ^ 3..(((i + 1 : ℕ) : ℝ) / 8) ^ 3, R x

theorem decay_step (i : ℕ) : 0 ≤ decay i - decay (i + 1) := by
  unfold decay
  rw [sub_nonneg, Real.exp_le_exp, neg_le_neg_iff]
  refine pow_le_pow_left₀ (by positivity) ?_ 3
  push_cast
  linarith

theorem cell_bounds (i : ℕ) (hi : i < 16) {g g' : ℝ} (hg : g ≤ shapeU ((i : ℝ) / 8))
    (hg' : shapeU (((i + 1 : ℕ) : ℝ) / 8) ≤ g') :
    g * (decay i - decay (i + 1)) ≤ cell i ∧ cell i ≤ g' * (decay i - decay (i + 1)) := by
  have h : ((i + 1 : ℕ) : ℝ) ≤ 16 := by exact_mod_cast hi
  have hs := step_R (u := (i : ℝ) / 8) (v := ((i + 1 : ℕ) : ℝ) / 8) (by positivity)
    (by push_cast; linarith) (by linarith)
  exact ⟨(mul_le_mul_of_nonneg_right hg (decay_step i)).trans hs.1,
    hs.2.trans (mul_le_mul_of_nonneg_right hg' (decay_step i))⟩

/-- the integral of `R` -/
theorem integral_R : 1025 / 1000 ≤ ∫ x in Set.Ioi 0, R x ∧ ∫ x in Set.Ioi 0, R x ≤ 1119 / 1000 := by
  have hsum := intervalIntegral.sum_integral_adjacent_intervals (f := R) (μ := MeasureTheory.volume)
    (a := fun i : ℕ => ((i : ℝ) / 8) ^ 3) (n := 16) (fun i _ => interval_R (by positivity)
      (pow_le_pow_left₀ (by positivity) (by push_cast; linarith) 3))
  have h8 : (((16 : ℕ) : ℝ) / 8) ^ 3 = 8 := by norm_num
  have h0 : (((0 : ℕ) : ℝ) / 8) ^ 3 = 0 := by norm_num
  rw [h8, h0] at hsum
  have hI8 : IntegrableOn R (Set.Ioi 8) := integrable_R.mono_set (Set.Ioi_subset_Ioi (by norm_num))
  have hsplit := intervalIntegral.integral_interval_add_Ioi integrable_R hI8
  have ht0 : 0 ≤ ∫ x in Set.Ioi 8, R x :=
    setIntegral_nonneg measurableSet_Ioi fun x hx => R_nonneg (le_trans (by norm_num) (le_of_lt (Set.mem_Ioi.1 hx)))
  have ht1 : ∫ x in Set.Ioi 8, R x ≤ 2 * decay 16 := by
    have e : 2 * decay 16 = ∫ x in Set.Ioi (8 : ℝ), 2 * Real.exp (-x) := by
      rw [integral_const_mul, integral_exp_neg_Ioi]
      unfold decay
      norm_num
    rw [e]
    exact setIntegral_mono_on hI8 ((integrableOn_exp_neg_Ioi 8).const_mul 2) measurableSet_Ioi
      fun x hx => R_le (le_trans (by norm_num) (le_of_lt (Set.mem_Ioi.1 hx)))
  have d0 : decay 0 = 1 := by simp [decay]
  have b0 := cell_bounds 0 (by norm_num) (g := 0) (shapeU_nonneg (by positivity)) (by push_cast; norm_num only; first | exact node_1.2 | (have := node_1.2; norm_num only at this ⊢; exact this))
  have b1 := cell_bounds 1 (by norm_num) (by push_cast; exact node_1.1) (by push_cast; norm_num only; first | exact node_2.2 | (have := node_2.2; norm_num only at this ⊢; exact this))
  have b2 := cell_bounds 2 (by norm_num) (by push_cast; exact node_2.1) (by push_cast; norm_num only; first | exact node_3.2 | (have := node_3.2; norm_num only at this ⊢; exact this))
  have b3 := cell_bounds 3 (by norm_num) (by push_cast; exact node_3.1) (by push_cast; norm_num only; first | exact node_4.2 | (have := node_4.2; norm_num only at this ⊢; exact this))
  have b4 := cell_bounds 4 (by norm_num) (by push_cast; exact node_4.1) (by push_cast; norm_num only; first | exact node_5.2 | (have := node_5.2; norm_num only at this ⊢; exact this))
  have b5 := cell_bounds 5 (by norm_num) (by push_cast; exact node_5.1) (by push_cast; norm_num only; first | exact node_6.2 | (have := node_6.2; norm_num only at this ⊢; exact this))
  have b6 := cell_bounds 6 (by norm_num) (by push_cast; exact node_6.1) (by push_cast; norm_num only; first | exact node_7.2 | (have := node_7.2; norm_num only at this ⊢; exact this))
  have b7 := cell_bounds 7 (by norm_num) (by push_cast; exact node_7.1) (by push_cast; norm_num only; first | exact node_8.2 | (have := node_8.2; norm_num only at this ⊢; exact this))
  have b8 := cell_bounds 8 (by norm_num) (by push_cast; exact node_8.1) (by push_cast; norm_num only; first | exact node_9.2 | (have := node_9.2; norm_num only at this ⊢; exact this))
  have b9 := cell_bounds 9 (by norm_num) (by push_cast; exact node_9.1) (by push_cast; norm_num only; first | exact node_10.2 | (have := node_10.2; norm_num only at this ⊢; exact this))
  have b10 := cell_bounds 10 (by norm_num) (by push_cast; exact node_10.1) (by push_cast; norm_num only; first | exact node_11.2 | (have := node_11.2; norm_num only at this ⊢; exact this))
  have b11 := cell_bounds 11 (by norm_num) (by push_cast; exact node_11.1) (by push_cast; norm_num only; first | exact node_12.2 | (have := node_12.2; norm_num only at this ⊢; exact this))
  have b12 := cell_bounds 12 (by norm_num) (by push_cast; exact node_12.1) (by push_cast; norm_num only; first | exact node_13.2 | (have := node_13.2; norm_num only at this ⊢; exact this))
  have b13 := cell_bounds 13 (by norm_num) (by push_cast; exact node_13.1) (by push_cast; norm_num only; first | exact node_14.2 | (have := node_14.2; norm_num only at this ⊢; exact this))
  have b14 := cell_bounds 14 (by norm_num) (by push_cast; exact node_14.1) (by push_cast; norm_num only; first | exact node_15.2 | (have := node_15.2; norm_num only at this ⊢; exact this))
  have b15 := cell_bounds 15 (by norm_num) (by push_cast; exact node_15.1) (by push_cast; norm_num only; first | exact node_16.2 | (have := node_16.2; norm_num only at this ⊢; exact this))
  have hcells : ∑ i ∈ Finset.range 16, cell i = ∫ x in (0 : ℝ)..8, R x := hsum
  rw [← hsplit, ← hcells]
  simp only [Finset.sum_range_succ, Finset.sum_range_zero, zero_add]
  have := decay_1
  have := decay_2
  have := decay_3
  have := decay_4
  have := decay_5
  have := decay_6
  have := decay_7
  have := decay_8
  have := decay_9
  have := decay_10
  have := decay_11
  have := decay_12
  have := decay_13
  have := decay_14
  have := decay_15
  have := decay_16
  constructor
  · linarith
  · linarith

end Verif.Synchrotron
