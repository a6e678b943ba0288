import Mathlib.Data.List.Pairwise
import Mathlib.Data.List.Chain
import Mathlib.Data.List.GetD
import Mathlib.Algebra.BigOperators.Group.List.Basic
import Mathlib.Analysis.Calculus.MeanValue
import Verif.Lemmas.MathUtils

/-
C31 `trapz_loglog` on power laws, C32 `power_law_integral`, C33 quadrature rules, C34 `axes_reshaper`.
-/

namespace Verif.MathUtils

/-! ### C33 -/

/-- C33: log-log quadrature of non-negative samples on a positive increasing grid is non-negative -/
theorem C33_loglog_nonneg (ys xs : List ℝ) (hx : xs.IsChain (· ≤ ·)) (hpos : ∀ x ∈ xs, 0 < x)
    (hy : ∀ y ∈ ys, 0 ≤ y) : 0 ≤ trapzLoglog ys xs := by
  induction xs generalizing ys with
  | nil => rcases ys with _ | ⟨_, _ | ⟨_, _⟩⟩ <;> simp [trapzLoglog]
  | cons a xs ih =>
    rcases xs with _ | ⟨b, xs⟩
    · rcases ys with _ | ⟨_, _ | ⟨_, _⟩⟩ <;> simp [trapzLoglog]
    · rcases ys with _ | ⟨u, _ | ⟨v, ys⟩⟩
      · simp [trapzLoglog]
      · simp [trapzLoglog]
      · simp only [trapzLoglog]
        rw [List.isChain_cons_cons] at hx
        exact add_nonneg (loglogVal_nonneg (hpos a (by simp)) hx.1 (hy u (by simp)))
          (ih (v :: ys) hx.2 (fun x hx => hpos x (List.mem_cons_of_mem _ hx))
            (fun y h => hy y (List.mem_cons_of_mem _ h)))

/-- C33: `np.trapz` of non-negative samples on an increasing grid is non-negative -/
theorem C33_trapz_nonneg (ys xs : List ℝ) (hx : xs.IsChain (· ≤ ·)) (hy : ∀ y ∈ ys, 0 ≤ y) :
    0 ≤ trapz ys xs := by
  induction xs generalizing ys with
  | nil => rcases ys with _ | ⟨_, _ | ⟨_, _⟩⟩ <;> simp [trapz]
  | cons a xs ih =>
    rcases xs with _ | ⟨b, xs⟩
    · rcases ys with _ | ⟨_, _ | ⟨_, _⟩⟩ <;> simp [trapz]
    · rcases ys with _ | ⟨u, _ | ⟨v, ys⟩⟩
      · simp [trapz]
      · simp [trapz]
      · simp only [trapz]
        rw [List.isChain_cons_cons] at hx
        have h1 := hy u (by simp)
        have h2 := hy v (by simp)
        refine add_nonneg (div_nonneg (mul_nonneg (sub_nonneg.2 hx.1) (add_nonneg h1 h2)) (by norm_num))
          (ih (v :: ys) hx.2 (fun y h => hy y (List.mem_cons_of_mem _ h)))

/-- C33: larger samples give a larger `np.trapz` -/
theorem C33_trapz_mono (f g : ℝ → ℝ) (xs : List ℝ) (hx : xs.IsChain (· ≤ ·)) (h : ∀ x ∈ xs, f x ≤ g x) :
    trapz (xs.map f) xs ≤ trapz (xs.map g) xs := by
  induction xs with
  | nil => simp [trapz]
  | cons a xs ih =>
    rcases xs with _ | ⟨b, xs⟩
    · simp [trapz]
    · simp only [List.map_cons, trapz] at ih ⊢
      rw [List.isChain_cons_cons] at hx
      have h1 := h a (by simp)
      have h2 := h b (by simp)
      have := ih hx.2 (fun x hx => h x (List.mem_cons_of_mem _ hx))
      have h3 := mul_le_mul_of_nonneg_left (add_le_add h1 h2) (sub_nonneg.2 hx.1)
      linarith

/-- C33: `np.trapz` scales with the samples -/
theorem C33_trapz_scale (c : ℝ) (ys xs : List ℝ) : trapz (ys.map (c * ·)) xs = c * trapz ys xs := by
  induction xs generalizing ys with
  | nil => rcases ys with _ | ⟨_, _ | ⟨_, _⟩⟩ <;> simp [trapz]
  | cons a xs ih =>
    rcases xs with _ | ⟨b, xs⟩
    · rcases ys with _ | ⟨_, _ | ⟨_, _⟩⟩ <;> simp [trapz]
    · rcases ys with _ | ⟨u, _ | ⟨v, ys⟩⟩
      · simp [trapz]
      · simp [trapz]
      · have := ih (v :: ys)
        simp only [List.map_cons, trapz] at this ⊢
        rw [this]; ring

/-- C33: `np.trapz` adds over samples -/
theorem C33_trapz_add (f g : ℝ → ℝ) (xs : List ℝ) :
    trapz (xs.map fun x => f x + g x) xs = trapz (xs.map f) xs + trapz (xs.map g) xs := by
  induction xs with
  | nil => simp [trapz]
  | cons a xs ih =>
    rcases xs with _ | ⟨b, xs⟩
    · simp [trapz]
    · simp only [List.map_cons, trapz] at ih ⊢
      rw [ih]; ring

theorem loglogVal_scale {c xl yl xu yu : ℝ} (hc : 0 < c) (h1 : yl = 0 ∨ InRange yl ∧ InRange (c * yl))
    (h2 : yu = 0 ∨ InRange yu ∧ InRange (c * yu)) :
    loglogVal xl (c * yl) xu (c * yu) = c * loglogVal xl yl xu yu := by
  rcases h1 with rfl | ⟨a1, a2⟩
  · simp [loglogVal]
  rcases h2 with rfl | ⟨b1, b2⟩
  · simp [loglogVal]
  unfold loglogVal
  dsimp only
  have e : log (c * yl) - log (c * yu) = log yl - log yu := by
    rw [a1.log, a2.log, b1.log, b2.log, Real.log_mul hc.ne' a1.pos.ne', Real.log_mul hc.ne' b1.pos.ne']
    ring
  rw [e]
  by_cases hx : xl = xu
  · simp [hx]
  · have n1 : ¬(c * yl = 0 ∨ c * yu = 0 ∨ xl = xu) := by simp [hx, hc.ne', a1.pos.ne', b1.pos.ne']
    have n2 : ¬(yl = 0 ∨ yu = 0 ∨ xl = xu) := by simp [hx, a1.pos.ne', b1.pos.ne']
    rw [if_neg n1, if_neg n2]
    split_ifs <;> ring

/-- C33: `trapz_loglog` scales with the samples, as long as the samples are zero or representable before and
after scaling -/
theorem C33_loglog_scale {c : ℝ} (hc : 0 < c) (ys xs : List ℝ)
    (h : ∀ y ∈ ys, y = 0 ∨ InRange y ∧ InRange (c * y)) :
    trapzLoglog (ys.map (c * ·)) xs = c * trapzLoglog ys xs := by
  induction xs generalizing ys with
  | nil => rcases ys with _ | ⟨_, _ | ⟨_, _⟩⟩ <;> simp [trapzLoglog]
  | cons a xs ih =>
    rcases xs with _ | ⟨b, xs⟩
    · rcases ys with _ | ⟨_, _ | ⟨_, _⟩⟩ <;> simp [trapzLoglog]
    · rcases ys with _ | ⟨u, _ | ⟨v, ys⟩⟩
      · simp [trapzLoglog]
      · simp [trapzLoglog]
      · have := ih (v :: ys) (fun y hy => h y (List.mem_cons_of_mem _ hy))
        simp only [List.map_cons, trapzLoglog] at this ⊢
        rw [this, loglogVal_scale hc (h u (by simp)) (h v (by simp))]; ring

/-- C33: splitting at a node, `np.trapz` -/
theorem C33_trapz_split (y x : ℝ) (y1 x1 y2 x2 : List ℝ) (hlen : y1.length = x1.length) :
    trapz (y1 ++ y :: y2) (x1 ++ x :: x2) = trapz (y1 ++ [y]) (x1 ++ [x]) + trapz (y :: y2) (x :: x2) := by
  induction x1 generalizing y1 with
  | nil =>
    obtain rfl : y1 = [] := by simpa using hlen
    simp [trapz]
  | cons a x1 ih =>
    rcases y1 with _ | ⟨u, y1⟩
    · simp at hlen
    · have hl : y1.length = x1.length := by simpa using hlen
      have := ih y1 hl
      rcases x1 with _ | ⟨b, x1⟩
      · obtain rfl : y1 = [] := by simpa using hl
        simp [trapz]
      · rcases y1 with _ | ⟨v, y1⟩
        · simp at hl
        · simp only [List.cons_append, trapz] at this ⊢
          rw [this]; ring

/-- C33: splitting at a node, `trapz_loglog` -/
theorem C33_loglog_split (y x : ℝ) (y1 x1 y2 x2 : List ℝ) (hlen : y1.length = x1.length) :
    trapzLoglog (y1 ++ y :: y2) (x1 ++ x :: x2)
      = trapzLoglog (y1 ++ [y]) (x1 ++ [x]) + trapzLoglog (y :: y2) (x :: x2) := by
  induction x1 generalizing y1 with
  | nil =>
    obtain rfl : y1 = [] := by simpa using hlen
    simp [trapzLoglog]
  | cons a x1 ih =>
    rcases y1 with _ | ⟨u, y1⟩
    · simp at hlen
    · have hl : y1.length = x1.length := by simpa using hlen
      have := ih y1 hl
      rcases x1 with _ | ⟨b, x1⟩
      · obtain rfl : y1 = [] := by simpa using hl
        simp [trapzLoglog]
      · rcases y1 with _ | ⟨v, y1⟩
        · simp at hl
        · simp only [List.cons_append, trapzLoglog] at this ⊢
          rw [this]; ring

/-- C33: `np.trapz` is exact on affine functions, whatever the grid -/
theorem C33_trapz_affine (a b x : ℝ) (xs : List ℝ) :
    trapz ((x :: xs).map fun p => a + b * p) (x :: xs)
      = ∫ p in x..(x :: xs).getLast (by simp), (a + b * p) := by
  have key : ∀ u v : ℝ, ∫ p in u..v, (a + b * p) = (v - u) * (a + b * u + (a + b * v)) / 2 := by
    intro u v
    rw [intervalIntegral.integral_add (by simp) (by
      apply Continuous.intervalIntegrable; fun_prop), intervalIntegral.integral_const_mul]
    simp only [intervalIntegral.integral_const, smul_eq_mul, integral_id]
    ring
  induction xs generalizing x with
  | nil => simp [trapz]
  | cons y ys ih =>
    have e := ih y
    simp only [List.map_cons, trapz] at e ⊢
    rw [e, List.getLast_cons (List.cons_ne_nil _ _), ← intervalIntegral.integral_add_adjacent_intervals (a := x) (b := y)
      (by apply Continuous.intervalIntegrable; fun_prop) (by apply Continuous.intervalIntegrable; fun_prop)]
    rw [key x y]

example : trapz [1, 3, 2] [0, 1, 3] = 7 := by norm_num [trapz]

/-! ### C31 -/

/-- what C31 asks of a grid: at least one point, strictly increasing, points and samples representable, and
the ratio of the ends representable -/
structure PowerGrid (a m : ℝ) (x : ℝ) (xs : List ℝ) : Prop where
  amp : 0 < a
  incr : (x :: xs).IsChain (· < ·)
  pts : ∀ p ∈ x :: xs, InRange p
  samples : ∀ p ∈ x :: xs, InRange (a * p ^ m)
  ratio : ∀ p ∈ x :: xs, ∀ q ∈ x :: xs, q / p ≤ fmax

theorem PowerGrid.tail {a m x y : ℝ} {xs : List ℝ} (h : PowerGrid a m x (y :: xs)) :
    PowerGrid a m y xs where
  amp := h.amp
  incr := h.incr.tail
  pts p hp := h.pts p (List.mem_cons_of_mem _ hp)
  samples p hp := h.samples p (List.mem_cons_of_mem _ hp)
  ratio p hp q hq := h.ratio p (List.mem_cons_of_mem _ hp) q (List.mem_cons_of_mem _ hq)

theorem PowerGrid.head_lt {a m x y : ℝ} {xs : List ℝ} (h : PowerGrid a m x (y :: xs)) : x < y := by
  have := h.incr
  simp only [List.isChain_cons_cons] at this
  exact this.1

/-- C31: `trapz_loglog` of a sampled power law is the exact integral between the ends of the grid,
for every grid, amplitude and index that the code does not treat as "numerically -1", and for -1 itself. -/
theorem C31_exact {a m x : ℝ} {xs : List ℝ} (h : PowerGrid a m x xs)
    (hm : 1 / 10 ^ 10 < |m + 1| ∨ m = -1) :
    trapzLoglog ((x :: xs).map fun p => a * p ^ m) (x :: xs)
      = ∫ p in x..(x :: xs).getLast (by simp), a * p ^ m := by
  induction xs generalizing x with
  | nil => simp [trapzLoglog]
  | cons y ys ih =>
    have hx := h.pts x (by simp)
    have hy := h.pts y (by simp)
    have hxy := h.head_lt
    have hlast : InRange ((y :: ys).getLast (by simp)) :=
      h.pts _ (List.mem_cons_of_mem _ (List.getLast_mem _))
    have e := ih h.tail
    simp only [List.map_cons, trapzLoglog] at e ⊢
    rw [e, List.getLast_cons (List.cons_ne_nil _ _), ← intervalIntegral.integral_add_adjacent_intervals
      (intervalIntegrable_power hx.pos hy.pos) (intervalIntegrable_power hy.pos hlast.pos)]
    congr 1
    rcases hm with hm | hm
    · exact loglogVal_pow h.amp hx hy hxy (h.samples x (by simp)) (h.samples y (by simp)) hm
    · rw [loglogVal_band h.amp hx hy hxy (h.samples x (by simp)) (h.samples y (by simp))
        (h.ratio x (by simp) y (by simp)) (by rw [hm]; norm_num), hm, integral_power_neg_one hx.pos hy.pos,
        Real.rpow_neg_one]
      have := hx.pos.ne'
      field_simp

/-- C31, inside the band around -1: the result differs from the exact integral by a relative error of at most
`1e-10` times the logarithm of the ratio of the ends. -/
theorem C31_band {a m x : ℝ} {xs : List ℝ} (h : PowerGrid a m x xs) (hm : |m + 1| ≤ 1 / 10 ^ 10) :
    |trapzLoglog ((x :: xs).map fun p => a * p ^ m) (x :: xs)
        - ∫ p in x..(x :: xs).getLast (by simp), a * p ^ m|
      ≤ 1 / 10 ^ 10 * Real.log ((x :: xs).getLast (by simp) / x)
        * trapzLoglog ((x :: xs).map fun p => a * p ^ m) (x :: xs) := by
  induction xs generalizing x with
  | nil => simp [trapzLoglog]
  | cons y ys ih =>
    have hx := h.pts x (by simp)
    have hy := h.pts y (by simp)
    have hxy := h.head_lt
    have hlast : InRange ((y :: ys).getLast (by simp)) :=
      h.pts _ (List.mem_cons_of_mem _ (List.getLast_mem _))
    have hyl : y ≤ (y :: ys).getLast (by simp) := by
      have hp : (y :: ys).Pairwise (· < ·) := List.isChain_iff_pairwise.1 h.tail.incr
      rcases ys with _ | ⟨z, zs⟩
      · simp
      · rw [List.getLast_cons (by simp)]
        exact (List.rel_of_pairwise_cons hp (List.getLast_mem _)).le
    have e := ih h.tail
    have b := loglogVal_band_close h.amp hx hy hxy (h.samples x (by simp)) (h.samples y (by simp))
        (h.ratio x (by simp) y (by simp)) hm
    have v0 : 0 ≤ loglogVal x (a * x ^ m) y (a * y ^ m) :=
      loglogVal_nonneg hx.pos hxy.le (h.samples x (by simp)).pos.le
    have tn := C33_loglog_nonneg ((y :: ys).map fun p => a * p ^ m) (y :: ys)
      (h.tail.incr.imp fun _ _ h => h.le) (fun p hp => (h.tail.pts p hp).pos) (by
        intro q hq
        obtain ⟨p, hp, rfl⟩ := List.mem_map.1 hq
        exact (h.tail.samples p hp).pos.le)
    simp only [List.map_cons, trapzLoglog] at e tn ⊢
    rw [List.getLast_cons (List.cons_ne_nil _ _), ← intervalIntegral.integral_add_adjacent_intervals
      (intervalIntegrable_power hx.pos hy.pos) (intervalIntegrable_power hy.pos hlast.pos)]
    generalize trapzLoglog (a * y ^ m :: ys.map fun p => a * p ^ m) (y :: ys) = T at *
    generalize loglogVal x (a * x ^ m) y (a * y ^ m) = V at *
    generalize (y :: ys).getLast (by simp) = L at *
    generalize (∫ p in x..y, a * p ^ m) = I1 at *
    generalize (∫ p in y..L, a * p ^ m) = I2 at *
    have l1 : Real.log (L / x) = Real.log (L / y) + Real.log (y / x) := by
      rw [Real.log_div hlast.pos.ne' hx.pos.ne', Real.log_div hlast.pos.ne' hy.pos.ne',
        Real.log_div hy.pos.ne' hx.pos.ne']
      ring
    have p1 : 0 ≤ Real.log (y / x) := Real.log_nonneg (by rw [le_div_iff₀ hx.pos]; linarith)
    have p2 : 0 ≤ Real.log (L / y) := Real.log_nonneg (by rw [le_div_iff₀ hy.pos]; linarith)
    have t0 : 0 ≤ Real.log (y / x) * T := mul_nonneg p1 tn
    have t1 : |V + T - (I1 + I2)| ≤ |V - I1| + |T - I2| := by
      rw [show V + T - (I1 + I2) = (V - I1) + (T - I2) by ring]; exact abs_add_le _ _
    rw [l1]
    nlinarith [mul_nonneg p2 v0]

/-- three points 1, 2, 4 and `y = 3 x^-2`: the hypotheses of C31 hold -/
theorem demoGrid : PowerGrid 3 (-2) 1 [2, 4] := by
  have hf : (4 : ℝ) ≤ fmax := by
    unfold fmax
    have h1 : (2 : ℝ) ^ 1024 = 2 ^ 971 * 2 ^ 53 := by rw [← pow_add]
    have h2 : (1 : ℝ) ≤ 2 ^ 971 := one_le_pow₀ (by norm_num)
    have h3 : (8 : ℝ) ≤ 2 ^ 53 := by norm_num
    rw [h1]
    generalize (2 : ℝ) ^ 971 = p at *
    generalize (2 : ℝ) ^ 53 = q at *
    nlinarith
  have ht : ftiny ≤ 1 / 16 := by
    unfold ftiny
    apply one_div_le_one_div_of_le (by norm_num)
    have h1 : (2 : ℝ) ^ 1022 = 2 ^ 1018 * 16 := by
      rw [show (16 : ℝ) = 2 ^ 4 by norm_num, ← pow_add]
    have h2 : (1 : ℝ) ≤ 2 ^ 1018 := one_le_pow₀ (by norm_num)
    rw [h1]
    exact le_mul_of_one_le_left (by norm_num) h2
  have p1 : (2 : ℝ) ^ (-2 : ℝ) = 1 / 4 := by
    rw [show (-2 : ℝ) = ((-2 : ℤ) : ℝ) by norm_num, Real.rpow_intCast]; norm_num
  have p2 : (4 : ℝ) ^ (-2 : ℝ) = 1 / 16 := by
    rw [show (-2 : ℝ) = ((-2 : ℤ) : ℝ) by norm_num, Real.rpow_intCast]; norm_num
  refine ⟨by norm_num, ?_, ?_, ?_, ?_⟩
  · simp only [List.isChain_cons_cons, List.isChain_singleton]; norm_num
  · intro p hp
    simp only [List.mem_cons, List.not_mem_nil, or_false] at hp
    rcases hp with rfl | rfl | rfl <;> exact ⟨by linarith, by linarith⟩
  · intro p hp
    simp only [List.mem_cons, List.not_mem_nil, or_false] at hp
    rcases hp with rfl | rfl | rfl
    · rw [Real.one_rpow]; exact ⟨by linarith, by linarith⟩
    · rw [p1]; exact ⟨by linarith, by linarith⟩
    · rw [p2]; exact ⟨by linarith, by linarith⟩
  · intro p hp q hq
    simp only [List.mem_cons, List.not_mem_nil, or_false] at hp hq
    rcases hp with rfl | rfl | rfl <;> rcases hq with rfl | rfl | rfl <;> norm_num <;> linarith

example : trapzLoglog ([1, 2, 4].map fun p : ℝ => 3 * p ^ (-2 : ℝ)) [1, 2, 4]
    = ∫ p in (1 : ℝ)..4, 3 * p ^ (-2 : ℝ) :=
  C31_exact demoGrid (Or.inl (by norm_num))

/-! ### C32 -/

/-- C32: `power_law_integral` is the integral of `k γ^-p`, for `p = 1` and outside the `isclose` band -/
theorem C32_exact {k p g1 g2 : ℝ} (h1 : 0 < g1) (h2 : 0 < g2) (hp : ¬ isclose p 1 ∨ p = 1) :
    powerLawIntegral k p g1 g2 = ∫ g in g1..g2, k * g ^ (-p) := by
  unfold powerLawIntegral
  dsimp only
  rcases hp with hp | rfl
  · rw [if_neg hp, integral_power h1 h2, show -p + 1 = 1 - p by ring]
    intro h
    apply hp
    rw [neg_inj.1 h]; unfold isclose; norm_num
  · rw [if_pos (by unfold isclose; norm_num), integral_power_neg_one h1 h2]

/-- C32: additivity over adjacent ranges, for every index -/
theorem C32_additive (k p : ℝ) {g1 g2 g3 : ℝ} (h1 : 0 < g1) (h2 : 0 < g2) (h3 : 0 < g3) :
    powerLawIntegral k p g1 g2 + powerLawIntegral k p g2 g3 = powerLawIntegral k p g1 g3 := by
  unfold powerLawIntegral
  dsimp only
  split_ifs
  · rw [Real.log_div h2.ne' h1.ne', Real.log_div h3.ne' h2.ne', Real.log_div h3.ne' h1.ne']; ring
  · ring

/-- C32, inside the band: the logarithm replaces the power law; the error relative to the logarithm is at most
`2 |p - 1| max |log γ|` -/
theorem C32_band {k p g1 g2 M : ℝ} (h1 : 0 < g1) (h12 : g1 ≤ g2) (hp : isclose p 1)
    (hM1 : |Real.log g1| ≤ M) (hM2 : |Real.log g2| ≤ M) (hM : |1 - p| * M ≤ 1) :
    |powerLawIntegral k p g1 g2 - ∫ g in g1..g2, k * g ^ (-p)|
      ≤ 2 * |1 - p| * M * |powerLawIntegral k p g1 g2| := by
  have h2 : 0 < g2 := lt_of_lt_of_le h1 h12
  by_cases hp1 : p = 1
  · rw [C32_exact h1 h2 (Or.inr hp1)]
    simp [hp1]
  have he : 1 - p ≠ 0 := fun h => hp1 (by linarith)
  unfold powerLawIntegral
  dsimp only
  rw [if_pos hp, integral_power h1 h2 (fun h => hp1 (by linarith)), show -p + 1 = 1 - p by ring]
  set e := 1 - p with hedef
  rw [← mul_sub, abs_mul, abs_mul, Real.log_div h2.ne' h1.ne', Real.rpow_def_of_pos h2,
    Real.rpow_def_of_pos h1]
  set s1 := Real.log g1
  set s2 := Real.log g2
  have hs : s1 ≤ s2 := Real.log_le_log h1 h12
  -- mean value theorem for s ↦ s - exp(e s)/e
  have key : ‖(s2 - Real.exp (s2 * e) / e) - (s1 - Real.exp (s1 * e) / e)‖
      ≤ (2 * |e| * M) * ‖s2 - s1‖ := by
    apply Convex.norm_image_sub_le_of_norm_hasDerivWithin_le
      (f := fun s => s - Real.exp (s * e) / e) (f' := fun s => 1 - Real.exp (s * e)) (s := Set.Icc s1 s2)
    · intro s _
      have : HasDerivAt (fun s => s - Real.exp (s * e) / e) (1 - Real.exp (s * e) * e / e) s := by
        have h := ((hasDerivAt_id s).mul_const e).exp
        simp only [id, one_mul] at h
        exact (hasDerivAt_id s).sub (h.div_const e)
      rw [mul_div_assoc, div_self he, mul_one] at this
      exact this.hasDerivWithinAt
    · intro s hs
      have hsM : |s| ≤ M := by
        rw [abs_le] at hM1 hM2 ⊢
        exact ⟨by linarith [hs.1, hM1.1], by linarith [hs.2, hM2.2]⟩
      have hse : |s * e| ≤ 1 := by
        rw [abs_mul, mul_comm]
        exact (mul_le_mul_of_nonneg_left hsM (abs_nonneg _)).trans hM
      have := Real.abs_exp_sub_one_le hse
      rw [Real.norm_eq_abs, abs_sub_comm]
      refine this.trans ?_
      rw [abs_mul]
      nlinarith [mul_le_mul_of_nonneg_left hsM (abs_nonneg e)]
    · exact convex_Icc s1 s2
    · exact ⟨le_refl _, hs⟩
    · exact ⟨hs, le_refl _⟩
  rw [Real.norm_eq_abs, Real.norm_eq_abs] at key
  have e1 : (s2 - Real.exp (s2 * e) / e) - (s1 - Real.exp (s1 * e) / e)
      = s2 - s1 - (Real.exp (s2 * e) - Real.exp (s1 * e)) / e := by ring
  rw [e1] at key
  calc |k| * |s2 - s1 - (Real.exp (s2 * e) - Real.exp (s1 * e)) / e|
      ≤ |k| * (2 * |e| * M * |s2 - s1|) := mul_le_mul_of_nonneg_left key (abs_nonneg k)
    _ = _ := by ring

example : powerLawIntegral 2 2 1 4 = ∫ g in (1 : ℝ)..4, 2 * g ^ (-2 : ℝ) :=
  C32_exact (by norm_num) (by norm_num) (Or.inl (by unfold isclose; norm_num))

/-! ### C34 -/

/-- shape of argument `k` of `n`, written directly: `len` at axis `k`, 1 elsewhere -/
def axisShape (n k len : Nat) : List Nat := (List.range n).map fun i => if i = k then len else 1

theorem set_replicate (n k len : Nat) : (List.replicate n 1).set k len = axisShape n k len := by
  apply List.ext_getElem
  · simp [axisShape]
  · intro i h1 h2
    simp only [axisShape, List.getElem_map, List.getElem_range, List.getElem_set, List.getElem_replicate]
    by_cases h : k = i
    · simp [h]
    · simp [h, Ne.symm h]

theorem prod_set_replicate (n k len : Nat) (h : k < n) : ((List.replicate n 1).set k len).prod = len := by
  rw [List.prod_set]
  simp [h]

theorem axesReshaperFrom_spec {α : Type} (n i : Nat) (args : List (List α)) (h : i + args.length ≤ n) :
    axesReshaperFrom n i args
      = .ok (args.mapIdx fun j a => ⟨axisShape n (i + j) a.length, a⟩) := by
  induction args generalizing i with
  | nil => rfl
  | cons a args ih =>
    simp only [List.length_cons] at h
    have e := ih (i + 1) (by omega)
    unfold axesReshaperFrom
    simp only [reshape]
    rw [if_pos (prod_set_replicate n i a.length (by omega)), e, set_replicate]
    simp only [List.mapIdx_cons, Nat.add_zero]
    simp [bind, Except.bind, Nat.add_assoc, Nat.add_comm 1]

theorem axisShape_eq (n k len : Nat) (h : k < n) :
    axisShape n k len = List.replicate k 1 ++ len :: List.replicate (n - k - 1) 1 := by
  apply List.ext_getElem
  · simp [axisShape]; omega
  · intro i h1 h2
    simp only [axisShape, List.getElem_map, List.getElem_range, List.getElem_append, List.length_replicate,
      List.getElem_cons, List.getElem_replicate]
    split_ifs <;> first | rfl | omega

theorem offset_ones (r : Nat) : offset (List.replicate r 1) (List.replicate r 0) = some 0 := by
  induction r with
  | zero => rfl
  | succ r ih => simp [List.replicate_succ, offset, ih]

theorem offset_axis (k r len j : Nat) (h : j < len) :
    offset (List.replicate k 1 ++ len :: List.replicate r 1) (List.replicate k 0 ++ j :: List.replicate r 0)
      = some j := by
  induction k with
  | zero => simp [offset, h, offset_ones]
  | succ k ih => simp [List.replicate_succ, offset, ih]

theorem bcastDims_one {ds : List Nat} (acc : Nat) (h : ∀ d ∈ ds, d = 1) :
    ds.foldlM bcastDim acc = some acc := by
  induction ds generalizing acc with
  | nil => rfl
  | cons d ds ih =>
    have hd := h d (by simp)
    subst hd
    have : bcastDim acc 1 = some acc := by
      unfold bcastDim; split_ifs <;> simp_all
    simp only [List.foldlM_cons, this]
    exact ih acc (fun d hd => h d (List.mem_cons_of_mem _ hd))

theorem bcastDims_axis (k r len : Nat) :
    bcastDims (List.replicate k 1 ++ len :: List.replicate r 1) = some len := by
  unfold bcastDims
  rw [List.foldlM_append, bcastDims_one 1 (fun d hd => (List.mem_replicate.1 hd).2)]
  have : bcastDim 1 len = some len := by unfold bcastDim; split_ifs <;> simp_all
  simp only [Option.bind_eq_bind, Option.bind_some, List.foldlM_cons, this]
  exact bcastDims_one len (fun d hd => (List.mem_replicate.1 hd).2)

/-- C34: `axes_reshaper` never fails; array `k` keeps its elements and has as many axes as there are arguments, its own
length at axis `k` and 1 elsewhere -/
theorem C34_shapes {α : Type} (args : List (List α)) :
    ∃ rs, axesReshaper args = .ok rs ∧ rs.length = args.length ∧
      ∀ k (h : k < args.length), ∃ r, rs[k]? = some r ∧ r.data = args[k]
        ∧ r.shape.length = args.length
        ∧ ∀ i < args.length, r.shape[i]? = some (if i = k then args[k].length else 1) := by
  refine ⟨_, axesReshaperFrom_spec args.length 0 args (by omega), by simp, ?_⟩
  intro k h
  refine ⟨⟨axisShape args.length k args[k].length, args[k]⟩, by simp [h], rfl, by simp [axisShape], ?_⟩
  intro i hi
  simp [axisShape, hi]

theorem mapM_some {α β : Type} (f : α → Option β) (g : α → β) (l : List α) (h : ∀ x ∈ l, f x = some (g x)) :
    l.mapM f = some (l.map g) := by
  induction l with
  | nil => rfl
  | cons a l ih =>
    rw [List.mapM_cons, h a (by simp), ih (fun x hx => h x (List.mem_cons_of_mem _ hx))]
    rfl

/-- C34: the results broadcast to `(len a_1, ..., len a_n)` -/
theorem C34_broadcast {α : Type} (args : List (List α)) (rs : List (NdArray α))
    (h : axesReshaper args = .ok rs) :
    broadcastShape args.length (rs.map (·.shape)) = some (args.map List.length) := by
  rw [axesReshaper, axesReshaperFrom_spec args.length 0 args (by omega)] at h
  cases h
  unfold broadcastShape
  have hr : args.map List.length = (List.range args.length).map fun i => (args.getD i []).length := by
    apply List.ext_getElem
    · simp
    · intro i h1 h2
      have hi : i < args.length := by simpa using h1
      simp [List.getElem?_eq_getElem hi]
  rw [hr]
  apply mapM_some
  intro i hi
  rw [List.mem_range] at hi
  rw [List.getD_eq_getElem _ _ hi]
  have : ∀ l : List Nat, l = List.replicate i 1 ++ args[i].length :: List.replicate (args.length - i - 1) 1 →
      bcastDims l = some args[i].length := by
    rintro l rfl; exact bcastDims_axis _ _ _
  apply this
  apply List.ext_getElem
  · simp; omega
  · intro j h3 h4
    have hj : j < args.length := by simpa using h3
    simp only [List.getElem_map, List.getElem_mapIdx, List.getElem_append, List.length_replicate,
      List.getElem_cons, List.getElem_replicate, Nat.zero_add]
    have e : (axisShape args.length j args[j].length).getD i 1 = if i = j then args[j].length else 1 := by
      rw [List.getD_eq_getElem _ _ (by simpa [axisShape] using hi)]
      simp [axisShape]
    rw [e]
    split_ifs with a b c d <;> first | rfl | omega | (subst a; rfl)

/-- C34: seen through broadcasting, element `(i_1, ..., i_n)` of array `k` is `a_k[i_k]` -/
theorem C34_element {α : Type} (args : List (List α)) (rs : List (NdArray α))
    (h : axesReshaper args = .ok rs) (idx : List Nat) (hlen : idx.length = args.length)
    (hidx : ∀ k (h : k < args.length), idx[k] < args[k].length) (k : Nat) (hk : k < args.length) :
    (rs[k]?).bind (·.bget? idx) = some ((args[k])[idx[k]'(by omega)]'(hidx k hk)) := by
  rw [axesReshaper, axesReshaperFrom_spec args.length 0 args (by omega)] at h
  cases h
  have hik := hidx k hk
  simp only [List.getElem?_mapIdx, List.getElem?_eq_getElem hk, Option.map_some, Option.bind_some,
    Nat.zero_add, NdArray.bget?, NdArray.get?]
  have e : List.zipWith (fun d i => if d = 1 then 0 else i) (axisShape args.length k args[k].length) idx
      = List.replicate k 0 ++ idx[k] :: List.replicate (args.length - k - 1) 0 := by
    apply List.ext_getElem
    · simp [axisShape, hlen]; omega
    · intro j h1 h2
      simp only [List.getElem_zipWith, axisShape, List.getElem_map, List.getElem_range,
        List.getElem_append, List.length_replicate, List.getElem_cons, List.getElem_replicate]
      by_cases hj : j = k
      · subst hj
        simp only [if_true, lt_irrefl, dite_false, Nat.sub_self, dite_true]
        split_ifs with hone
        · omega
        · rfl
      · rw [if_neg hj, if_pos rfl]
        split_ifs <;> first | rfl | omega
  rw [e, axisShape_eq _ _ _ hk, offset_axis _ _ _ _ hik]
  simp

/-- two arrays of lengths 3 and 2 -/
example : (axesReshaper [[10, 20, 30], [1, 2]]).toOption.map (·.map (·.shape)) = some [[3, 1], [1, 2]] := rfl

end Verif.MathUtils
