import Verif.Props.Convergence
import Verif.Props.Targets
import Mathlib.Analysis.Convex.SpecificFunctions.Basic
import Mathlib.Analysis.Convex.SpecificFunctions.Pow
import Mathlib.Analysis.Convex.Mul
import Mathlib.Analysis.SpecialFunctions.Integrals.Basic

/- C98: the error of the quadratures is known: a constant factor for power laws, an excess for convex integrands. -/

noncomputable section

namespace Verif

open MathUtils Spectra Set

/-! ### geometric grids and powers -/

/-- the factor by which the trapezium rule on a grid of ratio `q` misses the integral of `x^(-p)` -/
def excess (p q : ℝ) : ℝ := (q - 1) * (1 + q ^ (-p)) / 2 / ∫ x in (1 : ℝ)..q, x ^ (-p)

/-- `n` points of ratio `q` beginning with `a` -/
def geometric (a q : ℝ) (n : ℕ) : List ℝ := (List.range n).map fun i : ℕ => a * q ^ i

theorem geometric_succ (a q : ℝ) (n : ℕ) : geometric a q (n + 1) = a :: geometric (a * q) q n := by
  unfold geometric
  rw [List.range_succ_eq_map, List.map_cons, List.map_map, pow_zero, mul_one]
  congr 1
  refine List.map_congr_left fun i _ => ?_
  simp only [Function.comp, Nat.succ_eq_add_one, pow_succ]
  ring

theorem integral_rpow_pos {p a b : ℝ} (ha : 0 < a) (hab : a < b) : 0 < ∫ x in a..b, x ^ (-p) := by
  apply intervalIntegral.intervalIntegral_pos_of_pos_on
  · exact (intervalIntegral.intervalIntegrable_rpow (.inr (by rw [uIcc_of_le hab.le]; exact fun h => absurd h.1 (by linarith))))
  · intro x hx
    exact Real.rpow_pos_of_pos (ha.trans hx.1) _
  · exact hab

theorem integral_rpow_cell {p a q : ℝ} (ha : 0 < a) (hq : 0 < q) :
    ∫ x in a..a * q, x ^ (-p) = a ^ (1 - p) * ∫ x in (1 : ℝ)..q, x ^ (-p) := by
  have h := intervalIntegral.mul_integral_comp_mul_left (a := 1) (b := q) (f := fun x : ℝ => x ^ (-p)) (c := a)
  rw [mul_one] at h
  rw [← h]
  have e : ∫ x in (1 : ℝ)..q, (a * x) ^ (-p) = ∫ x in (1 : ℝ)..q, a ^ (-p) * x ^ (-p) := by
    refine intervalIntegral.integral_congr fun x hx => ?_
    have : 0 < x := by
      rcases mem_uIcc.1 hx with hx | hx <;> linarith [hx.1]
    exact Real.mul_rpow ha.le this.le
  rw [e, intervalIntegral.integral_const_mul, ← mul_assoc, show (1 : ℝ) - p = 1 + -p by ring, Real.rpow_add ha, Real.rpow_one]

theorem intervalIntegrable_pow {p a b : ℝ} (ha : 0 < a) (hb : 0 < b) :
    IntervalIntegrable (fun x : ℝ => x ^ (-p)) MeasureTheory.volume a b :=
  intervalIntegral.intervalIntegrable_rpow (.inr fun h => by
    rcases mem_uIcc.1 h with h | h <;> linarith [h.1])

/-- the trapezium rule on a geometric grid misses the integral of a power by a constant factor -/
theorem trapz_geometric {p q : ℝ} (hq : 1 < q) : ∀ (n : ℕ) {a : ℝ}, 0 < a →
    over trapz (geometric a q (n + 1)) (fun x => x ^ (-p)) = excess p q * ∫ x in a..a * q ^ n, x ^ (-p)
  | 0, a, ha => by simp [geometric, over, trapz]
  | n + 1, a, ha => by
    have hq0 : 0 < q := by linarith
    have haq : 0 < a * q := by positivity
    have ih := trapz_geometric (p := p) hq n haq
    have hI := (integral_rpow_pos (p := p) one_pos hq).ne'
    rw [geometric_succ a q (n + 1), geometric_succ (a * q) q n]
    have e : over trapz (a :: a * q :: geometric (a * q * q) q n) (fun x => x ^ (-p))
        = (a * q - a) * (a ^ (-p) + (a * q) ^ (-p)) / 2 + over trapz (geometric (a * q) q (n + 1)) (fun x => x ^ (-p)) := by
      rw [geometric_succ (a * q) q n]
      simp [over, trapz]
    rw [e, ih, ← intervalIntegral.integral_add_adjacent_intervals (b := a * q) (intervalIntegrable_pow ha haq)
      (intervalIntegrable_pow haq (by positivity)), integral_rpow_cell ha hq0, show a * q ^ (n + 1) = a * q * q ^ n by ring,
      mul_add]
    congr 1
    rw [Real.mul_rpow ha.le hq0.le, excess, show (1 : ℝ) - p = 1 + -p by ring, Real.rpow_add ha, Real.rpow_one]
    field_simp

/-- the ratio of the points of a grid of `n` points from `a` to `b` -/
def ratio (a b : ℝ) (n : ℕ) : ℝ := (b / a) ^ (1 / ((n : ℝ) - 1))

theorem one_lt_ratio {a b : ℝ} (ha : 0 < a) (hab : a < b) {n : ℕ} (hn : 2 ≤ n) : 1 < ratio a b n := by
  have hn' : (0 : ℝ) < n - 1 := by
    have : (2 : ℝ) ≤ n := by exact_mod_cast hn
    linarith
  exact Real.one_lt_rpow ((one_lt_div ha).2 hab) (by positivity)

theorem ratio_pow {a b : ℝ} (ha : 0 < a) (hb : 0 < b) {n : ℕ} (hn : 2 ≤ n) : a * ratio a b n ^ (n - 1) = b := by
  have hn' : (0 : ℝ) < n - 1 := by
    have : (2 : ℝ) ≤ n := by exact_mod_cast hn
    linarith
  rw [ratio, ← Real.rpow_natCast, ← Real.rpow_mul (by positivity), Nat.cast_sub (by omega), Nat.cast_one,
    one_div_mul_cancel hn'.ne', Real.rpow_one]
  field_simp

theorem logspace_eq_geometric {a b : ℝ} (ha : 0 < a) (hb : 0 < b) {n : ℕ} (hn : 2 ≤ n) :
    logspace (log10 a) (log10 b) n = geometric a (ratio a b n) n := by
  have hn' : (0 : ℝ) < n - 1 := by
    have : (2 : ℝ) ≤ n := by exact_mod_cast hn
    linarith
  unfold logspace linspace geometric
  rw [List.map_map]
  refine List.map_congr_left fun i _ => ?_
  simp only [Function.comp_def]
  rw [Real.rpow_add (by norm_num), ten_pow_log10 ha, ratio, ← Real.rpow_natCast, ← Real.rpow_mul (by positivity)]
  congr 1
  have e : (i : ℝ) * ((log10 b - log10 a) / ((n : ℝ) - 1)) = (log10 b - log10 a) * (1 / ((n : ℝ) - 1) * i) := by
    field_simp
  rw [e, Real.rpow_mul (by norm_num), Real.rpow_sub (by norm_num), ten_pow_log10 hb, ten_pow_log10 ha]

/-- the same for the grids of the code -/
theorem trapz_power {p a b : ℝ} (ha : 0 < a) (hab : a < b) {n : ℕ} (hn : 2 ≤ n) :
    over trapz (logspace (log10 a) (log10 b) n) (fun x => x ^ (-p)) = excess p (ratio a b n) * ∫ x in a..b, x ^ (-p) := by
  obtain ⟨m, rfl⟩ : ∃ m, n = m + 1 := ⟨n - 1, by omega⟩
  rw [logspace_eq_geometric ha (ha.trans hab) hn, trapz_geometric (one_lt_ratio ha hab hn) m ha]
  have := ratio_pow ha (ha.trans hab) hn
  rw [Nat.add_sub_cancel] at this
  rw [this]

/-! ### convex integrands -/

/-- one trapezium of a convex function -/
theorem convex_cell {f : ℝ → ℝ} {a b : ℝ} (hab : a ≤ b) (hf : ConvexOn ℝ (Icc a b) f)
    (hi : IntervalIntegrable f MeasureTheory.volume a b) : ∫ x in a..b, f x ≤ (b - a) * (f a + f b) / 2 := by
  rcases hab.eq_or_lt with rfl | hlt
  · simp
  have hc : ∀ x ∈ Icc a b, f x ≤ f a + (f b - f a) / (b - a) * (x - a) := by
    intro x hx
    have h1 : 0 < b - a := by linarith
    have w1 : 0 ≤ (b - x) / (b - a) := div_nonneg (by linarith [hx.2]) h1.le
    have w2 : 0 ≤ (x - a) / (b - a) := div_nonneg (by linarith [hx.1]) h1.le
    have h := hf.2 (left_mem_Icc.2 hab) (right_mem_Icc.2 hab) w1 w2 (by rw [← add_div, sub_add_sub_cancel, div_self h1.ne'])
    have e : ((b - x) / (b - a)) • a + ((x - a) / (b - a)) • b = x := by
      simp only [smul_eq_mul]
      field_simp
      ring
    rw [e] at h
    refine h.trans (le_of_eq ?_)
    simp only [smul_eq_mul]
    field_simp
    ring
  have h := intervalIntegral.integral_mono_on hab hi
    (Continuous.intervalIntegrable (by fun_prop) a b) hc
  refine h.trans (le_of_eq ?_)
  have h1 : b - a ≠ 0 := by linarith [hlt]
  rw [intervalIntegral.integral_add (by simp) (Continuous.intervalIntegrable (by fun_prop) a b),
    intervalIntegral.integral_const, intervalIntegral.integral_const_mul, intervalIntegral.integral_sub (by simp) (by simp),
    integral_id, intervalIntegral.integral_const, smul_eq_mul, smul_eq_mul]
  field_simp
  ring

/-- the trapezium rule does not fall short of the integral of a convex function -/
theorem trapz_convex {f : ℝ → ℝ} {b : ℝ} : ∀ {x : ℝ} (xs : List ℝ), (x :: xs).IsChain (· ≤ ·) →
    (x :: xs).getLast (by simp) = b → ConvexOn ℝ (Icc x b) f → ContinuousOn f (Icc x b) →
    x ≤ b ∧ ∫ t in x..b, f t ≤ over trapz (x :: xs) f
  | x, [], _, hl, _, _ => by
    simp only [List.getLast_singleton] at hl
    subst hl
    simp [over, trapz]
  | x, y :: xs, hc, hl, hf, hcont => by
    rw [List.isChain_cons_cons] at hc
    have hl' : (y :: xs).getLast (by simp) = b := by rw [← hl]; simp [List.getLast_cons]
    have hyb : y ≤ b := by
      rw [← hl']
      have hp : (y :: xs).Pairwise (· ≤ ·) := List.isChain_iff_pairwise.1 hc.2
      rcases List.mem_cons.1 (List.getLast_mem (l := y :: xs) (by simp)) with h | h
      · exact h.ge
      · exact (List.pairwise_cons.1 hp).1 _ h
    have hs1 : Icc x y ⊆ Icc x b := Icc_subset_Icc_right hyb
    have hs2 : Icc y b ⊆ Icc x b := Icc_subset_Icc_left hc.1
    obtain ⟨h1, h2⟩ := trapz_convex xs hc.2 hl' (hf.subset hs2 (convex_Icc y b)) (hcont.mono hs2)
    refine ⟨hc.1.trans h1, ?_⟩
    have i1 : IntervalIntegrable f MeasureTheory.volume x y :=
      (hcont.mono (by rw [uIcc_of_le hc.1]; exact hs1)).intervalIntegrable
    have i2 : IntervalIntegrable f MeasureTheory.volume y b :=
      (hcont.mono (by rw [uIcc_of_le hyb]; exact hs2)).intervalIntegrable
    rw [← intervalIntegral.integral_add_adjacent_intervals i1 i2]
    have e : over trapz (x :: y :: xs) f = (y - x) * (f x + f y) / 2 + over trapz (y :: xs) f := by
      simp [over, trapz]
    rw [e]
    exact add_le_add (convex_cell hc.1 (hf.subset hs1 (convex_Icc x y)) i1) h2

theorem convexOn_power {p : ℝ} (hp : 0 ≤ p ∨ p ≤ -1) : ConvexOn ℝ (Ioi 0) fun x : ℝ => x ^ (-p) := by
  rcases hp with hp | hp
  · have h : ConvexOn ℝ (Ioi (0 : ℝ)) fun x => Real.exp (-p * Real.log x) := by
      refine ⟨convex_Ioi 0, fun x hx y hy a b ha hb hab => ?_⟩
      have h1 := strictConcaveOn_log_Ioi.concaveOn.2 hx hy ha hb hab
      have h2 := convexOn_exp.2 (mem_univ (-p * Real.log x)) (mem_univ (-p * Real.log y)) ha hb hab
      refine le_trans (Real.exp_le_exp.2 ?_) h2
      simp only [smul_eq_mul] at h1 ⊢
      nlinarith
    refine h.congr fun x hx => ?_
    rw [Real.rpow_def_of_pos hx, mul_comm]
  · exact (convexOn_rpow (by linarith)).subset (fun x (hx : 0 < x) => mem_Ici.2 hx.le) (convex_Ioi 0)

/-- C98: the factor is at least 1 for falling powers and for powers above 1: the sums of the code are too large -/
theorem C98_excess {p q : ℝ} (hq : 1 < q) (hp : 0 ≤ p ∨ p ≤ -1) : 1 ≤ excess p q := by
  have h0 := integral_rpow_pos (p := p) one_pos hq
  unfold excess
  rw [one_le_div h0]
  have hs : Icc (1 : ℝ) q ⊆ Ioi 0 := fun x hx => lt_of_lt_of_le one_pos hx.1
  have h := convex_cell hq.le ((convexOn_power hp).subset hs (convex_Icc 1 q)) (intervalIntegrable_pow one_pos (by linarith))
  rwa [Real.one_rpow] at h

/-- C98: between them, for powers between 0 and 1, the sums are too small -/
theorem C98_excess_concave {p q : ℝ} (hq : 1 < q) (h1 : -1 ≤ p) (h2 : p ≤ 0) : excess p q ≤ 1 := by
  have h0 := integral_rpow_pos (p := p) one_pos hq
  unfold excess
  rw [div_le_one h0]
  have hs : Icc (1 : ℝ) q ⊆ Ici 0 := fun x hx => le_trans zero_le_one hx.1
  have hf : ConvexOn ℝ (Icc 1 q) fun x : ℝ => -(x ^ (-p)) :=
    ((Real.concaveOn_rpow (by linarith) (by linarith)).subset hs (convex_Icc 1 q)).neg
  have h := convex_cell hq.le hf (intervalIntegrable_pow one_pos (by linarith)).neg
  rw [intervalIntegral.integral_neg, Real.one_rpow] at h
  linarith

/-- C98: the factor exceeds 1 by at most `(q^p - 1) / 2` -/
theorem C98_excess_le {p q : ℝ} (hq : 1 < q) (hp : 0 ≤ p) : excess p q ≤ (1 + q ^ p) / 2 := by
  have h0 := integral_rpow_pos (p := p) one_pos hq
  have hq0 : (0 : ℝ) < q := by linarith
  have h1 : (q - 1) * q ^ (-p) ≤ ∫ x in (1 : ℝ)..q, x ^ (-p) := by
    have h := intervalIntegral.integral_mono_on hq.le (f := fun _ => q ^ (-p)) (g := fun x => x ^ (-p)) (by simp)
      (intervalIntegrable_pow one_pos hq0) fun x hx =>
        Real.rpow_le_rpow_of_nonpos (by linarith [hx.1]) hx.2 (by linarith)
    rwa [intervalIntegral.integral_const, smul_eq_mul] at h
  unfold excess
  rw [div_le_iff₀ h0]
  have h2 : q ^ p * q ^ (-p) = 1 := by rw [← Real.rpow_add hq0]; simp
  have hp0 : 0 < q ^ p := Real.rpow_pos_of_pos hq0 p
  calc (q - 1) * (1 + q ^ (-p)) / 2 = (1 + q ^ p) / 2 * ((q - 1) * q ^ (-p)) := by linear_combination (-(q - 1) / 2) * h2
    _ ≤ _ := mul_le_mul_of_nonneg_left h1 (by positivity)


theorem logspace_mem_Icc {a b : ℝ} (ha : 0 < a) (hab : a < b) {n : ℕ} (hn : 2 ≤ n) {x : ℝ}
    (hx : x ∈ logspace (log10 a) (log10 b) n) : x ∈ Icc a b := by
  obtain ⟨y, hy, rfl⟩ := List.mem_map.1 hx
  obtain ⟨h1, h2⟩ := linspace_mem (Dist.log10_mono ha hab.le) hn hy
  constructor
  · rw [← ten_pow_log10 ha]
    exact Real.rpow_le_rpow_of_exponent_le (by norm_num) h1
  · rw [← ten_pow_log10 (ha.trans hab)]
    exact Real.rpow_le_rpow_of_exponent_le (by norm_num) h2

theorem trapz_convex_logspace {f : ℝ → ℝ} {a b : ℝ} (ha : 0 < a) (hab : a < b) {n : ℕ} (hn : 2 ≤ n)
    (hf : ConvexOn ℝ (Icc a b) f) (hc : ContinuousOn f (Icc a b)) :
    ∫ t in a..b, f t ≤ over trapz (logspace (log10 a) (log10 b) n) f := by
  have hch := logspace_chain (log10_lt ha hab) hn
  obtain ⟨mid, hmid⟩ := logspace_ends_n ha (ha.trans hab) hn
  rw [hmid] at hch ⊢
  exact (trapz_convex (mid ++ [b]) hch (by simp) hf hc).2

/-- the trapezium rule exceeds the integral of an increasing function by at most half a step times its rise -/
theorem trapz_rise {f : ℝ → ℝ} {b h : ℝ} : ∀ {x : ℝ} (xs : List ℝ), (x :: xs).IsChain (fun u v => u ≤ v ∧ v - u = h) →
    (x :: xs).getLast (by simp) = b → MonotoneOn f (Icc x b) →
    x ≤ b ∧ over trapz (x :: xs) f ≤ (∫ t in x..b, f t) + h / 2 * (f b - f x)
  | x, [], _, hl, _ => by
    simp only [List.getLast_singleton] at hl
    subst hl
    simp [over, trapz]
  | x, y :: xs, hc, hl, hf => by
    rw [List.isChain_cons_cons] at hc
    obtain ⟨⟨hxy, hh⟩, hc⟩ := hc
    have hl' : (y :: xs).getLast (by simp) = b := by rw [← hl]; simp [List.getLast_cons]
    have hyb : y ≤ b := by
      rw [← hl']
      have hp : (y :: xs).Pairwise (· ≤ ·) := List.isChain_iff_pairwise.1 (hc.imp fun _ _ h => h.1)
      rcases List.mem_cons.1 (List.getLast_mem (l := y :: xs) (by simp)) with h | h
      · exact h.ge
      · exact (List.pairwise_cons.1 hp).1 _ h
    have hs1 : Icc x y ⊆ Icc x b := Icc_subset_Icc_right hyb
    have hs2 : Icc y b ⊆ Icc x b := Icc_subset_Icc_left hxy
    obtain ⟨-, h2⟩ := trapz_rise xs hc hl' (hf.mono hs2)
    refine ⟨hxy.trans hyb, ?_⟩
    have i1 : IntervalIntegrable f MeasureTheory.volume x y :=
      (hf.mono (by rw [uIcc_of_le hxy]; exact hs1)).intervalIntegrable
    have i2 : IntervalIntegrable f MeasureTheory.volume y b :=
      (hf.mono (by rw [uIcc_of_le hyb]; exact hs2)).intervalIntegrable
    rw [← intervalIntegral.integral_add_adjacent_intervals i1 i2]
    have e : over trapz (x :: y :: xs) f = (y - x) * (f x + f y) / 2 + over trapz (y :: xs) f := by
      simp [over, trapz]
    have h1 : (y - x) * f x ≤ ∫ t in x..y, f t := by
      have h := intervalIntegral.integral_mono_on hxy (f := fun _ => f x) (g := f) (by simp) i1 fun t ht =>
        hf (left_mem_Icc.2 (hxy.trans hyb)) (hs1 ht) ht.1
      rwa [intervalIntegral.integral_const, smul_eq_mul] at h
    rw [e, ← hh] at *
    nlinarith

/-- moments of a distribution as the blob computes them -/
theorem own_moment {d : Dist} (ha : 0 < d.gmin) (hab : d.gmin < d.gmax) {n : ℕ} (hn : 2 ≤ n) (w : ℝ → ℝ) :
    trapz (List.zipWith (· * ·) ((logspace (log10 d.gmin) (log10 d.gmax) n).map w)
        (d.evaluate (logspace (log10 d.gmin) (log10 d.gmax) n)).2) (logspace (log10 d.gmin) (log10 d.gmax) n)
      = over trapz (logspace (log10 d.gmin) (log10 d.gmax) n) fun g => w g * d.call g := by
  rw [Dist.evaluate_own ha hab hn, zipWith_mul_map]
  rfl

theorem power_law_moment {K p a c : ℝ} (ha : 0 < a) (hac : a < c) {n : ℕ} (hn : 2 ≤ n) (m : ℕ) :
    over trapz (logspace (log10 a) (log10 c) n) (fun g => g ^ m * (Dist.powerLaw K p a c).call g)
      = excess (p - m) (ratio a c n) * ∫ g in a..c, g ^ m * (Dist.powerLaw K p a c).call g := by
  have e : ∀ g ∈ Icc a c, g ^ m * (Dist.powerLaw K p a c).call g = K * g ^ (-(p - m)) := by
    intro g hg
    have hg0 : 0 < g := lt_of_lt_of_le ha hg.1
    show g ^ m * powerLawAt g K p a c = _
    rw [show powerLawAt g K p a c = K * g ^ (-p) from if_pos hg, show -(p - (m : ℝ)) = m + -p by ring, Real.rpow_add hg0, Real.rpow_natCast]
    ring
  have e1 : over trapz (logspace (log10 a) (log10 c) n) (fun g => g ^ m * (Dist.powerLaw K p a c).call g)
      = over trapz (logspace (log10 a) (log10 c) n) (fun g => K * g ^ (-(p - m))) :=
    over_congr fun g hg => e g (logspace_mem_Icc ha hac hn hg)
  have e2 : ∫ g in a..c, g ^ m * (Dist.powerLaw K p a c).call g = ∫ g in a..c, K * g ^ (-(p - m)) :=
    intervalIntegral.integral_congr fun g hg => e g (by rwa [uIcc_of_le hac.le] at hg)
  rw [e1, e2, over_scale homogeneous_trapz, trapz_power ha hac hn, intervalIntegral.integral_const_mul]
  ring

end Verif

namespace Verif.Region.Blob

open MathUtils Spectra Set

variable {k : Consts} {b : Blob}

/-- C98: for a power law, whatever the grid, the density, the energy density and the energy density of synchrotron
photons that the blob computes are the exact ones times the factor of the grid -/
theorem C98_power_law {K p a c : ℝ} (ha : 0 < a) (hac : a < c) (hb : b.n_e = .powerLaw K p a c) (hn : 2 ≤ b.gamma_e_size) :
    b.n_e_tot = excess p (ratio a c b.gamma_e_size) * ∫ g in a..c, K * g ^ (-p)
    ∧ b.u_e k = excess (p - 1) (ratio a c b.gamma_e_size) * (k.mec2 * ∫ g in a..c, g * (K * g ^ (-p)))
    ∧ b.u_ph_synch k = excess (p - 2) (ratio a c b.gamma_e_size)
      * (k.sigma_T * (b.B ^ 2 / (8 * Real.pi)) * b.R_b * ∫ g in a..c, g ^ 2 * (K * g ^ (-p))) := by
  have h1 : 0 < b.n_e.gmin := by rw [hb]; exact ha
  have h2 : b.n_e.gmin < b.n_e.gmax := by rw [hb]; exact hac
  have hi : ∀ m : ℕ, ∫ g in a..c, g ^ m * (Dist.powerLaw K p a c).call g = ∫ g in a..c, g ^ m * (K * g ^ (-p)) := by
    intro m
    refine intervalIntegral.integral_congr fun g hg => ?_
    rw [uIcc_of_le hac.le] at hg
    show g ^ m * powerLawAt g K p a c = _
    rw [show powerLawAt g K p a c = K * g ^ (-p) from if_pos hg]
  have hm := fun m : ℕ => power_law_moment (K := K) (p := p) ha hac hn m
  simp only [hi] at hm
  refine ⟨?_, ?_, ?_⟩
  · have h := hm 0
    simp only [pow_zero, one_mul, Nat.cast_zero, sub_zero] at h
    rw [← h]
    unfold n_e_tot gamma_e
    rw [Dist.evaluate_own h1 h2 hn, hb]
    rfl
  · have h := hm 1
    simp only [pow_one, Nat.cast_one] at h
    have e := own_moment h1 h2 hn (fun g => g)
    rw [List.map_id'] at e
    unfold u_e gamma_e
    rw [e, hb]
    show k.mec2 * over trapz (logspace (log10 a) (log10 c) _) _ = _
    rw [h]
    ring
  · have h := hm 2
    simp only [Nat.cast_ofNat] at h
    unfold u_ph_synch gamma_e U_B
    rw [own_moment h1 h2 hn (fun g => g ^ 2), hb]
    show _ * over trapz (logspace (log10 a) (log10 c) _) _ = _
    rw [h]
    ring

/-- C98: where the distribution is convex the computed density is at least the exact one -/
theorem C98_convex (hd : b.n_e.Regular) (ha : 0 < b.n_e.gmin) (hab : b.n_e.gmin < b.n_e.gmax)
    (hc : ConvexOn ℝ (Icc b.n_e.gmin b.n_e.gmax) b.n_e.call) (hn : 2 ≤ b.gamma_e_size) :
    ∫ g in b.n_e.gmin..b.n_e.gmax, b.n_e.call g ≤ b.n_e_tot := by
  unfold n_e_tot gamma_e
  rw [Dist.evaluate_own ha hab hn]
  exact trapz_convex_logspace ha hab hn hc (Dist.continuousOn_call hd ha)

/-- C98: on a blob of 200 points, the default, the constructors of normalised distributions give back exactly the
density, energy density or energy that was asked for, for every family -/
theorem C98_roundtrip {s : Shape} {a c x : ℝ} (ha : 0 < a) (hac : a < c) (hn : b.gamma_e_size = 200) :
    (fromTotalDensity s x (some a) (some c) = .ok b.n_e → b.n_e_tot = x)
    ∧ (fromTotalEnergyDensity s k.mec2 x (some a) (some c) = .ok b.n_e → b.u_e k = x)
    ∧ (fromTotalEnergy s k.mec2 x b.V_b (some a) (some c) = .ok b.n_e → b.W_e k = x) := by
  have hlim : ∀ K, (s.mk K a c).gmin = a ∧ (s.mk K a c).gmax = c := fun K => by cases s <;> exact ⟨rfl, rfl⟩
  have key : ∀ K, b.n_e = s.mk K a c → b.n_e_tot = b.n_e.integrate trapz none none 0
      ∧ b.u_e k = k.mec2 * b.n_e.integrate trapz none none 1 := by
    intro K hK
    have h1 : 0 < b.n_e.gmin := by rw [hK, (hlim K).1]; exact ha
    have h2 : b.n_e.gmin < b.n_e.gmax := by rw [hK, (hlim K).1, (hlim K).2]; exact hac
    have hi : ∀ m, b.n_e.integrate trapz none none m
        = over trapz (logspace (log10 b.n_e.gmin) (log10 b.n_e.gmax) 200) fun g => b.n_e.call g * g ^ m := by
      intro m
      have e : b.n_e.integrate trapz none none m = b.n_e.integralWith trapz b.n_e.gmin b.n_e.gmax m := by
        rw [hK]; cases s <;> rfl
      rw [e, Dist.integralWith]
      dsimp only
      rw [Dist.evaluate_own h1 h2 (by norm_num)]
      dsimp only
      rw [Dist.powers, zipWith_mul_map]
      rfl
    rw [hi, hi]
    constructor
    · unfold n_e_tot gamma_e
      rw [hn, Dist.evaluate_own h1 h2 (by norm_num)]
      simp [over]
    · unfold u_e gamma_e
      have e := own_moment h1 h2 (n := 200) (by norm_num) (fun g => g)
      rw [List.map_id'] at e
      rw [hn, e]
      simp only [pow_one, mul_comm]
  refine ⟨fun h => ?_, fun h => ?_, fun h => ?_⟩
  · obtain ⟨K, hK⟩ : ∃ K, b.n_e = s.mk K a c := by
      unfold fromTotalDensity limits npDiv at h
      simp only [bind, Except.bind] at h
      split_ifs at h
      exact ⟨_, (Except.ok.inj h).symm⟩
    rw [(key K hK).1, C26_density h]
  · obtain ⟨K, hK⟩ : ∃ K, b.n_e = s.mk K a c := by
      unfold fromTotalEnergyDensity limits npDiv at h
      simp only [bind, Except.bind] at h
      split_ifs at h
      exact ⟨_, (Except.ok.inj h).symm⟩
    rw [(key K hK).2, C26_energy_density h]
  · obtain ⟨K, hK⟩ : ∃ K, b.n_e = s.mk K a c := by
      unfold fromTotalEnergy fromTotalEnergyDensity limits npDiv at h
      simp only [bind, Except.bind] at h
      split_ifs at h
      exact ⟨_, (Except.ok.inj h).symm⟩
    rw [W_e, (key K hK).2, C26_energy h]

/-- C98: with another number of points the density of a power law is off by the ratio of the factors of the two grids,
and the exact density of the distribution is the requested one over the factor of 200 points -/
theorem C98_resized {p a c x : ℝ} (ha : 0 < a) (hac : a < c) (hn : 2 ≤ b.gamma_e_size)
    (h : fromTotalDensity (.powerLaw p) x (some a) (some c) = .ok b.n_e) :
    b.n_e_tot = x * (excess p (ratio a c b.gamma_e_size) / excess p (ratio a c 200))
    ∧ ∫ g in a..c, b.n_e.call g = x / excess p (ratio a c 200) := by
  obtain ⟨K, hK⟩ : ∃ K, b.n_e = .powerLaw K p a c := by
    unfold fromTotalDensity limits npDiv at h
    simp only [bind, Except.bind] at h
    split_ifs at h
    exact ⟨_, (Except.ok.inj h).symm⟩
  have hx := ((C98_roundtrip (k := ⟨1, 1, 1, 1, 1, 1, 1, 1, 1, 1⟩) (b := { b with gamma_e_size := 200 }) (s := .powerLaw p)
    (x := x) ha hac rfl).1 h)
  have h200 := (C98_power_law (k := ⟨1, 1, 1, 1, 1, 1, 1, 1, 1, 1⟩) (b := { b with gamma_e_size := 200 }) ha hac hK
    (by norm_num)).1
  have hb := (C98_power_law (k := ⟨1, 1, 1, 1, 1, 1, 1, 1, 1, 1⟩) ha hac hK hn).1
  rw [hx] at h200
  have hpos : 0 < excess p (ratio a c 200) := by
    have hq := one_lt_ratio ha hac (n := 200) (by norm_num)
    have h0 := integral_rpow_pos (p := p) one_pos hq
    have : 0 < ratio a c 200 ^ (-p) := Real.rpow_pos_of_pos (by linarith) _
    unfold excess
    have : 0 < ratio a c 200 - 1 := by linarith
    positivity
  have hi : ∫ g in a..c, b.n_e.call g = ∫ g in a..c, K * g ^ (-p) := by
    rw [hK]
    refine intervalIntegral.integral_congr fun g hg => ?_
    rw [uIcc_of_le hac.le] at hg
    show powerLawAt g K p a c = _
    rw [show powerLawAt g K p a c = K * g ^ (-p) from if_pos hg]
  dsimp only at h200
  rw [hb, hi, h200]
  constructor <;> field_simp

end Verif.Region.Blob

namespace Verif.Targets.BLR

open MathUtils Set

/-- the energy density that a shell of luminosity `L` and radius `R` has at the distance `r` from its centre -/
def exactShell (k : Consts) (L R r : ℝ) : ℝ :=
  L / (8 * Real.pi * k.c) * (Real.log (((r + R) / (r - R)) ^ 2) / (2 * r * R))

theorem shell_distance_pos {R r mu : ℝ} (hR : 0 < R) (hr : 0 < r) (hne : r ≠ R) (hm : mu ∈ Icc (-1) 1) :
    0 < r ^ 2 + R ^ 2 - 2 * r * R * mu := by
  have h1 : 0 < (r - R) ^ 2 := by
    have : r - R ≠ 0 := sub_ne_zero.2 hne
    positivity
  have h2 : 0 ≤ 2 * r * R * (1 - mu) := by
    have : 0 ≤ 1 - mu := by linarith [hm.2]
    positivity
  nlinarith

theorem integral_shell {R r : ℝ} (hR : 0 < R) (hr : 0 < r) (hne : r ≠ R) :
    ∫ mu in (-1 : ℝ)..1, 1 / (r ^ 2 + R ^ 2 - 2 * r * R * mu) = Real.log (((r + R) / (r - R)) ^ 2) / (2 * r * R) := by
  have hrR : 0 < 2 * r * R := by positivity
  have hd : ∀ mu ∈ uIcc (-1 : ℝ) 1, HasDerivAt (fun mu => -Real.log (r ^ 2 + R ^ 2 - 2 * r * R * mu) / (2 * r * R))
      (1 / (r ^ 2 + R ^ 2 - 2 * r * R * mu)) mu := by
    intro mu hm
    rw [uIcc_of_le (by norm_num)] at hm
    have hp := shell_distance_pos hR hr hne hm
    have h := (((hasDerivAt_id mu).const_mul (2 * r * R)).const_sub (r ^ 2 + R ^ 2)).log hp.ne'
    refine (h.neg.div_const (2 * r * R)).congr_deriv ?_
    simp only [id]
    field_simp
  have hc : ContinuousOn (fun mu => 1 / (r ^ 2 + R ^ 2 - 2 * r * R * mu)) (uIcc (-1 : ℝ) 1) := by
    rw [uIcc_of_le (by norm_num)]
    exact ContinuousOn.div (by fun_prop) (by fun_prop) fun mu hm => (shell_distance_pos hR hr hne hm).ne'
  rw [intervalIntegral.integral_eq_sub_of_hasDerivAt hd hc.intervalIntegrable]
  have h1 : r - R ≠ 0 := sub_ne_zero.2 hne
  rw [div_pow, Real.log_div (by positivity) (by positivity), show r ^ 2 + R ^ 2 - 2 * r * R * 1 = (r - R) ^ 2 by ring,
    show r ^ 2 + R ^ 2 - 2 * r * R * -1 = (r + R) ^ 2 by ring]
  ring

theorem convexOn_shell {R r : ℝ} (hR : 0 < R) (hr : 0 < r) (hne : r ≠ R) :
    ConvexOn ℝ (Icc (-1) 1) fun mu : ℝ => 1 / (r ^ 2 + R ^ 2 - 2 * r * R * mu) := by
  refine ⟨convex_Icc _ _, fun x hx y hy a b ha hb hab => ?_⟩
  have h := (convexOn_zpow (𝕜 := ℝ) (-1)).2 (mem_Ioi.2 (shell_distance_pos hR hr hne hx))
    (mem_Ioi.2 (shell_distance_pos hR hr hne hy)) ha hb hab
  simp only [zpow_neg_one, smul_eq_mul] at h
  simp only [one_div, smul_eq_mul]
  refine le_trans (le_of_eq ?_) h
  congr 1
  linear_combination (-(r ^ 2 + R ^ 2)) * hab

theorem mu_grid : ∃ mid, linspace (-1) 1 50 = -1 :: (mid ++ [47 / 49, 1]) := by
  refine ⟨((List.range 47).map fun i : ℕ => (-1 : ℝ) + ((i + 1 : ℕ) : ℝ) * ((1 - -1) / (((50 : ℕ) : ℝ) - 1))), ?_⟩
  unfold linspace
  rw [show List.range 50 = 0 :: ((List.range 47).map Nat.succ ++ [48, 49]) by decide]
  simp only [List.map_cons, List.map_append, List.map_map, List.map_nil, Function.comp_def, Nat.succ_eq_add_one]
  norm_num

theorem mu_steps : (linspace (-1) 1 50).IsChain (fun u v => u ≤ v ∧ v - u = 2 / 49) := by
  unfold linspace
  rw [List.isChain_map]
  rw [List.isChain_range]
  intro m _
  push_cast
  constructor
  · norm_num
  · ring

/-- C98: the energy density of the broad line region is never below that of the shell, and the excess is bounded by half a
step of the grid times the difference of the extreme inverse squares of the distance to the shell.
Missing: a bound of the excess relative to the density close to the shell, refuted by `C98_blr_violated`. -/
theorem C98_blr_partial {k : Consts} (hk : k.Pos) {t : BLR} (hR : 0 < t.R_line) (hL : 0 ≤ t.xi_line * t.L_disk) {r : ℝ} (hr : 0 < r)
    (hne : r ≠ t.R_line) : exactShell k (t.xi_line * t.L_disk) t.R_line r ≤ t.u k r none
    ∧ t.u k r none ≤ exactShell k (t.xi_line * t.L_disk) t.R_line r
      + t.xi_line * t.L_disk / (8 * Real.pi * k.c) * (1 / 49 * (1 / (r - t.R_line) ^ 2 - 1 / (r + t.R_line) ^ 2)) := by
  unfold exactShell u
  have hc := hk.c
  rw [← mul_add, ← integral_shell hR hr hne]
  have hst := mu_steps
  have hch := linspace_chain (show (-1 : ℝ) < 1 by norm_num) (show 2 ≤ 50 by norm_num)
  obtain ⟨mid, hmid⟩ := mu_grid
  rw [hmid] at hch hst ⊢
  constructor <;> refine mul_le_mul_of_nonneg_left ?_ (by positivity)
  · exact (trapz_convex _ hch (by simp) (convexOn_shell hR hr hne)
      (ContinuousOn.div (by fun_prop) (by fun_prop) fun mu hm => (shell_distance_pos hR hr hne hm).ne')).2
  · have h := (trapz_rise (f := fun mu => 1 / (r ^ 2 + t.R_line ^ 2 - 2 * r * t.R_line * mu)) (b := 1) _ hst (by simp)
      fun x hx y hy hxy => one_div_le_one_div_of_le (shell_distance_pos hR hr hne hy) (by
        have : 0 ≤ 2 * r * t.R_line * (y - x) := by
          have : 0 ≤ y - x := by linarith
          positivity
        linarith)).2
    refine h.trans (le_of_eq ?_)
    rw [show r ^ 2 + t.R_line ^ 2 - 2 * r * t.R_line * 1 = (r - t.R_line) ^ 2 by ring,
      show r ^ 2 + t.R_line ^ 2 - 2 * r * t.R_line * -1 = (r + t.R_line) ^ 2 by ring]
    norm_num

theorem trapz_last {f : ℝ → ℝ} {y z : ℝ} : ∀ xs : List ℝ, (xs ++ [y, z]).IsChain (· ≤ ·) → (∀ x ∈ xs ++ [y, z], 0 ≤ f x) →
    (z - y) * (f y + f z) / 2 ≤ Verif.over trapz (xs ++ [y, z]) f
  | [], _, _ => by simp [Verif.over, trapz]
  | [x], hc, hf => by
    have h : 0 ≤ (y - x) * (f x + f y) / 2 := by
      have h1 := hf x (by simp)
      have h2 := hf y (by simp)
      have h3 : x ≤ y := by simpa using (List.isChain_cons_cons.1 hc).1
      have : 0 ≤ y - x := by linarith
      positivity
    have e : Verif.over trapz ([x] ++ [y, z]) f = (y - x) * (f x + f y) / 2 + (z - y) * (f y + f z) / 2 := by
      simp [Verif.over, trapz]
    rw [e]
    linarith
  | x :: x' :: xs, hc, hf => by
    have hc' : (x' :: (xs ++ [y, z])).IsChain (· ≤ ·) := (List.isChain_cons_cons.1 hc).2
    have ih := trapz_last (x' :: xs) hc' fun w hw => hf w (List.mem_cons_of_mem _ hw)
    have h : 0 ≤ (x' - x) * (f x + f x') / 2 := by
      have h1 := hf x (by simp)
      have h2 := hf x' (by simp)
      have h3 : x ≤ x' := (List.isChain_cons_cons.1 hc).1
      have : 0 ≤ x' - x := by linarith
      positivity
    have e : Verif.over trapz (x :: x' :: xs ++ [y, z]) f
        = (x' - x) * (f x + f x') / 2 + Verif.over trapz (x' :: xs ++ [y, z]) f := by
      simp [Verif.over, trapz]
    rw [e]
    linarith

/-- near the shell the computed energy density is at least this -/
theorem u_ge {k : Consts} (hk : k.Pos) {t : BLR} (hR : 0 < t.R_line) (hL : 0 ≤ t.xi_line * t.L_disk) {r : ℝ} (hr : 0 < r)
    (hne : r ≠ t.R_line) : t.xi_line * t.L_disk / (8 * Real.pi * k.c) * (1 / (49 * (r - t.R_line) ^ 2)) ≤ t.u k r none := by
  unfold u
  have hc := hk.c
  refine mul_le_mul_of_nonneg_left ?_ (by positivity)
  have hch := linspace_chain (show (-1 : ℝ) < 1 by norm_num) (show 2 ≤ 50 by norm_num)
  have hmem : ∀ x ∈ linspace (-1) 1 50, x ∈ Icc (-1 : ℝ) 1 := fun x hx =>
    linspace_mem (by norm_num) (by norm_num) hx
  obtain ⟨mid, hmid⟩ := mu_grid
  rw [hmid] at hch hmem ⊢
  have h := trapz_last (f := fun mu => 1 / (r ^ 2 + t.R_line ^ 2 - 2 * r * t.R_line * mu)) (-1 :: mid) hch fun x hx =>
    (one_div_pos.2 (shell_distance_pos hR hr hne (hmem x hx))).le
  refine le_trans ?_ h
  have h1 := shell_distance_pos hR hr hne (mu := 47 / 49) ⟨by norm_num, by norm_num⟩
  have h2 := (one_div_pos.2 h1).le
  have h3 : (r - t.R_line) ^ 2 ≠ 0 := pow_ne_zero 2 (sub_ne_zero.2 hne)
  rw [show r ^ 2 + t.R_line ^ 2 - 2 * r * t.R_line * 1 = (r - t.R_line) ^ 2 by ring]
  have e : 1 / (49 * (r - t.R_line) ^ 2) = (1 - 47 / 49) * (1 / (r - t.R_line) ^ 2) / 2 := by
    field_simp
    norm_num
  rw [e]
  nlinarith

/-- C98: close to the shell the excess has no bound: the energy density of the code grows like the inverse square of
the distance to the shell, that of the shell only like its logarithm -/
theorem C98_blr_violated {k : Consts} (hk : k.Pos) {t : BLR} (hR : 0 < t.R_line) (hL : 0 < t.xi_line * t.L_disk) (M : ℝ) :
    ∃ d > 0, ∀ r, r ≠ t.R_line → |r - t.R_line| < d →
      M * exactShell k (t.xi_line * t.L_disk) t.R_line r < t.u k r none := by
  have hM : 0 < 245 * (|M| + 1) := by positivity
  refine ⟨min (t.R_line / 2) (t.R_line / (245 * (|M| + 1))), lt_min (by positivity) (by positivity), fun r hne hd => ?_⟩
  obtain ⟨hd1, hd2⟩ := lt_min_iff.1 hd
  have hx : 0 < |r - t.R_line| := abs_pos.2 (sub_ne_zero.2 hne)
  obtain ⟨hl, hu⟩ := abs_lt.1 hd1
  have hr : 0 < r := by linarith
  refine lt_of_lt_of_le ?_ (u_ge hk hR hL.le hr hne)
  have hc := hk.c
  unfold exactShell
  have hpre : 0 < t.xi_line * t.L_disk / (8 * Real.pi * k.c) := by positivity
  rw [mul_left_comm]
  refine mul_lt_mul_of_pos_left ?_ hpre
  have hy : 0 < (r + t.R_line) / |r - t.R_line| := by positivity
  have hlog : Real.log (((r + t.R_line) / (r - t.R_line)) ^ 2) = 2 * Real.log ((r + t.R_line) / |r - t.R_line|) := by
    rw [Real.log_pow, ← Real.log_abs, abs_div, abs_of_pos (show 0 < r + t.R_line by linarith)]
    norm_num
  have hpos : 0 ≤ Real.log ((r + t.R_line) / |r - t.R_line|) :=
    Real.log_nonneg ((one_le_div hx).2 (by linarith))
  have hle : Real.log ((r + t.R_line) / |r - t.R_line|) ≤ (r + t.R_line) / |r - t.R_line| := Real.log_le_self hy.le
  have h5 : (r + t.R_line) / |r - t.R_line| ≤ 5 / 2 * t.R_line / |r - t.R_line| := by gcongr; linarith
  rw [hlog, ← sq_abs (r - t.R_line)]
  generalize Real.log ((r + t.R_line) / |r - t.R_line|) = l at *
  generalize |r - t.R_line| = x at *
  have h1 : M * (2 * l / (2 * r * t.R_line)) ≤ |M| * (5 / (t.R_line * x)) := by
    have h2 : 2 * l / (2 * r * t.R_line) ≤ 5 / (t.R_line * x) := by
      have h3 : 2 * l ≤ 5 * t.R_line / x := by
        calc 2 * l ≤ 2 * (5 / 2 * t.R_line / x) := by linarith
          _ = _ := by ring
      have h4 : t.R_line * t.R_line ≤ 2 * r * t.R_line := by nlinarith
      calc 2 * l / (2 * r * t.R_line) ≤ (5 * t.R_line / x) / (2 * r * t.R_line) := by gcongr
        _ ≤ (5 * t.R_line / x) / (t.R_line * t.R_line) := by gcongr
        _ = _ := by field_simp
    have h0 : 0 ≤ 2 * l / (2 * r * t.R_line) := by positivity
    calc _ ≤ |M| * (2 * l / (2 * r * t.R_line)) := mul_le_mul_of_nonneg_right (le_abs_self M) h0
      _ ≤ _ := mul_le_mul_of_nonneg_left h2 (abs_nonneg M)
  refine lt_of_le_of_lt h1 ?_
  rw [lt_div_iff₀ hM] at hd2
  rw [mul_div_assoc', div_lt_div_iff₀ (by positivity) (by positivity)]
  have : 0 ≤ |M| := abs_nonneg M
  nlinarith [mul_pos hx hx]

end Verif.Targets.BLR

namespace Verif

open MathUtils Spectra Set Region Synchrotron

/-- the power law of the demonstration blob: index 2 between 10 and 1000 -/
example : demoBlob.n_e = .powerLaw 1 2 10 1000 ∧ 2 ≤ demoBlob.gamma_e_size
    ∧ ConvexOn ℝ (Icc 10 1000) demoBlob.n_e.call := by
  refine ⟨rfl, by norm_num [demoBlob], ?_⟩
  refine ((convexOn_power (p := 2) (.inl (by norm_num))).subset
    (fun x (hx : x ∈ Icc (10 : ℝ) 1000) => mem_Ioi.2 (by linarith [hx.1])) (convex_Icc _ _)).congr fun x hx => ?_
  show x ^ (-2 : ℝ) = powerLawAt x 1 2 10 1000
  rw [show powerLawAt x 1 2 10 1000 = 1 * x ^ (-2 : ℝ) from if_pos hx, one_mul]

/-- the factor of index 2 and ratio 2 is `5/4`: the density is overestimated by a quarter on a grid of octaves -/
example : excess 2 2 = 5 / 4 := by
  unfold excess
  rw [integral_rpow (.inr ⟨by norm_num, by norm_num [uIcc_of_le]⟩)]
  norm_num [show (-2 + 1 : ℝ) = -1 by norm_num, Real.rpow_neg_one, Real.rpow_neg]

/-- a power law can be normalised to density 3, and the blob gives 3 back -/
example : ∃ d, fromTotalDensity (.powerLaw 2) 3 (some 10) (some 1000) = .ok d
    ∧ { demoBlob with n_e := d, gamma_e_size := 200 }.n_e_tot = 3 := by
  have h0 : (Dist.powerLaw 1 2 10 1000).integralWith trapz 10 1000 0 ≠ 0 :=
    (unit_integral_pos (s := .powerLaw 2) (by norm_num [Shape.Positive]) (by norm_num) (by norm_num) 0).ne'
  refine ⟨.powerLaw (3 / (Dist.powerLaw 1 2 10 1000).integralWith trapz 10 1000 0) 2 10 1000, ?_, ?_⟩
  · simp [fromTotalDensity, limits, npDiv, Shape.mk, h0, bind, Except.bind]
  · exact (Blob.C98_roundtrip (k := ⟨1, 1, 1, 1, 1, 1, 1, 1, 1, 1⟩) (s := .powerLaw 2) (a := 10) (c := 1000)
      (by norm_num) (by norm_num) rfl).1
      (by simp [fromTotalDensity, limits, npDiv, Shape.mk, h0, bind, Except.bind])

end Verif
