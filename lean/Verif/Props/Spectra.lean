import Mathlib.Topology.Order.OrderClosed
import Verif.Lemmas.Spectra

/-
C23 range and sign, C24 SSA integrand, C25 continuity at the break, C26/C27 normalisation constructors,
C28 interpolated spectra, C29 the caller's array, C30 parameters.
-/

namespace Verif.Spectra

open MathUtils Classical

namespace Dist

/-- positive normalisation and scales -/
def Positive : Dist → Prop
  | powerLaw k _ a _ => 0 < k ∧ 0 < a
  | broken k _ _ gb a _ => 0 < k ∧ 0 < gb ∧ 0 < a
  | logParabola k _ _ g0 a _ => 0 < k ∧ 0 < g0 ∧ 0 < a
  | ecpl k _ gc a _ => 0 < k ∧ 0 < gc ∧ 0 < a
  | ecbpl k _ _ gc gb a _ => 0 < k ∧ 0 < gc ∧ 0 < gb ∧ 0 < a
  | interp _ _ norm a _ => 0 < norm ∧ 0 < a
  | empty _ _ => True

/-- not an `EmptyDistribution` -/
def NonEmpty : Dist → Prop
  | empty _ _ => False
  | _ => True

end Dist

/-! ### C23 -/

/-- C23: zero outside the range -/
theorem C23_outside (d : Dist) {g : ℝ} (h : g < d.gmin ∨ d.gmax < g) : d.call g = 0 := by
  have : ¬ InBounds d.gmin d.gmax g := by
    rintro ⟨h1, h2⟩
    rcases h with h | h <;> linarith
  cases d <;> simp only [Dist.gmin, Dist.gmax] at this <;>
    simp [Dist.call, powerLawAt, brokenAt, logParabolaAt, ecplAt, ecbplAt, interpAt, this]

/-- C23: positive inside the range -/
theorem C23_inside {d : Dist} (hp : d.Positive) (hn : d.NonEmpty) {g : ℝ} (h1 : d.gmin ≤ g) (h2 : g ≤ d.gmax) :
    0 < d.call g := by
  have hb : InBounds d.gmin d.gmax g := ⟨h1, h2⟩
  cases d with
  | empty => exact hn.elim
  | powerLaw k p a b =>
    simp only [Dist.gmin, Dist.gmax] at hb
    obtain ⟨hk, ha⟩ := hp
    have hg : 0 < g := lt_of_lt_of_le ha h1
    simp only [Dist.call, powerLawAt]
    rw [if_pos hb]
    positivity
  | broken k p1 p2 gb a b =>
    simp only [Dist.gmin, Dist.gmax] at hb
    obtain ⟨hk, hgb, ha⟩ := hp
    have hg : 0 < g := lt_of_lt_of_le ha h1
    simp only [Dist.call, brokenAt]
    rw [if_pos hb]
    positivity
  | logParabola k p q g0 a b =>
    simp only [Dist.gmin, Dist.gmax] at hb
    obtain ⟨hk, hg0, ha⟩ := hp
    have hg : 0 < g := lt_of_lt_of_le ha h1
    simp only [Dist.call, logParabolaAt]
    rw [if_pos hb]
    positivity
  | ecpl k p gc a b =>
    simp only [Dist.gmin, Dist.gmax] at hb
    obtain ⟨hk, hgc, ha⟩ := hp
    have hg : 0 < g := lt_of_lt_of_le ha h1
    simp only [Dist.call, ecplAt]
    rw [if_pos hb]
    positivity
  | ecbpl k p1 p2 gc gb a b =>
    simp only [Dist.gmin, Dist.gmax] at hb
    obtain ⟨hk, hgc, hgb, ha⟩ := hp
    have hg : 0 < g := lt_of_lt_of_le ha h1
    simp only [Dist.call, ecbplAt]
    rw [if_pos hb]
    positivity
  | interp f df norm a b =>
    simp only [Dist.gmin, Dist.gmax] at hb
    obtain ⟨hk, ha⟩ := hp
    simp only [Dist.call, interpAt]
    rw [if_pos hb]
    positivity

/-- C23: never negative -/
theorem C23_nonneg {d : Dist} (hp : d.Positive) (g : ℝ) : 0 ≤ d.call g := by
  by_cases hn : d.NonEmpty
  · by_cases h1 : d.gmin ≤ g
    · by_cases h2 : g ≤ d.gmax
      · exact (C23_inside hp hn h1 h2).le
      · exact (C23_outside d (Or.inr (not_le.1 h2))).symm.le
    · exact (C23_outside d (Or.inl (not_le.1 h1))).symm.le
  · cases d <;> first | exact (hn trivial).elim | exact le_refl _

/-- C23 on arrays: no negative value, whatever the boundary correction does -/
theorem C23_array_nonneg {d : Dist} (hp : d.Positive) (gamma : List ℝ) : ∀ v ∈ (d.evaluate gamma).2, 0 ≤ v := by
  intro v hv
  obtain ⟨g, _, rfl⟩ := List.mem_map.1 hv
  exact C23_nonneg hp g

example : (Dist.broken 2 2 3 100 10 1000).Positive := by norm_num [Dist.Positive]

/-! ### C24 -/

/-- where a family is differentiable: off the break, where the interpolant is differentiable with the derivative that
its `derivative()` reports -/
def Dist.SmoothAt (g : ℝ) : Dist → Prop
  | .powerLaw .. => True
  | .broken _ _ _ gb _ _ => 0 < gb ∧ g ≠ gb
  | .logParabola _ _ _ g0 _ _ => 0 < g0
  | .ecpl _ _ gc _ _ => gc ≠ 0
  | .ecbpl _ _ _ gc gb _ _ => gc ≠ 0 ∧ 0 < gb ∧ g ≠ gb
  | .interp f df _ _ _ => HasDerivAt f (df (log10 g)) (log10 g)
  | .empty _ _ => True

theorem eventually_inBounds {a b g : ℝ} (h1 : a < g) (h2 : g < b) : ∀ᶠ x in nhds g, InBounds a b x := by
  filter_upwards [lt_mem_nhds h1, gt_mem_nhds h2] with x hx hy
  exact ⟨hx.le, hy.le⟩

/-- locally on which side of the break -/
theorem eventually_index {g gb : ℝ} (h : g ≠ gb) (p1 p2 : ℝ) :
    ∀ᶠ x in nhds g, (if x ≤ gb then p1 else p2) = (if g ≤ gb then p1 else p2) := by
  rcases lt_or_gt_of_ne h with h | h
  · filter_upwards [gt_mem_nhds h] with x hx
    rw [if_pos hx.le, if_pos h.le]
  · filter_upwards [lt_mem_nhds h] with x hx
    rw [if_neg (not_le.2 hx), if_neg (not_le.2 h)]

/-- C24: `SSA_integrand` is `γ² d/dγ (n(γ)/γ²)` inside the range, off the break.  The derivative is that of the
spectrum itself as a user calls it. -/
theorem C24_ssa {d : Dist} {g : ℝ} (h0 : 0 < g) (h1 : d.gmin < g) (h2 : g < d.gmax) (hs : d.SmoothAt g) :
    HasDerivAt (fun x => d.call x / x ^ 2) (d.ssa g / g ^ 2) g := by
  -- it is enough to differentiate the spectrum
  have red : ∀ n : ℝ → ℝ, ∀ n' : ℝ, HasDerivAt n n' g → (∀ᶠ x in nhds g, d.call x = n x) →
      d.ssa g = n' - 2 * n g / g → HasDerivAt (fun x => d.call x / x ^ 2) (d.ssa g / g ^ 2) g := by
    intro n n' hd he hv
    rw [hv]
    refine (deriv_div_sq hd h0.ne').congr_of_eventuallyEq ?_
    filter_upwards [he] with x hx
    rw [hx]
  have hb : InBounds d.gmin d.gmax g := ⟨h1.le, h2.le⟩
  have ev := eventually_inBounds h1 h2
  cases d with
  | empty a b =>
    refine red (fun _ => 0) 0 (hasDerivAt_const _ _) (Filter.Eventually.of_forall fun _ => rfl) ?_
    simp [Dist.ssa, Dist.ssaElem]
  | powerLaw k p a b =>
    simp only [Dist.gmin, Dist.gmax] at hb ev
    refine red (fun x => k * (x / 1) ^ (-p)) _ (deriv_pow_law k p h0 one_pos) ?_ ?_
    · filter_upwards [ev] with x hx
      simp only [Dist.call, powerLawAt]
      rw [if_pos hx, div_one]
    · simp only [Dist.ssa, Dist.ssaElem, powerLawSSA]
      rw [if_pos hb, Real.rpow_sub h0, Real.rpow_one, div_one]
      ring
  | broken k p1 p2 gb a b =>
    simp only [Dist.gmin, Dist.gmax] at hb ev
    obtain ⟨hgb, hne⟩ := hs
    refine red (fun x => k * (x / gb) ^ (-(if g ≤ gb then p1 else p2))) _ (deriv_pow_law k _ h0 hgb) ?_ ?_
    · filter_upwards [ev, eventually_index hne p1 p2] with x hx hi
      simp only [Dist.call, brokenAt]
      rw [if_pos hx, hi]
    · simp only [Dist.ssa, Dist.ssaElem, brokenSSA]
      rw [if_pos hb]
      ring
  | logParabola k p q g0 a b =>
    simp only [Dist.gmin, Dist.gmax] at hb ev
    refine red (fun x => k * (x / g0) ^ (-p - q * log10 (x / g0))) _ (deriv_logpar k p q h0 hs) ?_ ?_
    · filter_upwards [ev] with x hx
      simp only [Dist.call, logParabolaAt]
      rw [if_pos hx]
    · simp only [Dist.ssa, Dist.ssaElem, logParabolaSSA, logParabolaAt]
      rw [if_pos hb]
      ring
  | ecpl k p gc a b =>
    simp only [Dist.gmin, Dist.gmax] at hb ev
    refine red (fun x => k * (x / 1) ^ (-p) * Real.exp (-x / gc)) _
      ((deriv_pow_law k p h0 one_pos).mul (deriv_cutoff gc)) ?_ ?_
    · filter_upwards [ev] with x hx
      simp only [Dist.call, ecplAt]
      rw [if_pos hx, div_one]
    · simp only [Dist.ssa, Dist.ssaElem, ecplSSA, ecplAt]
      rw [if_pos hb, div_one]
      ring
  | ecbpl k p1 p2 gc gb a b =>
    simp only [Dist.gmin, Dist.gmax] at hb ev
    obtain ⟨_, hgb, hne⟩ := hs
    refine red (fun x => k * (x / gb) ^ (-(if g ≤ gb then p1 else p2)) * Real.exp (-x / gc)) _
      ((deriv_pow_law k _ h0 hgb).mul (deriv_cutoff gc)) ?_ ?_
    · filter_upwards [ev, eventually_index hne p1 p2] with x hx hi
      simp only [Dist.call, ecbplAt]
      rw [if_pos hx, hi]
    · simp only [Dist.ssa, Dist.ssaElem, ecbplSSA, ecbplAt]
      rw [if_pos hb, if_pos hb]
      ring
  | interp f df norm a b =>
    simp only [Dist.gmin, Dist.gmax] at hb ev
    refine red (fun x => norm * (10 : ℝ) ^ f (log10 x)) _ (deriv_interp norm h0 hs) ?_ ?_
    · filter_upwards [ev] with x hx
      simp only [Dist.call, interpAt]
      rw [if_pos hx]
    · simp only [Dist.ssa, Dist.ssaElem, interpSSA, interpAt]
      rw [if_pos hb]

/-- C24: zero outside the range (scalar argument) -/
theorem C24_outside (d : Dist) {g : ℝ} (h : g < d.gmin ∨ d.gmax < g) : d.ssa g = 0 := by
  have hc := C23_outside d h
  have : ¬ InBounds d.gmin d.gmax g := by
    rintro ⟨h1, h2⟩
    rcases h with h | h <;> linarith
  cases d <;> simp only [Dist.gmin, Dist.gmax, Dist.call] at this hc <;>
    simp [Dist.ssa, Dist.ssaElem, powerLawSSA, brokenSSA, logParabolaSSA, ecplSSA, ecbplSSA, interpSSA, hc, this]

example : (Dist.ecbpl 2 2 3 500 100 10 1000).SmoothAt 200 := by norm_num [Dist.SmoothAt]

/-! ### C25 -/

theorem continuousAt_broken {p1 p2 gb : ℝ} (hgb : 0 < gb) (k : ℝ) :
    ContinuousAt (fun x => k * (x / gb) ^ (-(if x ≤ gb then p1 else p2))) gb := by
  have h1 : ∀ p : ℝ, ContinuousAt (fun x => k * (x / gb) ^ (-p)) gb := fun p =>
    (deriv_pow_law k p hgb hgb).continuousAt
  rw [continuousAt_iff_continuous_left_right]
  constructor
  · refine ((h1 p1).continuousWithinAt).congr (fun x hx => ?_) ?_
    · rw [if_pos (Set.mem_Iic.1 hx)]
    · rw [if_pos le_rfl]
  · refine ((h1 p2).continuousWithinAt).congr (fun x hx => ?_) ?_
    · rcases (Set.mem_Ici.1 hx).eq_or_lt with h | h
      · rw [← h, if_pos le_rfl, div_self hgb.ne', Real.one_rpow, Real.one_rpow]
      · rw [if_neg (not_le.2 h)]
    · rw [if_pos le_rfl, div_self hgb.ne', Real.one_rpow, Real.one_rpow]

/-- C25: a broken power law is continuous at its break and has the value `k` there -/
theorem C25_broken {k p1 p2 gb a b : ℝ} (h0 : 0 < gb) (h1 : a < gb) (h2 : gb < b) :
    ContinuousAt (Dist.broken k p1 p2 gb a b).call gb ∧ (Dist.broken k p1 p2 gb a b).call gb = k := by
  constructor
  · refine (continuousAt_broken (p1 := p1) (p2 := p2) h0 k).congr ?_
    filter_upwards [eventually_inBounds h1 h2] with x hx
    simp only [Dist.call, brokenAt]
    rw [if_pos hx]
  · simp only [Dist.call, brokenAt]
    rw [if_pos ⟨h1.le, h2.le⟩, div_self h0.ne', Real.one_rpow, mul_one]

/-- C25: the same with a cutoff -/
theorem C25_ecbpl {k p1 p2 gc gb a b : ℝ} (h0 : 0 < gb) (h1 : a < gb) (h2 : gb < b) :
    ContinuousAt (Dist.ecbpl k p1 p2 gc gb a b).call gb
      ∧ (Dist.ecbpl k p1 p2 gc gb a b).call gb = k * Real.exp (-gb / gc) := by
  constructor
  · refine ((continuousAt_broken (p1 := p1) (p2 := p2) h0 k).mul (deriv_cutoff (g := gb) gc).continuousAt).congr ?_
    filter_upwards [eventually_inBounds h1 h2] with x hx
    simp only [Dist.call, ecbplAt, Pi.mul_apply]
    rw [if_pos hx]
  · simp only [Dist.call, ecbplAt]
    rw [if_pos ⟨h1.le, h2.le⟩, div_self h0.ne', Real.one_rpow, mul_one]

/-- C25: reference value of a log parabola -/
theorem C25_logParabola {k p q g0 a b : ℝ} (h0 : 0 < g0) (h1 : a ≤ g0) (h2 : g0 ≤ b) :
    (Dist.logParabola k p q g0 a b).call g0 = k := by
  simp only [Dist.call, logParabolaAt]
  rw [if_pos ⟨h1, h2⟩, div_self h0.ne', Real.one_rpow, mul_one]

/-! ### C30 -/

/-- C30: calling a distribution is calling `evaluate` with its `parameters` -/
theorem C30_call (d : Dist) (g : ℝ) : d.evaluateArgs g d.parameters = some (d.call g) := by
  cases d <;> rfl

/-- C30: the same for the SSA integrand, wherever the family has one -/
theorem C30_ssa {d : Dist} (hn : d.NonEmpty) (g : ℝ) : d.ssaArgs g d.parameters = some (d.ssa g) := by
  cases d <;> first | exact hn.elim | rfl

/-! ### C27 -/

theorem mk_call (s : Shape) (k a b g : ℝ) : (s.mk k a b).call g = k * (s.mk 1 a b).call g := by
  cases s <;> simp only [Shape.mk, Dist.call, powerLawAt, brokenAt, logParabolaAt, ecplAt, ecbplAt] <;>
    split_ifs <;> ring

/-- C27: the density at `γ = 1` is the one asked for, whenever the constructor succeeds -/
theorem C27_value {s : Shape} {n1 a b : ℝ} {d : Dist} (h : fromDensityAtGamma1 s n1 a b = .ok d) :
    d.call 1 = n1 := by
  unfold fromDensityAtGamma1 npDiv at h
  split_ifs at h with h0
  · cases h
  · cases h
    rw [mk_call]
    field_simp

/-- scales of a shape are positive -/
def Shape.Positive : Shape → Prop
  | .powerLaw _ => True
  | .broken _ _ gb => 0 < gb
  | .logParabola _ _ g0 => 0 < g0
  | .ecpl _ gc => 0 < gc
  | .ecbpl _ _ gc gb => 0 < gc ∧ 0 < gb

theorem Shape.mk_positive {s : Shape} (h : s.Positive) {k a b : ℝ} (hk : 0 < k) (ha : 0 < a) :
    (s.mk k a b).Positive := by
  cases s <;> simp_all [Shape.Positive, Shape.mk, Dist.Positive]

theorem Shape.mk_nonEmpty (s : Shape) (k a b : ℝ) : (s.mk k a b).NonEmpty := by
  cases s <;> trivial

@[simp] theorem Shape.mk_gmin (s : Shape) (k a b : ℝ) : (s.mk k a b).gmin = a := by cases s <;> rfl
@[simp] theorem Shape.mk_gmax (s : Shape) (k a b : ℝ) : (s.mk k a b).gmax = b := by cases s <;> rfl

/-- C27: the constructor succeeds exactly when 1 is in the range; otherwise (as with every family's default
`gamma_min = 10`) it divides by zero -/
theorem C27_succeeds_iff {s : Shape} (hs : s.Positive) (n1 : ℝ) {a b : ℝ} (ha : 0 < a) :
    (∃ d, fromDensityAtGamma1 s n1 a b = .ok d) ↔ a ≤ 1 ∧ 1 ≤ b := by
  constructor
  · rintro ⟨d, h⟩
    by_contra hc
    have : (s.mk 1 a b).call 1 = 0 := by
      apply C23_outside
      simp only [Shape.mk_gmin, Shape.mk_gmax]
      by_contra h2
      push Not at h2
      exact hc h2
    unfold fromDensityAtGamma1 npDiv at h
    rw [if_pos this] at h
    cases h
  · rintro ⟨h1, h2⟩
    have : (s.mk 1 a b).call 1 ≠ 0 :=
      (C23_inside (Shape.mk_positive hs one_pos ha) (s.mk_nonEmpty 1 a b) (by simpa using h1) (by simpa using h2)).ne'
    unfold fromDensityAtGamma1 npDiv
    rw [if_neg this]
    exact ⟨_, rfl⟩

example : ∃ d, fromDensityAtGamma1 (.broken 2 3 100) 5 1 1000 = .ok d :=
  (C27_succeeds_iff (by norm_num [Shape.Positive]) 5 (by norm_num)).2 ⟨by norm_num, by norm_num⟩

/-! ### C26 -/

theorem afterCall_mk (s : Shape) (k a b : ℝ) (l : List ℝ) :
    (s.mk k a b).afterCall l = correctBoundary l a b := by
  cases s <;> rfl

theorem integralWith_mk (s : Shape) (k a b low up : ℝ) (power : ℕ) :
    (s.mk k a b).integralWith trapz low up power = k * (s.mk 1 a b).integralWith trapz low up power := by
  unfold Dist.integralWith Dist.evaluate
  simp only [afterCall_mk]
  rw [← C33_trapz_scale]
  congr 1
  rw [List.map_zipWith]
  generalize correctBoundary _ a b = l
  unfold Dist.powers
  induction l with
  | nil => rfl
  | cons x l ih =>
    simp only [List.map_cons, List.zipWith_cons_cons]
    rw [ih, mk_call s k]
    congr 1
    ring

theorem integrate_mk (s : Shape) (k a b : ℝ) (power : ℕ) :
    (s.mk k a b).integrate trapz none none power = k * (s.mk 1 a b).integralWith trapz a b power := by
  rw [← integralWith_mk]
  cases s <;> rfl

/-- C26: a distribution built by `from_total_density` integrates to the density asked for -/
theorem C26_density {s : Shape} {n_tot : ℝ} {a b : Option ℝ} {d : Dist}
    (h : fromTotalDensity s n_tot a b = .ok d) : d.integrate trapz none none 0 = n_tot := by
  unfold fromTotalDensity limits at h
  rcases a with _ | a
  · cases h
  rcases b with _ | b
  · cases h
  simp only [bind, Except.bind, npDiv] at h
  split_ifs at h with h0
  cases h
  rw [integrate_mk]
  field_simp

/-- C26: a distribution built by `from_total_energy_density` has that energy density -/
theorem C26_energy_density {s : Shape} {mc2 u_tot : ℝ} {a b : Option ℝ} {d : Dist}
    (h : fromTotalEnergyDensity s mc2 u_tot a b = .ok d) : mc2 * d.integrate trapz none none 1 = u_tot := by
  unfold fromTotalEnergyDensity limits at h
  rcases a with _ | a
  · cases h
  rcases b with _ | b
  · cases h
  simp only [bind, Except.bind, npDiv] at h
  split_ifs at h with h0
  cases h
  rw [integrate_mk, mul_left_comm, div_mul_cancel₀ _ h0]

/-- C26: a distribution built by `from_total_energy` contains the total energy `W` in the volume `V` -/
theorem C26_energy {s : Shape} {mc2 W V : ℝ} {a b : Option ℝ} {d : Dist}
    (h : fromTotalEnergy s mc2 W V a b = .ok d) : V * (mc2 * d.integrate trapz none none 1) = W := by
  unfold fromTotalEnergy npDiv at h
  simp only [bind, Except.bind] at h
  split at h
  · cases h
  · rename_i u hu
    split_ifs at hu with h0
    cases hu
    rw [C26_energy_density h]
    field_simp

/-! positivity of the unit integral, so that the constructors succeed -/

theorem linspace_pairwise {a b : ℝ} (h : a < b) (n : ℕ) (hn : 2 ≤ n) :
    (linspace a b n).Pairwise (· < ·) := by
  unfold linspace
  rw [List.pairwise_map]
  refine List.pairwise_lt_range.imp fun {i j} hij => ?_
  have h1 : (0 : ℝ) < (b - a) / (n - 1) := by
    apply div_pos (sub_pos.2 h)
    have : (2 : ℝ) ≤ n := by exact_mod_cast hn
    linarith
  have h2 : (i : ℝ) < j := by exact_mod_cast hij
  have := mul_lt_mul_of_pos_right h2 h1
  linarith

theorem logspace_pairwise {a b : ℝ} (h : a < b) (n : ℕ) (hn : 2 ≤ n) :
    (logspace a b n).Pairwise (· < ·) := by
  unfold logspace
  rw [List.pairwise_map]
  exact (linspace_pairwise h n hn).imp fun {x y} hxy =>
    Real.rpow_lt_rpow_of_exponent_lt (by norm_num) hxy

theorem ten_pow_log10 {x : ℝ} (hx : 0 < x) : (10 : ℝ) ^ log10 x = x := by
  rw [Real.rpow_def_of_pos (by norm_num)]
  unfold log10
  rw [mul_div_cancel₀ _ log_ten_pos.ne', Real.exp_log hx]

theorem log10_lt {x y : ℝ} (hx : 0 < x) (h : x < y) : log10 x < log10 y := by
  unfold log10
  exact div_lt_div_of_pos_right (Real.log_lt_log hx h) log_ten_pos

theorem range_ends (n : ℕ) : List.range (n + 2) = 0 :: ((List.range n).map (· + 1) ++ [n + 1]) := by
  rw [List.range_succ_eq_map, List.range_succ]
  simp

theorem logspace_ends {a b : ℝ} (ha : 0 < a) (hb : 0 < b) :
    ∃ mid, logspace (log10 a) (log10 b) 200 = a :: (mid ++ [b]) := by
  refine ⟨((List.range 198).map fun i : ℕ => (10 : ℝ) ^ (log10 a + ((i + 1 : ℕ) : ℝ) * ((log10 b - log10 a) / (200 - 1)))), ?_⟩
  unfold logspace linspace
  rw [List.map_map, range_ends 198]
  simp only [List.map_cons, List.map_append, List.map_map, List.map_nil, Function.comp_def]
  congr 1
  · simp [ten_pow_log10 ha]
  · congr 1
    simp only [List.cons.injEq, and_true]
    rw [show log10 a + ((199 : ℕ) : ℝ) * ((log10 b - log10 a) / (((200 : ℕ) : ℝ) - 1)) = log10 b by push_cast; ring,
      ten_pow_log10 hb]

theorem correctBoundary_id {a b : ℝ} {mid : List ℝ} : correctBoundary (a :: (mid ++ [b])) a b = a :: (mid ++ [b]) := by
  have h1 : correctFirst a (a :: (mid ++ [b])) = a :: (mid ++ [b]) := by simp [correctFirst]
  unfold correctBoundary
  rw [h1]
  simp [correctLast]

theorem trapz_pos {y x : ℝ} {ys xs : List ℝ} (hlen : ys.length = xs.length) (hne : xs ≠ [])
    (hx : (x :: xs).IsChain (· < ·)) (hy : 0 < y) (hys : ∀ v ∈ ys, 0 ≤ v) : 0 < trapz (y :: ys) (x :: xs) := by
  rcases xs with _ | ⟨x', xs⟩
  · exact absurd rfl hne
  · rcases ys with _ | ⟨y', ys⟩
    · simp at hlen
    · simp only [trapz]
      rw [List.isChain_cons_cons] at hx
      have h1 := hys y' (by simp)
      have h2 := C33_trapz_nonneg (y' :: ys) (x' :: xs) (hx.2.imp fun _ _ h => h.le) hys
      have h3 : 0 < (x' - x) * (y + y') := mul_pos (sub_pos.2 hx.1) (by linarith)
      linarith

theorem unit_integral_pos {s : Shape} (hs : s.Positive) {a b : ℝ} (ha : 0 < a) (hab : a < b) (power : ℕ) :
    0 < (s.mk 1 a b).integralWith trapz a b power := by
  have hpos : (s.mk 1 a b).Positive := Shape.mk_positive hs one_pos ha
  unfold Dist.integralWith Dist.evaluate
  simp only [afterCall_mk]
  obtain ⟨mid, hmid⟩ := logspace_ends ha (ha.trans hab)
  have hchain : (logspace (log10 a) (log10 b) 200).IsChain (· < ·) :=
    List.isChain_iff_pairwise.2 (logspace_pairwise (log10_lt ha hab) 200 (by norm_num))
  have hpw : (logspace (log10 a) (log10 b) 200).Pairwise (· < ·) := logspace_pairwise (log10_lt ha hab) 200 (by norm_num)
  rw [hmid] at hchain hpw ⊢
  rw [correctBoundary_id]
  unfold Dist.powers
  simp only [List.map_cons, List.zipWith_cons_cons]
  apply trapz_pos _ (by simp) hchain
  · have : 0 < (s.mk 1 a b).call a :=
      C23_inside hpos (s.mk_nonEmpty 1 a b) (by simp) (by simpa using hab.le)
    positivity
  · intro v hv
    rw [List.zipWith_map] at hv
    obtain ⟨i, hi, rfl⟩ := List.mem_iff_getElem.1 hv
    rw [List.getElem_zipWith]
    apply mul_nonneg (C23_nonneg hpos _)
    apply pow_nonneg
    have hi' : i < (mid ++ [b]).length := by simpa using hi
    exact (ha.trans (List.rel_of_pairwise_cons hpw (List.getElem_mem hi'))).le
  · simp

/-- C26: with both limits given and `0 < gamma_min < gamma_max` the constructors succeed; without a limit they do not -/
theorem C26_succeeds {s : Shape} (hs : s.Positive) {a b : ℝ} (ha : 0 < a) (hab : a < b) {mc2 V : ℝ} (hm : 0 < mc2)
    (hV : V ≠ 0) (n : ℝ) :
    (∃ d, fromTotalDensity s n (some a) (some b) = .ok d)
      ∧ (∃ d, fromTotalEnergyDensity s mc2 n (some a) (some b) = .ok d)
      ∧ (∃ d, fromTotalEnergy s mc2 n V (some a) (some b) = .ok d) := by
  have h0 := (unit_integral_pos hs ha hab 0).ne'
  have h1 : mc2 * (s.mk 1 a b).integralWith trapz a b 1 ≠ 0 := (mul_pos hm (unit_integral_pos hs ha hab 1)).ne'
  have e1 : ∀ u, ∃ d, fromTotalEnergyDensity s mc2 u (some a) (some b) = .ok d := by
    intro u
    unfold fromTotalEnergyDensity limits npDiv
    simp only [bind, Except.bind]
    rw [if_neg h1]
    exact ⟨_, rfl⟩
  refine ⟨?_, e1 n, ?_⟩
  · unfold fromTotalDensity limits npDiv
    simp only [bind, Except.bind]
    rw [if_neg h0]
    exact ⟨_, rfl⟩
  · unfold fromTotalEnergy npDiv
    rw [if_neg hV]
    exact e1 _

theorem C26_missing_limit (s : Shape) (n : ℝ) (a b : Option ℝ) (h : a = none ∨ b = none) :
    fromTotalDensity s n a b = .error .unbound := by
  unfold fromTotalDensity limits
  rcases h with rfl | rfl
  · rfl
  · cases a <;> rfl

example : ∃ d, fromTotalDensity (.logParabola 2 1 100) 7 (some 10) (some 1000) = .ok d
    ∧ d.integrate trapz none none 0 = 7 := by
  obtain ⟨d, h⟩ := (C26_succeeds (s := .logParabola 2 1 100) (by norm_num [Shape.Positive])
    (a := 10) (b := 1000) (by norm_num) (by norm_num) one_pos one_ne_zero 7).1
  exact ⟨d, h, C26_density h⟩

/-! the integral itself, stated without the helpers -/

/-- the points low, low r, low r^2, ..., up with r = (up/low)^(1/199) -/
noncomputable def geometricGrid (low up : ℝ) : List ℝ :=
  (List.range 200).map fun i : ℕ => low * (up / low) ^ ((i : ℝ) / 199)

theorem logspace_geometric {low up : ℝ} (h0 : 0 < low) (h1 : 0 < up) :
    logspace (log10 low) (log10 up) 200 = geometricGrid low up := by
  unfold logspace linspace geometricGrid
  rw [List.map_map]
  refine List.map_congr_left fun i _ => ?_
  simp only [Function.comp_def]
  rw [Real.rpow_add (by norm_num), ten_pow_log10 h0]
  congr 1
  have e : (i : ℝ) * ((log10 up - log10 low) / (((200 : ℕ) : ℝ) - 1)) = log10 (up / low) * ((i : ℝ) / 199) := by
    unfold log10
    rw [Real.log_div h1.ne' h0.ne']
    push_cast
    ring
  rw [e, Real.rpow_mul (by norm_num), ten_pow_log10 (div_pos h1 h0)]

/-- C26: for limits inside the range of the spectrum, `integrate(gamma_low, gamma_up, gamma_power)` is the integrator applied to
`gamma^gamma_power n(gamma)` on 200 points spaced evenly in log gamma between the limits; the limits default to the
range of the spectrum -/
theorem C26_integrate (I : List ℝ → List ℝ → ℝ) {d : Dist} (hn : d.NonEmpty) {low up : ℝ} (h0 : 0 < low) (hlt : low < up)
    (h1 : d.gmin ≤ low) (h2 : up ≤ d.gmax) (power : ℕ) :
    d.integrate I (some low) (some up) power
        = I ((geometricGrid low up).map fun g => g ^ power * d.call g) (geometricGrid low up)
      ∧ d.integrate I none none power = d.integrate I (some d.gmin) (some d.gmax) power := by
  have hup := h0.trans hlt
  have key : d.integralWith I low up power
      = I ((geometricGrid low up).map fun g => g ^ power * d.call g) (geometricGrid low up) := by
    obtain ⟨mid, hmid⟩ := logspace_ends h0 hup
    have hc : correctBoundary (logspace (log10 low) (log10 up) 200) d.gmin d.gmax
        = logspace (log10 low) (log10 up) 200 := by
      unfold correctBoundary
      have hf : correctFirst d.gmin (logspace (log10 low) (log10 up) 200) = logspace (log10 low) (log10 up) 200 := by
        rw [hmid]
        simp [correctFirst, h1.not_gt]
      rw [hf, hmid]
      simp [correctLast, h2.not_gt]
    have ha : d.afterCall (logspace (log10 low) (log10 up) 200) = geometricGrid low up := by
      rw [← logspace_geometric h0 hup]
      unfold Dist.afterCall
      split
      · rfl
      · exact hc
    unfold Dist.integralWith Dist.evaluate Dist.powers
    dsimp only
    rw [ha, List.zipWith_map]
    congr 1
    generalize geometricGrid low up = l
    induction l with
    | nil => rfl
    | cons x l ih => rw [List.zipWith_cons_cons, List.map_cons, ih, mul_comm]
  refine ⟨?_, ?_⟩
  · cases d <;> first | exact hn.elim | exact key
  · cases d <;> first | exact hn.elim | rfl

example : (Dist.powerLaw 3 2 10 1000).integrate trapz none none 1
    = trapz ((geometricGrid 10 1000).map fun g => g ^ 1 * (Dist.powerLaw 3 2 10 1000).call g) (geometricGrid 10 1000) := by
  have h := fun p => C26_integrate trapz (d := .powerLaw 3 2 10 1000) trivial (low := 10) (up := 1000) (by norm_num)
    (by norm_num) le_rfl le_rfl p
  rw [(h 1).2, ← (h 1).1]
  rfl

/-! ### C28 -/

/-- what is assumed of an interpolator: it goes through its data -/
def GoesThrough (interp : List ℝ → List ℝ → Option ((ℝ → ℝ) × (ℝ → ℝ))) : Prop :=
  ∀ xs ys f df, interp xs ys = some (f, df) → ∀ p ∈ List.zip xs ys, f p.1 = p.2

theorem zip_select {α β : Type} (mask : List Bool) (a : List α) (b : List β) :
    List.zip (Np.select mask a) (Np.select mask b) = Np.select mask (List.zip a b) := by
  induction mask generalizing a b with
  | nil => simp [Np.select]
  | cons m mask ih =>
    rcases a with _ | ⟨x, a⟩
    · cases m <;> simp [Np.select]
    · rcases b with _ | ⟨y, b⟩
      · cases m <;> simp [Np.select]
      · cases m <;> simp [Np.select, ih]

theorem mem_select_iff {l : List (ℝ × ℝ)} {p : ℝ × ℝ} :
    p ∈ Np.select (l.map fun q => !decide (q.2 = 0)) l ↔ p ∈ l ∧ p.2 ≠ 0 := by
  induction l with
  | nil => simp [Np.select]
  | cons q l ih =>
    by_cases hq : q.2 = 0
    · simp only [List.map_cons, hq, decide_true, Bool.not_true, Np.select, ih, List.mem_cons]
      constructor
      · rintro ⟨h1, h2⟩; exact ⟨Or.inr h1, h2⟩
      · rintro ⟨rfl | h1, h2⟩
        · exact absurd hq h2
        · exact ⟨h1, h2⟩
    · simp only [List.map_cons, hq, decide_false, Bool.not_false, Np.select, ih, List.mem_cons]
      constructor
      · rintro (rfl | ⟨h1, h2⟩)
        · exact ⟨Or.inl rfl, hq⟩
        · exact ⟨Or.inr h1, h2⟩
      · rintro ⟨rfl | h1, h2⟩
        · exact Or.inl rfl
        · exact Or.inr ⟨h1, h2⟩

theorem select_fst {mask : List Bool} {a b : List ℝ} (h : a.length = b.length) :
    Np.select mask a = (Np.select mask (List.zip a b)).map Prod.fst := by
  induction mask generalizing a b with
  | nil => simp [Np.select]
  | cons m mask ih =>
    rcases a with _ | ⟨x, a⟩
    · cases m <;> simp [Np.select]
    · rcases b with _ | ⟨y, b⟩
      · simp at h
      · have hl : a.length = b.length := by simpa using h
        cases m <;> simp [Np.select, ih hl]

theorem mask_zip {a b : List ℝ} (h : a.length = b.length) :
    (b.map fun x => !decide (x = 0)) = (List.zip a b).map fun q => !decide (q.2 = 0) := by
  induction a generalizing b with
  | nil =>
    obtain rfl : b = [] := by simpa using h.symm
    rfl
  | cons x a ih =>
    rcases b with _ | ⟨y, b⟩
    · simp at h
    · have hl : a.length = b.length := by simpa using h
      simp [ih hl]

/-- what a successful construction stores -/
theorem mkInterp_ok {interp : List ℝ → List ℝ → Option ((ℝ → ℝ) × (ℝ → ℝ))} {gamma n : List ℝ} {norm : ℝ}
    {d : Dist} (h : mkInterp interp gamma n norm = .ok d) :
    ∃ f df lo hi, d = .interp f df norm lo hi
      ∧ gamma.length = n.length
      ∧ (∀ p ∈ List.zip gamma n, 0 ≤ p.2)
      ∧ interp ((Np.select (n.map fun x => !decide (x = 0)) gamma).map log10)
          ((Np.select (n.map fun x => !decide (x = 0)) n).map log10) = some (f, df)
      ∧ (∀ p ∈ List.zip gamma n, p.2 ≠ 0 → lo ≤ p.1 ∧ p.1 ≤ hi)
      ∧ (∃ p ∈ List.zip gamma n, p.2 ≠ 0 ∧ p.1 = lo) ∧ (∃ p ∈ List.zip gamma n, p.2 ≠ 0 ∧ p.1 = hi) := by
  unfold mkInterp at h
  split_ifs at h with h0 h1
  dsimp only at h
  split_ifs at h with h2
  have hlen : gamma.length = n.length := not_ne_iff.1 h1
  have hmem : ∀ g, g ∈ Np.select (n.map fun x => !decide (x = 0)) gamma ↔ ∃ p ∈ List.zip gamma n, p.2 ≠ 0 ∧ p.1 = g := by
    intro g
    rw [select_fst hlen, mask_zip hlen, List.mem_map]
    constructor
    · rintro ⟨p, hp, rfl⟩
      exact ⟨p, (mem_select_iff.1 hp).1, (mem_select_iff.1 hp).2, rfl⟩
    · rintro ⟨p, hp, hne, rfl⟩
      exact ⟨p, mem_select_iff.2 ⟨hp, hne⟩, rfl⟩
  split at h
  · rename_i f df lo hi e1 e2 e3
    cases h
    refine ⟨f, df, lo, hi, rfl, hlen, ?_, e1, ?_, ?_, ?_⟩
    · intro p hp
      by_contra hneg
      apply h2
      rw [List.any_eq_true]
      refine ⟨p.2, ?_, by simpa using hneg⟩
      have hz : p ∈ List.zip (Np.select (n.map fun x => !decide (x = 0)) gamma)
          (Np.select (n.map fun x => !decide (x = 0)) n) := by
        rw [zip_select, mask_zip hlen]
        exact mem_select_iff.2 ⟨hp, fun h => hneg h.symm.le⟩
      exact (List.of_mem_zip hz).2
    · intro p hp hne
      have hm := (hmem p.1).2 ⟨p, hp, hne, rfl⟩
      exact ⟨(List.le_min?_iff e2).1 (le_refl _) _ hm, (List.max?_le_iff e3).1 (le_refl _) _ hm⟩
    · exact (hmem lo).1 (List.min?_mem e2)
    · exact (hmem hi).1 (List.max?_mem e3)
  · cases h

/-- C28: at every input point with a positive density the spectrum is `norm` times the input, for any
interpolator that goes through its data -/
theorem C28_nodes {interp : List ℝ → List ℝ → Option ((ℝ → ℝ) × (ℝ → ℝ))} (hi : GoesThrough interp)
    {gamma n : List ℝ} {norm : ℝ} {d : Dist} (h : mkInterp interp gamma n norm = .ok d)
    {g x : ℝ} (hp : (g, x) ∈ List.zip gamma n) (hx : 0 < x) : d.call g = norm * x := by
  obtain ⟨f, df, lo, hi', rfl, hlen, _, e, hb, _, _⟩ := mkInterp_ok h
  have hz : (g, x) ∈ List.zip (Np.select (n.map fun x => !decide (x = 0)) gamma)
      (Np.select (n.map fun x => !decide (x = 0)) n) := by
    rw [zip_select, mask_zip hlen]
    exact mem_select_iff.2 ⟨hp, hx.ne'⟩
  have hf := hi _ _ f df e (log10 g, log10 x) (by
    rw [List.zip_map]
    exact List.mem_map.2 ⟨(g, x), hz, rfl⟩)
  simp only [Dist.call, interpAt]
  rw [if_pos (show InBounds lo hi' g from hb (g, x) hp hx.ne')]
  dsimp only at hf
  rw [hf, ten_pow_log10 hx]

/-- C28: the range of the spectrum is spanned by the input points with non-zero density: its ends are such
points and all such points lie between -/
theorem C28_range {interp : List ℝ → List ℝ → Option ((ℝ → ℝ) × (ℝ → ℝ))}
    {gamma n : List ℝ} {norm : ℝ} {d : Dist} (h : mkInterp interp gamma n norm = .ok d) :
    (∃ x, (d.gmin, x) ∈ List.zip gamma n ∧ 0 < x) ∧ (∃ x, (d.gmax, x) ∈ List.zip gamma n ∧ 0 < x)
      ∧ ∀ g x, (g, x) ∈ List.zip gamma n → 0 < x → d.gmin ≤ g ∧ g ≤ d.gmax := by
  obtain ⟨f, df, lo, hi', rfl, hlen, hneg, e, hb, ⟨p, hp, hne, h1⟩, ⟨q, hq, hqne, h2⟩⟩ := mkInterp_ok h
  refine ⟨⟨p.2, ?_, lt_of_le_of_ne (hneg p hp) hne.symm⟩, ⟨q.2, ?_, lt_of_le_of_ne (hneg q hq) hqne.symm⟩, ?_⟩
  · simp only [Dist.gmin, ← h1]; exact hp
  · simp only [Dist.gmax, ← h2]; exact hq
  · intro g x hgx hx
    exact hb (g, x) hgx hx.ne'

/-- C28: the constructor never accepts a negative density -/
theorem C28_no_negative {interp : List ℝ → List ℝ → Option ((ℝ → ℝ) × (ℝ → ℝ))}
    {gamma n : List ℝ} {norm : ℝ} {d : Dist} (h : mkInterp interp gamma n norm = .ok d) :
    ∀ p ∈ List.zip gamma n, 0 ≤ p.2 := by
  obtain ⟨f, df, lo, hi', rfl, hlen, hneg, _⟩ := mkInterp_ok h
  exact hneg

/-- C28 does not extend to interior zeros: an input point with density 0 between two populated ones is not
reproduced; the spectrum is positive there, whatever the interpolator -/
theorem C28_interior_zero {interp : List ℝ → List ℝ → Option ((ℝ → ℝ) × (ℝ → ℝ))}
    {gamma n : List ℝ} {norm : ℝ} {d : Dist} (hn : 0 < norm) (h : mkInterp interp gamma n norm = .ok d)
    {g : ℝ} (h1 : d.gmin ≤ g) (h2 : g ≤ d.gmax) : 0 < d.call g := by
  obtain ⟨f, df, lo, hi', rfl, _⟩ := mkInterp_ok h
  simp only [Dist.call, interpAt]
  rw [if_pos ⟨h1, h2⟩]
  positivity

/-- an interpolator that goes through its data (the step function of the last node at or below) -/
noncomputable def stepInterp (xs ys : List ℝ) : Option ((ℝ → ℝ) × (ℝ → ℝ)) :=
  if xs.Nodup then
    some (fun x => ((List.zip xs ys).find? fun p => decide (p.1 = x)).elim 0 Prod.snd, fun _ => 0)
  else none

theorem find_zip {xs ys : List ℝ} (hn : xs.Nodup) {p : ℝ × ℝ} (hp : p ∈ List.zip xs ys) :
    (List.zip xs ys).find? (fun q => decide (q.1 = p.1)) = some p := by
  induction xs generalizing ys with
  | nil => simp at hp
  | cons x xs ih =>
    rcases ys with _ | ⟨y, ys⟩
    · simp at hp
    · rw [List.nodup_cons] at hn
      simp only [List.zip_cons_cons, List.mem_cons] at hp
      rcases hp with rfl | hp
      · simp
      · have hne : x ≠ p.1 := by
          rintro rfl
          exact hn.1 (List.of_mem_zip hp).1
        simp [hne, ih hn.2 hp]

theorem stepInterp_goes : GoesThrough stepInterp := by
  intro xs ys f df h p hp
  unfold stepInterp at h
  split_ifs at h with hn
  cases h
  dsimp only
  rw [find_zip hn hp]
  rfl

example : ∃ d, mkInterp stepInterp [1, 10, 100] [0, 5, 3] 2 = .ok d ∧ d.call 10 = 10 := by
  have h : ∃ d, mkInterp stepInterp [1, 10, 100] [0, 5, 3] 2 = .ok d := by
    have hs : (Np.select ([0, 5, 3].map fun x : ℝ => !decide (x = 0)) [1, 10, 100]) = ([10, 100] : List ℝ) := by
      norm_num [Np.select]
    have hs2 : (Np.select ([0, 5, 3].map fun x : ℝ => !decide (x = 0)) [0, 5, 3]) = ([5, 3] : List ℝ) := by
      norm_num [Np.select]
    have hn : (([10, 100] : List ℝ).map log10).Nodup := by
      have := log10_lt (by norm_num : (0:ℝ) < 10) (by norm_num : (10:ℝ) < 100)
      simp [this.ne]
    unfold mkInterp
    rw [if_neg (by simp), if_neg (by simp)]
    dsimp only
    rw [hs, hs2, if_neg (by norm_num)]
    unfold stepInterp
    rw [if_pos hn]
    exact ⟨_, rfl⟩
  obtain ⟨d, hd⟩ := h
  refine ⟨d, hd, ?_⟩
  rw [C28_nodes stepInterp_goes hd (g := 10) (x := 5) (by simp) (by norm_num)]
  norm_num

/-! ### C29 -/

/-- the array needs no correction: its ends are inside the range or clearly outside -/
def NoCorrection (gmin gmax : ℝ) (gamma : List ℝ) : Prop :=
  (∀ g, gamma.head? = some g → gmin ≤ g ∨ 1 / 10 ^ 10 ≤ (gmin - g) / g)
    ∧ (∀ g, gamma.getLast? = some g → g ≤ gmax ∨ 1 / 10 ^ 10 ≤ (g - gmax) / gmax)

theorem correctFirst_id {gmin : ℝ} {gamma : List ℝ}
    (h : ∀ g, gamma.head? = some g → gmin ≤ g ∨ 1 / 10 ^ 10 ≤ (gmin - g) / g) : correctFirst gmin gamma = gamma := by
  rcases gamma with _ | ⟨g0, rest⟩
  · rfl
  · unfold correctFirst
    dsimp only
    rw [if_neg]
    rintro ⟨h1, h2⟩
    rcases h g0 rfl with h | h <;> linarith

theorem correctLast_id {gmax : ℝ} {gamma : List ℝ}
    (h : ∀ g, gamma.getLast? = some g → g ≤ gmax ∨ 1 / 10 ^ 10 ≤ (g - gmax) / gmax) :
    correctLast gmax gamma = gamma := by
  rcases gamma with _ | ⟨g0, rest⟩
  · rfl
  · unfold correctLast
    dsimp only
    rw [if_neg]
    rintro ⟨h1, h2⟩
    rcases h _ (List.getLast?_eq_getLast_of_ne_nil (List.cons_ne_nil g0 rest)) with h | h <;> linarith

/-- C29, the part that holds: an array whose ends are not within 1e-10 outside the range is left unchanged, by `__call__`
and by `SSA_integrand` -/
theorem C29_unchanged_partial (d : Dist) {gamma : List ℝ} (h : NoCorrection d.gmin d.gmax gamma) :
    (d.evaluate gamma).1 = gamma ∧ (d.ssaIntegrand gamma).1 = gamma := by
  have h1 : correctBoundary gamma d.gmin d.gmax = gamma := by
    unfold correctBoundary
    rw [correctFirst_id h.1, correctLast_id h.2]
  have h2 : d.afterCall gamma = gamma := by
    unfold Dist.afterCall; split
    · rfl
    · exact h1
  refine ⟨h2, ?_⟩
  show d.afterSSA gamma = gamma
  unfold Dist.afterSSA; split
  · rfl
  · rfl
  · exact h2

/-- C23 on arrays: unless an end is within 1e-10 outside the range, the values are those of the scalar calls -/
theorem C23_array (d : Dist) {gamma : List ℝ} (h : NoCorrection d.gmin d.gmax gamma) :
    (d.evaluate gamma).2 = gamma.map d.call := by
  have h1 : d.afterCall gamma = gamma := (C29_unchanged_partial d h).1
  show (d.afterCall gamma).map d.call = _
  rw [h1]

theorem correctFirst_noCorr {gmin : ℝ} (gamma : List ℝ) :
    ∀ g, (correctFirst gmin gamma).head? = some g → gmin ≤ g ∨ 1 / 10 ^ 10 ≤ (gmin - g) / g := by
  intro g hg
  rcases gamma with _ | ⟨g0, rest⟩
  · simp [correctFirst] at hg
  · unfold correctFirst at hg
    dsimp only at hg
    split_ifs at hg with h
    · left; simp at hg; exact hg.le
    · simp at hg
      subst hg
      by_contra hc
      push Not at hc
      exact h ⟨hc.1, hc.2⟩

theorem correctLast_noCorr {gmax : ℝ} (gamma : List ℝ) :
    ∀ g, (correctLast gmax gamma).getLast? = some g → g ≤ gmax ∨ 1 / 10 ^ 10 ≤ (g - gmax) / gmax := by
  intro g hg
  rcases gamma with _ | ⟨g0, rest⟩
  · simp [correctLast] at hg
  · unfold correctLast at hg
    dsimp only at hg
    split_ifs at hg with h
    · left
      simp at hg; exact hg.symm.le
    · rw [List.getLast?_eq_getLast_of_ne_nil (List.cons_ne_nil g0 rest)] at hg
      cases hg
      by_contra hc
      push Not at hc
      exact h ⟨hc.1, hc.2⟩

theorem correctBoundary_noCorr {gmin gmax : ℝ} (hle : gmin ≤ gmax) (gamma : List ℝ) :
    NoCorrection gmin gmax (correctBoundary gamma gmin gmax) := by
  refine ⟨?_, correctLast_noCorr _⟩
  unfold correctBoundary
  have hf := correctFirst_noCorr (gmin := gmin) gamma
  generalize correctFirst gmin gamma = l at hf
  intro g hg
  rcases l with _ | ⟨g0, rest⟩
  · simp [correctLast] at hg
  · unfold correctLast at hg
    dsimp only at hg
    split_ifs at hg with h
    · rcases rest with _ | ⟨g1, rest⟩
      · simp at hg; left; linarith
      · simp only [List.dropLast_cons_cons, List.cons_append, List.head?_cons, Option.some.injEq] at hg
        exact hf g (by simp [hg])
    · exact hf g hg

/-- C29, the part that holds: evaluating the same spectrum again on the array it has left gives the same values and
does not change the array any more -/
theorem C29_repeat_partial (d : Dist) (hle : d.gmin ≤ d.gmax) (gamma : List ℝ) :
    d.evaluate (d.evaluate gamma).1 = d.evaluate gamma := by
  by_cases hn : d.NonEmpty
  · have e : (d.evaluate gamma).1 = correctBoundary gamma d.gmin d.gmax := by
      show d.afterCall gamma = _
      cases d <;> first | exact hn.elim | rfl
    have h := (C29_unchanged_partial d (gamma := (d.evaluate gamma).1) (by
      rw [e]; exact correctBoundary_noCorr hle gamma)).1
    have h' : d.afterCall (d.afterCall gamma) = d.afterCall gamma := h
    show (d.afterCall (d.afterCall gamma), (d.afterCall (d.afterCall gamma)).map d.call) = _
    rw [h']
    rfl
  · cases d <;> first | exact (hn trivial).elim | rfl

/-- C29 fails: the caller's array is overwritten -/
theorem C29_overwrites_violated : ∃ (d : Dist) (gamma : List ℝ), d.Positive ∧ (d.evaluate gamma).1 ≠ gamma := by
  refine ⟨.powerLaw 1 2 10 100, [10 - 5 / 10 ^ 10, 50], by norm_num [Dist.Positive], ?_⟩
  have h1 : correctFirst 10 [(10 : ℝ) - 5 / 10 ^ 10, 50] = [10, 50] := by
    unfold correctFirst
    dsimp only
    rw [if_pos (by norm_num)]
  have : (Dist.evaluate (.powerLaw 1 2 10 100) [10 - 5 / 10 ^ 10, 50]).1 = [10, 50] := by
    show correctBoundary _ 10 100 = _
    unfold correctBoundary
    rw [h1]
    unfold correctLast
    dsimp only
    rw [if_neg (by norm_num)]
  rw [this]
  intro h
  simp only [List.cons.injEq] at h
  norm_num at h

/-- C29 fails: what a spectrum returns for the caller's array depends on which spectra were evaluated before -/
theorem C29_history_violated : ∃ (d d' : Dist) (gamma : List ℝ), d.Positive ∧ d'.Positive ∧
    (d.evaluate (d'.evaluate gamma).1).2 ≠ (d.evaluate gamma).2 := by
  refine ⟨.powerLaw 1 (-1) 1 100, .powerLaw 1 2 10 100, [10 - 5 / 10 ^ 10, 50], by norm_num [Dist.Positive],
    by norm_num [Dist.Positive], ?_⟩
  have h1 : correctFirst 10 [(10 : ℝ) - 5 / 10 ^ 10, 50] = [10, 50] := by
    unfold correctFirst
    dsimp only
    rw [if_pos (by norm_num)]
  have e : (Dist.evaluate (.powerLaw 1 2 10 100) [10 - 5 / 10 ^ 10, 50]).1 = [10, 50] := by
    show correctBoundary _ 10 100 = _
    unfold correctBoundary
    rw [h1]
    unfold correctLast
    dsimp only
    rw [if_neg (by norm_num)]
  rw [e]
  have n1 : correctBoundary [(10 : ℝ), 50] 1 100 = [10, 50] := by
    unfold correctBoundary
    rw [correctFirst_id (by intro g hg; simp at hg; left; linarith),
      correctLast_id (by intro g hg; simp at hg; left; linarith)]
  have n2 : correctBoundary [(10 : ℝ) - 5 / 10 ^ 10, 50] 1 100 = [10 - 5 / 10 ^ 10, 50] := by
    unfold correctBoundary
    rw [correctFirst_id (by intro g hg; simp at hg; left; linarith),
      correctLast_id (by intro g hg; simp at hg; left; linarith)]
  show (correctBoundary [(10 : ℝ), 50] 1 100).map _ ≠ (correctBoundary [(10 : ℝ) - 5 / 10 ^ 10, 50] 1 100).map _
  rw [n1, n2]
  intro h
  simp only [List.map_cons, List.cons.injEq, Dist.call, powerLawAt] at h
  have := h.1
  rw [if_pos (by unfold InBounds; norm_num), if_pos (by unfold InBounds; norm_num), neg_neg, Real.rpow_one,
    Real.rpow_one] at this
  norm_num at this

example : NoCorrection 10 100 [10, 50, 100] := by
  constructor <;> intro g hg <;> simp at hg <;> left <;> linarith

end Verif.Spectra
