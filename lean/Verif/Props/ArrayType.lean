import Verif.Model.ArrayType
import Mathlib.Analysis.SpecialFunctions.Log.Base
import Mathlib.Tactic.NormNum
import Mathlib.Tactic.Linarith
import Mathlib.Tactic.Positivity

/-
C111: the numeric type of the Lorentz factors makes no difference to the densities.  It does: integer arrays are
refused by power laws of integer index, and truncated by interpolated distributions.
-/

noncomputable section

namespace Verif.ArrayType

open MathUtils Spectra Classical

/-- what the call means: the densities at the numbers passed, as an array of floats -/
def expected (d : Spectra.Dist) (l : List ℤ) : List ℝ := (d.evaluate (l.map fun n : ℤ => (n : ℝ))).2

/-- the same for the integrand of the self-absorption -/
def expectedSSA (d : Spectra.Dist) (l : List ℤ) : List ℝ := (d.ssaIntegrand (l.map fun n : ℤ => (n : ℝ))).2

/-- neither end of the array is within 1e-10 outside the limits -/
def Untouched (d : Spectra.Dist) (l : List ℤ) : Prop :=
  (∀ g : ℤ, l.head? = some g → (g : ℝ) < d.gmin → 1 / 10 ^ 10 ≤ (d.gmin - g) / g) ∧
  (∀ g : ℤ, l.getLast? = some g → d.gmax < (g : ℝ) → 1 / 10 ^ 10 ≤ ((g : ℝ) - d.gmax) / d.gmax)

/-- the family is a power law, with or without exponential cut-off, of positive integer index -/
def IntegerIndex (d : Spectra.Dist) (pIsInt : Bool) : Prop :=
  pIsInt = true ∧ match d with
    | .powerLaw _ p _ _ => 0 < p
    | .ecpl _ p _ _ _ => 0 < p
    | _ => False

/-- the family is `InterpolatedDistribution` -/
def Interpolated : Spectra.Dist → Prop
  | .interp .. => True
  | _ => False

theorem correctFirst_untouched {gmin : ℝ} {l : List ℤ}
    (h : ∀ g : ℤ, l.head? = some g → (g : ℝ) < gmin → 1 / 10 ^ 10 ≤ (gmin - g) / g) :
    correctFirst gmin l = l ∧ Spectra.correctFirst gmin (l.map fun n : ℤ => (n : ℝ)) = l.map fun n : ℤ => (n : ℝ) := by
  cases l with
  | nil => exact ⟨rfl, rfl⟩
  | cons g r =>
    have hn : ¬ (gmin > (g : ℝ) ∧ (gmin - g) / g < 1 / 10 ^ 10) := fun hc =>
      absurd (h g rfl hc.1) (not_le.mpr hc.2)
    exact ⟨by simp only [correctFirst, if_neg hn], by simp only [List.map_cons, Spectra.correctFirst, if_neg hn]⟩

theorem correctLast_untouched {gmax : ℝ} {l : List ℤ}
    (h : ∀ g : ℤ, l.getLast? = some g → gmax < (g : ℝ) → 1 / 10 ^ 10 ≤ ((g : ℝ) - gmax) / gmax) :
    correctLast gmax l = l ∧ Spectra.correctLast gmax (l.map fun n : ℤ => (n : ℝ)) = l.map fun n : ℤ => (n : ℝ) := by
  cases l with
  | nil => exact ⟨rfl, rfl⟩
  | cons g r =>
    have hg := h _ (List.getLast?_eq_getLast_of_ne_nil (List.cons_ne_nil g r))
    have hn : ¬ ((((g :: r).getLast (List.cons_ne_nil _ _) : ℤ) : ℝ) > gmax ∧
        ((((g :: r).getLast (List.cons_ne_nil _ _) : ℤ) : ℝ) - gmax) / gmax < 1 / 10 ^ 10) := fun hc =>
      absurd (hg hc.1) (not_le.mpr hc.2)
    refine ⟨by simp only [correctLast, if_neg hn], ?_⟩
    have hl : ((g : ℝ) :: r.map fun n : ℤ => (n : ℝ)).getLast (List.cons_ne_nil _ _)
        = (((g :: r).getLast (List.cons_ne_nil _ _) : ℤ) : ℝ) := by
      have := List.getLast_map (f := fun n : ℤ => (n : ℝ)) (l := g :: r) (by simp)
      simpa using this
    simp only [List.map_cons, Spectra.correctLast, hl, if_neg hn]

theorem afterCall_untouched {d : Spectra.Dist} {l : List ℤ} (h : Untouched d l) :
    afterCall d l = l ∧ d.afterCall (l.map fun n : ℤ => (n : ℝ)) = l.map fun n : ℤ => (n : ℝ) := by
  have h1 := correctFirst_untouched h.1
  have h2 := correctLast_untouched h.2
  cases d <;> simp only [afterCall, Spectra.Dist.afterCall, correctBoundary, h1.1, h1.2] <;>
    first | exact h2 | exact ⟨trivial, trivial⟩ | simp

theorem length_correctFirst (a : ℝ) (l : List ℤ) : (correctFirst a l).length = l.length := by
  unfold correctFirst; split <;> [rfl; split_ifs <;> rfl]

theorem length_correctLast (a : ℝ) (l : List ℤ) : (correctLast a l).length = l.length := by
  unfold correctLast; split <;> [rfl; (dsimp only; split_ifs <;> simp)]

theorem length_afterCall (d : Spectra.Dist) (l : List ℤ) : (afterCall d l).length = l.length := by
  cases d <;> simp [afterCall, length_correctFirst, length_correctLast]

theorem isEmpty_afterCall (d : Spectra.Dist) (l : List ℤ) : (afterCall d l).isEmpty = l.isEmpty := by
  have := length_afterCall d l
  cases h : afterCall d l <;> cases l <;> simp_all

/-- C111 (partial): on an integer array inside the limits every family except `InterpolatedDistribution` gives the
densities of the same numbers as floats and leaves the array alone, unless it is a power law whose index is a
positive Python `int`. -/
theorem C111_integers_partial {d : Spectra.Dist} {pIsInt : Bool} {l : List ℤ} (hd : ¬ Interpolated d)
    (hp : ¬ IntegerIndex d pIsInt) (h : Untouched d l) :
    evaluate d pIsInt (.ints l) = .ok (.ints l, expected d l) := by
  obtain ⟨h1, h2⟩ := afterCall_untouched h
  cases d <;>
    simp only [evaluate, expected, Spectra.Dist.evaluate, h1, h2, List.map_map, Interpolated, IntegerIndex,
      refuses, not_true, not_and, not_lt] at * <;>
    first
    | exact absurd trivial hd
    | rfl
    | (cases pIsInt
       · rfl
       · rw [if_neg (by simp only [Bool.true_and, Bool.and_eq_true, decide_eq_true_eq]
                        intro hc; linarith [hp rfl, hc.1])]
         rfl)

/-- the numbers 10, 100 and 1000 for a broken power law of integer indices -/
example : ∃ l : List ℤ, l.length = 3 ∧
    ¬ Interpolated (.broken 1 2 3 100 1 10000) ∧ ¬ IntegerIndex (.broken 1 2 3 100 1 10000) true ∧
    Untouched (.broken 1 2 3 100 1 10000) l := by
  refine ⟨[10, 100, 1000], rfl, id, fun h => h.2, ?_, ?_⟩ <;>
  · intro g hg h
    simp only [List.head?_cons, List.getLast?_cons_cons, List.getLast?_singleton, Option.some.injEq] at hg
    subst hg
    simp only [Spectra.Dist.gmin, Spectra.Dist.gmax] at h
    norm_num at h

/-- C111 (refuted): a power law, with or without cut-off, whose index is a positive Python `int` refuses every
array of integers, whatever the numbers; the same numbers as floats, or one at a time, are accepted. -/
theorem C111_index_violated {d : Spectra.Dist} {pIsInt : Bool} (hp : IntegerIndex d pIsInt) {l : List ℤ} (hl : l ≠ []) :
    evaluate d pIsInt (.ints l) = .error .valueError
    ∧ (∃ a, evaluate d pIsInt (.floats (l.map fun n : ℤ => (n : ℝ))) = .ok (a, expected d l))
    ∧ ∀ n ∈ l, evaluate d pIsInt (.int n) = .ok (.int n, [d.call n]) := by
  have he : ∀ d' : Spectra.Dist, (afterCall d' l).isEmpty = false := fun d' => by
    rw [isEmpty_afterCall]; cases l <;> simp_all
  obtain ⟨rfl, hp⟩ := hp
  cases d <;> simp only at hp <;>
    refine ⟨?_, ⟨_, rfl⟩, fun n _ => rfl⟩ <;>
    simp only [evaluate, refuses, he, Bool.not_false, Bool.and_true, Bool.true_and] <;>
    rw [if_pos (decide_eq_true (by linarith))]

example : IntegerIndex (.powerLaw 1 2 1 1000) true ∧ ([10, 100] : List ℤ) ≠ [] :=
  ⟨⟨rfl, by norm_num⟩, by decide⟩

/-- C111: nothing else is refused: an exception on an integer array means a power law of positive integer index -/
theorem C111_refused_iff (d : Spectra.Dist) (pIsInt : Bool) (l : List ℤ) :
    (∃ e, evaluate d pIsInt (.ints l) = .error e) ↔ l ≠ [] ∧ IntegerIndex d pIsInt := by
  have he : ∀ d' : Spectra.Dist, (afterCall d' l).isEmpty = l.isEmpty := fun d' => isEmpty_afterCall d' l
  cases d <;> simp only [evaluate, refuses, he, IntegerIndex, and_false, iff_false]
  case powerLaw k p a b =>
    cases pIsInt <;> cases l <;> simp
    split_ifs with hq <;> simp [hq]
  case ecpl k p gc a b =>
    cases pIsInt <;> cases l <;> simp
    split_ifs with hq <;> simp [hq]
  all_goals rintro ⟨e, h⟩; cases h

/-- C111: a Python number is taken as it is, by every family but `InterpolatedDistribution`, which raises -/
theorem C111_scalars (d : Spectra.Dist) (pIsInt : Bool) (n : ℤ) (x : ℝ) :
    (¬ Interpolated d → evaluate d pIsInt (.int n) = .ok (.int n, [d.call n])
      ∧ evaluate d pIsInt (.float x) = .ok (.float x, [d.call x])) ∧
    (Interpolated d → evaluate d pIsInt (.int n) = .error .typeError
      ∧ evaluate d pIsInt (.float x) = .error .typeError) := by
  cases d <;> simp [evaluate, Interpolated]

theorem trunc_of_nonneg {x : ℝ} (hx : 0 ≤ x) : trunc x = ⌊x⌋ := if_pos hx

/-- C111: an interpolated distribution called on integers loses the fraction of the interpolated density (before
`norm`): each value is at most the one for floats and less than `norm` below it, it is zero wherever the density is
below one particle per cubic centimetre, and it is right only where the density happens to be an integer. -/
theorem C111_truncated {f df : ℝ → ℝ} {norm gmin gmax : ℝ} (hn : 0 < norm) {pIsInt : Bool} {l : List ℤ}
    (h : Untouched (.interp f df norm gmin gmax) l) :
    ∃ v, evaluate (.interp f df norm gmin gmax) pIsInt (.ints l) = .ok (.ints l, v) ∧ v.length = l.length ∧
    ∀ (i : ℕ) (x y : ℝ), v[i]? = some x → (expected (.interp f df norm gmin gmax) l)[i]? = some y →
      x ≤ y ∧ y - norm < x ∧ (y < norm → x = 0) ∧ (x = y ↔ ∃ m : ℤ, y = norm * m) := by
  obtain ⟨h1, h2⟩ := afterCall_untouched h
  refine ⟨l.map (callInt (.interp f df norm gmin gmax)), by simp only [evaluate, h1], List.length_map _, fun i x y hx hy => ?_⟩
  simp only [expected, Spectra.Dist.evaluate, h2, List.map_map] at hy
  rw [List.getElem?_map] at hx hy
  cases hl : l[i]? with
  | none => simp [hl] at hx
  | some g =>
    simp only [hl, Option.map_some, Option.some.injEq, Function.comp] at hx hy
    subst hx hy
    simp only [callInt, Spectra.Dist.call, interpAt]
    split_ifs with hb
    · have hpos : (0 : ℝ) < (10 : ℝ) ^ f (log10 (g : ℝ)) := Real.rpow_pos_of_pos (by norm_num) _
      rw [trunc_of_nonneg hpos.le]
      generalize (10 : ℝ) ^ f (log10 (g : ℝ)) = y at hpos ⊢
      have hle := Int.floor_le y
      have hlt := Int.lt_floor_add_one y
      refine ⟨mul_le_mul_of_nonneg_left hle hn.le, by nlinarith, fun hy => ?_, fun he => ⟨_, he.symm⟩, ?_⟩
      · have : ⌊y⌋ = 0 := Int.floor_eq_zero_iff.mpr ⟨hpos.le, by
          by_contra hc
          exact absurd hy (not_lt.mpr (by nlinarith [not_lt.mp hc]))⟩
        rw [this]; simp
      · rintro ⟨m, hm⟩
        have : y = m := mul_left_cancel₀ hn.ne' hm
        rw [this, Int.floor_intCast]
    · refine ⟨by simp, by simpa using hn, fun _ => by simp, fun _ => ⟨0, by simp⟩, fun _ => by simp⟩

/-- the density `10 ^ -1` for all Lorentz factors -/
example : (0 : ℝ) < 1 ∧ Untouched (.interp (fun _ => -1) (fun _ => 0) 1 1 1000) [10, 100] := by
  refine ⟨one_pos, ?_, ?_⟩ <;>
  · intro g hg h
    simp only [List.head?_cons, List.getLast?_cons_cons, List.getLast?_singleton, Option.some.injEq] at hg
    subst hg
    simp only [Spectra.Dist.gmin, Spectra.Dist.gmax] at h
    norm_num at h

/-- C111 (refuted): there is an interpolated distribution, positive everywhere, that is zero on integers -/
theorem C111_interpolated_violated :
    ∃ (d : Spectra.Dist) (l : List ℤ), (∀ y ∈ expected d l, 0 < y) ∧ expected d l ≠ [] ∧
      ∀ pIsInt a v, evaluate d pIsInt (.ints l) = .ok (a, v) → ∀ x ∈ v, x = 0 := by
  have hu : Untouched (.interp (fun _ => -1) (fun _ => 0) 1 1 1000) [10, 100] := by
    refine ⟨?_, ?_⟩ <;>
    · intro g hg h
      simp only [List.head?_cons, List.getLast?_cons_cons, List.getLast?_singleton, Option.some.injEq] at hg
      subst hg
      simp only [Spectra.Dist.gmin, Spectra.Dist.gmax] at h
      norm_num at h
  obtain ⟨h1, h2⟩ := afterCall_untouched hu
  have hb : ∀ g : ℤ, g = 10 ∨ g = 100 → InBounds 1 1000 (g : ℝ) := by
    rintro g (rfl | rfl) <;> constructor <;> norm_num
  refine ⟨.interp (fun _ => -1) (fun _ => 0) 1 1 1000, [10, 100], fun y hy => ?_, ?_, fun b a v hv x hx => ?_⟩
  · simp only [expected, Spectra.Dist.evaluate] at hy
    rw [h2] at hy
    simp only [List.map_cons, List.map_nil, List.mem_cons, List.not_mem_nil, or_false, Spectra.Dist.call,
      interpAt] at hy
    rcases hy with rfl | rfl
    · rw [if_pos (hb 10 (.inl rfl))]; positivity
    · rw [if_pos (hb 100 (.inr rfl))]; positivity
  · simp only [expected, Spectra.Dist.evaluate]
    rw [h2]
    simp
  · simp only [evaluate, h1, Except.ok.injEq, Prod.mk.injEq] at hv
    rw [← hv.2] at hx
    simp only [List.map_cons, List.map_nil, List.mem_cons, List.not_mem_nil, or_false, callInt] at hx
    have ht : trunc ((10 : ℝ) ^ (-1 : ℝ)) = 0 := by
      rw [trunc_of_nonneg (by positivity), Int.floor_eq_zero_iff]
      constructor
      · positivity
      · rw [Real.rpow_neg_one]; norm_num
    rcases hx with rfl | rfl <;> simp [ht]

/-- C111 (refuted): the correction of the last Lorentz factor, meant for relative differences below 1e-10, lowers
an integer by one: the caller's 10 becomes 9 if `gamma_max` is a little less than 10. -/
theorem C111_caller_violated :
    ∃ (d : Spectra.Dist) (l l' : List ℤ) (v : List ℝ), evaluate d false (.ints l) = .ok (.ints l', v)
      ∧ l = [5, 10] ∧ l' = [5, 9] := by
  have h : afterCall (.broken 1 2 3 7 1 (10 - 1 / 10 ^ 11)) [5, 10] = [5, 9] := by
    have hf : correctFirst 1 [5, 10] = [5, 10] := by
      have hn : ¬ ((1 : ℝ) > ((5 : ℤ) : ℝ) ∧ ((1 : ℝ) - ((5 : ℤ) : ℝ)) / ((5 : ℤ) : ℝ) < 1 / 10 ^ 10) := by
        intro hc; norm_num at hc
      simp only [correctFirst, if_neg hn]
    have ht : trunc (10 - 1 / 10 ^ 11) = 9 := by
      rw [trunc_of_nonneg (by norm_num), Int.floor_eq_iff]; norm_num
    simp only [afterCall, Spectra.Dist.gmin, Spectra.Dist.gmax, hf, correctLast]
    have hl : ([5, 10] : List ℤ).getLast (List.cons_ne_nil _ _) = 10 := rfl
    rw [hl, ht]
    have hc : ((10 : ℤ) : ℝ) > 10 - 1 / 10 ^ 11 ∧
        (((10 : ℤ) : ℝ) - (10 - 1 / 10 ^ 11)) / (10 - 1 / 10 ^ 11) < 1 / 10 ^ 10 := by norm_num
    simp only [hc, and_self, if_true]
    rfl
  exact ⟨.broken 1 2 3 7 1 (10 - 1 / 10 ^ 11), [5, 10], [5, 9],
    ([5, 9] : List ℤ).map (callInt (.broken 1 2 3 7 1 (10 - 1 / 10 ^ 11))), by simp only [evaluate, h], rfl, rfl⟩

/-- C111 (partial): the integrand of the self-absorption on integers inside the limits -/
theorem C111_ssa_partial {d : Spectra.Dist} {pIsInt : Bool} {l : List ℤ} (hd : ¬ Interpolated d)
    (hp : pIsInt = true → ∀ k p a b, d ≠ .powerLaw k p a b) (hp' : ¬ IntegerIndex d pIsInt) (h : Untouched d l) :
    ssaIntegrand d pIsInt (.ints l) = .ok (.ints l, expectedSSA d l) := by
  obtain ⟨h1, h2⟩ := afterCall_untouched h
  have hz : ∀ d' : Spectra.Dist, ¬ Interpolated d' →
      List.zipWith (ssaInt d') l l
        = List.zipWith d'.ssaElem (l.map fun n : ℤ => (n : ℝ)) (l.map fun n : ℤ => (n : ℝ)) := by
    intro d' hd'
    rw [List.zipWith_map]
    congr 1
    funext a b
    cases d' <;> first | rfl | exact absurd trivial hd'
  cases d with
  | powerLaw k p a b =>
    cases pIsInt
    · simp only [ssaIntegrand, refuses, Bool.false_and, Bool.false_eq_true, if_false, afterSSA, expectedSSA,
        Spectra.Dist.ssaIntegrand, Spectra.Dist.afterSSA, hz _ hd]
    · exact absurd rfl (hp rfl k p a b)
  | broken k p1 p2 gb a b =>
    simp only [ssaIntegrand, afterSSA, expectedSSA, Spectra.Dist.ssaIntegrand, Spectra.Dist.afterSSA, hz _ hd]
  | logParabola k p q g0 a b =>
    simp only [ssaIntegrand, afterSSA, expectedSSA, Spectra.Dist.ssaIntegrand, Spectra.Dist.afterSSA, h1, h2, hz _ hd]
  | ecpl k p gc a b =>
    have hr : refuses pIsInt (-p) l = false := by
      cases pIsInt
      · rfl
      · have : ¬ 0 < p := fun hc => hp' ⟨rfl, hc⟩
        simp only [refuses, Bool.true_and, Bool.and_eq_false_iff, decide_eq_false_iff_not]
        exact .inl fun hc => this (by linarith)
    simp only [ssaIntegrand, afterSSA, expectedSSA, Spectra.Dist.ssaIntegrand, Spectra.Dist.afterSSA, h1, h2, hz _ hd,
      hr, Bool.false_eq_true, if_false]
  | ecbpl k p1 p2 gc gb a b =>
    simp only [ssaIntegrand, afterSSA, expectedSSA, Spectra.Dist.ssaIntegrand, Spectra.Dist.afterSSA, h1, h2, hz _ hd]
  | interp f df norm a b => exact absurd trivial hd
  | empty a b =>
    simp only [ssaIntegrand, afterSSA, expectedSSA, Spectra.Dist.ssaIntegrand, Spectra.Dist.afterSSA, h1, h2, hz _ hd]

/-- the number 10 for a power law with cut-off whose index is the float 2.0 -/
example : ¬ Interpolated (.ecpl 1 2 100 1 10000) ∧
    (false = true → ∀ k p a b, Spectra.Dist.ecpl 1 2 100 1 10000 ≠ .powerLaw k p a b) ∧
    ¬ IntegerIndex (.ecpl 1 2 100 1 10000) false ∧ Untouched (.ecpl 1 2 100 1 10000) [10] := by
  refine ⟨id, by simp, fun h => by simp [IntegerIndex] at h, ?_, ?_⟩ <;>
  · intro g hg h
    simp only [List.head?_cons, List.getLast?_singleton, Option.some.injEq] at hg
    subst hg
    simp only [Spectra.Dist.gmin, Spectra.Dist.gmax] at h
    norm_num at h

/-- C111 (refuted): a power law of non-negative integer index has densities but no integrand of the self-absorption
at a Python integer -/
theorem C111_ssa_violated (k p a b : ℝ) (hp : 0 ≤ p) (n : ℤ) :
    evaluate (.powerLaw k p a b) true (.int n) = .ok (.int n, [(Spectra.Dist.powerLaw k p a b).call n])
    ∧ ssaIntegrand (.powerLaw k p a b) true (.int n) = .error .valueError
    ∧ ssaIntegrand (.powerLaw k p a b) true (.float n) = .ok (.float n, [(Spectra.Dist.powerLaw k p a b).ssa n]) := by
  refine ⟨rfl, ?_, rfl⟩
  have : -p - 1 < 0 := by linarith
  simp [ssaIntegrand, refuses, this]

/-- C111: the integrand is refused on an array of integers exactly for a power law of integer index above -1 or one
with cut-off of positive integer index -/
theorem C111_ssa_refused_iff (d : Spectra.Dist) (pIsInt : Bool) (l : List ℤ) :
    (∃ e, ssaIntegrand d pIsInt (.ints l) = .error e) ↔ l ≠ [] ∧ pIsInt = true ∧
      ((∃ k p a b, d = .powerLaw k p a b ∧ -1 < p) ∨ ∃ k p gc a b, d = .ecpl k p gc a b ∧ 0 < p) := by
  have he : ∀ d' : Spectra.Dist, (afterCall d' l).isEmpty = l.isEmpty := fun d' => isEmpty_afterCall d' l
  cases d with
  | powerLaw k p a b =>
    have hq : (-p - 1 < 0) ↔ -1 < p := by constructor <;> intro h <;> linarith
    cases pIsInt <;> cases l <;> simp [ssaIntegrand, refuses, hq]
    split_ifs with hq <;> simp [hq]
  | ecpl k p gc a b =>
    cases pIsInt <;> cases l <;> simp [ssaIntegrand, refuses, afterSSA, he]
    split_ifs with hq <;> simp [hq]
  | broken | logParabola | ecbpl | interp | empty => simp [ssaIntegrand]

/-- C111: the integrand of an interpolated distribution is made of the truncated densities -/
theorem C111_ssa_truncated {f df : ℝ → ℝ} {norm gmin gmax : ℝ} {pIsInt : Bool} {l : List ℤ}
    (h : Untouched (.interp f df norm gmin gmax) l) :
    ∃ v w, evaluate (.interp f df norm gmin gmax) pIsInt (.ints l) = .ok (.ints l, v)
      ∧ ssaIntegrand (.interp f df norm gmin gmax) pIsInt (.ints l) = .ok (.ints l, w)
      ∧ ∀ (i : ℕ) (g : ℤ) (x : ℝ), l[i]? = some g → v[i]? = some x → w[i]? = some (x * (df (log10 g) - 2) / g) := by
  obtain ⟨h1, -⟩ := afterCall_untouched h
  refine ⟨l.map (callInt (.interp f df norm gmin gmax)),
    List.zipWith (ssaInt (.interp f df norm gmin gmax)) l l, by simp only [evaluate, h1],
    by simp only [ssaIntegrand, afterSSA, h1], fun i g x hg hx => ?_⟩
  rw [List.getElem?_map, hg] at hx
  simp only [Option.map_some, Option.some.injEq] at hx
  rw [List.getElem?_zipWith, hg]
  simp only [ssaInt, hx, Option.some.injEq]
  ring

/-- C111 (refuted): the correction of the first Lorentz factor has no effect on an integer just below `gamma_min`, the
case it was made for: the density there stays zero, where the same array of floats has the density at `gamma_min`. -/
theorem C111_first_violated {k p1 p2 gb gmin gmax : ℝ} {g : ℤ} {rest : List ℤ} (hg : 0 < g) (h1 : (g : ℝ) < gmin)
    (h2 : gmin < g + 1) (h3 : (gmin - g) / g < 1 / 10 ^ 10) (hm : gmin ≤ gmax) (hr : ∀ x ∈ rest, (x : ℝ) ≤ gmax)
    (pIsInt : Bool) :
    (∃ v, evaluate (.broken k p1 p2 gb gmin gmax) pIsInt (.ints (g :: rest)) = .ok (.ints (g :: rest), 0 :: v)) ∧
    ∃ v, expected (.broken k p1 p2 gb gmin gmax) (g :: rest)
      = (Spectra.Dist.broken k p1 p2 gb gmin gmax).call gmin :: v := by
  have hg0 : (0 : ℝ) < g := by exact_mod_cast hg
  have ht : trunc gmin = g := by
    rw [trunc_of_nonneg (by linarith), Int.floor_eq_iff]; exact ⟨h1.le, h2⟩
  have hle : ∀ x ∈ g :: rest, (x : ℝ) ≤ gmax := by
    intro x hx
    rcases List.mem_cons.mp hx with rfl | hx
    · linarith
    · exact hr x hx
  have hf : correctFirst gmin (g :: rest) = g :: rest := by
    simp only [correctFirst, if_pos (show gmin > (g : ℝ) ∧ (gmin - g) / g < 1 / 10 ^ 10 from ⟨h1, h3⟩), ht]
  have hl : correctLast gmax (g :: rest) = g :: rest := by
    refine (correctLast_untouched fun x hx hlt => ?_).1
    exact absurd hlt (not_lt.mpr (hle x (List.mem_of_getLast? hx)))
  constructor
  · refine ⟨rest.map (callInt (.broken k p1 p2 gb gmin gmax)), ?_⟩
    simp only [evaluate, afterCall, Spectra.Dist.gmin, Spectra.Dist.gmax, hf, hl, List.map_cons]
    have : callInt (.broken k p1 p2 gb gmin gmax) g = 0 := by
      simp only [callInt, Spectra.Dist.call, brokenAt]
      exact if_neg fun hc => absurd hc.1 (not_le.mpr h1)
    rw [this]
  · have hc : Spectra.correctFirst gmin ((g :: rest).map fun n : ℤ => (n : ℝ)) = gmin :: rest.map fun n : ℤ => (n : ℝ) := by
      simp only [List.map_cons, Spectra.correctFirst,
        if_pos (show gmin > (g : ℝ) ∧ (gmin - g) / g < 1 / 10 ^ 10 from ⟨h1, h3⟩)]
    have hall : ∀ x ∈ gmin :: rest.map fun n : ℤ => (n : ℝ), x ≤ gmax := by
      intro x hx
      rcases List.mem_cons.mp hx with rfl | hx
      · exact hm
      · obtain ⟨n, hn, rfl⟩ := List.mem_map.mp hx
        exact hr n hn
    have hc' : Spectra.correctLast gmax (gmin :: rest.map fun n : ℤ => (n : ℝ)) = gmin :: rest.map fun n : ℤ => (n : ℝ) := by
      simp only [Spectra.correctLast]
      exact if_neg fun hcc => absurd hcc.1 (not_lt.mpr (hall _ (List.getLast_mem _)))
    refine ⟨(rest.map fun n : ℤ => (n : ℝ)).map (Spectra.Dist.broken k p1 p2 gb gmin gmax).call, ?_⟩
    show List.map _ (Spectra.correctLast gmax (Spectra.correctFirst gmin ((g :: rest).map fun n : ℤ => (n : ℝ)))) = _
    rw [hc, hc', List.map_cons]

example : (0 : ℤ) < 10 ∧ ((10 : ℤ) : ℝ) < 10 + 1 / 10 ^ 10 ∧ (10 + 1 / 10 ^ 10 : ℝ) < (10 : ℤ) + 1 ∧
    ((10 + 1 / 10 ^ 10 : ℝ) - (10 : ℤ)) / (10 : ℤ) < 1 / 10 ^ 10 ∧ (10 + 1 / 10 ^ 10 : ℝ) ≤ 1000 ∧
    ∀ x ∈ ([100, 1000] : List ℤ), (x : ℝ) ≤ 1000 := by
  norm_num

/-- C111: what a call leaves in the caller's array of integers: an end within 1e-10 outside the limits becomes the
limit without its fraction, everything else is as before -/
theorem C111_array {d : Spectra.Dist} {pIsInt : Bool} {x y : ℤ} {mid : List ℤ} {a : Arg} {v : List ℝ}
    (hd : ∀ a b, d ≠ .empty a b) (h0 : 0 ≤ d.gmin) (h1 : 0 ≤ d.gmax)
    (h : evaluate d pIsInt (.ints (x :: (mid ++ [y]))) = .ok (a, v)) :
    a = .ints ((if (x : ℝ) < d.gmin ∧ (d.gmin - x) / x < 1 / 10 ^ 10 then ⌊d.gmin⌋ else x)
      :: (mid ++ [if d.gmax < (y : ℝ) ∧ ((y : ℝ) - d.gmax) / d.gmax < 1 / 10 ^ 10 then ⌊d.gmax⌋ else y])) := by
  have hlast : ∀ z : ℤ, correctLast d.gmax (z :: (mid ++ [y])) =
      z :: (mid ++ [if d.gmax < (y : ℝ) ∧ ((y : ℝ) - d.gmax) / d.gmax < 1 / 10 ^ 10 then ⌊d.gmax⌋ else y]) := by
    intro z
    have hl : (z :: (mid ++ [y])).getLast (List.cons_ne_nil _ _) = y := by simp
    have hdl : (z :: (mid ++ [y])).dropLast = z :: mid := by
      rw [← List.cons_append, List.dropLast_concat]
    simp only [correctLast, hl, hdl, gt_iff_lt, trunc_of_nonneg h1]
    split_ifs <;> simp
  have hall : correctLast d.gmax (correctFirst d.gmin (x :: (mid ++ [y]))) =
      (if (x : ℝ) < d.gmin ∧ (d.gmin - x) / x < 1 / 10 ^ 10 then ⌊d.gmin⌋ else x)
      :: (mid ++ [if d.gmax < (y : ℝ) ∧ ((y : ℝ) - d.gmax) / d.gmax < 1 / 10 ^ 10 then ⌊d.gmax⌋ else y]) := by
    rw [← hlast]
    simp only [correctFirst, gt_iff_lt, trunc_of_nonneg h0]
    congr 1
    split_ifs <;> rfl
  have ha : a = .ints (afterCall d (x :: (mid ++ [y]))) := by
    cases d <;> simp only [evaluate] at h <;> (try split_ifs at h) <;>
      (simp only [Except.ok.injEq, Prod.mk.injEq] at h; exact h.1.symm)
  rw [ha, ← hall]
  cases d <;> first | rfl | exact absurd rfl (hd _ _)

/-- an array from 10 to 1000 -/
example : (∀ a b, Spectra.Dist.broken 1 2 3 100 1 10000 ≠ .empty a b) ∧
    (0 : ℝ) ≤ (Spectra.Dist.broken 1 2 3 100 1 10000).gmin ∧ (0 : ℝ) ≤ (Spectra.Dist.broken 1 2 3 100 1 10000).gmax ∧
    ∃ a v, evaluate (.broken 1 2 3 100 1 10000) false (.ints (10 :: ([100] ++ [1000]))) = .ok (a, v) :=
  ⟨by simp, by simp [Spectra.Dist.gmin], by simp [Spectra.Dist.gmax], _, _, rfl⟩

/-- C111: the integrand of the self-absorption leaves the caller's integers alone for the power law and the broken
power law, and does to them what a call does for the other families -/
theorem C111_ssa_array {d : Spectra.Dist} {pIsInt : Bool} {l : List ℤ} {a : Arg} {w : List ℝ}
    (h : ssaIntegrand d pIsInt (.ints l) = .ok (a, w)) :
    ((∃ k p g g', d = .powerLaw k p g g') ∨ (∃ k p p' gb g g', d = .broken k p p' gb g g') → a = .ints l) ∧
    (¬ ((∃ k p g g', d = .powerLaw k p g g') ∨ ∃ k p p' gb g g', d = .broken k p p' gb g g') →
      ∃ v, evaluate d pIsInt (.ints l) = .ok (a, v)) := by
  cases d with
  | powerLaw k p g g' =>
    simp only [ssaIntegrand] at h
    split_ifs at h
    simp only [Except.ok.injEq, Prod.mk.injEq] at h
    exact ⟨fun _ => h.1.symm, fun hc => absurd (.inl ⟨k, p, g, g', rfl⟩) hc⟩
  | broken k p p' gb g g' =>
    simp only [ssaIntegrand, Except.ok.injEq, Prod.mk.injEq] at h
    exact ⟨fun _ => h.1.symm, fun hc => absurd (.inr ⟨k, p, p', gb, g, g', rfl⟩) hc⟩
  | ecpl k p gc g g' =>
    refine ⟨by (rintro (⟨_, _, _, _, hc⟩ | ⟨_, _, _, _, _, _, hc⟩) <;> cases hc), fun _ => ?_⟩
    have he : afterSSA (.ecpl k p gc g g') l = afterCall (.ecpl k p gc g g') l := rfl
    by_cases hr : refuses pIsInt (-p) (afterCall (.ecpl k p gc g g') l) = true
    · simp only [ssaIntegrand] at h
      rw [he, if_pos hr] at h
      cases h
    · simp only [ssaIntegrand] at h
      rw [he, if_neg hr] at h
      simp only [Except.ok.injEq, Prod.mk.injEq] at h
      exact ⟨_, by simp only [evaluate, if_neg hr, h.1]; rfl⟩
  | logParabola | ecbpl | interp | empty =>
    refine ⟨by (rintro (⟨_, _, _, _, hc⟩ | ⟨_, _, _, _, _, _, hc⟩) <;> cases hc), fun _ => ?_⟩
    simp only [ssaIntegrand, afterSSA, Except.ok.injEq, Prod.mk.injEq] at h
    exact ⟨_, by simp only [evaluate, h.1]; rfl⟩

end Verif.ArrayType
