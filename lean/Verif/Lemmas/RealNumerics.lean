import Mathlib.Data.List.Sort
import Mathlib.Data.List.GetD
import Mathlib.Analysis.SpecialFunctions.Log.Base
import Mathlib.Algebra.Order.BigOperators.Group.List
import Mathlib.Tactic.Linarith
import Mathlib.Tactic.FieldSimp
import Verif.Model.TimeEvolution

/-
The library contract `Numerics.Lawful` can be met: over the reals with the true `log10` and geometric mean,
and over any ordered field by a computable stand-in used in the examples.
The interpolator here is the "previous value" rule; the theorems use only that an interpolant is
non-negative and goes through its nodes.
-/

namespace Verif.TE

variable {K : Type} [Field K] [LinearOrder K]

/-- insertion sort of the indices -/
def sortIdx (l : List K) : List Nat :=
  (List.range l.length).insertionSort (fun i j => l.getD i 0 ≤ l.getD j 0)

def prevStep (x : K) (acc : K) (p : K × K) : K := if p.1 ≤ x then |p.2| else acc

/-- "previous value" interpolation -/
def prevInterp (log10 : K → K) (xs ys : List K) : Option (K → K) :=
  if 2 ≤ xs.length ∧ (xs.map log10).Pairwise (· < ·) then
    some fun x => (List.zip xs ys).foldl (prevStep x) 0
  else none

def mkNumerics (log10 : K → K) (gmean : List K → K) : Numerics K :=
  ⟨log10, gmean, sortIdx, prevInterp log10⟩

variable [IsStrictOrderedRing K]

theorem foldl_prev_nonneg (x : K) (l : List (K × K)) (acc : K) (h : 0 ≤ acc) :
    0 ≤ l.foldl (prevStep x) acc := by
  induction l generalizing acc with
  | nil => exact h
  | cons p l ih =>
    simp only [List.foldl_cons]
    apply ih
    unfold prevStep
    split
    · exact abs_nonneg _
    · exact h

theorem foldl_prev_skip (x : K) (l : List (K × K)) (acc : K) (h : ∀ p ∈ l, x < p.1) :
    l.foldl (prevStep x) acc = acc := by
  induction l generalizing acc with
  | nil => rfl
  | cons p l ih =>
    simp only [List.foldl_cons]
    have : prevStep x acc p = acc := by
      unfold prevStep
      rw [if_neg (not_le.2 (h p (by simp)))]
    rw [this]
    exact ih _ (fun p hp => h p (by simp [hp]))

theorem foldl_prev_node {xs ys : List K} (hs : xs.Pairwise (· < ·)) (hl : ys.length = xs.length)
    (acc : K) (i : Nat) (hi : i < xs.length) :
    (List.zip xs ys).foldl (prevStep (xs.getD i 0)) acc = |ys.getD i 0| := by
  induction xs generalizing ys acc i with
  | nil => simp at hi
  | cons a xs ih =>
    cases ys with
    | nil => simp at hl
    | cons b ys =>
      rw [List.pairwise_cons] at hs
      simp only [List.length_cons, Nat.add_right_cancel_iff] at hl
      simp only [List.zip_cons_cons, List.foldl_cons]
      cases i with
      | zero =>
        simp only [List.getD_cons_zero]
        rw [foldl_prev_skip]
        · simp [prevStep]
        · intro p hp
          exact hs.1 _ (List.of_mem_zip hp).1
      | succ i =>
        simp only [List.getD_cons_succ]
        exact ih hs.2 hl _ i (by simpa using hi)

theorem mkNumerics_lawful {log10 : K → K} {gmean : List K → K}
    (h1 : ∀ {x y : K}, 0 < x → x ≤ y → log10 x ≤ log10 y)
    (h2 : ∀ {l : List K} {a : K}, l ≠ [] → 0 < a → (∀ x ∈ l, a ≤ x) → a ≤ gmean l)
    (h3 : ∀ {l : List K} {b : K}, l ≠ [] → (∀ x ∈ l, 0 < x ∧ x ≤ b) → gmean l ≤ b) :
    (mkNumerics log10 gmean).Lawful := by
  refine ⟨h1, h2, h3, ?_, ?_, ?_, ?_, ?_, ?_⟩
  · intro l
    exact List.perm_insertionSort _ _
  · intro l
    rw [List.pairwise_map]
    haveI : Std.Total (fun i j : Nat => l.getD i 0 ≤ l.getD j 0) := ⟨fun a b => le_total _ _⟩
    haveI : IsTrans Nat (fun i j : Nat => l.getD i 0 ≤ l.getD j 0) := ⟨fun a b c => le_trans⟩
    exact List.pairwise_insertionSort _ _
  · intro xs ys hx _ hp _
    simp only [mkNumerics, prevInterp]
    rw [if_pos ⟨hx, hp⟩]; rfl
  · intro xs ys h
    simp only [mkNumerics, prevInterp]
    exact if_neg h
  · intro xs ys f hf x
    simp only [mkNumerics, prevInterp] at hf
    split at hf
    · simp only [Option.some.injEq] at hf
      subst hf
      exact foldl_prev_nonneg _ _ _ (le_refl _)
    · simp at hf
  · intro xs ys f hf hl hx hy i hi
    simp only [mkNumerics, prevInterp] at hf
    split at hf
    · next hc =>
      simp only [Option.some.injEq] at hf
      subst hf
      have hs : xs.Pairwise (· < ·) := by
        have := hc.2
        rw [List.pairwise_map] at this
        refine this.imp_of_mem ?_
        intro a b ha hb hab
        by_contra hn
        exact absurd (h1 (hx b hb) (not_lt.1 hn)) (not_le.2 hab)
      simp only
      rw [foldl_prev_node hs hl _ i hi]
      refine abs_of_pos (hy _ ?_)
      rw [List.getD_eq_getElem _ _ (by omega)]
      exact List.getElem_mem _
    · simp at hf

/-! ### arithmetic mean: computable stand-in -/

theorem le_sum_of_forall {l : List K} {a : K} (h : ∀ x ∈ l, a ≤ x) : a * l.length ≤ l.sum := by
  induction l with
  | nil => simp
  | cons x l ih =>
    have := ih (fun y hy => h y (by simp [hy]))
    have h0 := h x (by simp)
    simp only [List.length_cons, List.sum_cons, Nat.cast_add, Nat.cast_one]
    linarith

theorem sum_le_of_forall {l : List K} {a : K} (h : ∀ x ∈ l, x ≤ a) : l.sum ≤ a * l.length := by
  induction l with
  | nil => simp
  | cons x l ih =>
    have := ih (fun y hy => h y (by simp [hy]))
    have h0 := h x (by simp)
    simp only [List.length_cons, List.sum_cons, Nat.cast_add, Nat.cast_one]
    linarith

theorem length_cast_pos {l : List K} (h : l ≠ []) : (0 : K) < l.length := by
  exact_mod_cast List.length_pos_of_ne_nil h

theorem mean_ge {l : List K} {a : K} (h : l ≠ []) (ha : ∀ x ∈ l, a ≤ x) : a ≤ mean l := by
  unfold mean
  rw [le_div_iff₀ (length_cast_pos h)]
  exact le_sum_of_forall ha

theorem mean_le {l : List K} {a : K} (h : l ≠ []) (ha : ∀ x ∈ l, x ≤ a) : mean l ≤ a := by
  unfold mean
  rw [div_le_iff₀ (length_cast_pos h)]
  exact sum_le_of_forall ha

/-- computable stand-in used in examples over `ℚ` -/
def toyNumerics : Numerics K := mkNumerics id mean

theorem toyNumerics_lawful : (toyNumerics : Numerics K).Lawful :=
  mkNumerics_lawful (fun _ h => h) (fun h _ ha => mean_ge h ha)
    (fun h ha => mean_le h (fun x hx => (ha x hx).2))

/-! ### the reals -/

noncomputable def realNumerics : Numerics ℝ :=
  mkNumerics (fun x => Real.logb 10 x) (fun l => Real.exp (mean (l.map Real.log)))

theorem realNumerics_lawful : realNumerics.Lawful := by
  refine mkNumerics_lawful ?_ ?_ ?_
  · intro x y hx hxy
    exact Real.logb_le_logb_of_le (by norm_num) hx hxy
  · intro l a hl ha h
    rw [← Real.log_le_iff_le_exp ha]
    refine mean_ge (by simpa using hl) ?_
    intro y hy
    obtain ⟨x, hx, rfl⟩ := List.mem_map.1 hy
    exact Real.log_le_log ha (h x hx)
  · intro l b hl h
    have hb : 0 < b := by
      obtain ⟨x, hx⟩ := List.exists_mem_of_ne_nil l hl
      exact lt_of_lt_of_le (h x hx).1 (h x hx).2
    rw [← Real.le_log_iff_exp_le hb]
    refine mean_le (by simpa using hl) ?_
    intro y hy
    obtain ⟨x, hx, rfl⟩ := List.mem_map.1 hy
    exact Real.log_le_log (h x hx).1 (h x hx).2

end Verif.TE
