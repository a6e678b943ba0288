import Mathlib.Data.List.Sort
import Mathlib.Tactic.Linarith
import Verif.Lemmas.Np
import Verif.Model.TimeEvolution

/- Helper lemmas about `groupDuplicates` and `mergePoints`. -/

namespace Verif.TE

open Verif.Np

/-- maximal runs of consecutive numbers -/
def runs : List Nat → List (List Nat)
  | [] => []
  | [x] => [[x]]
  | x :: y :: r =>
    if y = x + 1 then
      match runs (y :: r) with
      | g :: gs => (x :: g) :: gs
      | [] => [[x]]
    else [x] :: runs (y :: r)

theorem nonzero_cons (b : Bool) (m : List Bool) :
    nonzero (b :: m) = (if b then [0] else []) ++ (nonzero m).map (· + 1) := by
  have hf : (fun i => (b :: m)[i + 1]? == some true) = fun i => m[i]? == some true := by
    funext i; simp
  unfold nonzero
  rw [List.length_cons, List.range_succ_eq_map, List.filter_cons, List.filter_map]
  simp only [List.getElem?_cons_zero]
  cases b <;> simp [Function.comp_def]

theorem splitFrom_shift {α : Type} (k off : Nat) (l : List α) (is : List Nat) :
    splitFrom (off + k) l (is.map (· + k)) = splitFrom off l is := by
  induction is generalizing off l with
  | nil => simp [splitFrom]
  | cons i is ih =>
    simp only [List.map_cons, splitFrom]
    rw [ih, show i + k - (off + k) = i - off by omega]

theorem split_cons_shift {α : Type} (x : α) (l : List α) (is : List Nat) :
    split (x :: l) (is.map (· + 1)) =
      match split l is with
      | g :: gs => (x :: g) :: gs
      | [] => [[x]] := by
  cases is with
  | nil => simp [split, splitFrom]
  | cons i is =>
    simp only [split, List.map_cons, splitFrom]
    rw [splitFrom_shift]
    simp

theorem split_cons_zero {α : Type} (x : α) (l : List α) (is : List Nat) :
    split (x :: l) (1 :: is.map (· + 1)) = [x] :: split l is := by
  simp only [split, splitFrom]
  have := splitFrom_shift 1 0 l is
  simp only [Nat.zero_add] at this
  simp [this]

theorem split_eq_runs (dup : List Nat) (h : dup ≠ []) :
    split dup ((nonzero (adjacent (fun a b => decide (b ≠ a + 1)) dup)).map (· + 1)) = runs dup := by
  induction dup with
  | nil => exact absurd rfl h
  | cons x l ih =>
    cases l with
    | nil => simp [adjacent, nonzero, split, splitFrom, runs]
    | cons y r =>
      have ih := ih (by simp)
      simp only [adjacent, nonzero_cons, runs]
      by_cases hxy : y = x + 1
      · simp only [hxy, ne_eq, not_true_eq_false, decide_false, Bool.false_eq_true, if_false,
          List.nil_append, if_true]
        rw [hxy] at ih
        rw [split_cons_shift, ih]
        cases runs ((x + 1) :: r) <;> rfl
      · simp only [ne_eq, hxy, not_false_eq_true, decide_true, if_true, List.cons_append,
          List.nil_append, List.map_cons, if_false]
        rw [split_cons_zero, ih]

theorem groupDuplicates_eq (dup : List Nat) :
    groupDuplicates dup = (runs dup).map fun g => match g with
      | [] => []
      | x :: _ => (x - 1) :: g := by
  unfold groupDuplicates
  split
  · next h => subst h; simp [runs]
  · next h =>
    simp only [split_eq_runs dup h]
    apply List.map_congr_left
    intro g _
    cases g <;> rfl

theorem runs_flatten (dup : List Nat) : (runs dup).flatten = dup := by
  induction dup with
  | nil => simp [runs]
  | cons x l ih =>
    cases l with
    | nil => simp [runs]
    | cons y r =>
      simp only [runs]
      split
      · split
        · next g gs e => rw [e] at ih; simpa using ih
        · next e => rw [e] at ih; simp at ih
      · simpa using ih

theorem runs_ne_nil (dup : List Nat) : ∀ g ∈ runs dup, g ≠ [] := by
  induction dup with
  | nil => simp [runs]
  | cons x l ih =>
    cases l with
    | nil => simp [runs]
    | cons y r =>
      simp only [runs]
      split
      · split
        · next g gs e =>
          rw [e] at ih
          intro g' hg'
          rcases List.mem_cons.1 hg' with rfl | h'
          · simp
          · exact ih g' (by simp [h'])
        · simp
      · intro g' hg'
        rcases List.mem_cons.1 hg' with rfl | h'
        · simp
        · exact ih g' h'

/-- the tails of the groups are exactly the duplicate indices -/
theorem groupDuplicates_tails (dup : List Nat) :
    ((groupDuplicates dup).map List.tail).flatten = dup := by
  conv_rhs => rw [← runs_flatten dup]
  rw [groupDuplicates_eq, List.map_map]
  congr 1
  conv_rhs => rw [← List.map_id (runs dup)]
  apply List.map_congr_left
  intro g hg
  have := runs_ne_nil dup g hg
  cases g with
  | nil => exact absurd rfl this
  | cons x t => simp

/-- the interval `a, a+1, ..., a+k` -/
def interval (a k : Nat) : List Nat := (List.range (k + 1)).map (a + ·)

theorem mem_interval {a k i : Nat} : i ∈ interval a k ↔ a ≤ i ∧ i ≤ a + k := by
  simp only [interval, List.mem_map, List.mem_range]
  constructor
  · rintro ⟨j, hj, rfl⟩; omega
  · rintro ⟨h1, h2⟩; exact ⟨i - a, by omega, by omega⟩

theorem interval_pairwise (a k : Nat) : (interval a k).Pairwise (· < ·) := by
  unfold interval
  rw [List.pairwise_map]
  exact List.pairwise_lt_range.imp (fun h => by omega)

theorem interval_cons (a k : Nat) : a :: interval (a + 1) k = interval a (k + 1) := by
  unfold interval
  conv_rhs => rw [List.range_succ_eq_map]
  simp only [List.map_cons, Nat.add_zero, List.map_map, List.cons.injEq, true_and]
  apply List.map_congr_left
  intro j _
  simp; omega

/-- structure of the runs of a strictly increasing list -/
theorem runs_spec (dup : List Nat) (hs : dup.Pairwise (· < ·)) :
    (∀ g ∈ runs dup, ∃ a k, g = interval a k ∧ a + k + 1 ∉ dup ∧ (∀ b, b + 1 = a → b ∉ dup)) ∧
    (runs dup).Pairwise (fun g g' => ∀ r ∈ g, ∀ r' ∈ g', r + 1 < r') ∧
    (∀ x l, dup = x :: l → ∃ k gs, runs dup = interval x k :: gs) := by
  induction dup with
  | nil => simp [runs]
  | cons x l ih =>
    cases l with
    | nil =>
      refine ⟨?_, ?_, ?_⟩
      · intro g hg
        simp only [runs, List.mem_singleton] at hg
        exact ⟨x, 0, by simp [hg, interval], by simp, by
          intro b hb; simp only [List.mem_singleton]; omega⟩
      · simp [runs]
      · intro x' l' h
        simp only [List.cons.injEq] at h
        exact ⟨0, [], by simp [runs, interval, h.1]⟩
    | cons y r =>
      have hs' := (List.pairwise_cons.1 hs).2
      have hx : ∀ z ∈ y :: r, x < z := (List.pairwise_cons.1 hs).1
      have hy : ∀ z ∈ r, y < z := (List.pairwise_cons.1 hs').1
      obtain ⟨h1, h2, h3⟩ := ih hs'
      obtain ⟨k, gs, e⟩ := h3 y r rfl
      have hxy := hx y (by simp)
      have hmem : ∀ g ∈ runs (y :: r), ∀ z ∈ g, z ∈ y :: r := by
        intro g hg z hz
        rw [← runs_flatten (y :: r)]
        exact List.mem_flatten.2 ⟨g, hg, hz⟩
      have hge : ∀ z ∈ y :: r, y ≤ z := by
        intro z hz
        rcases List.mem_cons.1 hz with rfl | hz
        · exact le_refl _
        · exact (hy z hz).le
      simp only [runs]
      by_cases hxy' : y = x + 1
      · simp only [hxy', if_true]
        rw [hxy'] at e h1 h2 hmem hge
        simp only [e]
        rw [interval_cons]
        rw [e] at h1 h2 hmem
        refine ⟨?_, ?_, ?_⟩
        · intro g hg
          rcases List.mem_cons.1 hg with rfl | hg
          · obtain ⟨a, k', ea, ha, hb⟩ := h1 (interval (x + 1) k) (by simp)
            refine ⟨x, k + 1, rfl, ?_, ?_⟩
            · have hak : a + k' = x + 1 + k := by
                have m1 : x + 1 + k ∈ interval (x + 1) k := mem_interval.2 ⟨by omega, by omega⟩
                have m2 : a + k' ∈ interval a k' := mem_interval.2 ⟨by omega, by omega⟩
                rw [ea] at m1
                rw [← ea] at m2
                have := mem_interval.1 m1
                have := mem_interval.1 m2
                omega
              intro hm
              rcases List.mem_cons.1 hm with hm | hm
              · omega
              · exact ha (by rw [show a + k' + 1 = x + (k + 1) + 1 by omega]; exact hm)
            · intro b hb hm
              rcases List.mem_cons.1 hm with hm | hm
              · omega
              · have := hge b hm; omega
          · obtain ⟨a, k', ea, ha, hb⟩ := h1 g (by simp [hg])
            have hsep : x + 1 + 1 < a := by
              have := (List.pairwise_cons.1 h2).1 g hg (x + 1) (mem_interval.2 ⟨by omega, by omega⟩) a
                (by rw [ea]; exact mem_interval.2 ⟨by omega, by omega⟩)
              omega
            refine ⟨a, k', ea, ?_, ?_⟩
            · intro hm
              rcases List.mem_cons.1 hm with hm | hm
              · omega
              · exact ha hm
            · intro b hb' hm
              rcases List.mem_cons.1 hm with hm | hm
              · omega
              · exact hb b hb' hm
        · refine List.pairwise_cons.2 ⟨?_, (List.pairwise_cons.1 h2).2⟩
          intro g' hg' z hz z' hz'
          rcases Nat.lt_or_ge z (x + 1) with hlt | hge'
          · have := (List.pairwise_cons.1 h2).1 g' hg' (x + 1) (mem_interval.2 ⟨by omega, by omega⟩) z' hz'
            omega
          · exact (List.pairwise_cons.1 h2).1 g' hg' z
              (mem_interval.2 ⟨hge', by have := (mem_interval.1 hz).2; omega⟩) z' hz'
        · intro x' l' he
          simp only [List.cons.injEq] at he
          exact ⟨k + 1, gs, by rw [he.1]⟩
      · simp only [hxy', if_false]
        refine ⟨?_, ?_, ?_⟩
        · intro g hg
          rcases List.mem_cons.1 hg with rfl | hg
          · refine ⟨x, 0, by simp [interval], ?_, ?_⟩
            · intro hm
              rcases List.mem_cons.1 hm with hm | hm
              · omega
              · have := hge _ hm; omega
            · intro b hb hm
              rcases List.mem_cons.1 hm with hm | hm
              · omega
              · have := hx b hm; omega
          · obtain ⟨a, k', ea, ha, hb⟩ := h1 g hg
            have ham : a ∈ y :: r := hmem g hg a (by rw [ea]; exact mem_interval.2 ⟨by omega, by omega⟩)
            have := hge a ham
            refine ⟨a, k', ea, ?_, ?_⟩
            · intro hm
              rcases List.mem_cons.1 hm with hm | hm
              · omega
              · exact ha hm
            · intro b hb' hm
              rcases List.mem_cons.1 hm with hm | hm
              · omega
              · exact hb b hb' hm
        · refine List.pairwise_cons.2 ⟨?_, h2⟩
          intro g' hg' z hz z' hz'
          simp only [List.mem_singleton] at hz
          have := hge z' (hmem g' hg' z' hz')
          omega
        · intro x' l' he
          simp only [List.cons.injEq] at he
          exact ⟨0, runs (y :: r), by simp [interval, he.1]⟩

/-- structure of the groups: contiguous, disjoint, headed by a retained index -/
theorem groups_spec (dup : List Nat) (hs : dup.Pairwise (· < ·)) (hp : ∀ i ∈ dup, 1 ≤ i) :
    (∀ g ∈ groupDuplicates dup, ∃ h k, g = interval h (k + 1) ∧ h ∉ dup ∧ h + (k + 1) + 1 ∉ dup ∧
        ∀ j, h < j → j ≤ h + (k + 1) → j ∈ dup) ∧
    (groupDuplicates dup).Pairwise (fun g g' => ∀ r ∈ g, ∀ r' ∈ g', r < r') ∧
    (∀ i, i ∉ dup → i + 1 ∈ dup → ∃ g ∈ groupDuplicates dup, i ∈ g) := by
  obtain ⟨h1, h2, -⟩ := runs_spec dup hs
  have hmem : ∀ g ∈ runs dup, ∀ z ∈ g, z ∈ dup := by
    intro g hg z hz
    rw [← runs_flatten dup]
    exact List.mem_flatten.2 ⟨g, hg, hz⟩
  -- the group built from a run
  have key : ∀ g ∈ runs dup, ∃ h k, g = interval (h + 1) k ∧ h ∉ dup ∧ h + (k + 1) + 1 ∉ dup ∧
      (match g with | [] => [] | x :: _ => (x - 1) :: g) = interval h (k + 1) := by
    intro g hg
    obtain ⟨a, k, rfl, ha, hb⟩ := h1 g hg
    have ham : a ∈ dup := hmem _ hg a (mem_interval.2 ⟨by omega, by omega⟩)
    have ha1 := hp a ham
    refine ⟨a - 1, k, by rw [Nat.sub_add_cancel ha1], hb (a - 1) (by omega), ?_, ?_⟩
    · rwa [show a - 1 + (k + 1) + 1 = a + k + 1 by omega]
    · have e : interval a k = a :: (List.range k).map (fun j => a + (j + 1)) := by
        simp [interval, List.range_succ_eq_map, Function.comp_def]
      rw [← interval_cons, Nat.sub_add_cancel ha1]
      rw [e]
  refine ⟨?_, ?_, ?_⟩
  · intro g hg
    rw [groupDuplicates_eq] at hg
    obtain ⟨r, hr, rfl⟩ := List.mem_map.1 hg
    obtain ⟨h, k, er, hh, hk, e⟩ := key r hr
    refine ⟨h, k, e, hh, hk, ?_⟩
    intro j hj hj'
    exact hmem r hr j (by rw [er]; exact mem_interval.2 ⟨by omega, by omega⟩)
  · rw [groupDuplicates_eq, List.pairwise_map]
    refine List.Pairwise.imp_of_mem ?_ h2
    intro g g' hg hg' hlt r hr r' hr'
    obtain ⟨h, k, er, hh, hk, e⟩ := key g hg
    obtain ⟨h', k', er', hh', hk', e'⟩ := key g' hg'
    rw [e] at hr
    rw [e'] at hr'
    have := hlt (h + 1 + k) (by rw [er]; exact mem_interval.2 ⟨by omega, by omega⟩) (h' + 1)
      (by rw [er']; exact mem_interval.2 ⟨by omega, by omega⟩)
    have := mem_interval.1 hr
    have := mem_interval.1 hr'
    omega
  · intro i hi hi1
    rw [← runs_flatten dup] at hi1
    obtain ⟨g, hg, hig⟩ := List.mem_flatten.1 hi1
    obtain ⟨h, k, er, hh, hk, e⟩ := key g hg
    refine ⟨_, by rw [groupDuplicates_eq]; exact List.mem_map.2 ⟨g, hg, rfl⟩, ?_⟩
    rw [e]
    rw [er] at hig
    have := mem_interval.1 hig
    rcases Nat.lt_or_ge h i with hlt | hge
    · exfalso
      apply hi
      exact hmem g hg i (by rw [er]; exact mem_interval.2 ⟨by omega, by omega⟩)
    · exact mem_interval.2 ⟨by omega, by omega⟩

/-! ### labels -/

theorem label_foldl (i : Nat) (l : List (List Nat × Nat)) (acc : Option Nat) :
    (l.foldl (fun acc p => if i ∈ p.1 then some p.2 else acc) acc = acc ∧ ∀ p ∈ l, i ∉ p.1) ∨
    ∃ p ∈ l, i ∈ p.1 ∧ l.foldl (fun acc p => if i ∈ p.1 then some p.2 else acc) acc = some p.2 := by
  induction l generalizing acc with
  | nil => simp
  | cons q l ih =>
    simp only [List.foldl_cons]
    rcases ih (if i ∈ q.1 then some q.2 else acc) with ⟨e, hn⟩ | ⟨p, hp, hip, e⟩
    · by_cases hq : i ∈ q.1
      · right
        refine ⟨q, by simp, hq, ?_⟩
        rw [e, if_pos hq]
      · left
        rw [if_neg hq] at e ⊢
        refine ⟨e, ?_⟩
        intro p hp
        rcases List.mem_cons.1 hp with rfl | hp
        · exact hq
        · exact hn p hp
    · right
      exact ⟨p, by simp [hp], hip, e⟩

theorem label_none {groups : List (List Nat)} {i : Nat} :
    label groups i = none ↔ ∀ g ∈ groups, i ∉ g := by
  unfold label
  rcases label_foldl i groups.zipIdx none with ⟨e, hn⟩ | ⟨p, hp, hip, e⟩
  · rw [e]
    simp only [true_iff]
    intro g hg
    obtain ⟨k, hk, rfl⟩ := List.mem_iff_getElem.1 hg
    exact hn (groups[k], k) (List.mk_mem_zipIdx_iff_getElem?.2 (by simp [hk]))
  · rw [e]
    simp only [reduceCtorEq, false_iff, not_forall, Decidable.not_not]
    refine ⟨p.1, ?_, hip⟩
    exact List.fst_mem_of_mem_zipIdx hp

theorem label_some {groups : List (List Nat)}
    (hd : groups.Pairwise (fun g g' => ∀ r ∈ g, ∀ r' ∈ g', r < r')) {i k : Nat} :
    label groups i = some k ↔ ∃ h : k < groups.length, i ∈ groups[k] := by
  have uniq : ∀ a b (ha : a < groups.length) (hb : b < groups.length), i ∈ groups[a] →
      i ∈ groups[b] → a = b := by
    intro a b ha hb h1 h2
    rcases Nat.lt_trichotomy a b with h | h | h
    · exact absurd (List.pairwise_iff_getElem.1 hd a b ha hb h i h1 i h2) (lt_irrefl _)
    · exact h
    · exact absurd (List.pairwise_iff_getElem.1 hd b a hb ha h i h2 i h1) (lt_irrefl _)
  constructor
  · intro h
    unfold label at h
    rcases label_foldl i groups.zipIdx none with ⟨e, hn⟩ | ⟨p, hp, hip, e⟩
    · rw [e] at h; simp at h
    · rw [e] at h
      obtain ⟨g, j⟩ := p
      simp only [Option.some.injEq] at h
      subst h
      have := List.mk_mem_zipIdx_iff_getElem?.1 hp
      obtain ⟨hj, ej⟩ := List.getElem?_eq_some_iff.1 this
      exact ⟨hj, by rw [ej]; exact hip⟩
  · rintro ⟨hk, hi⟩
    cases hl : label groups i with
    | none => exact absurd hi (label_none.1 hl _ (List.getElem_mem hk))
    | some k' =>
      have : ∃ h : k' < groups.length, i ∈ groups[k'] := by
        unfold label at hl
        rcases label_foldl i groups.zipIdx none with ⟨e, hn⟩ | ⟨p, hp, hip, e⟩
        · rw [e] at hl; simp at hl
        · rw [e] at hl
          obtain ⟨g, j⟩ := p
          simp only [Option.some.injEq] at hl
          subst hl
          have := List.mk_mem_zipIdx_iff_getElem?.1 hp
          obtain ⟨hj, ej⟩ := List.getElem?_eq_some_iff.1 this
          exact ⟨hj, by rw [ej]; exact hip⟩
      obtain ⟨hk', hi'⟩ := this
      rw [uniq k' k hk' hk hi' hi]

variable {K : Type} [Field K] [LinearOrder K]

theorem select_range_map (x : List K) (p : Nat → Bool) :
    select ((List.range x.length).map p) x
      = ((List.range x.length).filter p).map (x.getD · 0) := by
  have hx : x = (List.range x.length).map (x.getD · 0) := by
    apply List.ext_getElem
    · simp
    · intro i h1 h2
      simp [h1]
  conv_lhs => rw [hx]
  rw [select_map]
  rw [List.length_map, List.length_range, select_filter]

theorem filter_range_mem {n : Nat} {G : List Nat} (hs : G.Pairwise (· < ·)) (hn : ∀ i ∈ G, i < n) :
    (List.range n).filter (fun i => decide (i ∈ G)) = G := by
  apply List.Perm.eq_of_pairwise' (r := (· < ·))
  · exact List.Pairwise.filter _ List.pairwise_lt_range
  · exact hs
  · rw [List.perm_ext_iff_of_nodup]
    · intro a
      simp only [List.mem_filter, List.mem_range, decide_eq_true_eq]
      exact ⟨fun h => h.2, fun h => ⟨hn a h, h⟩⟩
    · exact List.Nodup.filter _ List.nodup_range
    · exact hs.imp (fun h => Nat.ne_of_lt h)

theorem members_eq {groups : List (List Nat)} (x : List K)
    (hd : groups.Pairwise (fun g g' => ∀ r ∈ g, ∀ r' ∈ g', r < r'))
    (hs : ∀ g ∈ groups, g.Pairwise (· < ·)) (hn : ∀ g ∈ groups, ∀ i ∈ g, i < x.length)
    (k : Nat) (hk : k < groups.length) :
    members x groups k = groups[k].map (x.getD · 0) := by
  unfold members
  rw [select_range_map]
  congr 1
  rw [← filter_range_mem (hs _ (List.getElem_mem hk)) (hn _ (List.getElem_mem hk))]
  congr 1
  funext i
  simp only [label_some hd, hk, exists_true_left]

/-- the values of `l` on the interval -/
def slice (x : List K) (h k : Nat) : List K := (interval h k).map (x.getD · 0)

/-- Specification of merging with the groups built from a strictly increasing list of duplicate
indices: the retained indices are those not in `dup`; a retained index whose successor is not a
duplicate keeps its values; otherwise it is the head of the maximal run `i, i+1, ..., i+k` and gets
the mean of the run. -/
theorem mergePoints_spec (num : Numerics K) (x y : List K) (dup : List Nat) (dist : Option (Dist K))
    (hs : dup.Pairwise (· < ·)) (hp : ∀ i ∈ dup, 1 ≤ i) (hx : ∀ i ∈ dup, i < x.length)
    (hxy : y.length = x.length) :
    ∃ fx fy : Nat → K,
      mergePoints num x y (groupDuplicates dup) dist
        = ((setdiffRange x.length dup).map fx, (setdiffRange x.length dup).map fy) ∧
      (∀ i, i ∉ dup → i + 1 ∉ dup → fx i = x.getD i 0 ∧ fy i = y.getD i 0) ∧
      (∀ i, i ∉ dup → i + 1 ∈ dup → ∃ k, i + (k + 1) < x.length ∧
        (∀ j, i < j → j ≤ i + (k + 1) → j ∈ dup) ∧ i + (k + 1) + 1 ∉ dup ∧
        fx i = num.gmean (slice x i (k + 1)) ∧
        fy i = match dist with
          | none => mean (slice y i (k + 1))
          | some d => d.eval (fx i)) := by
  obtain ⟨h1, h2, h3⟩ := groups_spec dup hs hp
  have hsg : ∀ g ∈ groupDuplicates dup, g.Pairwise (· < ·) := by
    intro g hg
    obtain ⟨h, k, rfl, -⟩ := h1 g hg
    exact interval_pairwise _ _
  have hng : ∀ g ∈ groupDuplicates dup, ∀ i ∈ g, i < x.length := by
    intro g hg i hi
    obtain ⟨h, k, rfl, -, -, hj⟩ := h1 g hg
    have hm := mem_interval.1 hi
    have := hx (h + (k + 1)) (hj _ (by omega) (le_refl _))
    omega
  refine ⟨fun i => match label (groupDuplicates dup) i with
      | none => x.getD i 0
      | some g => num.gmean (members x (groupDuplicates dup) g),
    fun i => match label (groupDuplicates dup) i with
      | none => y.getD i 0
      | some g => match dist with
        | none => mean (members y (groupDuplicates dup) g)
        | some d => d.eval (num.gmean (members x (groupDuplicates dup) g)), ?_, ?_, ?_⟩
  · unfold mergePoints
    rw [groupDuplicates_tails]
    rfl
  · intro i hi hi1
    have : label (groupDuplicates dup) i = none := by
      rw [label_none]
      intro g hg hig
      obtain ⟨h, k, rfl, hh, -, hj⟩ := h1 g hg
      have hm := mem_interval.1 hig
      rcases Nat.lt_or_ge h i with hlt | hge
      · exact hi (hj i hlt hm.2)
      · exact hi1 (hj (i + 1) (by omega) (by omega))
    simp only [this, and_self]
  · intro i hi hi1
    obtain ⟨g, hg, hig⟩ := h3 i hi hi1
    obtain ⟨n, hn, rfl⟩ := List.mem_iff_getElem.1 hg
    obtain ⟨h, k, eg, hh, hk, hj⟩ := h1 _ hg
    have hih : i = h := by
      rw [eg] at hig
      have hm := mem_interval.1 hig
      rcases Nat.lt_or_ge h i with hlt | hge
      · exact absurd (hj i hlt hm.2) hi
      · omega
    subst hih
    have hl : label (groupDuplicates dup) i = some n := (label_some h2).2 ⟨hn, hig⟩
    refine ⟨k, hng _ hg _ (by rw [eg]; exact mem_interval.2 ⟨by omega, le_refl _⟩), hj, hk, ?_, ?_⟩
    · simp only [hl]
      rw [members_eq x h2 hsg hng n hn, eg]
      rfl
    · simp only [hl]
      cases dist with
      | none =>
        simp only
        rw [members_eq y h2 hsg (by rw [hxy]; exact hng) n hn, eg]
        rfl
      | some d => rfl

end Verif.TE
