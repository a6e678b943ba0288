import Verif.Lemmas.SortMerge

/- Index mappings: closed forms of `remap`, `remapSubgroups`, `combineMapping`. -/

namespace Verif.TE

open Verif.Np

set_option linter.unusedSectionVars false

/-- a mapping entry: `none` = new bin (-1), `some i` = old bin `i` -/
def enc : Option Nat → Int
  | none => -1
  | some i => (i : Int)

/-- mapping into an array of length `n` -/
def InRange (n : Nat) (l : List (Option Nat)) : Prop := ∀ i, some i ∈ l → i < n

/-- the re-indexed array -/
def pull {α : Type} (l : List (Option Nat)) (v : List α) (d : α) : List α :=
  l.map fun o => match o with
    | none => d
    | some i => v.getD i d

@[simp] theorem pull_length {α : Type} (l : List (Option Nat)) (v : List α) (d : α) :
    (pull l v d).length = l.length := by simp [pull]

theorem enc_eq_neg_one {o : Option Nat} : enc o = -1 ↔ o = none := by
  cases o <;> simp [enc]

/-- the element numpy reads for an entry (for -1, the last one) -/
def readAt {α : Type} (v : List α) (d : α) : Option Nat → α
  | none => v.getLast?.getD d
  | some i => v.getD i d

theorem gather_enc {α : Type} (v : List α) (d : α) (l : List (Option Nat)) (h : InRange v.length l)
    (hne : v ≠ [] ∨ none ∉ l) : gather v (l.map enc) = .ok (l.map (readAt v d)) := by
  unfold gather
  have : ∀ o ∈ l, Np.get v (enc o) = .ok (readAt v d o) := by
    intro o ho
    cases o with
    | none =>
      have hv : v ≠ [] := by
        rcases hne with h | h
        · exact h
        · exact absurd ho h
      simp only [enc, readAt]
      rw [get_neg_one hv, List.getLast?_eq_getLast_of_ne_nil hv]
      rfl
    | some i =>
      have := h i ho
      simp only [enc, readAt]
      rw [get_ofNat this, List.getD_eq_getElem _ _ this]
  have h2 := mapM_ok_of this
  rw [← h2, List.mapM_map]
  rfl

theorem zipWith_map_map {α β γ δ : Type} (f : β → γ → δ) (g : α → β) (h : α → γ) (l : List α) :
    List.zipWith f (l.map g) (l.map h) = l.map fun x => f (g x) (h x) := by
  induction l with
  | nil => rfl
  | cons x l ih => simp [ih]

theorem zipWith_enc {α : Type} (v : List α) (d : α) (l : List (Option Nat)) :
    List.zipWith (fun i x => if i = -1 then d else x) (l.map enc) (l.map (readAt v d))
      = pull l v d := by
  rw [zipWith_map_map]
  unfold pull
  apply List.map_congr_left
  intro o _
  cases o with
  | none => simp [enc]
  | some i =>
    have : enc (some i) ≠ -1 := by simp [enc]
    simp [this, readAt]

theorem any_enc (l : List (Option Nat)) : (l.map enc).any (· == -1) = true ↔ none ∈ l := by
  simp only [List.any_map, List.any_eq_true, Function.comp, beq_iff_eq]
  constructor
  · rintro ⟨o, ho, e⟩
    rw [enc_eq_neg_one] at e
    exact e ▸ ho
  · intro h; exact ⟨none, h, rfl⟩

theorem map_readAt_of_not_mem {α : Type} {v : List α} {d : α} {l : List (Option Nat)}
    (h : none ∉ l) : l.map (readAt v d) = pull l v d := by
  unfold pull
  apply List.map_congr_left
  intro o ho
  cases o with
  | none => exact absurd ho h
  | some i => rfl

/-- closed form of `remap` with a default value -/
theorem remap_enc {α : Type} (v : List α) (d : α) (l : List (Option Nat)) (h : InRange v.length l)
    (hne : v ≠ [] ∨ none ∉ l) : remap (l.map enc) v (some d) = .ok (pull l v d) := by
  unfold remap
  rw [gather_enc v d l h hne]
  simp only [bind, Except.bind]
  by_cases hn : none ∈ l
  · rw [if_pos ((any_enc l).2 hn)]
    simp only [pure, Except.pure, Except.ok.injEq]
    exact zipWith_enc v d l
  · rw [if_neg (by rw [any_enc]; exact hn)]
    simp only [pure, Except.pure, Except.ok.injEq]
    exact map_readAt_of_not_mem hn

/-- closed form of `remap` without default value -/
theorem remap_enc_none {α : Type} (v : List α) (d : α) (l : List (Option Nat))
    (h : InRange v.length l) (hn : none ∉ l) : remap (l.map enc) v none = .ok (pull l v d) := by
  unfold remap
  rw [gather_enc v d l h (Or.inr hn)]
  simp only [bind, Except.bind]
  rw [if_neg (by rw [any_enc]; exact hn)]
  simp only [pure, Except.pure, Except.ok.injEq]
  exact map_readAt_of_not_mem hn

/-- composition of decoded mappings -/
def comp (first second : List (Option Nat)) : List (Option Nat) := pull second first none

theorem combineMapping_enc (first second : List (Option Nat)) (h : InRange first.length second)
    (hne : first ≠ [] ∨ none ∉ second) :
    combineMapping (first.map enc) (second.map enc) = .ok ((comp first second).map enc) := by
  unfold combineMapping
  rw [gather_enc (first.map enc) (-1) second (by simpa [InRange] using h) (by simpa using hne)]
  simp only [bind, Except.bind, pure, Except.pure, Except.ok.injEq]
  rw [zipWith_enc]
  unfold comp pull
  rw [List.map_map]
  apply List.map_congr_left
  intro o ho
  cases o with
  | none => simp [enc]
  | some i =>
    have := h i ho
    simp [this]

theorem comp_inRange {n : Nat} {first second : List (Option Nat)} (h1 : InRange n first) :
    InRange n (comp first second) := by
  intro i hi
  unfold comp pull at hi
  obtain ⟨o, ho, e⟩ := List.mem_map.1 hi
  cases o with
  | none => simp at e
  | some j =>
    simp only at e
    by_cases hj : j < first.length
    · rw [List.getD_eq_getElem _ _ hj] at e
      exact h1 i (e ▸ List.getElem_mem hj)
    · rw [List.getD_eq_default _ _ (by omega)] at e
      simp at e

theorem pull_comp {α : Type} {first second : List (Option Nat)} (v : List α) (d : α)
    (h : InRange first.length second) :
    pull (comp first second) v d = pull second (pull first v d) d := by
  unfold comp
  unfold pull
  rw [List.map_map]
  apply List.map_congr_left
  intro o ho
  cases o with
  | none => rfl
  | some i =>
    have := h i ho
    simp [this]

section sub
variable {K : Type} [Field K] [LinearOrder K]

/-- the re-indexed subgroup fractions: new bins get 1 in the first row, 0 in the others -/
def pullSub (l : List (Option Nat)) : List (List K) → List (List K)
  | [] => []
  | r0 :: rs => pull l r0 1 :: rs.map (pull l · 0)

theorem zipWith_enc' {α : Type} (v : List α) (d d' : α) (l : List (Option Nat))
    (h : InRange v.length l) :
    List.zipWith (fun i x => if i = -1 then d else x) (l.map enc) (l.map (readAt v d'))
      = pull l v d := by
  rw [zipWith_map_map]
  unfold pull
  apply List.map_congr_left
  intro o ho
  cases o with
  | none => simp [enc]
  | some i =>
    have h2 : enc (some i) ≠ -1 := by simp [enc]
    have := h i ho
    simp [h2, readAt, this]

theorem remapSubgroups_enc (sub : List (List K)) (l : List (Option Nat)) (n : Nat)
    (hs : sub ≠ []) (hlen : ∀ r ∈ sub, r.length = n) (h : InRange n l) (hne : n ≠ 0 ∨ none ∉ l) :
    remapSubgroups (l.map enc) sub = .ok (pullSub l sub) := by
  unfold remapSubgroups
  have : ∀ r ∈ sub, gather r (l.map enc) = .ok (l.map (readAt r 0)) := by
    intro r hr
    refine gather_enc r 0 l (by rw [hlen r hr]; exact h) ?_
    rcases hne with h | h
    · left; intro e; have := hlen r hr; simp [e] at this; omega
    · exact Or.inr h
  rw [mapM_ok_of this]
  cases sub with
  | nil => exact absurd rfl hs
  | cons r0 rs =>
    simp only [bind, Except.bind, List.map_cons, pure, Except.pure, Except.ok.injEq, pullSub]
    congr 1
    · exact zipWith_enc' r0 1 0 l (by rw [hlen r0 (by simp)]; exact h)
    · rw [List.map_map]
      apply List.map_congr_left
      intro r hr
      exact zipWith_enc' r 0 0 l (by rw [hlen r (by simp [hr])]; exact h)

theorem pullSub_length (l : List (Option Nat)) (sub : List (List K)) :
    (pullSub l sub).length = sub.length := by
  cases sub <;> simp [pullSub]

theorem pullSub_ne_nil {l : List (Option Nat)} {sub : List (List K)} (h : sub ≠ []) :
    pullSub l sub ≠ [] := by
  cases sub with
  | nil => exact absurd rfl h
  | cons => simp [pullSub]

theorem pullSub_row_length {l : List (Option Nat)} {sub : List (List K)} :
    ∀ r ∈ pullSub l sub, r.length = l.length := by
  cases sub with
  | nil => simp [pullSub]
  | cons r0 rs =>
    intro r hr
    simp only [pullSub, List.mem_cons, List.mem_map] at hr
    rcases hr with rfl | ⟨r', -, rfl⟩ <;> simp

theorem pull_getD {α : Type} (l : List (Option Nat)) (v : List α) (d d' : α) {j : Nat}
    (hj : j < l.length) : (pull l v d).getD j d' = match l[j] with
      | none => d
      | some i => v.getD i d := by
  rw [List.getD_eq_getElem _ _ (by simpa using hj)]
  simp [pull]

theorem pull_getElem {α : Type} (l : List (Option Nat)) (v : List α) (d : α) {j : Nat}
    (hj : j < (pull l v d).length) : (pull l v d)[j] = match l[j]'(by simpa using hj) with
      | none => d
      | some i => v.getD i d := by
  simp [pull]

theorem mem_pull {α : Type} {l : List (Option Nat)} {v : List α} {d x : α}
    (h : InRange v.length l) (hx : x ∈ pull l v d) : x ∈ v ∨ (x = d ∧ none ∈ l) := by
  unfold pull at hx
  obtain ⟨o, ho, rfl⟩ := List.mem_map.1 hx
  cases o with
  | none => exact Or.inr ⟨rfl, ho⟩
  | some i =>
    left
    have := h i ho
    simp only
    rw [List.getD_eq_getElem _ _ this]
    exact List.getElem_mem _

variable [IsStrictOrderedRing K]

/-- re-indexed fractions are still a partition of unity, column by column -/
theorem pullSub_sum {l : List (Option Nat)} {sub : List (List K)} {n : Nat} (hs : sub ≠ [])
    (hlen : ∀ r ∈ sub, r.length = n) (h : InRange n l)
    (hsum : ∀ j, j < n → (sub.map (·.getD j 0)).sum = 1) (j : Nat) (hj : j < l.length) :
    ((pullSub l sub).map (·.getD j 0)).sum = 1 := by
  cases sub with
  | nil => exact absurd rfl hs
  | cons r0 rs =>
    simp only [pullSub, List.map_cons, List.map_map, List.sum_cons]
    have e0 := pull_getD l r0 1 0 hj
    have er : (rs.map ((fun r => r.getD j 0) ∘ fun r => pull l r 0)).sum
        = (rs.map fun r => match l[j] with
          | none => 0
          | some i => r.getD i 0).sum := by
      congr 1
      apply List.map_congr_left
      intro r _
      simp only [Function.comp]
      exact pull_getD l r 0 0 hj
    rw [e0, er]
    cases hlj : l[j] with
    | none => simp
    | some i =>
      have hi : i < n := h i (hlj ▸ List.getElem_mem hj)
      have := hsum i hi
      simp only [List.map_cons, List.sum_cons] at this
      have hr0 : r0.length = n := hlen r0 (by simp)
      simp only
      rw [← this]
      congr 1
      simp [hr0, hi]

theorem pullSub_nonneg {l : List (Option Nat)} {sub : List (List K)} {n : Nat}
    (hlen : ∀ r ∈ sub, r.length = n) (h : InRange n l) (hnn : ∀ r ∈ sub, ∀ x ∈ r, 0 ≤ x) :
    ∀ r ∈ pullSub l sub, ∀ x ∈ r, (0 : K) ≤ x := by
  cases sub with
  | nil => simp [pullSub]
  | cons r0 rs =>
    intro r hr x hx
    simp only [pullSub, List.mem_cons, List.mem_map] at hr
    rcases hr with rfl | ⟨r', hr', rfl⟩
    · rcases mem_pull (by rw [hlen r0 (by simp)]; exact h) hx with hx | ⟨rfl, -⟩
      · exact hnn r0 (by simp) x hx
      · exact zero_le_one
    · rcases mem_pull (by rw [hlen r' (by simp [hr'])]; exact h) hx with hx | ⟨rfl, -⟩
      · exact hnn r' (by simp [hr']) x hx
      · exact le_refl _

end sub

/-- `toInts` of kept indices as an encoded mapping -/
theorem toInts_eq (idx : List Nat) : toInts idx = (idx.map some).map enc := by
  unfold toInts
  rw [List.map_map]
  rfl

theorem arange_eq (n : Nat) : arange n = ((List.range n).map some).map enc := toInts_eq _

theorem inRange_some {n : Nat} {idx : List Nat} (h : ∀ i ∈ idx, i < n) : InRange n (idx.map some) := by
  intro i hi
  obtain ⟨j, hj, e⟩ := List.mem_map.1 hi
  simp only [Option.some.injEq] at e
  exact e ▸ h j hj

theorem none_not_mem_some {idx : List Nat} : none ∉ idx.map some := by simp

theorem pull_range {α : Type} (v : List α) (d : α) :
    pull ((List.range v.length).map some) v d = v := by
  unfold pull
  rw [List.map_map]
  apply List.ext_getElem
  · simp
  · intro i h1 h2
    simp [h2]

end Verif.TE
