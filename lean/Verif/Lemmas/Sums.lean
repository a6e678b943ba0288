import Verif.Lemmas.NoChange

/- Grouped rates as sums, boolean selection as index selection, integer index arrays. -/

namespace Verif.TE

open Verif.Np

set_option linter.unusedSectionVars false

variable {K : Type} [Field K] [LinearOrder K] [IsStrictOrderedRing K]

/-! ### sums of rates -/

/-- value of an entry, 0 when there is none -/
def nvAt (l : List (NV K)) (j : Nat) : K := (l.getD j none).getD 0

theorem finiteRow_iff {l : List (NV K)} {r : List K} : finiteRow l = .ok r ↔ l = r.map some := by
  unfold finiteRow
  rw [mapM_ok_iff]
  constructor
  · intro h
    induction h with
    | nil => rfl
    | @cons a b l1 l2 hab _ ih =>
      cases a with
      | none => simp at hab
      | some x =>
        simp only [Except.ok.injEq] at hab
        subst hab
        simp [ih]
  · rintro rfl
    induction r with
    | nil => simp
    | cons x r ih => simp only [List.map_cons]; exact List.Forall₂.cons rfl ih

theorem addNV_some {a b : NV K} {y : K} (h : addNV a b = some y) :
    ∃ u v, a = some u ∧ b = some v ∧ y = u + v := by
  cases a <;> cases b <;> simp [addNV] at h
  exact ⟨_, _, rfl, rfl, h.symm⟩

/-- a finite sum of rows is the sum of the finite values -/
theorem foldl_addRow_sum {n : Nat} (ls : List (List (NV K))) (hl : ∀ l ∈ ls, l.length = n)
    (a : List (NV K)) (ha : a.length = n) {r : List K} (h : ls.foldl addRow a = r.map some) :
    (∀ l ∈ ls, ∀ j, j < n → ∃ y, l.getD j none = some y) ∧
    ∀ j, j < n → r.getD j 0 = nvAt a j + (ls.map (nvAt · j)).sum := by
  induction ls generalizing a with
  | nil =>
    refine ⟨by simp, ?_⟩
    intro j hj
    simp only [List.foldl_nil] at h
    subst h
    rw [List.length_map] at ha
    simp [nvAt, ha, hj]
  | cons x ls ih =>
    simp only [List.foldl_cons] at h
    have hx := hl x (by simp)
    have hal : (addRow a x).length = n := by simp [addRow, ha, hx]
    obtain ⟨i1, i2⟩ := ih (fun l h' => hl l (by simp [h'])) _ hal h
    -- the intermediate row is finite
    have hfin : ∀ j, j < n → ∃ y, (addRow a x).getD j none = some y := by
      intro j hj
      have : ∀ (ls : List (List (NV K))) (b : List (NV K)), (∀ l ∈ ls, l.length = n) → b.length = n →
          (∃ y, (ls.foldl addRow b).getD j none = some y) → ∃ y, b.getD j none = some y := by
        intro ls
        induction ls with
        | nil => intro b _ _ h; exact h
        | cons c ls ih2 =>
          intro b h1 h2 h3
          obtain ⟨y, hy⟩ := ih2 (addRow b c) (fun l h' => h1 l (by simp [h']))
            (by simp [addRow, h2, h1 c (by simp)]) h3
          unfold addRow at hy
          rw [getD_zipWith _ none none none (by omega) (by rw [h1 c (by simp)]; exact hj)] at hy
          obtain ⟨u, v, hu, -, -⟩ := addNV_some hy
          exact ⟨u, hu⟩
      refine this ls _ (fun l h' => hl l (by simp [h'])) hal ?_
      have hrl : (ls.foldl addRow (addRow a x)).length = n :=
        foldl_addRow_length ls (fun l h' => hl l (by simp [h'])) _ hal
      rw [h] at hrl ⊢
      rw [List.length_map] at hrl
      exact ⟨r.getD j 0, by rw [getD_map' _ 0 none (by omega)]⟩
    have hsplit : ∀ j, j < n → ∃ u v, a.getD j none = some u ∧ x.getD j none = some v ∧
        (addRow a x).getD j none = some (u + v) := by
      intro j hj
      obtain ⟨y, hy⟩ := hfin j hj
      have hy' := hy
      unfold addRow at hy
      rw [getD_zipWith _ none none none (by omega) (by omega)] at hy
      obtain ⟨u, v, hu, hv, rfl⟩ := addNV_some hy
      exact ⟨u, v, hu, hv, hy'⟩
    refine ⟨?_, ?_⟩
    · intro l hl' j hj
      rcases List.mem_cons.1 hl' with rfl | hl'
      · obtain ⟨u, v, -, hv, -⟩ := hsplit j hj
        exact ⟨v, hv⟩
      · exact i1 l hl' j hj
    · intro j hj
      obtain ⟨u, v, hu, hv, hs⟩ := hsplit j hj
      rw [i2 j hj, List.map_cons, List.sum_cons]
      unfold nvAt
      rw [hu, hv, hs]
      simp [add_assoc]

theorem zerosNV_at {n j : Nat} : nvAt (zerosNV n : List (NV K)) j = 0 := by
  unfold nvAt zerosNV
  rcases Nat.lt_or_ge j n with h | h <;> simp [h]

/-- the rate of the function called `name` in bin `j`; 0 when there is no such function -/
def rateAt (r : Rates1 K) (j : Nat) (name : String) : K :=
  match r.lookup name with
  | some l => nvAt l j
  | none => 0

theorem filterMap_rate_sum (r : Rates1 K) (j : Nat) (row : List String) :
    ((row.filterMap (r.lookup ·)).map (nvAt · j)).sum = (row.map (rateAt r j)).sum := by
  induction row with
  | nil => rfl
  | cons x row ih =>
    cases h : r.lookup x with
    | none =>
      rw [List.filterMap_cons_none (f := fun x => List.lookup x r) h, List.map_cons, List.sum_cons, ih]
      simp [rateAt, h]
    | some l =>
      rw [List.filterMap_cons_some (f := fun x => List.lookup x r) h, List.map_cons, List.map_cons, List.sum_cons, List.sum_cons, ih]
      simp [rateAt, h]

theorem lookup_self {α : Type} {r : List (String × α)} (hnd : (r.map Prod.fst).Nodup) :
    ∀ p ∈ r, r.lookup p.1 = some p.2 := by
  induction r with
  | nil => simp
  | cons q r ih =>
    intro p hp
    simp only [List.map_cons, List.nodup_cons] at hnd
    rcases List.mem_cons.1 hp with rfl | hp'
    · simp [List.lookup]
    · have hne : p.1 ≠ q.1 := by
        intro h
        exact hnd.1 (h ▸ List.mem_map_of_mem hp')
      obtain ⟨qk, qv⟩ := q
      rw [List.lookup_cons]
      have : (p.1 == qk) = false := by simpa using hne
      rw [this]
      exact ih hnd.2 p hp'

theorem all_rate_sum {r : Rates1 K} (hnd : (r.map Prod.fst).Nodup) (j : Nat) :
    ((r.map (·.2)).map (nvAt · j)).sum = ((r.map Prod.fst).map (rateAt r j)).sum := by
  rw [List.map_map, List.map_map]
  congr 1
  apply List.map_congr_left
  intro p hp
  simp [rateAt, lookup_self hnd p hp]

/-- grouped rates, if they are finite -/
theorem sumRates1_some {r : Rates1 K} {n : Nat} (hlen : ∀ p ∈ r, p.2.length = n)
    {rows : List (List String)} {G : List (List K)}
    (h : (sumRates1 r n (some rows)).mapM finiteRow = .ok G) :
    G.length = rows.length ∧ ∀ k (h1 : k < rows.length) (h2 : k < G.length), ∀ j, j < n →
      G[k].getD j 0 = (rows[k].map (rateAt r j)).sum := by
  have hl := mapM_ok_length h
  unfold sumRates1 at hl h
  simp only [List.length_map] at hl
  refine ⟨hl, ?_⟩
  intro k h1 h2 j hj
  have := mapM_ok_getElem h k (by simpa using h1) h2
  rw [List.getElem_map] at this
  rw [finiteRow_iff] at this
  split at this
  · obtain ⟨-, a⟩ := foldl_addRow_sum _ (by
      intro l hl
      obtain ⟨x, -, hx⟩ := List.mem_filterMap.1 hl
      exact hlen _ (lookup_mem hx)) _ (by simp [zerosNV]) this
    rw [a j hj, zerosNV_at, zero_add, filterMap_rate_sum]
  · next hany =>
    have hz : G[k].getD j 0 = 0 := by
      have hlz := congrArg List.length this
      simp only [zerosNV, List.length_replicate, List.length_map] at hlz
      have e := congrArg (fun l : List (NV K) => l.getD j none) this
      rw [getD_map' _ 0 none (by omega)] at e
      simpa [zerosNV, hj] using e.symm
    rw [hz]
    symm
    apply List.sum_eq_zero
    intro y hy
    obtain ⟨x, hx, rfl⟩ := List.mem_map.1 hy
    have : ¬ (r.lookup x).isSome = true := fun h' => hany (List.any_eq_true.2 ⟨x, hx, h'⟩)
    unfold rateAt
    cases hxx : r.lookup x with
    | none => rfl
    | some l => simp [hxx] at this

/-- ungrouped rates, if they are finite -/
theorem sumRates1_none {r : Rates1 K} {n : Nat} (hlen : ∀ p ∈ r, p.2.length = n)
    (hnd : (r.map Prod.fst).Nodup) {G : List (List K)}
    (h : (sumRates1 r n none).mapM finiteRow = .ok G) :
    ∃ u, G = [u] ∧ ∀ j, j < n → u.getD j 0 = ((r.map Prod.fst).map (rateAt r j)).sum := by
  have hl := mapM_ok_length h
  unfold sumRates1 at hl h
  simp only [List.length_singleton] at hl
  obtain ⟨u, rfl⟩ := List.length_eq_one_iff.1 hl
  refine ⟨u, rfl, ?_⟩
  intro j hj
  have := mapM_ok_getElem h 0 (by simp) (by simp)
  simp only [List.getElem_cons_zero] at this
  rw [finiteRow_iff] at this
  obtain ⟨-, a⟩ := foldl_addRow_sum _ (by
      intro l hl
      obtain ⟨p, hp, rfl⟩ := List.mem_map.1 hl
      exact hlen p hp) _ (by simp [zerosNV]) this
  rw [a j hj, zerosNV_at, zero_add, all_rate_sum hnd]

/-! ### the `(2,N)` case is two `(N,)` cases -/

def lowerRow (r : Rates2 K) : Rates1 K := r.map fun p => (p.1, p.2.lb)
def upperRow (r : Rates2 K) : Rates1 K := r.map fun p => (p.1, p.2.ub)

theorem lookup_map {α β : Type} (f : α → β) (r : List (String × α)) (x : String) :
    (r.map fun p => (p.1, f p.2)).lookup x = (r.lookup x).map f := by
  induction r with
  | nil => rfl
  | cons p r ih =>
    obtain ⟨k, v⟩ := p
    simp only [List.map_cons, List.lookup_cons]
    cases x == k <;> simp [ih]

theorem foldl_addBins_lb (ls : List (Bins (NV K))) (a : Bins (NV K)) :
    (ls.foldl addBins a).lb = (ls.map (·.lb)).foldl addRow a.lb := by
  induction ls generalizing a with
  | nil => rfl
  | cons x ls ih => simp only [List.foldl_cons, List.map_cons]; rw [ih]; rfl

theorem foldl_addBins_ub (ls : List (Bins (NV K))) (a : Bins (NV K)) :
    (ls.foldl addBins a).ub = (ls.map (·.ub)).foldl addRow a.ub := by
  induction ls generalizing a with
  | nil => rfl
  | cons x ls ih => simp only [List.foldl_cons, List.map_cons]; rw [ih]; rfl

theorem filterMap_lookup_map {α β : Type} (f : α → β) (r : List (String × α)) (row : List String) :
    row.filterMap ((r.map fun p => (p.1, f p.2)).lookup ·) = (row.filterMap (r.lookup ·)).map f := by
  rw [List.map_filterMap]
  apply List.filterMap_congr
  intro x _
  rw [lookup_map]

theorem sumRates2_lb (r : Rates2 K) (n : Nat) (sg : Option (List (List String))) :
    (sumRates2 r n sg).map (·.lb) = sumRates1 (lowerRow r) n sg := by
  unfold sumRates2 sumRates1 lowerRow
  cases sg with
  | none =>
    simp only [List.map_cons, List.map_nil, foldl_addBins_lb, List.map_map]
    rfl
  | some rows =>
    simp only [List.map_map]
    apply List.map_congr_left
    intro row _
    simp only [Function.comp]
    have : (row.any fun x => ((r.map fun p => (p.1, p.2.lb)).lookup x).isSome)
        = row.any fun x => (r.lookup x).isSome := by
      congr 1; funext x; rw [lookup_map (fun b : Bins (NV K) => b.lb)]; simp
    rw [this]
    split
    · rw [foldl_addBins_lb, filterMap_lookup_map (fun b : Bins (NV K) => b.lb)]
    · rfl

theorem sumRates2_ub (r : Rates2 K) (n : Nat) (sg : Option (List (List String))) :
    (sumRates2 r n sg).map (·.ub) = sumRates1 (upperRow r) n sg := by
  unfold sumRates2 sumRates1 upperRow
  cases sg with
  | none =>
    simp only [List.map_cons, List.map_nil, foldl_addBins_ub, List.map_map]
    rfl
  | some rows =>
    simp only [List.map_map]
    apply List.map_congr_left
    intro row _
    simp only [Function.comp]
    have : (row.any fun x => ((r.map fun p => (p.1, p.2.ub)).lookup x).isSome)
        = row.any fun x => (r.lookup x).isSome := by
      congr 1; funext x; rw [lookup_map (fun b : Bins (NV K) => b.ub)]; simp
    rw [this]
    split
    · rw [foldl_addBins_ub, filterMap_lookup_map (fun b : Bins (NV K) => b.ub)]
    · rfl

theorem mapM_finiteBins {l : List (Bins (NV K))} {G : List (Bins K)} (h : l.mapM finiteBins = .ok G) :
    (l.map (·.lb)).mapM finiteRow = .ok (G.map (·.lb)) ∧
      (l.map (·.ub)).mapM finiteRow = .ok (G.map (·.ub)) := by
  rw [mapM_ok_iff] at h
  rw [mapM_ok_iff, mapM_ok_iff]
  induction h with
  | nil => simp
  | cons hab _ ih =>
    unfold finiteBins at hab
    obtain ⟨x, hx, hab⟩ := bind_ok_iff.1 hab
    obtain ⟨y, hy, hab⟩ := bind_ok_iff.1 hab
    rw [pure_ok_iff] at hab
    subst hab
    exact ⟨List.Forall₂.cons hx ih.1, List.Forall₂.cons hy ih.2⟩

/-! ### partition into subgroups -/

theorem sum_flatten_map (rows : List (List String)) (f : String → K) :
    (rows.map fun row => (row.map f).sum).sum = (rows.flatten.map f).sum := by
  induction rows with
  | nil => simp
  | cons r rs ih => simp [ih]

theorem sum_filter_ne {l : List String} {f : String → K} {p : String → Bool}
    (h : ∀ x ∈ l, p x = false → f x = 0) : (l.map f).sum = ((l.filter p).map f).sum := by
  induction l with
  | nil => rfl
  | cons x l ih =>
    have := ih (fun y hy => h y (by simp [hy]))
    cases hp : p x with
    | true => simp [hp, this]
    | false => simp [hp, this, h x (by simp) hp]

/-- if every function name occurs in exactly one subgroup (and once in it), summing over all subgroups is
summing over all functions -/
theorem partition_sum {r : Rates1 K} (hnd : (r.map Prod.fst).Nodup) {rows : List (List String)}
    (hr : ∀ p ∈ r, rows.flatten.count p.1 = 1) (j : Nat) :
    (rows.map fun row => (row.map (rateAt r j)).sum).sum = ((r.map Prod.fst).map (rateAt r j)).sum := by
  rw [sum_flatten_map]
  rw [sum_filter_ne (p := fun x => decide (x ∈ r.map Prod.fst))]
  · apply List.Perm.sum_eq
    apply List.Perm.map
    rw [List.perm_iff_count]
    intro x
    by_cases hx : x ∈ r.map Prod.fst
    · rw [List.count_filter (by simpa using hx), List.count_eq_one_of_mem hnd hx]
      obtain ⟨p, hp, rfl⟩ := List.mem_map.1 hx
      exact hr p hp
    · rw [List.count_eq_zero_of_not_mem hx, List.count_eq_zero_of_not_mem]
      intro h
      exact hx (by simpa using (List.mem_filter.1 h).2)
  · intro x _ hx
    simp only [decide_eq_false_iff_not] at hx
    unfold rateAt
    cases h : r.lookup x with
    | none => rfl
    | some l => exact absurd (List.mem_map_of_mem (f := Prod.fst) (lookup_mem h)) hx

/-! ### boolean selection -/

theorem select_range {α : Type} (m : List Bool) (l : List α) (d : α) (h : m.length = l.length) :
    select m l = ((List.range l.length).filter fun i => m.getD i false).map (l.getD · d) := by
  induction m generalizing l with
  | nil =>
    have : l = [] := List.length_eq_zero_iff.1 (by simpa using h.symm)
    subst this; simp
  | cons b m ih =>
    cases l with
    | nil => simp at h
    | cons x l =>
      simp only [List.length_cons, Nat.add_right_cancel_iff] at h
      rw [List.length_cons, List.range_succ_eq_map]
      have e : ((List.map Nat.succ (List.range l.length)).filter fun i => (b :: m).getD i false)
          = ((List.range l.length).filter fun i => m.getD i false).map Nat.succ := by
        rw [List.filter_map]
        congr 1
      cases b with
      | true =>
        simp only [select]
        rw [List.filter_cons, if_pos (by simp), List.map_cons, e, ih l h, List.map_map]
        simp [Function.comp_def]
      | false =>
        simp only [select]
        rw [List.filter_cons, if_neg (by simp), e, ih l h, List.map_map]
        simp [Function.comp_def]

/-! ### integer index arrays -/

theorem exists_enc {n : Nat} {m : List Int} (h : ∀ i ∈ m, -1 ≤ i ∧ i < n) :
    ∃ l : List (Option Nat), m = l.map enc ∧ InRange n l := by
  induction m with
  | nil => exact ⟨[], rfl, by intro i hi; simp at hi⟩
  | cons a m ih =>
    obtain ⟨l, rfl, hl⟩ := ih (fun i hi => h i (by simp [hi]))
    obtain ⟨h1, h2⟩ := h a (by simp)
    by_cases ha : a = -1
    · refine ⟨none :: l, by simp [enc, ha], ?_⟩
      intro i hi
      exact hl i (by simpa using hi)
    · refine ⟨some a.toNat :: l, ?_, ?_⟩
      · simp only [List.map_cons, enc]
        congr 1
        omega
      · intro i hi
        rcases List.mem_cons.1 hi with e | hi
        · simp only [Option.some.injEq] at e
          omega
        · exact hl i hi

end Verif.TE
