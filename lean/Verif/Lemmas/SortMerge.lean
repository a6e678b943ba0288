import Mathlib.Algebra.Order.BigOperators.Group.List
import Verif.Lemmas.Merge

/- Helper lemmas about sorting and merging bins. -/

namespace Verif.TE

open Verif.Np

set_option linter.unusedSectionVars false

variable {K : Type} [Field K] [LinearOrder K] [IsStrictOrderedRing K]

theorem getD_mem {x : List K} {i : Nat} (h : i < x.length) : x.getD i 0 ∈ x := by
  rw [List.getD_eq_getElem _ _ h]; exact List.getElem_mem h

theorem slice_ne_nil (x : List K) (h k : Nat) : slice x h k ≠ [] := by
  simp [slice, interval, List.range_succ]

theorem getD_mono {x : List K} (hs : x.Pairwise (· ≤ ·)) {i j : Nat} (hij : i ≤ j)
    (hj : j < x.length) : x.getD i 0 ≤ x.getD j 0 := by
  rcases Nat.lt_or_ge i j with h | h
  · rw [List.getD_eq_getElem _ _ (by omega), List.getD_eq_getElem _ _ hj]
    exact List.pairwise_iff_getElem.1 hs i j (by omega) hj h
  · have : i = j := by omega
    rw [this]

theorem getD_strictMono {x : List K} (hs : x.Pairwise (· < ·)) {i j : Nat} (hij : i < j)
    (hj : j < x.length) : x.getD i 0 < x.getD j 0 := by
  rw [List.getD_eq_getElem _ _ (by omega), List.getD_eq_getElem _ _ hj]
  exact List.pairwise_iff_getElem.1 hs i j (by omega) hj hij

/-- Result of merging a (weakly) sorted positive array: every retained index `i` gets a value between
`x i` and the last member `x e` of its run. -/
theorem mergePoints_bounds {num : Numerics K} (hl : num.Lawful) (x y : List K) (dup : List Nat)
    (dist : Option (Dist K)) (hs : dup.Pairwise (· < ·)) (hp : ∀ i ∈ dup, 1 ≤ i)
    (hx : ∀ i ∈ dup, i < x.length) (hxy : y.length = x.length)
    (hxs : x.Pairwise (· ≤ ·)) (hpos : ∀ v ∈ x, 0 < v) :
    ∃ fx fy : Nat → K,
      mergePoints num x y (groupDuplicates dup) dist
        = ((setdiffRange x.length dup).map fx, (setdiffRange x.length dup).map fy) ∧
      (∀ i, i < x.length → i ∉ dup → ∃ e, i ≤ e ∧ e < x.length ∧
        (∀ j, i < j → j ≤ e → j ∈ dup) ∧ e + 1 ∉ dup ∧ x.getD i 0 ≤ fx i ∧ fx i ≤ x.getD e 0 ∧
        (e = i → fx i = x.getD i 0 ∧ fy i = y.getD i 0) ∧
        (e ≠ i → fx i = num.gmean (slice x i (e - i)) ∧ fy i = match dist with
          | none => mean (slice y i (e - i))
          | some d => d.eval (fx i))) := by
  obtain ⟨fx, fy, e1, e2, e3⟩ := mergePoints_spec num x y dup dist hs hp hx hxy
  refine ⟨fx, fy, e1, ?_⟩
  intro i hi hid
  by_cases h1 : i + 1 ∈ dup
  · obtain ⟨k, hk, hj, hk2, hfx, hfy⟩ := e3 i hid h1
    have hpi : 0 < x.getD i 0 := hpos _ (getD_mem hi)
    refine ⟨i + (k + 1), by omega, hk, hj, hk2, ?_, ?_, by omega, ?_⟩
    · rw [hfx]
      apply hl.gmean_ge (slice_ne_nil _ _ _) hpi
      intro v hv
      obtain ⟨j, hj', rfl⟩ := List.mem_map.1 hv
      have := mem_interval.1 hj'
      exact getD_mono hxs (by omega) (by omega)
    · rw [hfx]
      apply hl.gmean_le (slice_ne_nil _ _ _)
      intro v hv
      obtain ⟨j, hj', rfl⟩ := List.mem_map.1 hv
      have := mem_interval.1 hj'
      exact ⟨hpos _ (getD_mem (by omega)), getD_mono hxs (by omega) (by omega)⟩
    · intro _
      rw [show i + (k + 1) - i = k + 1 by omega]
      exact ⟨hfx, hfy⟩
  · obtain ⟨h2, h3⟩ := e2 i hid h1
    refine ⟨i, le_refl _, hi, by omega, h1, by rw [h2], by rw [h2], fun _ => ⟨h2, h3⟩, ?_⟩
    intro h; exact absurd rfl h

/-- mean of non-negative numbers -/
theorem mean_nonneg {l : List K} (h : ∀ x ∈ l, 0 ≤ x) : 0 ≤ mean l := by
  unfold mean
  exact div_nonneg (List.sum_nonneg h) (Nat.cast_nonneg _)

/-- the sorted array -/
theorem argsort_gather {num : Numerics K} (hl : num.Lawful) (x v : List K)
    (h : v.length = x.length) :
    gather v (toInts (num.argsort x)) = .ok ((num.argsort x).map (v.getD · 0)) := by
  have := @gather_nat K ⟨0⟩ (v := v) (m := num.argsort x) (by
    intro i hi
    have := (hl.argsort_perm x).mem_iff.1 hi
    rw [h]; simpa using this)
  exact this

theorem argsort_length {num : Numerics K} (hl : num.Lawful) (x : List K) :
    (num.argsort x).length = x.length := by
  rw [(hl.argsort_perm x).length_eq, List.length_range]

theorem getD_map_lt {α : Type} {l : List α} {f : α → K} {i : Nat} (h : i < l.length) :
    (l.map f).getD i 0 = f l[i] := by
  rw [List.getD_eq_getElem _ _ (by simpa using h)]; simp

/-- What sorting/merging returns, relative to the arrays it was given: `idx` lists the bins that
survive. -/
structure Merged (lb ub dens : List K) (dist : Option (Dist K)) (b' : Bins K) (d' : List K)
    (idx : List Nat) : Prop where
  len_lb : b'.lb.length = idx.length
  len_ub : b'.ub.length = idx.length
  len_d : d'.length = idx.length
  nodup : idx.Nodup
  range : ∀ i ∈ idx, i < lb.length
  sorted : b'.lb.Pairwise (· < ·)
  entry : ∀ p, p < idx.length →
    (b'.lb.getD p 0 = lb.getD (idx.getD p 0) 0 ∧ d'.getD p 0 = dens.getD (idx.getD p 0) 0 ∧
      (b'.ub.getD p 0 = ub.getD (idx.getD p 0) 0 ∨ b'.ub.getD p 0 = 0)) ∨
    (b'.ub.getD p 0 = 0 ∧ (∃ lo ∈ lb, ∃ hi ∈ lb, lo ≤ b'.lb.getD p 0 ∧ b'.lb.getD p 0 ≤ hi) ∧
      match dist with
      | none => ∃ l : List K, l ≠ [] ∧ (∀ v ∈ l, v ∈ dens) ∧ d'.getD p 0 = mean l
      | some D => d'.getD p 0 = D.eval (b'.lb.getD p 0))

theorem sortAndMergeDuplicates_spec {num : Numerics K} (hl : num.Lawful) (b : Bins K)
    (dens : List K) (dist : Option (Dist K)) (hub : b.ub.length = b.lb.length)
    (hd : dens.length = b.lb.length) (hpos : ∀ v ∈ b.lb, 0 < v)
    {b' : Bins K} {d' : List K} {m : List Int}
    (e : sortAndMergeDuplicates num b dens dist = .ok (b', d', m)) :
    ∃ idx : List Nat, m = toInts idx ∧ Merged b.lb b.ub dens dist b' d' idx ∧
      (b'.lb.map num.log10).Pairwise (· < ·) := by
  set s := num.argsort b.lb with hsdef
  have hslen : s.length = b.lb.length := argsort_length hl b.lb
  have hsmem : ∀ i ∈ s, i < b.lb.length := by
    intro i hi
    simpa using (hl.argsort_perm b.lb).mem_iff.1 hi
  have hsnd : s.Nodup := (hl.argsort_perm b.lb).nodup_iff.2 List.nodup_range
  set xs := s.map (b.lb.getD · 0) with hxs
  set us := s.map (b.ub.getD · 0) with hus
  set ds := s.map (dens.getD · 0) with hds
  have hsorted : xs.Pairwise (· ≤ ·) := hl.argsort_sorted b.lb
  have hxlen : xs.length = s.length := by simp [hxs]
  have hulen : us.length = s.length := by simp [hus]
  have hdlen : ds.length = s.length := by simp [hds]
  have hxpos : ∀ v ∈ xs, 0 < v := by
    intro v hv
    obtain ⟨i, hi, rfl⟩ := List.mem_map.1 hv
    exact hpos _ (getD_mem (hsmem i hi))
  set dup := (nonzero (adjacent (fun a c => decide (a = c)) (xs.map num.log10))).map (· + 1)
    with hdup
  have hmemdup : ∀ i, i ∈ dup ↔ 1 ≤ i ∧ i < xs.length ∧
      num.log10 (xs.getD (i - 1) 0) = num.log10 (xs.getD i 0) := by
    intro i
    rw [hdup, List.mem_map]
    constructor
    · rintro ⟨j, hj, rfl⟩
      obtain ⟨hlt, he⟩ := mem_nonzero.1 hj
      rw [adjacent_getElem] at he
      rw [adjacent_length, List.length_map] at hlt
      refine ⟨by omega, by omega, ?_⟩
      simp only [List.getElem_map, decide_eq_true_eq] at he
      rw [Nat.add_sub_cancel, List.getD_eq_getElem _ _ (by omega), List.getD_eq_getElem _ _ (by omega)]
      exact he
    · rintro ⟨h1, h2, h3⟩
      refine ⟨i - 1, ?_, by omega⟩
      rw [mem_nonzero]
      have hlt : i - 1 < (adjacent (fun a c => decide (a = c)) (xs.map num.log10)).length := by
        rw [adjacent_length, List.length_map]; omega
      refine ⟨hlt, ?_⟩
      rw [adjacent_getElem]
      simp only [List.getElem_map, decide_eq_true_eq]
      rw [List.getD_eq_getElem _ _ (by omega), List.getD_eq_getElem _ _ (by omega)] at h3
      simp only [show i - 1 + 1 = i by omega]
      exact h3
  have hdups : dup.Pairwise (· < ·) := by
    rw [hdup, List.pairwise_map]
    exact (nonzero_pairwise _).imp (fun h => by omega)
  unfold sortAndMergeDuplicates at e
  simp only [← hsdef] at e
  rw [argsort_gather hl b.lb b.lb rfl, argsort_gather hl b.lb b.ub hub,
    argsort_gather hl b.lb dens hd] at e
  simp only [← hsdef, ← hxs, ← hus, ← hds, bind, Except.bind, ← hdup] at e
  have loglt : ∀ i j, i < j → j < xs.length → j ∉ dup →
      num.log10 (xs.getD i 0) < num.log10 (xs.getD j 0) := by
    intro i j hij hj hjd
    have h1 : num.log10 (xs.getD i 0) ≤ num.log10 (xs.getD (j - 1) 0) :=
      hl.log10_mono (hxpos _ (getD_mem (by omega))) (getD_mono hsorted (by omega) (by omega))
    have h2 : num.log10 (xs.getD (j - 1) 0) ≤ num.log10 (xs.getD j 0) :=
      hl.log10_mono (hxpos _ (getD_mem (by omega))) (getD_mono hsorted (by omega) (by omega))
    rcases lt_or_eq_of_le h2 with h | h
    · exact lt_of_le_of_lt h1 h
    · exact absurd ((hmemdup j).2 ⟨by omega, hj, h⟩) hjd
  have ltoflog : ∀ {u v : K}, 0 < v → num.log10 u < num.log10 v → u < v := by
    intro u v hv h
    by_contra hn
    push Not at hn
    exact absurd (hl.log10_mono hv hn) (not_le.2 h)
  by_cases hd0 : dup = []
  · -- no duplicates
    rw [if_neg (by simp [hd0])] at e
    simp only [pure, Except.pure, Except.ok.injEq, Prod.mk.injEq] at e
    obtain ⟨rfl, rfl, rfl⟩ := e
    have hlog : (xs.map num.log10).Pairwise (· < ·) := by
      rw [List.pairwise_iff_getElem]
      intro i j hi hj hij
      simp only [List.length_map] at hi hj
      have := loglt i j hij hj (by simp [hd0])
      rw [List.getD_eq_getElem _ _ hi, List.getD_eq_getElem _ _ hj] at this
      simpa using this
    refine ⟨s, rfl, ⟨hxlen, hulen, hdlen, hsnd, hsmem, ?_, ?_⟩, hlog⟩
    · rw [List.pairwise_map] at hlog
      exact hlog.imp_of_mem (fun _ hb h => ltoflog (hxpos _ hb) h)
    · intro p hp
      left
      simp only [hxs, hus, hds]
      rw [getD_map_lt hp, getD_map_lt hp, getD_map_lt hp, List.getD_eq_getElem _ _ hp]
      exact ⟨rfl, rfl, Or.inl rfl⟩
  · rw [if_pos hd0] at e
    have hkeep : ∀ i ∈ setdiffRange s.length dup, i < s.length := fun i hi => (mem_setdiffRange.1 hi).1
    have hg : gather (toInts s) (toInts (setdiffRange s.length dup))
        = .ok (toInts ((setdiffRange s.length dup).map (s.getD · 0))) := by
      have := gather_nat (v := toInts s) (m := setdiffRange s.length dup) (by
        intro i hi; simpa [toInts] using hkeep i hi)
      unfold toInts at this ⊢
      rw [this]
      congr 1
      rw [List.map_map]
      apply List.map_congr_left
      intro i hi
      have := hkeep i hi
      simp [this]
    have hlen' : (toInts s).length = s.length := by simp [toInts]
    rw [hlen', hg] at e
    simp only [pure, Except.pure, Except.ok.injEq, Prod.mk.injEq] at e
    obtain ⟨rfl, rfl, rfl⟩ := e
    obtain ⟨fx, fy, hm, hf⟩ := mergePoints_bounds hl xs ds dup dist hdups
      (fun i hi => ((hmemdup i).1 hi).1) (fun i hi => ((hmemdup i).1 hi).2.1) (by rw [hdlen, hxlen])
      hsorted hxpos
    rw [hm]
    rw [hxlen] at hm hf ⊢
    simp only
    have hfpos : ∀ i, i < s.length → i ∉ dup → 0 < fx i := by
      intro i hi hid
      obtain ⟨e, -, -, -, -, h1, -⟩ := hf i hi hid
      exact lt_of_lt_of_le (hxpos _ (getD_mem (by omega))) h1
    -- all members of a run have the same log10
    have hsame : ∀ i e, i ≤ e → e < xs.length → (∀ j, i < j → j ≤ e → j ∈ dup) →
        num.log10 (xs.getD e 0) = num.log10 (xs.getD i 0) := by
      intro i e hie
      induction e, hie using Nat.le_induction with
      | base => intros; rfl
      | succ e he ih =>
        intro h1 h2
        rw [← ih (by omega) (fun j hj hj' => h2 j hj (by omega))]
        have := ((hmemdup (e + 1)).1 (h2 (e + 1) (by omega) (le_refl _))).2.2
        simpa using this.symm
    have hflog : ∀ i, i < s.length → i ∉ dup → num.log10 (fx i) = num.log10 (xs.getD i 0) := by
      intro i hi hid
      obtain ⟨e, hie, he, hj, -, h1, h2, -⟩ := hf i hi hid
      apply le_antisymm
      · rw [← hsame i e hie (by omega) hj]
        exact hl.log10_mono (hfpos i hi hid) h2
      · exact hl.log10_mono (hxpos _ (getD_mem (by omega))) h1
    have hlog : (((setdiffRange s.length dup).map fx).map num.log10).Pairwise (· < ·) := by
      rw [List.map_map, List.pairwise_map]
      refine (setdiffRange_pairwise _ _).imp_of_mem ?_
      intro i j hi hj hij
      have hi' := mem_setdiffRange.1 hi
      have hj' := mem_setdiffRange.1 hj
      simp only [Function.comp]
      rw [hflog i hi'.1 hi'.2, hflog j hj'.1 hj'.2]
      exact loglt i j hij (by omega) hj'.2
    refine ⟨(setdiffRange s.length dup).map (s.getD · 0), rfl,
      ⟨by simp, by simp, by simp, ?_, ?_, ?_, ?_⟩, hlog⟩
    · refine List.Nodup.map_on ?_ ((setdiffRange_pairwise _ _).imp (fun h => Nat.ne_of_lt h))
      intro i hi j hj hij
      have hi' := hkeep i hi
      have hj' := hkeep j hj
      rw [List.getD_eq_getElem _ _ hi', List.getD_eq_getElem _ _ hj'] at hij
      exact (List.Nodup.getElem_inj_iff hsnd).1 hij
    · intro i hi
      obtain ⟨j, hj, rfl⟩ := List.mem_map.1 hi
      rw [List.getD_eq_getElem _ _ (hkeep j hj)]
      exact hsmem _ (List.getElem_mem _)
    · rw [List.pairwise_map] at hlog
      refine hlog.imp_of_mem ?_
      intro a c _ hc h
      obtain ⟨j, hj, rfl⟩ := List.mem_map.1 hc
      have hj' := mem_setdiffRange.1 hj
      exact ltoflog (hfpos j hj'.1 hj'.2) h
    · intro p hp
      simp only [List.length_map] at hp
      set i := (setdiffRange s.length dup)[p] with hidef
      have himem : i ∈ setdiffRange s.length dup := List.getElem_mem hp
      have hi' := mem_setdiffRange.1 himem
      have e1 : ((setdiffRange s.length dup).map fx).getD p 0 = fx i := getD_map_lt hp
      have e2 : ((setdiffRange s.length dup).map fy).getD p 0 = fy i := getD_map_lt hp
      have e3 : (((setdiffRange s.length dup).map fx).map fun _ => (0 : K)).getD p 0 = 0 := by
        rw [getD_map_lt (by simpa using hp)]
      have e4 : ((setdiffRange s.length dup).map (s.getD · 0)).getD p 0 = s[i]'hi'.1 := by
        rw [List.getD_eq_getElem _ _ (by simpa using hp)]
        simp only [List.getElem_map, ← hidef]
        rw [List.getD_eq_getElem _ _ hi'.1]
      rw [e1, e2, e3, e4]
      obtain ⟨ee, hie, he, hj, -, h1, h2, h3, h4⟩ := hf i hi'.1 hi'.2
      by_cases hee : ee = i
      · left
        obtain ⟨h5, h6⟩ := h3 hee
        refine ⟨?_, ?_, Or.inr rfl⟩
        · rw [h5, hxs, getD_map_lt hi'.1]
        · rw [h6, hds, getD_map_lt hi'.1]
      · right
        obtain ⟨h5, h6⟩ := h4 hee
        refine ⟨rfl, ⟨xs.getD i 0, ?_, xs.getD ee 0, ?_, h1, h2⟩, ?_⟩
        · rw [hxs, getD_map_lt hi'.1]; exact getD_mem (hsmem _ (List.getElem_mem _))
        · rw [hxs, getD_map_lt he]; exact getD_mem (hsmem _ (List.getElem_mem _))
        · cases dist with
          | none =>
            refine ⟨slice ds i (ee - i), slice_ne_nil _ _ _, ?_, h6⟩
            intro v hv
            obtain ⟨j, hj', rfl⟩ := List.mem_map.1 hv
            have := mem_interval.1 hj'
            have hjs : j < s.length := by omega
            rw [hds, getD_map_lt hjs]
            exact getD_mem (by rw [hd]; exact hsmem _ (List.getElem_mem _))
          | some D => exact h6

/-- whether merging succeeds does not depend on the data: with matching lengths it never raises -/
theorem sortAndMergeDuplicates_ok {num : Numerics K} (hl : num.Lawful) (b : Bins K)
    (dens : List K) (dist : Option (Dist K)) (hub : b.ub.length = b.lb.length)
    (hd : dens.length = b.lb.length) :
    ∃ r, sortAndMergeDuplicates num b dens dist = .ok r := by
  unfold sortAndMergeDuplicates
  dsimp only
  rw [argsort_gather hl b.lb b.lb rfl, argsort_gather hl b.lb b.ub hub,
    argsort_gather hl b.lb dens hd]
  simp only [bind, Except.bind]
  split
  · set s := num.argsort b.lb
    set dup := (nonzero (adjacent (fun a c => decide (a = c))
      ((s.map (b.lb.getD · 0)).map num.log10))).map (· + 1)
    have := gather_nat (v := toInts s) (m := setdiffRange (toInts s).length dup) (by
        intro i hi; exact (mem_setdiffRange.1 hi).1)
    unfold toInts at this ⊢
    rw [this]
    exact ⟨_, rfl⟩
  · exact ⟨_, rfl⟩

end Verif.TE
