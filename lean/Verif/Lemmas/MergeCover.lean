import Verif.Lemmas.Sums

/- Every bin ends up in a merged bin of the same `log10`; densities do not vanish by merging. -/

namespace Verif.TE

open Verif.Np

set_option linter.unusedSectionVars false

variable {K : Type} [Field K] [LinearOrder K] [IsStrictOrderedRing K]

theorem mean_pos {l : List K} (h : ∀ x ∈ l, 0 ≤ x) {y : K} (hy : y ∈ l) (hp : 0 < y) : 0 < mean l := by
  unfold mean
  have hl : 0 < l.length := List.length_pos_of_mem hy
  refine div_pos (lt_of_lt_of_le hp (List.single_le_sum h y hy)) (by exact_mod_cast hl)

theorem pos_of_mean {l : List K} (hp : 0 < mean l) : ∃ y ∈ l, 0 < y := by
  by_contra hn
  push Not at hn
  have : l.sum ≤ 0 := by
    have := List.sum_nonneg (l := l.map (fun x => -x)) (by
      intro x hx
      obtain ⟨y, hy, rfl⟩ := List.mem_map.1 hx
      have := hn y hy
      linarith)
    have e : (l.map fun x => -x).sum = - l.sum := by
      clear hn hp this
      induction l with
      | nil => simp
      | cons a l ih => simp [ih]; ring
    linarith
  unfold mean at hp
  have : l.sum / (l.length : K) ≤ 0 := div_nonpos_of_nonpos_of_nonneg this (Nat.cast_nonneg _)
  linarith

theorem sortAndMergeDuplicates_cover {num : Numerics K} (hl : num.Lawful) (b : Bins K)
    (dens : List K) (hub : b.ub.length = b.lb.length)
    (hd : dens.length = b.lb.length) (hpos : ∀ v ∈ b.lb, 0 < v) (hnn : ∀ v ∈ dens, 0 ≤ v)
    {b' : Bins K} {d' : List K} {m : List Int}
    (e : sortAndMergeDuplicates num b dens none = .ok (b', d', m)) :
    (∀ i, i < b.lb.length → ∃ p, p < b'.lb.length ∧
      num.log10 (b'.lb.getD p 0) = num.log10 (b.lb.getD i 0) ∧
      (0 < dens.getD i 0 → 0 < d'.getD p 0)) ∧
    (∀ p, p < b'.lb.length → ∃ i, i < b.lb.length ∧
      num.log10 (b'.lb.getD p 0) = num.log10 (b.lb.getD i 0) ∧
      (0 < d'.getD p 0 → 0 < dens.getD i 0)) := by
  set s := num.argsort b.lb with hsdef
  have hslen : s.length = b.lb.length := argsort_length hl b.lb
  have hsmem : ∀ i ∈ s, i < b.lb.length := by
    intro i hi
    simpa using (hl.argsort_perm b.lb).mem_iff.1 hi
  have hsfind : ∀ i, i < b.lb.length → ∃ q, ∃ h : q < s.length, s[q] = i := by
    intro i hi
    have : i ∈ s := (hl.argsort_perm b.lb).mem_iff.2 (by simpa using hi)
    exact List.mem_iff_getElem.1 this
  set xs := s.map (b.lb.getD · 0) with hxs
  set us := s.map (b.ub.getD · 0) with hus
  set ds := s.map (dens.getD · 0) with hds
  have hsorted : xs.Pairwise (· ≤ ·) := hl.argsort_sorted b.lb
  have hxlen : xs.length = s.length := by simp [hxs]
  have hdlen : ds.length = s.length := by simp [hds]
  have hxq : ∀ q (h : q < s.length), xs.getD q 0 = b.lb.getD s[q] 0 := fun q h => by
    rw [hxs, getD_map_lt h]
  have hdq : ∀ q (h : q < s.length), ds.getD q 0 = dens.getD s[q] 0 := fun q h => by
    rw [hds, getD_map_lt h]
  have hdnn : ∀ q, q < s.length → 0 ≤ ds.getD q 0 := by
    intro q h
    rw [hdq q h]
    exact hnn _ (getD_mem (by rw [hd]; exact hsmem _ (List.getElem_mem h)))
  have hxpos : ∀ v ∈ xs, 0 < v := by
    intro v hv
    obtain ⟨i, hi, rfl⟩ := List.mem_map.1 hv
    exact hpos _ (getD_mem (hsmem i hi))
  set dup := (nonzero (adjacent (fun a c => decide (a = c)) (xs.map num.log10))).map (· + 1)
    with hdup
  have hmemdup : ∀ i, i ∈ dup → 1 ≤ i ∧ i < xs.length ∧
      num.log10 (xs.getD (i - 1) 0) = num.log10 (xs.getD i 0) := by
    intro i
    rw [hdup, List.mem_map]
    rintro ⟨j, hj, rfl⟩
    obtain ⟨hlt, he⟩ := mem_nonzero.1 hj
    rw [adjacent_getElem] at he
    rw [adjacent_length, List.length_map] at hlt
    refine ⟨by omega, by omega, ?_⟩
    simp only [List.getElem_map, decide_eq_true_eq] at he
    rw [Nat.add_sub_cancel, List.getD_eq_getElem _ _ (by omega), List.getD_eq_getElem _ _ (by omega)]
    exact he
  have hdups : dup.Pairwise (· < ·) := by
    rw [hdup, List.pairwise_map]
    exact (nonzero_pairwise _).imp (fun h => by omega)
  unfold sortAndMergeDuplicates at e
  simp only [← hsdef] at e
  rw [argsort_gather hl b.lb b.lb rfl, argsort_gather hl b.lb b.ub hub,
    argsort_gather hl b.lb dens hd] at e
  simp only [← hsdef, ← hxs, ← hus, ← hds, bind, Except.bind, ← hdup] at e
  by_cases hd0 : dup = []
  · rw [if_neg (by simp [hd0])] at e
    simp only [pure, Except.pure, Except.ok.injEq, Prod.mk.injEq] at e
    obtain ⟨rfl, rfl, rfl⟩ := e
    refine ⟨?_, ?_⟩
    · intro i hi
      obtain ⟨q, hq, rfl⟩ := hsfind i hi
      refine ⟨q, by simpa [hxlen] using hq, ?_, ?_⟩
      · simp only [hxq q hq]
      · rw [hdq q hq]; exact id
    · intro p hp
      simp only [hxlen] at hp
      refine ⟨s[p], hsmem _ (List.getElem_mem hp), ?_, ?_⟩
      · simp only [hxq p hp]
      · rw [hdq p hp]; exact id
  · rw [if_pos hd0] at e
    split at e
    · simp at e
    simp only [pure, Except.pure, Except.ok.injEq, Prod.mk.injEq] at e
    obtain ⟨rfl, rfl, -⟩ := e
    obtain ⟨fx, fy, hm, hf⟩ := mergePoints_bounds hl xs ds dup none hdups
      (fun i hi => (hmemdup i hi).1) (fun i hi => (hmemdup i hi).2.1) (by rw [hdlen, hxlen])
      hsorted hxpos
    rw [hm]
    rw [hxlen] at hm hf ⊢
    simp only
    have hsame : ∀ i e, i ≤ e → e < xs.length → (∀ j, i < j → j ≤ e → j ∈ dup) →
        num.log10 (xs.getD e 0) = num.log10 (xs.getD i 0) := by
      intro i e hie
      induction e, hie using Nat.le_induction with
      | base => intros; rfl
      | succ e he ih =>
        intro h1 h2
        rw [← ih (by omega) (fun j hj hj' => h2 j hj (by omega))]
        have := (hmemdup (e + 1) (h2 (e + 1) (by omega) (le_refl _))).2.2
        simpa using this.symm
    -- the value of a merged bin
    have hval : ∀ i, i < s.length → i ∉ dup →
        num.log10 (fx i) = num.log10 (xs.getD i 0) ∧
        (∀ q, i ≤ q → q < s.length → (∀ j, i < j → j ≤ q → j ∈ dup) → 0 < ds.getD q 0 → 0 < fy i) ∧
        (0 < fy i → ∃ q, q < s.length ∧ num.log10 (xs.getD q 0) = num.log10 (xs.getD i 0) ∧
          0 < ds.getD q 0) := by
      intro i hi hid
      obtain ⟨ee, hie, he, hj, hne, h1, h2, h3, h4⟩ := hf i hi hid
      have hfp : 0 < fx i := lt_of_lt_of_le (hxpos _ (getD_mem (by omega))) h1
      refine ⟨?_, ?_, ?_⟩
      · apply le_antisymm
        · rw [← hsame i ee hie (by omega) hj]
          exact hl.log10_mono hfp h2
        · exact hl.log10_mono (hxpos _ (getD_mem (by omega))) h1
      · intro q hiq hq hjq hpq
        have hqe : q ≤ ee := by
          by_contra hn
          exact hne (hjq (ee + 1) (by omega) (by omega))
        by_cases hee : ee = i
        · obtain rfl : q = i := by omega
          rw [(h3 hee).2]; exact hpq
        · rw [(h4 hee).2]
          refine mean_pos ?_ (y := ds.getD q 0) ?_ hpq
          · intro v hv
            obtain ⟨j, hj', rfl⟩ := List.mem_map.1 hv
            have := mem_interval.1 hj'
            exact hdnn j (by omega)
          · exact List.mem_map.2 ⟨q, mem_interval.2 ⟨by omega, by omega⟩, rfl⟩
      · intro hpy
        by_cases hee : ee = i
        · rw [(h3 hee).2] at hpy
          exact ⟨i, hi, rfl, hpy⟩
        · rw [(h4 hee).2] at hpy
          obtain ⟨y, hy, hy0⟩ := pos_of_mean hpy
          obtain ⟨j, hj', rfl⟩ := List.mem_map.1 hy
          have := mem_interval.1 hj'
          exact ⟨j, by omega, hsame i j (by omega) (by omega) (fun k hk hk' => hj k hk (by omega)), hy0⟩
    refine ⟨?_, ?_⟩
    · intro i hi
      obtain ⟨q, hq, rfl⟩ := hsfind i hi
      -- the head of the run of q
      have h0 : 0 ∉ dup := fun h => by have := (hmemdup 0 h).1; omega
      obtain ⟨i, hiq, hid, hrun⟩ : ∃ i, i ≤ q ∧ i ∉ dup ∧ ∀ j, i < j → j ≤ q → j ∈ dup := by
        refine ⟨Nat.findGreatest (· ∉ dup) q, Nat.findGreatest_le q,
          Nat.findGreatest_spec (P := (· ∉ dup)) (Nat.zero_le q) h0, ?_⟩
        intro j h1 h2
        by_contra hn
        have := Nat.le_findGreatest (P := (· ∉ dup)) h2 hn
        omega
      have hi : i < s.length := by omega
      have hmem : i ∈ setdiffRange s.length dup := mem_setdiffRange.2 ⟨hi, hid⟩
      obtain ⟨p, hp, hpi⟩ := List.mem_iff_getElem.1 hmem
      obtain ⟨v1, v2, -⟩ := hval i hi hid
      refine ⟨p, by simpa using hp, ?_, ?_⟩
      · rw [getD_map_lt hp, hpi, v1, ← hxq q hq]
        exact (hsame i q hiq (by omega) hrun).symm
      · rw [getD_map_lt hp, hpi, ← hdq q hq]
        exact v2 q hiq hq hrun
    · intro p hp
      simp only [List.length_map] at hp
      have hmem : (setdiffRange s.length dup)[p] ∈ setdiffRange s.length dup := List.getElem_mem hp
      set i := (setdiffRange s.length dup)[p] with hidef
      have hi' := mem_setdiffRange.1 hmem
      obtain ⟨v1, -, v3⟩ := hval i hi'.1 hi'.2
      rw [getD_map_lt hp, getD_map_lt hp, ← hidef]
      by_cases hpy : 0 < fy i
      · obtain ⟨q, hq, hlog, hdp⟩ := v3 hpy
        refine ⟨s[q], hsmem _ (List.getElem_mem hq), ?_, ?_⟩
        · rw [v1, ← hlog, hxq q hq]
        · intro _; rw [← hdq q hq]; exact hdp
      · refine ⟨s[i], hsmem _ (List.getElem_mem hi'.1), ?_, fun h => absurd h hpy⟩
        rw [v1, hxq i hi'.1]

end Verif.TE
