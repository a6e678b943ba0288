import Verif.Lemmas.MergeCover
import Verif.Props.TEBasics

/-
C15: index mappings compose.   C16: merging close bins is local.
C17: interpolation abscissae.  C18: grouped rates.   C22: remove_empty_densities.
-/

namespace Verif.TE

open Verif.Np

set_option linter.unusedSectionVars false

variable {K : Type} [Field K] [LinearOrder K] [IsStrictOrderedRing K]

/-! ## C15 -/

/-- an index array into an axis of length `n`, where -1 marks a new element -/
def ValidMapping (n : Nat) (m : List Int) : Prop := ∀ i ∈ m, -1 ≤ i ∧ i < n

/-- what re-indexing has to return, element by element -/
def Reindexed {α : Type} (m : List Int) (v : List α) (d : α) (r : List α) : Prop :=
  r.length = m.length ∧ ∀ j (h : j < m.length) (h' : j < r.length),
    r[j] = if m[j] = -1 then d else v.getD m[j].toNat d

theorem pull_reindexed {α : Type} (l : List (Option Nat)) (v : List α) (d : α) :
    Reindexed (l.map enc) v d (pull l v d) := by
  refine ⟨by simp, ?_⟩
  intro j h h'
  rw [pull_getElem]
  simp only [List.getElem_map]
  cases l[j]'(by simpa using h') <;> simp [enc]

/-- `remap` of a non-empty array by a valid mapping returns the re-indexed array, with the default value for
new elements -/
theorem C15_remap {α : Type} {v : List α} {m : List Int} (hv : v ≠ []) (hm : ValidMapping v.length m)
    (d : α) : ∃ r, remap m v (some d) = .ok r ∧ Reindexed m v d r := by
  obtain ⟨l, rfl, hl⟩ := exists_enc hm
  exact ⟨_, remap_enc v d l hl (Or.inl hv), pull_reindexed l v d⟩

/-- without a default value, `remap` raises exactly when the mapping creates a new element -/
theorem C15_remap_no_default {α : Type} {v : List α} {m : List Int} (hv : v ≠ [])
    (hm : ValidMapping v.length m) (d : α) :
    (-1 ∈ m → remap m v none = .error .noDefault) ∧
      (-1 ∉ m → ∃ r, remap m v none = .ok r ∧ Reindexed m v d r) := by
  obtain ⟨l, rfl, hl⟩ := exists_enc hm
  have hmem : (-1 ∈ l.map enc) ↔ none ∈ l := by
    rw [List.mem_map]
    constructor
    · rintro ⟨o, ho, e⟩; exact (enc_eq_neg_one.1 e) ▸ ho
    · intro h; exact ⟨none, h, rfl⟩
  rw [hmem]
  refine ⟨?_, ?_⟩
  · intro hn
    unfold remap
    rw [gather_enc v d l hl (Or.inl hv)]
    simp only [bind, Except.bind]
    rw [if_pos ((any_enc l).2 hn)]
    rfl
  · intro hn
    exact ⟨_, remap_enc_none v d l hl hn, pull_reindexed l v d⟩

/-- Combining two mappings and re-indexing once is the same as re-indexing twice: for arrays (with any default
value), and for the subgroup fractions (whose default is 1 in the first row and 0 in the others).  The
combined mapping is a valid mapping of the original axis, and an element that is new in the second
mapping stays new. -/
theorem C15_mappings_compose {n : Nat} {first second : List Int} (hn : n ≠ 0) (h1 : first ≠ [])
    (hf : ValidMapping n first) (hs : ValidMapping first.length second) :
    ∃ both, combineMapping first second = .ok both ∧ both.length = second.length ∧ ValidMapping n both ∧
      (∀ j (h : j < second.length) (h' : j < both.length), second[j] = -1 → both[j] = -1) ∧
      (∀ {α : Type} (v : List α) (d : α), v.length = n →
        remap both v (some d) = (remap first v (some d)) >>= fun w => remap second w (some d)) ∧
      (∀ sub : List (List K), sub ≠ [] → (∀ r ∈ sub, r.length = n) →
        remapSubgroups both sub = (remapSubgroups first sub) >>= fun w => remapSubgroups second w) := by
  obtain ⟨l1, rfl, hl1⟩ := exists_enc hf
  obtain ⟨l2, rfl, hl2⟩ := exists_enc hs
  rw [List.length_map] at hl2
  have hne : l1 ≠ [] := by rintro rfl; exact h1 rfl
  have hll : l1.length ≠ 0 := by simpa using hne
  have hcr : InRange n (comp l1 l2) := comp_inRange hl1
  refine ⟨_, combineMapping_enc l1 l2 hl2 (Or.inl hne), by simp [comp], ?_, ?_, ?_, ?_⟩
  · intro i hi
    obtain ⟨o, ho, rfl⟩ := List.mem_map.1 hi
    cases o with
    | none => simp only [enc]; omega
    | some k => have := hcr k ho; simp only [enc]; omega
  · intro j h h' e
    simp only [List.getElem_map] at e ⊢
    rw [enc_eq_neg_one] at e ⊢
    unfold comp
    rw [pull_getElem, e]
  · intro α v d hv
    have hv0 : v ≠ [] := by rintro rfl; simp at hv; omega
    rw [remap_enc v d _ (by rw [hv]; exact hcr) (Or.inl hv0),
      remap_enc v d _ (by rw [hv]; exact hl1) (Or.inl hv0)]
    simp only [bind, Except.bind]
    rw [remap_enc _ d _ (by simpa using hl2) (Or.inl (by
      intro h; exact hll (by have := congrArg List.length h; simpa using this))), pull_comp v d hl2]
  · intro sub hsub hrow
    rw [remapSubgroups_enc sub _ n hsub hrow hcr (Or.inl hn),
      remapSubgroups_enc sub _ n hsub hrow hl1 (Or.inl hn)]
    simp only [bind, Except.bind]
    rw [remapSubgroups_enc _ _ l1.length (pullSub_ne_nil hsub) pullSub_row_length hl2 (Or.inl hll)]
    congr 1
    cases sub with
    | nil => exact absurd rfl hsub
    | cons r0 rs =>
      simp only [pullSub, List.map_map]
      rw [pull_comp r0 1 hl2]
      congr 1
      apply List.map_congr_left
      intro r _
      exact pull_comp r 0 hl2

/-- the law fails for plain numpy indexing, which reads -1 as "last element"; here it is exercised with a new
element in each mapping -/
example : combineMapping [2, -1, 0] [1, -1, 0, 2] = .ok [-1, -1, 2, 0] ∧
    ValidMapping 3 [2, -1, 0] ∧ ValidMapping 3 [1, -1, 0, 2] :=
  ⟨by decide, by unfold ValidMapping; decide, by unfold ValidMapping; decide⟩

/-! ## C16 -/

/-- bin `j` is merged into its left neighbour: it is closer than the threshold to it, and neither of the two
end gaps is involved -/
def MergedAway (num : Numerics K) (thr : K) (g : List K) (j : Nat) : Prop :=
  2 ≤ j ∧ j + 2 ≤ g.length ∧ num.log10 (g.getD j 0) - num.log10 (g.getD (j - 1) 0) < thr

instance (num : Numerics K) (thr : K) (g : List K) (j : Nat) : Decidable (MergedAway num thr g j) := by
  unfold MergedAway; infer_instance

/-- `_remove_too_close_bins` never raises on two or more bins, and -/
theorem C16_total {num : Numerics K} (thr : K) {b : Bins K} {dens : List K} (dist : Dist K)
    (hub : b.ub.length = b.lb.length) (hd : dens.length = b.lb.length) :
    (2 ≤ b.lb.length → ∃ r, removeTooCloseBins num thr b dens dist = .ok r) ∧
      (b.lb.length < 2 → removeTooCloseBins num thr b dens dist = .error .indexError) := by
  unfold removeTooCloseBins clearEnds
  have hgl : ((adjacent (fun a c => c - a) (b.lb.map num.log10)).map
      fun g => decide (g < thr)).length = b.lb.length - 1 := by
    rw [List.length_map, adjacent_length, List.length_map]
  dsimp only
  refine ⟨?_, ?_⟩
  · intro hn
    rw [if_neg (by intro h; rw [h] at hgl; simp at hgl; omega)]
    simp only [bind, Except.bind]
    split
    · have hg := @gather_nat K ⟨0⟩ b.ub (setdiffRange dens.length ((nonzero
        ((((adjacent (fun a c => c - a) (b.lb.map num.log10)).map
          fun g => decide (g < thr)).set 0 false).set (((adjacent (fun a c => c - a) (b.lb.map num.log10)).map
          fun g => decide (g < thr)).length - 1) false)).map (· + 1))) (by
        intro i hi; rw [hub, ← hd]; exact (mem_setdiffRange.1 hi).1)
      unfold toInts
      rw [hg]
      exact ⟨_, rfl⟩
    · exact ⟨_, rfl⟩
  · intro hn
    rw [if_pos (List.eq_nil_of_length_eq_zero (by omega))]
    rfl

/-- The bins that survive merging are exactly those that are not `MergedAway`, in order, and the returned
mapping lists them.  A surviving bin `i` whose right neighbour survives too keeps its gamma, density and
upper edge; otherwise it stands for the maximal run `i, ..., e` of close bins, its gamma lies between those
of `i` and of `e`, and its density is the distribution's at that gamma.  The first and the last bin are
untouched. -/
theorem C16_merging_is_local {num : Numerics K} (hl : num.Lawful) {thr : K} {b : Bins K}
    {dens : List K} {dist : Dist K} (hub : b.ub.length = b.lb.length)
    (hd : dens.length = b.lb.length) (hpos : ∀ v ∈ b.lb, 0 < v) (hsort : b.lb.Pairwise (· < ·))
    {b' : Bins K} {d' : List K} {m : List Int}
    (e : removeTooCloseBins num thr b dens dist = .ok (b', d', m)) :
    ∃ kept : List Nat,
      kept = (List.range b.lb.length).filter (fun i => ¬ MergedAway num thr b.lb i) ∧
      m = kept.map Int.ofNat ∧
      b'.lb.length = kept.length ∧ b'.ub.length = kept.length ∧ d'.length = kept.length ∧
      (∀ p i, kept[p]? = some i →
        (¬ MergedAway num thr b.lb (i + 1) → b'.lb.getD p 0 = b.lb.getD i 0 ∧
          d'.getD p 0 = dens.getD i 0 ∧ b'.ub.getD p 0 = b.ub.getD i 0) ∧
        (MergedAway num thr b.lb (i + 1) → ∃ e, i < e ∧ e < b.lb.length ∧
          (∀ j, i < j → j ≤ e → MergedAway num thr b.lb j) ∧ ¬ MergedAway num thr b.lb (e + 1) ∧
          b.lb.getD i 0 ≤ b'.lb.getD p 0 ∧ b'.lb.getD p 0 ≤ b.lb.getD e 0 ∧
          d'.getD p 0 = dist.eval (b'.lb.getD p 0))) ∧
      b'.lb.getD 0 0 = b.lb.getD 0 0 ∧ d'.getD 0 0 = dens.getD 0 0 ∧
      b'.lb.getD (b'.lb.length - 1) 0 = b.lb.getD (b.lb.length - 1) 0 ∧
      d'.getD (d'.length - 1) 0 = dens.getD (dens.length - 1) 0 := by
  obtain ⟨close, fx, fy, hcs, hcm, hn2, hm, hlb, hdd, hubb, hf⟩ :=
    removeTooCloseBins_spec hl hub hd hpos hsort e
  have hcm' : ∀ j, j ∈ close ↔ MergedAway num thr b.lb j := hcm
  set kept := setdiffRange b.lb.length close with hk
  have hkept : kept = (List.range b.lb.length).filter (fun i => ¬ MergedAway num thr b.lb i) := by
    rw [hk]; unfold setdiffRange
    apply List.filter_congr
    intro i _
    simp [hcm']
  have main : ∀ p i, kept[p]? = some i →
        (¬ MergedAway num thr b.lb (i + 1) → b'.lb.getD p 0 = b.lb.getD i 0 ∧
          d'.getD p 0 = dens.getD i 0 ∧ b'.ub.getD p 0 = b.ub.getD i 0) ∧
        (MergedAway num thr b.lb (i + 1) → ∃ e, i < e ∧ e < b.lb.length ∧
          (∀ j, i < j → j ≤ e → MergedAway num thr b.lb j) ∧ ¬ MergedAway num thr b.lb (e + 1) ∧
          b.lb.getD i 0 ≤ b'.lb.getD p 0 ∧ b'.lb.getD p 0 ≤ b.lb.getD e 0 ∧
          d'.getD p 0 = dist.eval (b'.lb.getD p 0)) := by
    intro p i hpi
    obtain ⟨hp, hpi⟩ := List.getElem?_eq_some_iff.1 hpi
    have hi := mem_setdiffRange.1 (hpi ▸ List.getElem_mem hp : i ∈ setdiffRange b.lb.length close)
    rw [hlb, hdd, hubb, getD_map_lt hp, getD_map_lt hp, getD_map_lt hp, hpi]
    obtain ⟨ee, hie, he, hj, hne, h1, h2, h3, h4⟩ := hf i hi.1 hi.2
    refine ⟨?_, ?_⟩
    · intro hmm
      have hee : ee = i := by
        by_contra hn
        exact hmm ((hcm' _).1 (hj (i + 1) (by omega) (by omega)))
      rw [if_neg (by rw [hcm']; exact hmm)]
      exact ⟨(h3 hee).1, (h3 hee).2, rfl⟩
    · intro hmm
      have hee : ee ≠ i := by
        rintro rfl
        exact hne ((hcm' _).2 hmm)
      exact ⟨ee, by omega, he, fun j h h' => (hcm' j).1 (hj j h h'), fun h => hne ((hcm' _).2 h), h1, h2,
        (h4 hee).2⟩
  have hkp : kept.Pairwise (· < ·) := setdiffRange_pairwise b.lb.length close
  have hkl : 0 < kept.length := by
    apply List.length_pos_of_mem (a := 0)
    rw [hk, mem_setdiffRange]
    exact ⟨by omega, fun h => by have := (hcm 0).1 h; omega⟩
  refine ⟨kept, hkept, hm, by rw [hlb, List.length_map], by rw [hubb, List.length_map],
    by rw [hdd, List.length_map], main, ?_⟩
  have hfirst : kept[0]? = some 0 := by
    rw [List.getElem?_eq_getElem hkl]
    congr 1
    by_contra h0
    have h0mem : 0 ∈ kept := by
      rw [hk, mem_setdiffRange]
      exact ⟨by omega, fun h => by have := (hcm 0).1 h; omega⟩
    obtain ⟨q, hq, hq0⟩ := List.mem_iff_getElem.1 h0mem
    rcases Nat.eq_zero_or_pos q with h | h
    · subst h; exact h0 hq0
    · have := List.pairwise_iff_getElem.1 hkp 0 q hkl hq h
      omega
  have hlast : kept[kept.length - 1]? = some (b.lb.length - 1) := by
    rw [List.getElem?_eq_getElem (by omega)]
    congr 1
    have hmem : b.lb.length - 1 ∈ kept := by
      rw [hk, mem_setdiffRange]
      exact ⟨by omega, fun h => by have := (hcm _).1 h; omega⟩
    obtain ⟨q, hq, hq0⟩ := List.mem_iff_getElem.1 hmem
    rcases Nat.lt_or_ge q (kept.length - 1) with h | h
    · have h5 := List.pairwise_iff_getElem.1 hkp q (kept.length - 1) hq (by omega) h
      have h6 : ∀ i ∈ kept, i < b.lb.length := fun i hi => (mem_setdiffRange.1 hi).1
      have h7 := h6 _ (List.getElem_mem (show kept.length - 1 < kept.length by omega))
      omega
    · have : q = kept.length - 1 := by omega
      subst this
      exact hq0
  obtain ⟨f1, f2, -⟩ := (main 0 0 hfirst).1 (fun h => by unfold MergedAway at h; omega)
  obtain ⟨g1, g2, -⟩ := (main _ _ hlast).1 (fun h => by unfold MergedAway at h; omega)
  refine ⟨f1, f2, ?_, ?_⟩
  · rw [hlb, List.length_map, ← hlb]; exact g1
  · rw [hd]; rw [hdd, List.length_map, ← hdd]; exact g2

/-- six bins of which the third and fourth are close to their left neighbours: they are merged into the second
(`toyNumerics`: identity for `log10`, arithmetic mean) -/
example : (removeTooCloseBins toyNumerics 2 ⟨[1, 11, 12, 13, 20, 21], [2, 14, 15, 16, 22, 23]⟩
      [1, 2, 3, 4, 5, 6] ⟨fun x => x, .scalar 0, .scalar 0⟩ : Except Err (Bins ℚ × List ℚ × List Int))
    = .ok (⟨[1, 12, 20, 21], [2, 0, 22, 23]⟩, [1, 12, 5, 6], [0, 1, 4, 5]) := by
  decide +kernel

/-! ## C17 -/

/-- If `update_distribution` returns, the installed distribution is zero everywhere, or it interpolates two
or more points with strictly increasing `log10` abscissae, positive ordinates, and abscissae within the
range of the given array — even if the given array is unsorted or has repeated `log10`. -/
theorem C17_abscissae {num : Numerics K} (hl : num.Lawful) {b : Bins K} {dens : List K}
    (hub : b.ub.length = b.lb.length) (hd : dens.length = b.lb.length) (hpos : ∀ v ∈ b.lb, 0 < v)
    (hnn : ∀ v ∈ dens, 0 ≤ v) {d : Dist K} (h : updateDistribution num b dens = .ok d) :
    (∀ x, d.eval x = 0) ∨
    ∃ (g v : List K) (f : K → K) (lo hi : K), 2 ≤ g.length ∧ v.length = g.length ∧
      (g.map num.log10).Pairwise (· < ·) ∧ (∀ y ∈ v, 0 < y) ∧
      (∀ x ∈ g, lo ≤ x ∧ x ≤ hi) ∧ lo ∈ g ∧ hi ∈ g ∧
      (∀ x ∈ g, (∃ y ∈ b.lb, y ≤ x) ∧ ∃ y ∈ b.lb, x ≤ y) ∧
      num.interp g v = some f ∧ d.eval = fun x => if lo ≤ x ∧ x ≤ hi then f x else 0 := by
  unfold updateDistribution at h
  obtain ⟨⟨b1, d1, m⟩, h1, h⟩ := bind_ok_iff.1 h
  obtain ⟨idx, -, hM, hlog⟩ := sortAndMergeDuplicates_spec hl b dens none hub hd hpos h1
  dsimp only at h
  split at h
  · rw [pure_ok_iff] at h
    subst h
    left; intro x; rfl
  split at h
  · exact absurd h (by simp [throw, throwThe, MonadExceptOf.throw])
  right
  have hd1nn : ∀ y ∈ d1, 0 ≤ y := by
    intro y hy
    obtain ⟨p, hp, rfl⟩ := List.mem_iff_getElem.1 hy
    have hp' : p < idx.length := by rw [← hM.len_d]; exact hp
    rw [← List.getD_eq_getElem _ 0 hp]
    rcases hM.entry p hp' with ⟨-, e, -⟩ | ⟨-, -, l, hl0, hl1, e⟩
    · rw [e]
      rcases Nat.lt_or_ge (idx.getD p 0) dens.length with h | h
      · exact hnn _ (getD_mem h)
      · rw [List.getD_eq_default _ _ h]
    · rw [e]; exact mean_nonneg fun x hx => hnn x (hl1 x hx)
  unfold mkDist at h
  dsimp only at h
  set valid := d1.map fun v => decide (v ≠ 0) with hvalid
  split at h
  · next f gmin gmax hf hmin hmax =>
    simp only [Except.ok.injEq] at h
    subst h
    have hlen : valid.length = b1.lb.length := by
      rw [hvalid, List.length_map, hM.len_d, hM.len_lb]
    have hsub : ∀ x ∈ select valid b1.lb, x ∈ b1.lb := fun x hx => select_mem hx
    have h2 : 2 ≤ (select valid b1.lb).length ∧ ((select valid b1.lb).map num.log10).Pairwise (· < ·) := by
      by_contra hn
      rw [hl.interp_none hn] at hf
      simp at hf
    refine ⟨select valid b1.lb, select valid d1, f, gmin, gmax, h2.1, ?_, h2.2, ?_, ?_, ?_, ?_, ?_, hf, rfl⟩
    · rw [select_length (by rw [hvalid, List.length_map]), select_length hlen]
    · intro y hy
      rw [hvalid, select_filter] at hy
      obtain ⟨hy1, hy2⟩ := List.mem_filter.1 hy
      have := hd1nn y hy1
      simp only [decide_eq_true_eq] at hy2
      exact lt_of_le_of_ne this (Ne.symm hy2)
    · intro x hx
      exact ⟨(List.le_min?_iff hmin).1 (le_refl _) x hx, (List.max?_le_iff hmax).1 (le_refl _) x hx⟩
    · exact List.min?_mem hmin
    · exact List.max?_mem hmax
    · intro x hx
      obtain ⟨p, hp, rfl⟩ := List.mem_iff_getElem.1 (hsub x hx)
      have hp' : p < idx.length := by rw [← hM.len_lb]; exact hp
      rw [← List.getD_eq_getElem _ 0 hp]
      rcases hM.entry p hp' with ⟨e, -, -⟩ | ⟨-, ⟨lo, hlo, hi, hhi, e1, e2⟩, -⟩
      · have : idx.getD p 0 < b.lb.length := by
          rw [List.getD_eq_getElem _ _ hp']; exact hM.range _ (List.getElem_mem _)
        exact ⟨⟨_, getD_mem this, le_of_eq e.symm⟩, ⟨_, getD_mem this, le_of_eq e⟩⟩
      · exact ⟨⟨lo, hlo, e1⟩, ⟨hi, hhi, e2⟩⟩
  · exact absurd h (by simp)

/-- The complete decision table of `update_distribution`.  All densities zero: an empty distribution.
Otherwise, all bins at one `log10(gamma)`: the dedicated exception.  Otherwise, all bins of positive density at
one `log10(gamma)`: not the dedicated exception but a ValueError of the interpolator.  Otherwise it returns. -/
theorem C17_decision {num : Numerics K} (hl : num.Lawful) {b : Bins K} {dens : List K}
    (hub : b.ub.length = b.lb.length) (hd : dens.length = b.lb.length) (hpos : ∀ v ∈ b.lb, 0 < v)
    (hnn : ∀ v ∈ dens, 0 ≤ v) :
    let n := b.lb.length
    let L := fun i => num.log10 (b.lb.getD i 0)
    let occupied := fun i => i < n ∧ 0 < dens.getD i 0
    ((∀ i, ¬ occupied i) → ∃ d, updateDistribution num b dens = .ok d ∧ ∀ x, d.eval x = 0) ∧
    ((∃ i, occupied i) → (∀ i j, i < n → j < n → L i = L j) →
      updateDistribution num b dens = .error .collapse) ∧
    ((∃ i, occupied i) → (∃ i j, i < n ∧ j < n ∧ L i ≠ L j) →
      (∀ i j, occupied i → occupied j → L i = L j) → updateDistribution num b dens = .error .interpError) ∧
    ((∃ i j, occupied i ∧ occupied j ∧ L i ≠ L j) → ∃ d, updateDistribution num b dens = .ok d) := by
  intro n L occupied
  obtain ⟨⟨b1, d1, m⟩, h1⟩ := sortAndMergeDuplicates_ok hl b dens none hub hd
  obtain ⟨idx, -, hM, hlog⟩ := sortAndMergeDuplicates_spec hl b dens none hub hd hpos h1
  obtain ⟨c1, c2⟩ := sortAndMergeDuplicates_cover hl b dens hub hd hpos hnn h1
  have hd1l : d1.length = b1.lb.length := by rw [hM.len_d, hM.len_lb]
  have hd1nn : ∀ y ∈ d1, 0 ≤ y := by
    intro y hy
    obtain ⟨p, hp, rfl⟩ := List.mem_iff_getElem.1 hy
    have hp' : p < idx.length := by rw [← hM.len_d]; exact hp
    rw [← List.getD_eq_getElem _ 0 hp]
    rcases hM.entry p hp' with ⟨-, e, -⟩ | ⟨-, -, l, hl0, hl1, e⟩
    · rw [e]
      rcases Nat.lt_or_ge (idx.getD p 0) dens.length with h | h
      · exact hnn _ (getD_mem h)
      · rw [List.getD_eq_default _ _ h]
    · rw [e]; exact mean_nonneg fun x hx => hnn x (hl1 x hx)
  have hallz : (d1.all (· == 0) = true) ↔ ∀ i, ¬ occupied i := by
    rw [List.all_eq_true]
    constructor
    · rintro h i ⟨hi, hp⟩
      obtain ⟨p, hpl, -, hp2⟩ := c1 i hi
      have := h _ (getD_mem (x := d1) (i := p) (by omega))
      simp only [beq_iff_eq] at this
      have := hp2 hp
      linarith
    · intro h y hy
      obtain ⟨p, hp, rfl⟩ := List.mem_iff_getElem.1 hy
      obtain ⟨i, hi, -, hp2⟩ := c2 p (by omega)
      rw [← List.getD_eq_getElem _ 0 hp]
      by_contra hne
      simp only [beq_iff_eq] at hne
      have h0 := hd1nn _ (getD_mem (x := d1) hp)
      exact h i ⟨hi, hp2 (lt_of_le_of_ne h0 (Ne.symm hne))⟩
  have hlogd : ∀ p q, p < q → q < b1.lb.length →
      num.log10 (b1.lb.getD p 0) < num.log10 (b1.lb.getD q 0) := by
    intro p q hpq hq
    have := List.pairwise_iff_getElem.1 hlog p q (by simp; omega) (by simpa using hq) hpq
    simp only [List.getElem_map] at this
    rw [List.getD_eq_getElem _ _ (by omega), List.getD_eq_getElem _ _ hq]
    exact this
  have hone : (∃ i, occupied i) → (b1.lb.length = 1 ↔ ∀ i j, i < n → j < n → L i = L j) := by
    rintro ⟨i0, hi0, -⟩
    constructor
    · intro h i j hi hj
      obtain ⟨p, hp, e1, -⟩ := c1 i hi
      obtain ⟨q, hq, e2, -⟩ := c1 j hj
      obtain rfl : p = 0 := by omega
      obtain rfl : q = 0 := by omega
      exact e1.symm.trans e2
    · intro h
      obtain ⟨p, hp, -⟩ := c1 i0 hi0
      by_contra hne
      obtain ⟨i, hi, e1, -⟩ := c2 0 (by omega)
      obtain ⟨j, hj, e2, -⟩ := c2 1 (by omega)
      have := hlogd 0 1 (by omega) (by omega)
      rw [e1, e2] at this
      exact absurd (h i j hi hj) (ne_of_lt this)
  -- the interpolator's nodes
  set valid := d1.map fun v => decide (v ≠ 0) with hvalid
  have hvl : valid.length = b1.lb.length := by rw [hvalid, List.length_map, hd1l]
  set g := select valid b1.lb with hg
  set v := select valid d1 with hv
  have hsel : ∀ p, p < b1.lb.length → (0 < d1.getD p 0 ↔ valid.getD p false = true) := by
    intro p hp
    rw [hvalid, getD_map' _ 0 false (by omega)]
    simp only [ne_eq, decide_eq_true_eq]
    have := hd1nn _ (getD_mem (x := d1) (i := p) (by omega))
    exact ⟨fun h => ne_of_gt h, fun h => lt_of_le_of_ne this (Ne.symm h)⟩
  have hgr : g = ((List.range b1.lb.length).filter fun i => valid.getD i false).map (b1.lb.getD · 0) :=
    select_range valid b1.lb 0 hvl
  have hglog : (g.map num.log10).Pairwise (· < ·) :=
    hlog.sublist (List.Sublist.map _ select_sublist)
  have hvpos : ∀ y ∈ v, 0 < y := by
    intro y hy
    rw [hv, hvalid, select_filter] at hy
    obtain ⟨hy1, hy2⟩ := List.mem_filter.1 hy
    simp only [decide_eq_true_eq] at hy2
    exact lt_of_le_of_ne (hd1nn y hy1) (Ne.symm hy2)
  have hvg : v.length = g.length := by
    rw [hv, hg, select_length (by rw [hvalid, List.length_map]), select_length hvl]
  have hgmem : ∀ p, p < b1.lb.length → 0 < d1.getD p 0 → b1.lb.getD p 0 ∈ g := by
    intro p hp h
    rw [hgr]
    exact List.mem_map.2 ⟨p, List.mem_filter.2 ⟨List.mem_range.2 hp, (hsel p hp).1 h⟩, rfl⟩
  have hmem1 : ∀ x ∈ g, ∃ i, occupied i ∧ num.log10 x = L i := by
    intro x hx
    rw [hgr] at hx
    obtain ⟨p, hp, rfl⟩ := List.mem_map.1 hx
    obtain ⟨hp1, hp2⟩ := List.mem_filter.1 hp
    have hp1 := List.mem_range.1 hp1
    obtain ⟨i, hi, e1, e2⟩ := c2 p hp1
    exact ⟨i, ⟨hi, e2 ((hsel p hp1).2 hp2)⟩, e1⟩
  have hmem2 : ∀ i, occupied i → ∃ x ∈ g, num.log10 x = L i := by
    rintro i ⟨hi, hp⟩
    obtain ⟨p, hpl, e1, e2⟩ := c1 i hi
    exact ⟨_, hgmem p hpl (e2 hp), e1⟩
  unfold updateDistribution
  rw [h1]
  simp only [bind, Except.bind]
  refine ⟨?_, ?_, ?_, ?_⟩
  · intro h
    rw [if_pos (hallz.2 h)]
    exact ⟨_, rfl, fun _ => rfl⟩
  · intro hex h
    rw [if_neg (by rw [hallz]; push Not; exact hex), if_pos ((hone hex).2 h)]
    rfl
  · rintro hex ⟨i, j, hi, hj, hne⟩ h
    rw [if_neg (by rw [hallz]; push Not; exact hex),
      if_neg (by rw [hone hex]; intro hall; exact hne (hall i j hi hj))]
    unfold mkDist
    dsimp only
    rw [hl.interp_none]
    rintro ⟨h2, hp⟩
    rw [← hvalid, ← hg] at h2 hp
    have hlt := List.pairwise_iff_getElem.1 hp 0 1 (by simp; omega) (by simp; omega) (by omega)
    simp only [List.getElem_map] at hlt
    obtain ⟨i, oi, ei⟩ := hmem1 g[0] (List.getElem_mem _)
    obtain ⟨j, oj, ej⟩ := hmem1 g[1] (List.getElem_mem _)
    rw [ei, ej, h i j oi oj] at hlt
    exact lt_irrefl _ hlt
  · rintro ⟨i, j, oi, oj, hne⟩
    rw [if_neg (by rw [hallz]; push Not; exact ⟨i, oi⟩),
      if_neg (by rw [hone ⟨i, oi⟩]; intro hall; exact hne (hall i j oi.1 oj.1))]
    unfold mkDist
    dsimp only
    rw [← hvalid, ← hg, ← hv]
    have h2 : 2 ≤ g.length := by
      obtain ⟨x, hx, ex⟩ := hmem2 i oi
      obtain ⟨y, hy, ey⟩ := hmem2 j oj
      by_contra hlt
      have hx0 : g.length = 1 := by have := List.length_pos_of_mem hx; omega
      obtain ⟨z, hz⟩ := List.length_eq_one_iff.1 hx0
      rw [hz, List.mem_singleton] at hx hy
      rw [hx] at ex; rw [hy] at ey
      exact hne (ex.symm.trans ey)
    obtain ⟨f, hf⟩ := Option.isSome_iff_exists.1 (hl.interp_some h2 hvg hglog hvpos)
    obtain ⟨lo, hlo⟩ := Option.isSome_iff_exists.1 (List.isSome_min?_of_mem (List.getElem_mem (l := g) (n := 0) (by omega)))
    obtain ⟨hi, hhi⟩ := Option.isSome_iff_exists.1 (List.isSome_max?_of_mem (List.getElem_mem (l := g) (n := 0) (by omega)))
    rw [hf, hlo, hhi]
    exact ⟨_, rfl⟩

/-- the four cases occur -/
example : ((updateDistribution (K := ℚ) toyNumerics ⟨[3, 2], [4, 3]⟩ [0, 0]).map (·.eval 2) = .ok 0) ∧
    ((updateDistribution (K := ℚ) toyNumerics ⟨[2, 2], [4, 3]⟩ [0, 1]).map (·.eval 2) = .error .collapse) ∧
    ((updateDistribution (K := ℚ) toyNumerics ⟨[2, 3], [4, 3]⟩ [0, 1]).map (·.eval 2) = .error .interpError) ∧
    ((updateDistribution (K := ℚ) toyNumerics ⟨[3, 2, 3], [4, 3, 4]⟩ [1, 5, 3]).map
      (fun d => (d.eval 2, d.eval 3, d.eval 4)) = .ok (5, 2, 0)) :=
  ⟨by decide +kernel, by decide +kernel, by decide +kernel, by decide +kernel⟩

/-! ## C18 -/

/-- what the functions contribute in bin `j`: the sum of the (finite) rates of the listed names, unknown names
contributing nothing -/
def contribution (r : Rates1 K) (names : List String) (j : Nat) : K :=
  (names.map fun x => ((r.lookup x).bind fun l => (l.getD j none)).getD 0).sum

theorem contribution_eq (r : Rates1 K) (names : List String) (j : Nat) :
    contribution r names j = (names.map (rateAt r j)).sum := by
  unfold contribution
  congr 1
  apply List.map_congr_left
  intro x _
  unfold rateAt nvAt
  cases r.lookup x <;> rfl

/-- Rates grouped by subgroups: one row per subgroup, each the sum over the names listed in it.  In
particular a function listed in no subgroup contributes nothing. -/
theorem C18_grouped {r : Rates1 K} {n : Nat} (hlen : ∀ p ∈ r, p.2.length = n)
    {rows : List (List String)} {G : List (List K)}
    (h : (sumRates1 r n (some rows)).mapM finiteRow = .ok G) :
    G.length = rows.length ∧ ∀ k (h1 : k < rows.length) (h2 : k < G.length), ∀ j, j < n →
      G[k].getD j 0 = contribution r rows[k] j := by
  obtain ⟨a, b⟩ := sumRates1_some hlen h
  refine ⟨a, fun k h1 h2 j hj => ?_⟩
  rw [contribution_eq]
  exact b k h1 h2 j hj

/-- Without subgroups there is one row to which every function contributes. -/
theorem C18_ungrouped {r : Rates1 K} {n : Nat} (hlen : ∀ p ∈ r, p.2.length = n)
    (hnd : (r.map Prod.fst).Nodup) {G : List (List K)}
    (h : (sumRates1 r n none).mapM finiteRow = .ok G) :
    ∃ u, G = [u] ∧ ∀ j, j < n → u.getD j 0 = contribution r (r.map Prod.fst) j := by
  obtain ⟨u, a, b⟩ := sumRates1_none hlen hnd h
  refine ⟨u, a, fun j hj => ?_⟩
  rw [contribution_eq]
  exact b j hj

/-- If every function is listed in exactly one subgroup, exactly once, the rows add up to the ungrouped
rates. -/
theorem C18_partition {r : Rates1 K} {n : Nat} (hlen : ∀ p ∈ r, p.2.length = n)
    (hnd : (r.map Prod.fst).Nodup) {rows : List (List String)}
    (hr : ∀ p ∈ r, rows.flatten.count p.1 = 1) {G : List (List K)} {U : List (List K)}
    (hG : (sumRates1 r n (some rows)).mapM finiteRow = .ok G)
    (hU : (sumRates1 r n none).mapM finiteRow = .ok U) :
    ∀ j, j < n → (G.map (·.getD j 0)).sum = (U.map (·.getD j 0)).sum := by
  intro j hj
  obtain ⟨a, b⟩ := sumRates1_some hlen hG
  obtain ⟨u, rfl, c⟩ := sumRates1_none hlen hnd hU
  have : G.map (·.getD j 0) = rows.map fun row => (row.map (rateAt r j)).sum := by
    apply List.ext_getElem
    · simp [a]
    · intro k h1 h2
      simp only [List.getElem_map]
      exact b k (by simpa using h2) (by simpa using h1) j hj
  rw [this, partition_sum hnd hr, List.map_singleton, List.sum_singleton, c j hj]

/-- The energy change rates, which have two rows (lower and upper edge): each edge behaves like
`C18_grouped`, `C18_ungrouped`. -/
theorem C18_edges {r : Rates2 K} {n : Nat} {sg : Option (List (List String))} {G : List (Bins K)}
    (h : (sumRates2 r n sg).mapM finiteBins = .ok G) :
    (sumRates1 (r.map fun p => (p.1, p.2.lb)) n sg).mapM finiteRow = .ok (G.map (·.lb)) ∧
    (sumRates1 (r.map fun p => (p.1, p.2.ub)) n sg).mapM finiteRow = .ok (G.map (·.ub)) := by
  have := mapM_finiteBins h
  rw [sumRates2_lb, sumRates2_ub] at this
  exact this

/-- three functions in two subgroups, in the opposite order -/
example : ((sumRates1 (K := ℚ) [("a", [some 1, some 2]), ("b", [some 10, some 20]), ("c", [some 5, some 7])] 2
      (some [["c", "a"], ["b"]])).mapM finiteRow = .ok [[6, 9], [10, 20]]) ∧
    ((sumRates1 (K := ℚ) [("a", [some 1, some 2]), ("b", [some 10, some 20]), ("c", [some 5, some 7])] 2
      none).mapM finiteRow = .ok [[16, 29]]) :=
  ⟨by decide +kernel, by decide +kernel⟩

/-- a function listed in no subgroup is dropped -/
example : (sumRates1 (K := ℚ) [("a", [some 1]), ("b", [some 10])] 1 (some [["a"]])).mapM finiteRow
    = .ok [[1]] := by decide +kernel

/-! ## C22 -/

/-- the entries of `l` at the bins of positive density -/
def keepPositive {α : Type} (dens : List K) (l : List α) : List α :=
  ((List.zip dens l).filter fun p => decide (0 < p.1)).map Prod.snd

theorem select_keep {α : Type} (dens : List K) (l : List α) (h : dens.length = l.length) :
    select (dens.map fun d => decide (d > 0)) l = keepPositive dens l := by
  induction dens generalizing l with
  | nil => simp [keepPositive]
  | cons x dens ih =>
    cases l with
    | nil => simp at h
    | cons y l =>
      have := ih l (by simpa using h)
      unfold keepPositive at this ⊢
      by_cases hx : 0 < x <;> simp [select, hx, this]

theorem keepPositive_length {α β : Type} (dens : List K) (l : List α) (l' : List β)
    (h : dens.length = l.length) (h' : dens.length = l'.length) :
    (keepPositive dens l).length = (keepPositive dens l').length := by
  rw [← select_keep dens l h, ← select_keep dens l' h', select_length (by simp [h]),
    select_length (by simp [h'])]

/-- all per-bin arrays have the length of `density` -/
structure Aligned (r : Result K) : Prop where
  gamma : r.density.length = r.gamma.length
  subne : r.subgroups ≠ []
  sub : ∀ row ∈ r.subgroups, r.density.length = row.length
  en : ∀ p ∈ r.enChgRates, r.density.length = p.2.length
  rel : ∀ p ∈ r.relInjRates, r.density.length = p.2.length
  abs : ∀ p ∈ r.absInjRates, r.density.length = p.2.length

theorem select_mask_map {α : Type} (m : List Bool) (l : List α) (d : α) (h : m.length = l.length) :
    (select m (List.range m.length)).map (l.getD · d) = select m l := by
  rw [← select_map]
  congr 1
  rw [h]
  apply List.ext_getElem
  · simp
  · intro i h1 h2; simp [h2]

/-- `remove_empty_densities` keeps exactly the bins of positive density, in order, in every array. -/
theorem C22_keeps_positive {r : Result K} (ha : Aligned r) :
    ∃ r', removeEmptyDensities r = .ok r' ∧
      r'.totalTime = r.totalTime ∧
      r'.gamma = keepPositive r.density r.gamma ∧
      r'.density = r.density.filter (fun d => decide (0 < d)) ∧
      r'.subgroups = r.subgroups.map (keepPositive r.density) ∧
      r'.enChgRates = r.enChgRates.map (fun p => (p.1, keepPositive r.density p.2)) ∧
      r'.relInjRates = r.relInjRates.map (fun p => (p.1, keepPositive r.density p.2)) ∧
      r'.absInjRates = r.absInjRates.map (fun p => (p.1, keepPositive r.density p.2)) ∧
      Aligned r' := by
  have hf : ∀ d : Rates1 K, (∀ p ∈ d, r.density.length = p.2.length) →
      (d.map fun p => (p.1, select (r.density.map fun d => decide (d > 0)) p.2))
        = d.map (fun p => (p.1, keepPositive r.density p.2)) := by
    intro d hd
    apply List.map_congr_left
    intro p hp
    rw [select_keep _ _ (hd p hp)]
  have hsub : remapSubgroups (maskToMapping (r.density.map fun d => decide (d > 0))) r.subgroups
      = .ok (r.subgroups.map (keepPositive r.density)) := by
    set mask := r.density.map fun d => decide (d > 0) with hmask
    have hml : mask.length = r.density.length := by simp [hmask]
    have e : maskToMapping mask = ((select mask (List.range mask.length)).map some).map enc := by
      unfold maskToMapping arange
      rw [select_map, List.map_map]; rfl
    rw [e, remapSubgroups_enc r.subgroups _ r.density.length ha.subne (fun row h => (ha.sub row h).symm)
      (inRange_some (by intro i hi; have := List.mem_range.1 (select_mem hi); omega))
      (Or.inr none_not_mem_some)]
    congr 1
    have hrow : ∀ row ∈ r.subgroups, ∀ d, pull ((select mask (List.range mask.length)).map some) row d
        = keepPositive r.density row := by
      intro row hr d
      unfold pull
      rw [List.map_map, ← select_keep _ _ (ha.sub row hr), ← hmask]
      exact select_mask_map mask row d (by rw [hml]; exact ha.sub row hr)
    cases hs : r.subgroups with
    | nil => rfl
    | cons r0 rs =>
      simp only [pullSub, List.map_cons]
      rw [hrow r0 (by simp [hs])]
      congr 1
      apply List.map_congr_left
      intro x hx
      exact hrow x (by simp [hs, hx]) 0
  unfold removeEmptyDensities
  dsimp only
  rw [hsub]
  simp only [bind, Except.bind, pure, Except.pure]
  refine ⟨_, rfl, rfl, select_keep _ _ ha.gamma, ?_, rfl, hf _ ha.en, hf _ ha.rel, hf _ ha.abs, ?_⟩
  · simp only [select_filter]
  · have hd : select (r.density.map fun d => decide (d > 0)) r.density = keepPositive r.density r.density :=
      select_keep _ _ rfl
    refine ⟨?_, by simpa using ha.subne, ?_, ?_, ?_, ?_⟩
    · simp only
      rw [hd, select_keep _ _ ha.gamma]
      exact keepPositive_length _ _ _ rfl ha.gamma
    · intro row hr
      obtain ⟨x, hx, rfl⟩ := List.mem_map.1 hr
      simp only
      rw [hd]
      exact keepPositive_length _ _ _ rfl (ha.sub x hx)
    all_goals
      intro p hp
      obtain ⟨x, hx, rfl⟩ := List.mem_map.1 hp
      simp only
      rw [hd]
    · rw [select_keep _ _ (ha.en x hx)]; exact keepPositive_length _ _ _ rfl (ha.en x hx)
    · rw [select_keep _ _ (ha.rel x hx)]; exact keepPositive_length _ _ _ rfl (ha.rel x hx)
    · rw [select_keep _ _ (ha.abs x hx)]; exact keepPositive_length _ _ _ rfl (ha.abs x hx)

theorem keepPositive_all {α : Type} {dens : List K} {l : List α} (h : dens.length = l.length)
    (hp : ∀ d ∈ dens, 0 < d) : keepPositive dens l = l := by
  unfold keepPositive
  rw [List.filter_eq_self.2]
  · exact List.map_snd_zip (by omega)
  · intro p hp'
    simpa using hp p.1 (List.of_mem_zip hp').1

/-- Applying it twice changes nothing more; it changes nothing at all if every density is positive. -/
theorem C22_idempotent {r r' : Result K} (ha : Aligned r) (h : removeEmptyDensities r = .ok r') :
    removeEmptyDensities r' = .ok r' := by
  obtain ⟨q, hq, -, -, hqd, -, -, -, -, hqa⟩ := C22_keeps_positive ha
  rw [h, Except.ok.injEq] at hq
  subst hq
  obtain ⟨q, hq, e1, e2, e3, e4, e5, e6, e7, -⟩ := C22_keeps_positive hqa
  rw [hq]
  congr 1
  have hp : ∀ d ∈ r'.density, 0 < d := by
    intro d hd
    rw [hqd] at hd
    simpa using (List.mem_filter.1 hd).2
  have hmap : ∀ d : Rates1 K, (∀ p ∈ d, r'.density.length = p.2.length) →
      d.map (fun p => (p.1, keepPositive r'.density p.2)) = d := by
    intro d hd
    conv_rhs => rw [← List.map_id d]
    apply List.map_congr_left
    intro p hp'
    rw [keepPositive_all (hd p hp') hp]; rfl
  rw [keepPositive_all hqa.gamma hp] at e2
  rw [List.filter_eq_self.2 (by intro d hd; simpa using hp d hd)] at e3
  rw [hmap _ hqa.en] at e5
  rw [hmap _ hqa.rel] at e6
  rw [hmap _ hqa.abs] at e7
  have e4' : q.subgroups = r'.subgroups := by
    rw [e4]
    conv_rhs => rw [← List.map_id r'.subgroups]
    apply List.map_congr_left
    intro row hr
    exact keepPositive_all (hqa.sub row hr) hp
  cases q; cases r'
  simp only at e1 e2 e3 e4' e5 e6 e7
  subst e1; subst e2; subst e3; subst e4'; subst e5; subst e6; subst e7
  rfl

example : Aligned (K := ℚ) ⟨1, [2, 3, 4], [5, 0, 7], [[1, 1, 0], [0, 0, 1]], [("a", [some 1, some 2, some 3])], [], []⟩ ∧
    ((removeEmptyDensities (K := ℚ)
        ⟨1, [2, 3, 4], [5, 0, 7], [[1, 1, 0], [0, 0, 1]], [("a", [some 1, some 2, some 3])], [], []⟩).map
      (fun r => (r.gamma, r.subgroups, (r.enChgRates.map fun p => p.2.map (·.getD 0))))
      = .ok ([2, 4], [[1, 0], [0, 1]], [[1, 3]])) :=
  ⟨⟨by decide, by decide, by decide, by decide, by decide, by decide⟩, by decide +kernel⟩

/-- What `evaluate` returns (or passes to the callback) is always accepted. -/
theorem C22_accepts_results {cfg : Cfg K} (wf : cfg.WF) {dist d : Dist K}
    (hnn : ∀ x, 0 ≤ dist.eval x) {r : Result K} (h : Observed cfg dist r d) :
    ∃ r', removeEmptyDensities r = .ok r' ∧ (∀ x ∈ r'.density, 0 < x) := by
  obtain ⟨a1, a2, a3, a4, a5, a6⟩ := C07_aligned wf hnn h
  have ha : Aligned r := ⟨a1, a2, fun x hx => by rw [a1, a3 x hx], fun x hx => by rw [a1, a4 x hx],
    fun x hx => by rw [a1, a5 x hx], fun x hx => by rw [a1, a6 x hx]⟩
  obtain ⟨q, hq, -, -, hqd, -⟩ := C22_keeps_positive ha
  refine ⟨q, hq, ?_⟩
  intro x hx
  rw [hqd] at hx
  simpa using (List.mem_filter.1 hx).2

end Verif.TE
