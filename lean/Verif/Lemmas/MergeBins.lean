import Verif.Lemmas.Mapping

/- `removeTooCloseBins` and `sortAndMergeBins`. -/

namespace Verif.TE

open Verif.Np

set_option linter.unusedSectionVars false

variable {K : Type} [Field K] [LinearOrder K] [IsStrictOrderedRing K]

theorem starts_spec {dup : List Nat} (hs : dup.Pairwise (· < ·)) (hp : ∀ i ∈ dup, 1 ≤ i) {i : Nat}
    (hi : i ∉ dup) :
    i ∈ (groupDuplicates dup).map (fun g : List Nat => g.headD 0) ↔ i + 1 ∈ dup := by
  obtain ⟨h1, -, h3⟩ := groups_spec dup hs hp
  rw [List.mem_map]
  constructor
  · rintro ⟨g, hg, rfl⟩
    obtain ⟨h, k, rfl, -, -, hj⟩ := h1 g hg
    have : (interval h (k + 1)).headD 0 = h := by rw [← interval_cons]; rfl
    rw [this]
    exact hj (h + 1) (by omega) (by omega)
  · intro hi1
    obtain ⟨g, hg, hig⟩ := h3 i hi hi1
    obtain ⟨h, k, rfl, hh, -, hj⟩ := h1 g hg
    have hm := mem_interval.1 hig
    have : h = i := by
      by_contra hne
      exact hi (hj i (by omega) (by omega))
    subst this
    exact ⟨_, hg, by rw [← interval_cons]; rfl⟩

theorem clearEnds_spec {m m' : List Bool} (h : clearEnds m = .ok m') :
    m ≠ [] ∧ m'.length = m.length ∧ ∀ i (hi : i < m'.length) (hi' : i < m.length),
      m'[i] = true ↔ (i ≠ 0 ∧ i ≠ m.length - 1 ∧ m[i] = true) := by
  unfold clearEnds at h
  split at h
  · simp at h
  · next hne =>
    simp only [Except.ok.injEq] at h
    subst h
    refine ⟨hne, by simp, ?_⟩
    intro i hi hi'
    rw [List.getElem_set, List.getElem_set]
    by_cases h1 : m.length - 1 = i
    · simp [h1.symm]
    · by_cases h0 : 0 = i
      · subst h0
        simp
      · simp only [h1, h0, if_false]
        constructor
        · intro h; exact ⟨by omega, by omega, h⟩
        · rintro ⟨-, -, h⟩; exact h

theorem setdiffRange_nil (n : Nat) : setdiffRange n [] = List.range n := by
  unfold setdiffRange; simp

theorem map_getD_range {α : Type} (x : List α) (d : α) : (List.range x.length).map (x.getD · d) = x := by
  apply List.ext_getElem
  · simp
  · intro i h1 h2
    simp [h2]

/-- Complete description of `removeTooCloseBins` on strictly increasing positive energies. -/
theorem removeTooCloseBins_spec {num : Numerics K} (hl : num.Lawful) {thr : K} {b : Bins K}
    {dens : List K} {dist : Dist K} (hub : b.ub.length = b.lb.length)
    (hd : dens.length = b.lb.length) (hpos : ∀ v ∈ b.lb, 0 < v) (hsort : b.lb.Pairwise (· < ·))
    {b' : Bins K} {d' : List K} {m : List Int}
    (e : removeTooCloseBins num thr b dens dist = .ok (b', d', m)) :
    ∃ (close : List Nat) (fx fy : Nat → K), close.Pairwise (· < ·) ∧
      (∀ j, j ∈ close ↔ 2 ≤ j ∧ j + 2 ≤ b.lb.length ∧
        num.log10 (b.lb.getD j 0) - num.log10 (b.lb.getD (j - 1) 0) < thr) ∧
      2 ≤ b.lb.length ∧
      m = toInts (setdiffRange b.lb.length close) ∧
      b'.lb = (setdiffRange b.lb.length close).map fx ∧
      d' = (setdiffRange b.lb.length close).map fy ∧
      b'.ub = (setdiffRange b.lb.length close).map
        (fun i => if i + 1 ∈ close then 0 else b.ub.getD i 0) ∧
      (∀ i, i < b.lb.length → i ∉ close → ∃ e, i ≤ e ∧ e < b.lb.length ∧
        (∀ j, i < j → j ≤ e → j ∈ close) ∧ e + 1 ∉ close ∧ b.lb.getD i 0 ≤ fx i ∧
        fx i ≤ b.lb.getD e 0 ∧
        (e = i → fx i = b.lb.getD i 0 ∧ fy i = dens.getD i 0) ∧
        (e ≠ i → fx i = num.gmean (slice b.lb i (e - i)) ∧ fy i = dist.eval (fx i))) := by
  unfold removeTooCloseBins at e
  obtain ⟨mask, hmask, e⟩ := bind_ok_iff.1 e
  obtain ⟨hne, hml, hm⟩ := clearEnds_spec hmask
  have hgl : ((adjacent (fun a c => c - a) (b.lb.map num.log10)).map
      fun g => decide (g < thr)).length = b.lb.length - 1 := by
    rw [List.length_map, adjacent_length, List.length_map]
  have hn2 : 2 ≤ b.lb.length := by
    have := List.length_pos_of_ne_nil hne
    omega
  rw [hgl] at hml
  set close := (nonzero mask).map (· + 1) with hclose
  have hcs : close.Pairwise (· < ·) := by
    rw [hclose, List.pairwise_map]
    exact (nonzero_pairwise _).imp (fun h => by omega)
  have hcm : ∀ j, j ∈ close ↔ 2 ≤ j ∧ j + 2 ≤ b.lb.length ∧
        num.log10 (b.lb.getD j 0) - num.log10 (b.lb.getD (j - 1) 0) < thr := by
    intro j
    rw [hclose, List.mem_map]
    constructor
    · rintro ⟨i, hi, rfl⟩
      obtain ⟨hlt, he⟩ := mem_nonzero.1 hi
      obtain ⟨h0, h1, h2⟩ := (hm i hlt (by omega)).1 he
      rw [List.getElem_map, adjacent_getElem] at h2
      simp only [List.getElem_map, decide_eq_true_eq] at h2
      refine ⟨by omega, by omega, ?_⟩
      rw [Nat.add_sub_cancel, List.getD_eq_getElem _ _ (by omega), List.getD_eq_getElem _ _ (by omega)]
      exact h2
    · rintro ⟨h1, h2, h3⟩
      refine ⟨j - 1, ?_, by omega⟩
      rw [mem_nonzero]
      have hlt : j - 1 < mask.length := by omega
      refine ⟨hlt, ?_⟩
      rw [hm (j - 1) hlt (by omega)]
      refine ⟨by omega, by omega, ?_⟩
      rw [List.getElem_map, adjacent_getElem]
      simp only [List.getElem_map, decide_eq_true_eq]
      rw [List.getD_eq_getElem _ _ (by omega), List.getD_eq_getElem _ _ (by omega)] at h3
      simp only [show j - 1 + 1 = j by omega]
      exact h3
  split at e
  · next hany =>
    obtain ⟨ub, hgu, e⟩ := bind_ok_iff.1 e
    rw [pure_ok_iff] at e
    simp only [Prod.mk.injEq] at e
    obtain ⟨rfl, rfl, rfl⟩ := e
    obtain ⟨fx, fy, hmp, hf⟩ := mergePoints_bounds hl b.lb dens close (some dist) hcs
      (fun i hi => by have := (hcm i).1 hi; omega) (fun i hi => by have := (hcm i).1 hi; omega)
      hd (hsort.imp le_of_lt) hpos
    rw [hd] at hgu ⊢
    rw [hmp]
    refine ⟨close, fx, fy, hcs, hcm, hn2, rfl, rfl, rfl, ?_, hf⟩
    have hg := @gather_nat K ⟨0⟩ b.ub (setdiffRange b.lb.length close) (by
      intro i hi; rw [hub]; exact (mem_setdiffRange.1 hi).1)
    unfold toInts at hgu
    rw [hg] at hgu
    simp only [Except.ok.injEq] at hgu
    subst hgu
    simp only
    rw [← List.map_id (setdiffRange b.lb.length close), List.map_map, zipWith_map_map, List.map_map]
    apply List.map_congr_left
    intro i hi
    have hi' := mem_setdiffRange.1 hi
    have := starts_spec hcs (fun i hi => by have := (hcm i).1 hi; omega) hi'.2
    simp only [id, Function.comp]
    simp only [this]
  · next hany =>
    rw [pure_ok_iff] at e
    simp only [Prod.mk.injEq] at e
    obtain ⟨rfl, rfl, rfl⟩ := e
    have hc0 : close = [] := by
      rw [hclose, List.map_eq_nil_iff]
      rw [List.eq_nil_iff_forall_not_mem]
      intro i hi
      obtain ⟨hlt, he⟩ := mem_nonzero.1 hi
      apply hany
      rw [List.any_eq_true]
      exact ⟨mask[i], List.getElem_mem hlt, by rw [he]; rfl⟩
    refine ⟨close, (b.lb.getD · 0), (dens.getD · 0), hcs, hcm, hn2, ?_, ?_, ?_, ?_, ?_⟩
    · rw [hc0, setdiffRange_nil]; rfl
    · rw [hc0, setdiffRange_nil, map_getD_range]
    · rw [hc0, setdiffRange_nil, ← hd, map_getD_range]
    · rw [hc0, setdiffRange_nil, ← hub]
      simp only [List.not_mem_nil, if_false]
      rw [map_getD_range]
    · intro i hi _
      refine ⟨i, le_refl _, hi, by intro j h1 h2; omega, by simp [hc0], le_refl _, le_refl _,
        fun _ => ⟨rfl, rfl⟩, fun h => absurd rfl h⟩

theorem removeTooCloseBins_merged {num : Numerics K} (hl : num.Lawful) {thr : K} {b : Bins K}
    {dens : List K} {dist : Dist K} (hub : b.ub.length = b.lb.length)
    (hd : dens.length = b.lb.length) (hpos : ∀ v ∈ b.lb, 0 < v) (hsort : b.lb.Pairwise (· < ·))
    {b' : Bins K} {d' : List K} {m : List Int}
    (e : removeTooCloseBins num thr b dens dist = .ok (b', d', m)) :
    ∃ idx : List Nat, m = toInts idx ∧ Merged b.lb b.ub dens (some dist) b' d' idx := by
  obtain ⟨close, fx, fy, hcs, hcm, hn2, hm, hlb, hdd, hubb, hf⟩ :=
    removeTooCloseBins_spec hl hub hd hpos hsort e
  refine ⟨setdiffRange b.lb.length close, hm, ?_, ?_, ?_, ?_, ?_, ?_, ?_⟩
  · rw [hlb, List.length_map]
  · rw [hubb, List.length_map]
  · rw [hdd, List.length_map]
  · exact (setdiffRange_pairwise _ _).imp (fun h => Nat.ne_of_lt h)
  · intro i hi; exact (mem_setdiffRange.1 hi).1
  · rw [hlb, List.pairwise_map]
    refine (setdiffRange_pairwise _ _).imp_of_mem ?_
    intro i j hi hj hij
    have hi' := mem_setdiffRange.1 hi
    have hj' := mem_setdiffRange.1 hj
    obtain ⟨e, hie, he, h1, h2, h3, h4, -⟩ := hf i hi'.1 hi'.2
    obtain ⟨-, -, -, -, -, h5, -⟩ := hf j hj'.1 hj'.2
    have hej : e < j := by
      by_contra hn
      exact hj'.2 (h1 j hij (by omega))
    exact lt_of_le_of_lt h4 (lt_of_lt_of_le (getD_strictMono hsort hej hj'.1) h5)
  · intro p hp
    rw [hlb, hubb, hdd, getD_map_lt hp, getD_map_lt hp, getD_map_lt hp, List.getD_eq_getElem _ _ hp]
    set i := (setdiffRange b.lb.length close)[p] with hi
    have hi' := mem_setdiffRange.1 (hi ▸ List.getElem_mem hp : i ∈ setdiffRange b.lb.length close)
    obtain ⟨e, hie, he, h1, h2, h3, h4, h5, h6⟩ := hf i hi'.1 hi'.2
    by_cases hei : e = i
    · left
      obtain ⟨h7, h8⟩ := h5 hei
      rw [hei] at h2
      exact ⟨h7, h8, by simp [h2]⟩
    · right
      obtain ⟨h7, h8⟩ := h6 hei
      have : i + 1 ∈ close := h1 (i + 1) (by omega) (by omega)
      exact ⟨by simp [this], ⟨_, getD_mem hi'.1, _, getD_mem he, h3, h4⟩, h8⟩

/-- composition of two merges -/
theorem Merged.trans {lb ub dens : List K} {D : Dist K} {b1 b2 : Bins K} {d1 d2 : List K}
    {i1 i2 : List Nat} (h1 : Merged lb ub dens (some D) b1 d1 i1)
    (h2 : Merged b1.lb b1.ub d1 (some D) b2 d2 i2) :
    Merged lb ub dens (some D) b2 d2 (i2.map (i1.getD · 0)) := by
  have hin : ∀ i ∈ i2, i < i1.length := fun i hi => by rw [← h1.len_lb]; exact h2.range i hi
  refine ⟨by simp [h2.len_lb], by simp [h2.len_ub], by simp [h2.len_d], ?_, ?_, h2.sorted, ?_⟩
  · refine List.Nodup.map_on ?_ h2.nodup
    intro i hi j hj hij
    rw [List.getD_eq_getElem _ _ (hin i hi), List.getD_eq_getElem _ _ (hin j hj)] at hij
    exact (List.Nodup.getElem_inj_iff h1.nodup).1 hij
  · intro i hi
    obtain ⟨j, hj, rfl⟩ := List.mem_map.1 hi
    rw [List.getD_eq_getElem _ _ (hin j hj)]
    exact h1.range _ (List.getElem_mem _)
  · intro p hp
    rw [List.length_map] at hp
    have hi : i2.getD p 0 < i1.length := by
      rw [List.getD_eq_getElem _ _ hp]; exact hin _ (List.getElem_mem _)
    have e0 : (i2.map (i1.getD · 0)).getD p 0 = i1.getD (i2.getD p 0) 0 := by
      rw [List.getD_eq_getElem _ _ (by simpa using hp), List.getElem_map,
        List.getD_eq_getElem _ _ hp]
    rw [e0]
    have b1in : ∀ v ∈ b1.lb, ∃ lo ∈ lb, ∃ hi ∈ lb, lo ≤ v ∧ v ≤ hi := by
      intro v hv
      obtain ⟨q, hq, rfl⟩ := List.mem_iff_getElem.1 hv
      rw [h1.len_lb] at hq
      have hq' : i1.getD q 0 < lb.length := by
        rw [List.getD_eq_getElem _ _ hq]; exact h1.range _ (List.getElem_mem _)
      rcases h1.entry q hq with ⟨h, -, -⟩ | ⟨-, h, -⟩
      · rw [List.getD_eq_getElem _ _ (by rw [h1.len_lb]; exact hq)] at h
        exact ⟨_, getD_mem hq', _, getD_mem hq', le_of_eq h.symm, le_of_eq h⟩
      · rw [List.getD_eq_getElem _ _ (by rw [h1.len_lb]; exact hq)] at h
        exact h
    rcases h2.entry p hp with ⟨ha, hb, hc⟩ | ⟨ha, hb, hc⟩
    · rw [ha, hb]
      rcases h1.entry _ hi with ⟨ha', hb', hc'⟩ | ⟨ha', hb', hc'⟩
      · left
        refine ⟨ha', hb', ?_⟩
        rcases hc with hc | hc
        · rw [hc]; exact hc'
        · exact Or.inr hc
      · right
        refine ⟨?_, hb', hc'⟩
        rcases hc with hc | hc
        · rw [hc]; exact ha'
        · exact hc
    · right
      obtain ⟨lo, hlo, hi', hhi, h3, h4⟩ := hb
      obtain ⟨lo1, hlo1, -, -, h5, -⟩ := b1in lo hlo
      obtain ⟨-, -, hi1, hhi1, -, h6⟩ := b1in hi' hhi
      exact ⟨ha, ⟨lo1, hlo1, hi1, hhi1, le_trans h5 h3, le_trans h4 h6⟩, hc⟩

theorem Merged.pos {lb ub dens : List K} {D : Option (Dist K)} {b' : Bins K} {d' : List K}
    {idx : List Nat} (h : Merged lb ub dens D b' d' idx) (hpos : ∀ v ∈ lb, 0 < v) :
    ∀ v ∈ b'.lb, 0 < v := by
  intro v hv
  obtain ⟨q, hq, rfl⟩ := List.mem_iff_getElem.1 hv
  have hq0 := hq
  rw [h.len_lb] at hq
  have hq' : idx.getD q 0 < lb.length := by
    rw [List.getD_eq_getElem _ _ hq]; exact h.range _ (List.getElem_mem _)
  rcases h.entry q hq with ⟨h1, -, -⟩ | ⟨-, ⟨lo, hlo, -, -, h1, -⟩, -⟩
  · rw [List.getD_eq_getElem _ _ hq0] at h1
    rw [h1]; exact hpos _ (getD_mem hq')
  · rw [List.getD_eq_getElem _ _ hq0] at h1
    exact lt_of_lt_of_le (hpos _ hlo) h1

theorem sortAndMergeBins_spec {cfg : Cfg K} (hl : cfg.num.Lawful) {b : Bins K}
    {dens : List K} {dist : Dist K} (hub : b.ub.length = b.lb.length)
    (hd : dens.length = b.lb.length) (hpos : ∀ v ∈ b.lb, 0 < v)
    {b' : Bins K} {d' : List K} {m : List Int}
    (e : sortAndMergeBins cfg b dens dist = .ok (b', d', m)) :
    ∃ idx : List Nat, m = toInts idx ∧ Merged b.lb b.ub dens (some dist) b' d' idx := by
  unfold sortAndMergeBins at e
  obtain ⟨⟨b1, d1, m1⟩, h1, e⟩ := bind_ok_iff.1 e
  obtain ⟨i1, rfl, hm1, -⟩ := sortAndMergeDuplicates_spec hl b dens (some dist) hub hd hpos h1
  cases hmc : cfg.mergeCloser with
  | none =>
    simp only [hmc] at e
    rw [pure_ok_iff] at e
    simp only [Prod.mk.injEq] at e
    obtain ⟨rfl, rfl, rfl⟩ := e
    exact ⟨i1, rfl, hm1⟩
  | some thr =>
    simp only [hmc] at e
    obtain ⟨⟨b2, d2, m2⟩, h2, e⟩ := bind_ok_iff.1 e
    obtain ⟨m3, h3, e⟩ := bind_ok_iff.1 e
    rw [pure_ok_iff] at e
    simp only [Prod.mk.injEq] at e
    obtain ⟨rfl, rfl, rfl⟩ := e
    obtain ⟨i2, rfl, hm2⟩ := removeTooCloseBins_merged hl
      (by rw [hm1.len_ub, hm1.len_lb]) (by rw [hm1.len_d, hm1.len_lb]) (hm1.pos hpos) hm1.sorted h2
    refine ⟨i2.map (i1.getD · 0), ?_, hm1.trans hm2⟩
    rw [toInts_eq, toInts_eq, combineMapping_enc] at h3
    · simp only [Except.ok.injEq] at h3
      rw [← h3, toInts_eq]
      congr 1
      unfold comp pull
      rw [List.map_map, List.map_map]
      apply List.map_congr_left
      intro i hi
      have : i < i1.length := by rw [← hm1.len_lb]; exact hm2.range i hi
      simp [this]
    · rw [List.length_map, ← hm1.len_lb]
      exact inRange_some hm2.range
    · right; simp

theorem Merged.nonneg {lb ub dens : List K} {D : Dist K} {b' : Bins K} {d' : List K}
    {idx : List Nat} (h : Merged lb ub dens (some D) b' d' idx) (hd : dens.length = lb.length)
    (hnn : ∀ v ∈ dens, 0 ≤ v) (hD : ∀ x, 0 ≤ D.eval x) : ∀ v ∈ d', 0 ≤ v := by
  intro v hv
  obtain ⟨q, hq, rfl⟩ := List.mem_iff_getElem.1 hv
  have hq0 := hq
  rw [h.len_d] at hq
  have hq' : idx.getD q 0 < dens.length := by
    rw [hd, List.getD_eq_getElem _ _ hq]; exact h.range _ (List.getElem_mem _)
  rcases h.entry q hq with ⟨-, h1, -⟩ | ⟨-, -, h1⟩
  · rw [List.getD_eq_getElem _ _ hq0] at h1
    rw [h1]; exact hnn _ (getD_mem hq')
  · simp only at h1
    rw [List.getD_eq_getElem _ _ hq0] at h1
    rw [h1]; exact hD _

end Verif.TE
