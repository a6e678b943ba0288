import Verif.Lemmas.Invariant

/- One turn of the loop preserves the invariant. -/

namespace Verif.TE

open Verif.Np

set_option linter.unusedSectionVars false

variable {K : Type} [Field K] [LinearOrder K] [IsStrictOrderedRing K]

theorem Mapped.prepend {n : Nat} {D : Dist K} {subLen : Nat} {b : Bins K} {d : List K}
    {s s' : List (List K)} {l : List (Option Nat)} (h : Mapped n D subLen b d s l) {lo : K}
    (h0 : 0 < lo) (h1 : ∀ x ∈ b.lb, lo < x) (hs1 : s' ≠ []) (hs2 : s'.length = subLen)
    (hs3 : ∀ r ∈ s', r.length = l.length + 1) :
    Mapped n D subLen ⟨lo :: b.lb, 0 :: b.ub⟩ (0 :: d) s' (none :: l) := by
  refine ⟨by simp [h.lblen], by simp [h.ublen], by simp [h.dlen], hs1, hs2, by simpa using hs3,
    ?_, ?_, ?_, ?_, ?_, ?_, ?_⟩
  · intro i hi
    exact h.range i (by simpa using hi)
  · intro x hx
    rcases List.mem_cons.1 hx with rfl | hx
    · exact h0
    · exact h.pos x hx
  · exact List.pairwise_cons.2 ⟨h1, h.sorted⟩
  · intro j hj
    cases j with
    | zero => left; rfl
    | succ j =>
      simp only [List.getD_cons_succ]
      exact h.width j (by simpa using hj)
  · intro j hj
    cases j with
    | zero => intro _; rfl
    | succ j =>
      simp only [List.getD_cons_succ]
      exact h.new j (by simpa using hj)
  · intro x hx
    rcases List.mem_cons.1 hx with rfl | hx
    · exact le_refl _
    · exact h.dnn x hx
  · intro j hj
    cases j with
    | zero => left; rfl
    | succ j =>
      simp only [List.getD_cons_succ]
      exact h.agree j (by simpa using hj)

theorem getD_concat {α : Type} (l : List α) (x d : α) {j : Nat} (h : j ≤ l.length) :
    (l ++ [x]).getD j d = if j < l.length then l.getD j d else x := by
  split
  · next h1 =>
    rw [List.getD_eq_getElem _ _ (by simp; omega), List.getElem_append_left h1,
      List.getD_eq_getElem _ _ h1]
  · next h1 =>
    have : j = l.length := by omega
    subst this
    simp

theorem Mapped.append {n : Nat} {D : Dist K} {subLen : Nat} {b : Bins K} {d : List K}
    {s s' : List (List K)} {l : List (Option Nat)} (h : Mapped n D subLen b d s l) {up : K}
    (h0 : 0 < up) (h1 : ∀ x ∈ b.lb, x < up) (hs1 : s' ≠ []) (hs2 : s'.length = subLen)
    (hs3 : ∀ r ∈ s', r.length = l.length + 1) :
    Mapped n D subLen ⟨b.lb ++ [up], b.ub ++ [0]⟩ (d ++ [0]) s' (l ++ [none]) := by
  have a := h.lblen
  have a2 := h.ublen
  have a3 := h.dlen
  refine ⟨by simp [h.lblen], by simp [h.ublen], by simp [h.dlen], hs1, hs2, by simpa using hs3,
    ?_, ?_, ?_, ?_, ?_, ?_, ?_⟩
  · intro i hi
    exact h.range i (by simpa using hi)
  · intro x hx
    rcases List.mem_append.1 hx with hx | hx
    · exact h.pos x hx
    · rw [List.mem_singleton] at hx; exact hx ▸ h0
  · rw [List.pairwise_append]
    refine ⟨h.sorted, by simp, ?_⟩
    intro x hx y hy
    rw [List.mem_singleton] at hy
    exact hy ▸ h1 x hx
  · intro j hj
    simp only [List.length_append, List.length_singleton] at hj
    simp only
    rw [getD_concat _ _ _ (by omega), getD_concat _ _ _ (by omega), a, a2]
    split
    · next hlt => exact h.width j hlt
    · exact Or.inl rfl
  · intro j hj
    simp only [List.length_append, List.length_singleton] at hj
    simp only
    rw [getD_concat _ _ _ (by omega), getD_concat _ _ _ (by omega), a2]
    split
    · next hlt => exact h.new j hlt
    · exact fun _ => rfl
  · intro x hx
    rcases List.mem_append.1 hx with hx | hx
    · exact h.dnn x hx
    · rw [List.mem_singleton] at hx; exact hx ▸ le_refl _
  · intro j hj
    simp only [List.length_append, List.length_singleton] at hj
    simp only
    rw [getD_concat _ _ _ (by omega), getD_concat _ _ _ (by omega), a3]
    split
    · next hlt =>
      rw [a]
      simp only [hlt, if_true]
      exact h.agree j (by omega)
    · exact Or.inl rfl

theorem pull_append {α : Type} (a b : List (Option Nat)) (v : List α) (d : α) :
    pull (a ++ b) v d = pull a v d ++ pull b v d := by simp [pull]

/-- the mapping of stage 5, applied to an array -/
theorem pull_boundary {α : Type} (pre post : Bool) (v : List α) (d : α) :
    pull ((if pre then [none] else []) ++ (List.range v.length).map some
        ++ (if post then [none] else [])) v d
      = (if pre then [d] else []) ++ v ++ (if post then [d] else []) := by
  rw [pull_append, pull_append, pull_range]
  cases pre <;> cases post <;> simp [pull]

theorem lt_of_log10_lt {num : Numerics K} (hl : num.Lawful) {x y : K} (hy : 0 < y)
    (h : num.log10 x < num.log10 y) : x < y := by
  by_contra hn
  exact absurd (hl.log10_mono hy (not_lt.1 hn)) (not_le.2 h)

theorem boundary_inRange {n : Nat} (pre post : Bool) :
    InRange n ((if pre then [none] else []) ++ (List.range n).map some
        ++ (if post then [none] else [])) := by
  intro i hi
  cases pre <;> cases post <;> simpa using hi

theorem sorted_head_le {x : List K} (hs : x.Pairwise (· < ·)) (hx : x ≠ []) :
    ∀ y ∈ x, x.head hx ≤ y := by
  intro y hy
  cases x with
  | nil => exact absurd rfl hx
  | cons a x =>
    rcases List.mem_cons.1 hy with rfl | hy
    · exact le_refl _
    · exact le_of_lt ((List.pairwise_cons.1 hs).1 y hy)

theorem sorted_le_last {x : List K} (hs : x.Pairwise (· < ·)) (hx : x ≠ []) :
    ∀ y ∈ x, y ≤ x.getLast hx := by
  intro y hy
  obtain ⟨i, hi, rfl⟩ := List.mem_iff_getElem.1 hy
  rw [List.getLast_eq_getElem]
  rcases Nat.lt_or_ge i (x.length - 1) with h | h
  · exact le_of_lt (List.pairwise_iff_getElem.1 hs i (x.length - 1) hi (by omega) h)
  · have : i = x.length - 1 := by omega
    subst this; exact le_refl _

/-- stages 4 and 5 -/
theorem applyBounds_spec {cfg : Cfg K} (wf : cfg.WF) {n : Nat} {D : Dist K} {subLen : Nat}
    {b b' : Bins K} {d d' : List K} {s s' : List (List K)} {l : List (Option Nat)}
    {rates : List (Bins K)} {m' : List Int} (h : Mapped n D subLen b d s l)
    (e : applyBounds cfg b d s (l.map enc) rates = .ok (b', d', s', m')) :
    ∃ l', m' = l'.map enc ∧ Mapped n D subLen b' d' s' l' ∧
      (SubOK s l.length → SubOK s' l'.length) ∧
      (∀ lo hi, cfg.gammaBounds = some (lo, hi) → ∀ x ∈ b'.lb,
        lo ≤ x ∧ x ≤ hi / (1 + binSizeFactor)) ∧
      (cfg.gammaBounds = none → b' = b ∧ d' = d ∧ s' = s ∧ l' = l) := by
  unfold applyBounds at e
  cases hgb : cfg.gammaBounds with
  | none =>
    simp only [hgb, pure, Except.pure, Except.ok.injEq, Prod.mk.injEq] at e
    obtain ⟨rfl, rfl, rfl, rfl⟩ := e
    exact ⟨l, rfl, h, id, by simp, fun _ => ⟨rfl, rfl, rfl, rfl⟩⟩
  | some p =>
    obtain ⟨lo, hi⟩ := p
    simp only [hgb] at e
    obtain ⟨⟨b4, m4⟩, h4, e⟩ := bind_ok_iff.1 e
    obtain ⟨idx, rfl, hp, hr, hm, hlb4, hub4⟩ :=
      removeBeyondBounds_spec (by rw [h.ublen, h.lblen]) h4
    rw [h.lblen] at hr hm
    have hri : InRange l.length (idx.map some) := inRange_some hr
    have hb4 : b4 = ⟨idx.map (b.lb.getD · 0), idx.map (b.ub.getD · 0)⟩ := by
      cases b4; simp_all
    have h4' := h.pullStep hp hr
    rw [← hb4] at h4'
    simp only [toInts_eq] at e
    rw [remap_enc_none d 0 _ (by rw [h.dlen]; exact hri) none_not_mem_some] at e
    rw [remapSubgroups_enc s _ l.length h.sne h.rowlen hri (Or.inr none_not_mem_some)] at e
    rw [combineMapping_enc l _ hri (Or.inr none_not_mem_some)] at e
    simp only [bind, Except.bind] at e
    obtain ⟨r0, -, e⟩ := bind_ok_iff.1 e
    obtain ⟨⟨b5, m5⟩, h5, e⟩ := bind_ok_iff.1 e
    obtain ⟨hb, pre, post, hpre, hpost, hlb5, hub5, rfl⟩ := addBoundaryBins_spec h5
    obtain ⟨w1, w2, w3, -⟩ := wf.bounds lo hi hgb
    set d4 := pull (idx.map some) d 0 with hd4
    set s4 := pullSub (idx.map some) s with hs4
    set l4 := comp l (idx.map some) with hl4
    have hl4len : l4.length = idx.length := by simp [hl4, comp]
    have hn4 : b4.lb.length = l4.length := h4'.lblen
    have hne4 : l4.length ≠ 0 := by
      rw [← hn4]; intro e0; exact hb (List.length_eq_zero_iff.1 e0)
    rw [hn4] at e
    have hbr : InRange l4.length _ := boundary_inRange pre post
    rw [remap_enc d4 0 _ (by rw [h4'.dlen]; exact hbr)
      (Or.inl (fun e0 => by have := h4'.dlen; rw [e0] at this; simp at this; omega))] at e
    rw [remapSubgroups_enc s4 _ l4.length h4'.sne h4'.rowlen hbr (Or.inl hne4)] at e
    rw [combineMapping_enc l4 _ hbr (Or.inl (fun e0 => hne4 (by simp [e0])))] at e
    simp only [pure, Except.pure, Except.ok.injEq, Prod.mk.injEq] at e
    obtain ⟨rfl, rfl, rfl, rfl⟩ := e
    have hc := pull_boundary pre post l4 none
    rw [show comp l4 _ = _ from hc]
    have hdd := pull_boundary pre post d4 0
    rw [h4'.dlen] at hdd
    rw [hdd]
    -- bounds of the bins inside
    have hin : ∀ x ∈ b4.lb, lo ≤ x ∧ x ≤ hi / (1 + binSizeFactor) := by
      intro x hx
      rw [hlb4] at hx
      obtain ⟨i, hi', rfl⟩ := List.mem_map.1 hx
      exact (hm i (hr i hi')).1 hi'
    have hhead := hin _ (List.head_mem hb)
    have hlast := hin _ (List.getLast_mem hb)
    have hup : 0 < hi / (1 + binSizeFactor) := lt_of_lt_of_le w1 (le_trans hhead.1 hhead.2)
    have hlo' : pre = true → ∀ x ∈ b4.lb, lo < x := by
      intro hp' x hx
      have h6 := (hpre hp').1
      have h7 : lo < b4.lb.head hb := by
        apply lt_of_log10_lt wf.lawful (h4'.pos _ (List.head_mem hb))
        linarith
      exact lt_of_lt_of_le h7 (sorted_head_le h4'.sorted hb x hx)
    have hhi' : post = true → ∀ x ∈ b4.lb, x < hi / (1 + binSizeFactor) := by
      intro hp' x hx
      have h6 := (hpost hp').1
      have h7 : b4.lb.getLast hb < hi / (1 + binSizeFactor) := by
        apply lt_of_log10_lt wf.lawful hup
        linarith
      exact lt_of_le_of_lt (sorted_le_last h4'.sorted hb x hx) h7
    set m5 := (if pre then [none] else []) ++ (List.range l4.length).map some
        ++ (if post then [none] else []) with hm5
    have hm5len : m5.length
        = ((if pre then [none] else []) ++ l4 ++ (if post then [none] else [])).length := by
      simp [hm5]
    have hs5 : pullSub m5 s4 ≠ [] := pullSub_ne_nil h4'.sne
    have hs5l : (pullSub m5 s4).length = subLen := by rw [pullSub_length, h4'.slen]
    have hs5r : ∀ r ∈ pullSub m5 s4, r.length = m5.length := pullSub_row_length
    refine ⟨_, rfl, ?_, ?_, ?_, by simp⟩
    · have e5 : b5 = ⟨b5.lb, b5.ub⟩ := rfl
      rw [e5, hlb5, hub5]
      cases pre <;> cases post
      · simp only [Bool.false_eq_true, if_false, List.nil_append, List.append_nil] at *
        refine ⟨h4'.lblen, h4'.ublen, h4'.dlen, hs5, hs5l, ?_, h4'.range, h4'.pos, h4'.sorted,
          h4'.width, h4'.new, h4'.dnn, h4'.agree⟩
        rw [← hm5len]; exact hs5r
      · simp only [Bool.false_eq_true, if_false, if_true, List.nil_append, List.append_nil] at *
        exact h4'.append hup (hhi' trivial) hs5 hs5l (by simpa [hm5len] using hs5r)
      · simp only [Bool.false_eq_true, if_false, if_true, List.nil_append, List.append_nil,
          List.cons_append] at *
        exact h4'.prepend w1 (hlo' trivial) hs5 hs5l (by simpa [hm5len] using hs5r)
      · simp only [if_true, List.nil_append, List.append_nil,
          List.cons_append] at *
        have h6 := h4'.append (s' := s4.map (fun r => r ++ [0])) hup (hhi' trivial)
          (by simpa using h4'.sne) (by simpa using h4'.slen) (by
            intro r hr'
            obtain ⟨r', hr9, rfl⟩ := List.mem_map.1 hr'
            simp [h4'.rowlen r' hr9])
        refine h6.prepend w1 ?_ hs5 hs5l (by simpa [hm5len] using hs5r)
        intro x hx
        rcases List.mem_append.1 hx with hx | hx
        · exact hlo' trivial x hx
        · rw [List.mem_singleton] at hx
          rw [hx]
          exact lt_of_lt_of_le (hlo' trivial _ (List.head_mem hb)) hhead.2
    · intro hok
      have ho4 := pullSub_ok h.sne h.rowlen hri hok
      rw [List.length_map] at ho4
      have := pullSub_ok (l := m5) h4'.sne h4'.rowlen hbr (by rw [hl4len]; exact ho4)
      rw [hm5len] at this
      exact this
    · intro lo' hi' heq x hx
      simp only [Option.some.injEq, Prod.mk.injEq] at heq
      obtain ⟨rfl, rfl⟩ := heq
      rw [hlb5] at hx
      simp only [List.mem_append] at hx
      rcases hx with (hx | hx) | hx
      · cases pre
        · simp at hx
        · simp only [if_true, List.mem_singleton] at hx
          rw [hx]
          exact ⟨le_refl _, le_trans hhead.1 hhead.2⟩
      · exact hin x hx
      · cases post
        · simp at hx
        · simp only [if_true, List.mem_singleton] at hx
          rw [hx]
          exact ⟨le_trans hhead.1 hhead.2, le_refl _⟩

end Verif.TE
