import Verif.Lemmas.Limits

/- Where every bin after a step comes from. -/

namespace Verif.TE

open Verif.Np

set_option linter.unusedSectionVars false

variable {K : Type} [Field K] [LinearOrder K] [IsStrictOrderedRing K]

theorem enc_injective : Function.Injective enc := by
  intro a b h
  cases a with
  | none => exact ((enc_eq_neg_one (o := b)).1 h.symm).symm
  | some i =>
    cases b with
    | none => exact (enc_eq_neg_one (o := some i)).1 h
    | some j => simp only [enc] at h; rw [Int.ofNat_inj.1 h]

/-- Bins `b'` with densities `d'` come from the moved bins `gm` with densities `d`: entry `j` is new
(`none`), or is moved bin `i`, or is a merged bin represented by `i`. -/
def Traced (D : Dist K) (gm : Bins K) (d : List K) (b' : Bins K) (d' : List K)
    (l : List (Option Nat)) : Prop :=
  ∀ j, j < l.length →
    (l.getD j none = none ∧ b'.ub.getD j 0 = 0 ∧ d'.getD j 0 = 0) ∨
    ∃ i, l.getD j none = some i ∧ i < gm.lb.length ∧
      ((b'.lb.getD j 0 = gm.lb.getD i 0 ∧ d'.getD j 0 = d.getD i 0 ∧
        (b'.ub.getD j 0 = gm.ub.getD i 0 ∨ b'.ub.getD j 0 = 0)) ∨
       (b'.ub.getD j 0 = 0 ∧
        (∃ lo ∈ gm.lb, ∃ hi ∈ gm.lb, lo ≤ b'.lb.getD j 0 ∧ b'.lb.getD j 0 ≤ hi) ∧
        d'.getD j 0 = D.eval (b'.lb.getD j 0)))

theorem Merged.traced {gm : Bins K} {d : List K} {D : Dist K} {b' : Bins K} {d' : List K}
    {idx : List Nat} (h : Merged gm.lb gm.ub d (some D) b' d' idx) :
    Traced D gm d b' d' (idx.map some) := by
  intro j hj
  rw [List.length_map] at hj
  right
  refine ⟨idx.getD j 0, ?_, ?_, ?_⟩
  · rw [List.getD_eq_getElem _ _ (by simpa using hj), List.getElem_map, List.getD_eq_getElem _ _ hj]
  · rw [List.getD_eq_getElem _ _ hj]; exact h.range _ (List.getElem_mem _)
  · exact h.entry j hj

/-- stages 4 and 5 only drop bins and add empty ones -/
theorem applyBounds_pull {cfg : Cfg K} {n : Nat} {D : Dist K} {subLen : Nat}
    {b b' : Bins K} {d d' : List K} {s s' : List (List K)} {l : List (Option Nat)}
    {rates : List (Bins K)} {m' : List Int} (h : Mapped n D subLen b d s l)
    (e : applyBounds cfg b d s (l.map enc) rates = .ok (b', d', s', m')) :
    ∃ l2 : List (Option Nat), m' = (comp l l2).map enc ∧ InRange l.length l2 ∧
      ∀ j, j < l2.length → match l2.getD j none with
        | none => b'.ub.getD j 0 = 0 ∧ d'.getD j 0 = 0
        | some p => b'.lb.getD j 0 = b.lb.getD p 0 ∧ b'.ub.getD j 0 = b.ub.getD p 0 ∧
            d'.getD j 0 = d.getD p 0 := by
  unfold applyBounds at e
  cases hgb : cfg.gammaBounds with
  | none =>
    simp only [hgb, pure, Except.pure, Except.ok.injEq, Prod.mk.injEq] at e
    obtain ⟨rfl, rfl, rfl, rfl⟩ := e
    refine ⟨(List.range l.length).map some, by rw [comp, pull_range], inRange_some (by simp), ?_⟩
    intro j hj
    have hj' : j < l.length := by simpa using hj
    rw [List.getD_eq_getElem _ _ hj]
    simp
  | some p =>
    obtain ⟨lo, hi⟩ := p
    simp only [hgb] at e
    obtain ⟨⟨b4, m4⟩, h4, e⟩ := bind_ok_iff.1 e
    obtain ⟨idx, rfl, hp, hr, hm, hlb4, hub4⟩ :=
      removeBeyondBounds_spec (by rw [h.ublen, h.lblen]) h4
    rw [h.lblen] at hr hm
    have hri : InRange l.length (idx.map some) := inRange_some hr
    have hb4 : b4 = ⟨idx.map (b.lb.getD · 0), idx.map (b.ub.getD · 0)⟩ := by
      cases b4; simp_all
    have h4' := h.pullStep hp hr
    rw [← hb4] at h4'
    simp only [toInts_eq] at e
    rw [remap_enc_none d 0 _ (by rw [h.dlen]; exact hri) none_not_mem_some] at e
    rw [remapSubgroups_enc s _ l.length h.sne h.rowlen hri (Or.inr none_not_mem_some)] at e
    rw [combineMapping_enc l _ hri (Or.inr none_not_mem_some)] at e
    simp only [bind, Except.bind] at e
    obtain ⟨r0, -, e⟩ := bind_ok_iff.1 e
    obtain ⟨⟨b5, m5⟩, h5, e⟩ := bind_ok_iff.1 e
    obtain ⟨hb, pre, post, -, -, hlb5, hub5, rfl⟩ := addBoundaryBins_spec h5
    set d4 := pull (idx.map some) d 0 with hd4
    set s4 := pullSub (idx.map some) s with hs4
    set l4 := comp l (idx.map some) with hl4
    have hl4len : l4.length = idx.length := by simp [hl4, comp]
    have hn4 : b4.lb.length = l4.length := h4'.lblen
    have hne4 : l4.length ≠ 0 := by
      rw [← hn4]; intro e0; exact hb (List.length_eq_zero_iff.1 e0)
    rw [hn4] at e
    have hbr : InRange l4.length _ := boundary_inRange pre post
    rw [remap_enc d4 0 _ (by rw [h4'.dlen]; exact hbr)
      (Or.inl (fun e0 => by have := h4'.dlen; rw [e0] at this; simp at this; omega))] at e
    rw [remapSubgroups_enc s4 _ l4.length h4'.sne h4'.rowlen hbr (Or.inl hne4)] at e
    rw [combineMapping_enc l4 _ hbr (Or.inl (fun e0 => hne4 (by simp [e0])))] at e
    simp only [pure, Except.pure, Except.ok.injEq, Prod.mk.injEq] at e
    obtain ⟨rfl, rfl, rfl, rfl⟩ := e
    have hc := pull_boundary pre post l4 none
    rw [show comp l4 _ = _ from hc]
    have hdd := pull_boundary pre post d4 0
    rw [h4'.dlen] at hdd
    rw [hdd]
    have hci := pull_boundary pre post (idx.map some) none
    rw [List.length_map] at hci
    refine ⟨(if pre then [none] else []) ++ idx.map some ++ (if post then [none] else []), ?_, ?_, ?_⟩
    · congr 1
      unfold comp
      rw [pull_append, pull_append]
      rw [show pull (idx.map some) l none = l4 from rfl]
      cases pre <;> cases post <;> simp [pull]
    · intro i hi
      apply hri
      cases pre <;> cases post <;> simpa using hi
    · have hub4l : b4.ub.length = idx.length := by rw [hub4]; simp
      have hlb4l : b4.lb.length = idx.length := by rw [hlb4]; simp
      have hd4l : d4.length = idx.length := by simp [hd4]
      intro j hj
      set P : List (Option Nat) := (if pre then [none] else []) with hP
      have hPl : ∀ {α : Type} (x : α), (if pre then [x] else []).length = P.length := by
        intro α x; rw [hP]; cases pre <;> rfl
      rcases Nat.lt_or_ge j P.length with h1 | h1
      · have hpt : pre = true := by
          cases pre
          · simp [hP] at h1
          · rfl
        subst hpt
        have hj0 : j = 0 := by simp [hP] at h1; exact h1
        subst hj0
        simp [hP, hub5]
      · rcases Nat.lt_or_ge j (P.length + idx.length) with h2 | h2
        · have e2 : ∀ (x y : K) (v : List K), v.length = idx.length →
              ((if pre then [x] else []) ++ v ++ (if post then [y] else [])).getD j 0
                = v.getD (j - P.length) 0 := by
            intro x y v hv
            rw [getD_append3_mid _ _ _ _ (by rw [hPl]; exact h1) (by rw [hPl, hv]; exact h2), hPl]
          rw [getD_append3_mid _ _ _ _ h1 (by simpa using h2), hlb5, hub5, e2 _ _ _ hlb4l,
            e2 _ _ _ hub4l, e2 _ _ _ hd4l]
          have h3 : j - P.length < idx.length := by omega
          rw [List.getD_eq_getElem _ _ (by simpa using h3), List.getElem_map]
          simp only
          rw [hlb4, hub4, getD_map_lt h3, getD_map_lt h3, hd4, pull_some, getD_map_lt h3]
          exact ⟨rfl, rfl, rfl⟩
        · have hpt : post = true := by
            cases post
            · simp at hj; omega
            · rfl
          subst hpt
          have hj' : j = P.length + idx.length := by simp at hj; omega
          subst hj'
          have e1 : ∀ {α : Type} (a b : List α) (x y : α), a.length + b.length = P.length + idx.length →
              (a ++ b ++ [x]).getD (P.length + idx.length) y = x := by
            intro α a b x y hl
            rw [← hl, ← List.length_append]
            rw [getD_concat _ _ _ (le_refl _)]
            simp
          simp only [if_true]
          rw [e1 _ _ _ _ (by simp), hub5, if_pos rfl, e1 _ _ _ _ (by rw [hPl, hub4l]),
            e1 _ _ _ _ (by rw [hPl, hd4l])]
          exact ⟨rfl, rfl⟩

theorem Traced.pull {D : Dist K} {gm : Bins K} {d : List K} {b b' : Bins K} {d1 d' : List K}
    {l l2 : List (Option Nat)} (h : Traced D gm d b d1 l) (hr : InRange l.length l2)
    (h2 : ∀ j, j < l2.length → match l2.getD j none with
        | none => b'.ub.getD j 0 = 0 ∧ d'.getD j 0 = 0
        | some p => b'.lb.getD j 0 = b.lb.getD p 0 ∧ b'.ub.getD j 0 = b.ub.getD p 0 ∧
            d'.getD j 0 = d1.getD p 0) : Traced D gm d b' d' (comp l l2) := by
  intro j hj
  have hj' : j < l2.length := by simpa [comp] using hj
  have := h2 j hj'
  unfold comp
  rw [pull_getD _ _ _ _ hj']
  rw [List.getD_eq_getElem _ _ hj'] at this
  cases hc : l2[j] with
  | none =>
    rw [hc] at this
    exact Or.inl ⟨rfl, this⟩
  | some p =>
    rw [hc] at this
    simp only at this
    have hp : p < l.length := hr p (hc ▸ List.getElem_mem hj')
    rw [this.1, this.2.1, this.2.2]
    exact h p hp

/-- the whole step, with the provenance of every bin -/
theorem applyTimeChanges_trace {cfg : Cfg K} (wf : cfg.WF) {n : Nat}
    {en : Bins K} {dens : List K} {sub : List (List K)} {enRates : List (Bins K)}
    {injRates : List (List K)} {t : K} (he : en.Len n) (hd : dens.length = n) (hsne : sub ≠ [])
    (hs : ∀ r ∈ sub, r.length = n) (hr : ∀ b ∈ enRates, b.Len n) (hi : ∀ r ∈ injRates, r.length = n)
    {o : StepOut K} (e : applyTimeChanges cfg en dens sub enRates injRates t = .ok o) :
    ∃ (l : List (Option Nat)) (gm : Bins K) (d : List K) (sub0 sub' : List (List K))
      (rates : List (Bins K)),
      o.mapping = l.map enc ∧ Traced o.dist gm d o.bins o.dens l ∧
      EvalOut cfg n en dens sub0 (rates.map (scaleBins t)) (injRates.map (·.map (· * t))) gm d sub' ∧
      sub0.length = sub.length ∧ (SubOK sub n → SubOK sub0 n) ∧
      (∀ b ∈ rates, b.Len n) ∧ (cfg.heun = false → sub0 = sub ∧ rates = enRates) := by
  unfold applyTimeChanges at e
  obtain ⟨⟨gm, d, s, dist, rates⟩, h1, e⟩ := bind_ok_iff.1 e
  obtain ⟨⟨b3, d3, m3⟩, h3, e⟩ := bind_ok_iff.1 e
  obtain ⟨s3, h4, e⟩ := bind_ok_iff.1 e
  obtain ⟨⟨b5, d5, s5, m5⟩, h5, e⟩ := bind_ok_iff.1 e
  dsimp only at e h3 h4 h5
  rw [pure_ok_iff] at e
  subst e
  obtain ⟨sub0, chg, ev, hsl, hsr, hok, hud, hrl, hchg, hheun⟩ :=
    applyStages12_spec wf.lawful wf.mec2 he hd hs hr hi h1
  have hDnn := updateDistribution_nonneg wf.lawful hud
  have hsne' : s ≠ [] := by
    rintro rfl
    have := ev.slen
    rw [hsl] at this
    simp at this
    exact hsne (List.length_eq_zero_iff.1 this.symm)
  have hgpos : ∀ v ∈ gm.lb, 0 < v := (forall_mem_iff_getD 0).2 (by rw [ev.len.1]; exact ev.pos)
  have hub : gm.ub.length = gm.lb.length := by rw [ev.len.1, ev.len.2]
  have hdl : d.length = gm.lb.length := by rw [ev.len.1, ev.tlen]
  obtain ⟨idx, rfl, hmg⟩ := sortAndMergeBins_spec wf.lawful hub hdl hgpos h3
  have hag := sortAndMergeBins_agree wf.lawful hub hdl hgpos ev.tnn hud h3
  have hr3 : ∀ i ∈ idx, i < n := fun i hi' => by rw [← ev.len.1]; exact hmg.range i hi'
  rw [toInts_eq, remapSubgroups_enc s _ n hsne' ev.rowlen (inRange_some hr3)
    (Or.inr none_not_mem_some)] at h4
  simp only [Except.ok.injEq] at h4
  subst h4
  have hM := hmg.mapped ev.len ev.tlen ev.pos ev.width ev.tnn hDnn hsne' hag
  rw [toInts_eq] at h5
  obtain ⟨l2, rfl, hr2, hj⟩ := applyBounds_pull hM h5
  subst hchg
  exact ⟨_, gm, d, sub0, s, rates, rfl, hmg.traced.pull hr2 hj, ev, hsl, hok, hrl, hheun⟩

end Verif.TE
