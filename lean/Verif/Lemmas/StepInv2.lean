import Verif.Lemmas.StepInv

/- Stages 1-3 of a step, and the whole of `applyTimeChanges`. -/

namespace Verif.TE

open Verif.Np

set_option linter.unusedSectionVars false

variable {K : Type} [Field K] [LinearOrder K] [IsStrictOrderedRing K]

theorem scaleBins_len {n : Nat} {t : K} {b : Bins K} (h : b.Len n) : (scaleBins t b).Len n :=
  ⟨by simp [scaleBins, h.1], by simp [scaleBins, h.2]⟩

theorem averageBins_len {n : Nat} {a b : Bins K} (h : a.Len n) (h' : b.Len n) :
    (averageBins a b).Len n :=
  ⟨by simp [averageBins, h.1, h'.1], by simp [averageBins, h.2, h'.2]⟩

theorem EvalOut.subOK {cfg : Cfg K} {n : Nat} {en : Bins K} {dens : List K} {sub : List (List K)}
    {chg : List (Bins K)} {inj : List (List K)} {gm : Bins K} {total : List K} {sub' : List (List K)}
    (h : EvalOut cfg n en dens sub chg inj gm total sub') (hs : SubOK sub n) : SubOK sub' n :=
  ⟨h.subnn hs.1, h.subsum hs.2⟩

/-- stages 1 and 2: the result is one explicit update (`EvalOut`) -/
theorem applyStages12_spec {cfg : Cfg K} (hl : cfg.num.Lawful) (hm : 0 < cfg.mec2) {n : Nat}
    {en : Bins K} {dens : List K} {sub : List (List K)} {enRates : List (Bins K)}
    {injRates : List (List K)} {t : K} (he : en.Len n) (hd : dens.length = n)
    (hs : ∀ r ∈ sub, r.length = n) (hr : ∀ b ∈ enRates, b.Len n) (hi : ∀ r ∈ injRates, r.length = n)
    {gm : Bins K} {d : List K} {s : List (List K)} {dist : Dist K} {rates : List (Bins K)}
    (e : applyStages12 cfg en dens sub enRates injRates t = .ok (gm, d, s, dist, rates)) :
    ∃ (sub0 : List (List K)) (chg : List (Bins K)),
      EvalOut cfg n en dens sub0 chg (injRates.map (·.map (· * t))) gm d s ∧
      sub0.length = sub.length ∧ (∀ r ∈ sub0, r.length = n) ∧ (SubOK sub n → SubOK sub0 n) ∧
      updateDistribution cfg.num gm d = .ok dist ∧
      (∀ b ∈ rates, b.Len n) ∧ chg = rates.map (scaleBins t) ∧
      (cfg.heun = false → sub0 = sub ∧ rates = enRates) := by
  unfold applyStages12 at e
  obtain ⟨⟨gm1, d1, sub1⟩, h1, e⟩ := bind_ok_iff.1 e
  obtain ⟨dist1, h2, e⟩ := bind_ok_iff.1 e
  dsimp only at e h1 h2
  have hinj : ∀ r ∈ injRates.map (·.map (· * t)), r.length = n := by
    intro r hr'
    obtain ⟨r', hr'', rfl⟩ := List.mem_map.1 hr'
    simp [hi r' hr'']
  have ev1 := applyTimeEval_spec hl hm he hd hs (by
    intro b hb
    obtain ⟨b', hb', rfl⟩ := List.mem_map.1 hb
    exact scaleBins_len (hr b' hb')) hinj h1
  split at e
  · next hh =>
    obtain ⟨r, h3, e⟩ := bind_ok_iff.1 e
    obtain ⟨rec, h4, e⟩ := bind_ok_iff.1 e
    obtain ⟨⟨gm2, d2, sub2⟩, h5, e⟩ := bind_ok_iff.1 e
    obtain ⟨dist2, h6, e⟩ := bind_ok_iff.1 e
    dsimp only at e h5 h6
    rw [pure_ok_iff] at e
    simp only [Prod.mk.injEq] at e
    obtain ⟨rfl, rfl, rfl, rfl, rfl⟩ := e
    have hr2 := (newRates2_spec h3).len
    rw [ev1.len.1] at hr2 h4
    have hrec : ∀ b ∈ rec, b.Len n :=
      mapM_forall_mem h4 (fun a ha b hb => finiteBins_len (sumRates2_len hr2 cfg.subgroups a ha) hb)
    have havg : ∀ b ∈ List.zipWith averageBins enRates rec, b.Len n := by
      intro b hb
      obtain ⟨k, hk, rfl⟩ := List.mem_iff_getElem.1 hb
      rw [List.getElem_zipWith]
      exact averageBins_len (hr _ (List.getElem_mem _)) (hrec _ (List.getElem_mem _))
    have ev2 := applyTimeEval_spec hl hm he hd ev1.rowlen (by
      intro b hb
      obtain ⟨b', hb', rfl⟩ := List.mem_map.1 hb
      exact scaleBins_len (havg b' hb')) hinj h5
    exact ⟨sub1, _, ev2, ev1.slen, ev1.rowlen, ev1.subOK, h6, havg, rfl, by simp [hh]⟩
  · next hh =>
    rw [pure_ok_iff] at e
    simp only [Prod.mk.injEq] at e
    obtain ⟨rfl, rfl, rfl, rfl, rfl⟩ := e
    exact ⟨sub, _, ev1, rfl, hs, id, h2, hr, rfl, fun _ => ⟨rfl, rfl⟩⟩

theorem Merged.mapped {n : Nat} {D : Dist K} {gm : Bins K} {d : List K} (hg : gm.Len n)
    (hd : d.length = n) (hpos : ∀ j, j < n → 0 < gm.lb.getD j 0)
    (hw : ∀ j, j < n → gm.lb.getD j 0 < gm.ub.getD j 0) (hnn : ∀ x ∈ d, 0 ≤ x)
    (hD : ∀ x, 0 ≤ D.eval x) {b' : Bins K} {d' : List K} {idx : List Nat} {s : List (List K)}
    (hs : s ≠ []) (h : Merged gm.lb gm.ub d (some D) b' d' idx) (ha : Agree D b'.lb d') :
    Mapped n D s.length b' d' (pullSub (idx.map some) s) (idx.map some) := by
  have hr : ∀ i ∈ idx, i < n := fun i hi => by rw [← hg.1]; exact h.range i hi
  refine ⟨by simp [h.len_lb], by simp [h.len_ub], by simp [h.len_d], pullSub_ne_nil hs,
    pullSub_length _ _, fun r hr' => pullSub_row_length r hr', inRange_some hr,
    h.pos ((forall_mem_iff_getD 0).2 (by rw [hg.1]; exact hpos)), h.sorted, ?_, ?_,
    h.nonneg (by rw [hd, hg.1]) hnn hD, ha⟩
  · intro j hj
    rw [List.length_map] at hj
    have hj' : idx.getD j 0 < n := by
      rw [List.getD_eq_getElem _ _ hj]; exact hr _ (List.getElem_mem _)
    rcases h.entry j hj with ⟨h1, -, h2 | h2⟩ | ⟨h1, -⟩
    · right; rw [h1, h2]; exact hw _ hj'
    · exact Or.inl h2
    · exact Or.inl h1
  · intro j hj hnone
    rw [List.getD_eq_getElem _ _ hj] at hnone
    simp at hnone

/-- the whole step -/
theorem applyTimeChanges_spec {cfg : Cfg K} (wf : cfg.WF) {n : Nat}
    {en : Bins K} {dens : List K} {sub : List (List K)} {enRates : List (Bins K)}
    {injRates : List (List K)} {t : K} (he : en.Len n) (hd : dens.length = n) (hsne : sub ≠ [])
    (hs : ∀ r ∈ sub, r.length = n) (hr : ∀ b ∈ enRates, b.Len n) (hi : ∀ r ∈ injRates, r.length = n)
    {o : StepOut K} (e : applyTimeChanges cfg en dens sub enRates injRates t = .ok o) :
    ∃ l, o.mapping = l.map enc ∧ Mapped n o.dist sub.length o.bins o.dens o.sub l ∧
      (SubOK sub n → SubOK o.sub l.length) ∧
      (∀ lo hi, cfg.gammaBounds = some (lo, hi) → ∀ x ∈ o.bins.lb,
        lo ≤ x ∧ x ≤ hi / (1 + binSizeFactor)) ∧
      (∀ x, 0 ≤ o.dist.eval x) := by
  unfold applyTimeChanges at e
  obtain ⟨⟨gm, d, s, dist, rates⟩, h1, e⟩ := bind_ok_iff.1 e
  obtain ⟨⟨b3, d3, m3⟩, h3, e⟩ := bind_ok_iff.1 e
  obtain ⟨s3, h4, e⟩ := bind_ok_iff.1 e
  obtain ⟨⟨b5, d5, s5, m5⟩, h5, e⟩ := bind_ok_iff.1 e
  dsimp only at e h3 h4 h5
  rw [pure_ok_iff] at e
  subst e
  obtain ⟨sub0, chg, ev, hsl, hsr, hok, hud, -⟩ :=
    applyStages12_spec wf.lawful wf.mec2 he hd hs hr hi h1
  have hDnn := updateDistribution_nonneg wf.lawful hud
  have hsne' : s ≠ [] := by
    rintro rfl
    have := ev.slen
    rw [hsl] at this
    simp at this
    exact hsne (List.length_eq_zero_iff.1 this.symm)
  have hgpos : ∀ v ∈ gm.lb, 0 < v := (forall_mem_iff_getD 0).2 (by rw [ev.len.1]; exact ev.pos)
  have hub : gm.ub.length = gm.lb.length := by rw [ev.len.1, ev.len.2]
  have hdl : d.length = gm.lb.length := by rw [ev.len.1, ev.tlen]
  obtain ⟨idx, rfl, hmg⟩ := sortAndMergeBins_spec wf.lawful hub hdl hgpos h3
  have hag := sortAndMergeBins_agree wf.lawful hub hdl hgpos ev.tnn hud h3
  have hr3 : ∀ i ∈ idx, i < n := fun i hi' => by rw [← ev.len.1]; exact hmg.range i hi'
  rw [toInts_eq, remapSubgroups_enc s _ n hsne' ev.rowlen (inRange_some hr3)
    (Or.inr none_not_mem_some)] at h4
  simp only [Except.ok.injEq] at h4
  subst h4
  have hM := hmg.mapped ev.len ev.tlen ev.pos ev.width ev.tnn hDnn hsne' hag
  rw [toInts_eq] at h5
  obtain ⟨l', rfl, hM', hsub', hb', -⟩ := applyBounds_spec wf hM h5
  rw [ev.slen, hsl] at hM'
  refine ⟨l', rfl, hM', ?_, hb', hDnn⟩
  intro hso
  apply hsub'
  exact pullSub_ok hsne' ev.rowlen (inRange_some hr3) (ev.subOK (hok hso))

/-! ### injection, grouped rates -/

theorem bcastRows_forall {α β γ : Type} {f : α → β → γ} {a : List α} {b : List β} {r : List γ}
    {P : α → Prop} {Q : β → Prop} {R : γ → Prop} (h : bcastRows f a b = .ok r) (ha : ∀ x ∈ a, P x)
    (hb : ∀ x ∈ b, Q x) (hf : ∀ x y, P x → Q y → R (f x y)) : ∀ x ∈ r, R x := by
  unfold bcastRows at h
  split at h
  · simp only [Except.ok.injEq] at h
    subst h
    intro x hx
    obtain ⟨k, hk, rfl⟩ := List.mem_iff_getElem.1 hx
    rw [List.getElem_zipWith]
    exact hf _ _ (ha _ (List.getElem_mem _)) (hb _ (List.getElem_mem _))
  · split at h
    · simp only [Except.ok.injEq] at h
      subst h
      intro x hx
      obtain ⟨y, hy, rfl⟩ := List.mem_map.1 hx
      exact hf _ _ (ha _ (by simp)) (hb _ hy)
    · simp only [Except.ok.injEq] at h
      subst h
      intro x hx
      obtain ⟨y, hy, rfl⟩ := List.mem_map.1 hx
      exact hf _ _ (ha _ hy) (hb _ (by simp))
    · simp at h

theorem totalInjection_len {n : Nat} {dens : List K} {sub relG absG inj : List (List K)}
    (hd : dens.length = n) (hs : ∀ r ∈ sub, r.length = n) (hr : ∀ r ∈ relG, r.length = n)
    (ha : ∀ r ∈ absG, r.length = n) (h : totalInjection dens sub relG absG = .ok inj) :
    ∀ r ∈ inj, r.length = n := by
  unfold totalInjection at h
  obtain ⟨x, hx, h⟩ := bind_ok_iff.1 h
  have hx' : ∀ r ∈ x, r.length = n := by
    refine bcastRows_forall (P := fun r => r.length = n) (Q := fun r => r.length = n) hx ?_ hr ?_
    · intro r hr'
      obtain ⟨y, hy, rfl⟩ := List.mem_map.1 hr'
      simp [mulRow, hd, hs y hy]
    · intro a b h1 h2; simp [mulRow, h1, h2]
  exact bcastRows_forall (P := fun r => r.length = n) (Q := fun r => r.length = n) h hx' ha
    (fun a b h1 h2 => by simp [h1, h2])

theorem groupRates_len {cfg : Cfg K} {s : State K} {n : Nat} (hn : s.bins.lb.length = n)
    (h2 : ∀ p ∈ s.en, p.2.Len n) (h1 : ∀ p ∈ s.rel, p.2.length = n) (h0 : ∀ p ∈ s.abs, p.2.length = n)
    {enG : List (Bins K)} {relG absG : List (List K)} (h : groupRates cfg s = .ok (enG, relG, absG)) :
    (∀ b ∈ enG, b.Len n) ∧ (∀ r ∈ relG, r.length = n) ∧ (∀ r ∈ absG, r.length = n) := by
  unfold groupRates at h
  dsimp only at h
  rw [hn] at h
  obtain ⟨e1, g1, h⟩ := bind_ok_iff.1 h
  obtain ⟨e2, g2, h⟩ := bind_ok_iff.1 h
  obtain ⟨e3, g3, h⟩ := bind_ok_iff.1 h
  rw [pure_ok_iff] at h
  simp only [Prod.mk.injEq] at h
  obtain ⟨rfl, rfl, rfl⟩ := h
  refine ⟨mapM_forall_mem g1 (fun a ha b hb => finiteBins_len (sumRates2_len h2 cfg.subgroups a ha) hb),
    mapM_forall_mem g2 (fun a ha b hb => ?_), mapM_forall_mem g3 (fun a ha b hb => ?_)⟩
  · rw [finiteRow_length hb, sumRates1_len h1 cfg.subgroups a ha]
  · rw [finiteRow_length hb, sumRates1_len h0 cfg.subgroups a ha]

end Verif.TE
