import Verif.Lemmas.Reach

/- In the non-optimised modes the stored rates are the functions applied to the stored arrays. -/

namespace Verif.TE

open Verif.Np

set_option linter.unusedSectionVars false

variable {K : Type} [Field K] [LinearOrder K] [IsStrictOrderedRing K]

theorem maskToMapping_true (n : Nat) : maskToMapping (List.replicate n true) = arange n := by
  unfold maskToMapping
  rw [List.length_replicate]
  have : List.replicate n true = List.replicate (arange n).length true := by simp [arange]
  rw [this, select_replicate_true]

theorem remapSubgroups_arange {n : Nat} {sub : List (List K)} (hs : sub ≠ [])
    (hlen : ∀ r ∈ sub, r.length = n) : remapSubgroups (arange n) sub = .ok sub := by
  rw [arange_eq, remapSubgroups_enc sub _ n hs hlen (inRange_some (by simp)) (Or.inr none_not_mem_some)]
  congr 1
  have hp : ∀ r ∈ sub, ∀ d : K, pull ((List.range n).map some) r d = r := by
    intro r hr d
    rw [← hlen r hr, pull_range]
  cases sub with
  | nil => exact absurd rfl hs
  | cons r0 rs =>
    simp only [pullSub]
    rw [hp r0 (by simp)]
    congr 1
    conv_rhs => rw [← List.map_id rs]
    apply List.map_congr_left
    intro r hr
    exact hp r (by simp [hr]) 0

theorem params1_true {n : Nat} {g dens : List K} {sub : List (List K)} (hg : g.length = n)
    (hd : dens.length = n) (hs : sub ≠ []) (hlen : ∀ r ∈ sub, r.length = n) :
    params1 g dens sub (List.replicate n true) = .ok ⟨g, dens, sub⟩ := by
  unfold params1
  rw [maskToMapping_true, remapSubgroups_arange hs hlen]
  have h1 : select (List.replicate n true) g = g := by rw [← hg]; exact select_replicate_true g
  have h2 : select (List.replicate n true) dens = dens := by rw [← hd]; exact select_replicate_true _
  rw [h1, h2]
  rfl

theorem params2_true {n : Nat} {b : Bins K} {dens : List K} {sub : List (List K)} (hb : b.Len n)
    (hd : dens.length = n) (hs : sub ≠ []) (hlen : ∀ r ∈ sub, r.length = n) :
    params2 b dens sub (List.replicate n true) = .ok ⟨interlace b, dens, sub⟩ := by
  unfold params2
  rw [maskToMapping_true, remapSubgroups_arange hs hlen]
  have h1 : select (List.replicate n true) b.lb = b.lb := by
    rw [← hb.1]; exact select_replicate_true _
  have h3 : select (List.replicate n true) b.ub = b.ub := by
    rw [← hb.2]; exact select_replicate_true _
  have h2 : select (List.replicate n true) dens = dens := by rw [← hd]; exact select_replicate_true _
  rw [h1, h2, h3]
  rfl

theorem interlace_length {n : Nat} {b : Bins K} (hb : b.Len n) : (interlace b).length = 2 * n := by
  obtain ⟨lb, ub⟩ := b
  obtain ⟨h1, h2⟩ := hb
  simp only at h1 h2
  unfold interlace
  simp only
  induction n generalizing lb ub with
  | zero =>
    have := List.length_eq_zero_iff.1 h1
    subst this; simp
  | succ n ih =>
    cases lb with
    | nil => simp at h1
    | cons x lb =>
      cases ub with
      | nil => simp at h2
      | cons y ub =>
        simp only [List.length_cons, Nat.add_right_cancel_iff] at h1 h2
        have := ih lb ub h1 h2
        simp only [List.zipWith_cons_cons, List.flatten_cons, List.length_append, this]
        simp; omega

theorem interlace_getD {n : Nat} {b : Bins K} (hb : b.Len n) (j : Nat) (hj : j < n) :
    (interlace b).getD (2 * j) 0 = b.lb.getD j 0 ∧ (interlace b).getD (2 * j + 1) 0 = b.ub.getD j 0 := by
  obtain ⟨lb, ub⟩ := b
  obtain ⟨h1, h2⟩ := hb
  simp only at h1 h2 ⊢
  unfold interlace
  simp only
  induction n generalizing lb ub j with
  | zero => omega
  | succ n ih =>
    cases lb with
    | nil => simp at h1
    | cons x lb =>
      cases ub with
      | nil => simp at h2
      | cons y ub =>
        simp only [List.length_cons, Nat.add_right_cancel_iff] at h1 h2
        simp only [List.zipWith_cons_cons, List.flatten_cons]
        cases j with
        | zero => simp
        | succ j =>
          have := ih j (by omega) lb ub h1 h2
          have e : 2 * (j + 1) = (2 * j).succ.succ := by omega
          rw [e]
          simpa using this

theorem deinterlace_getD (l : List K) (j : Nat) (n : Nat) (hl : l.length = 2 * n) (hj : j < n) :
    (deinterlace l).1.getD j 0 = l.getD (2 * j) 0 ∧
      (deinterlace l).2.getD j 0 = l.getD (2 * j + 1) 0 := by
  induction n generalizing l j with
  | zero => omega
  | succ n ih =>
    match l, hl with
    | a :: b :: r, hl =>
      simp only [List.length_cons] at hl
      cases j with
      | zero => simp [deinterlace]
      | succ j =>
        have := ih r j (by omega) (by omega)
        have e : 2 * (j + 1) = (2 * j).succ.succ := by omega
        rw [e]
        simpa [deinterlace] using this
    | [a], h => simp at h; omega
    | [], h => simp at h

/-- `newRates1` spelled out -/
theorem newRates1_eq {n : Nat} {dist : Dist K} {g : List K} {fns : List (String × GammaFn K)}
    {dens : List K} {sub : List (List K)} {r : Rates1 K} (hg : g.length = n)
    (hd : dens.length = n) (hs : sub ≠ []) (hlen : ∀ r ∈ sub, r.length = n)
    (h : newRates1 dist g fns dens sub = .ok r) :
    r = fns.map (fun f => (f.1, (f.2 dist ⟨g, dens, sub⟩).map some)) ∧
      ∀ f ∈ fns, (f.2 dist ⟨g, dens, sub⟩).length = n := by
  unfold newRates1 at h
  rw [hg, params1_true hg hd hs hlen] at h
  simp only [bind, Except.bind] at h
  have key : List.Forall₂ (fun (f : String × GammaFn K) p => (p = (f.1, (f.2 dist ⟨g, dens, sub⟩).map some)) ∧
      (f.2 dist ⟨g, dens, sub⟩).length = n) fns r := by
    refine forall₂_left h ?_
    intro f hf b hb
    obtain ⟨new, hn, hb⟩ := bind_ok_iff.1 hb
    rw [pure_ok_iff] at hb
    obtain ⟨rfl, hnl⟩ := reshape1_spec hn
    exact ⟨hb.symm, hnl⟩
  clear h
  constructor
  · induction key with
    | nil => rfl
    | cons hab _ ih => simp only [List.map_cons]; rw [← ih, hab.1]
  · induction key with
    | nil => simp
    | cons hab _ ih =>
      intro f hf
      rcases List.mem_cons.1 hf with rfl | hf
      · exact hab.2
      · exact ih f hf

theorem newRates2_eq {n : Nat} {dist : Dist K} {b : Bins K} {fns : List (String × GammaFn K)}
    {dens : List K} {sub : List (List K)} {r : Rates2 K} (hg : b.Len n)
    (hd : dens.length = n) (hs : sub ≠ []) (hlen : ∀ r ∈ sub, r.length = n)
    (h : newRates2 dist b fns dens sub = .ok r) :
    r = fns.map (fun f => (f.1, ⟨(deinterlace (f.2 dist ⟨interlace b, dens, sub⟩)).1.map some,
        (deinterlace (f.2 dist ⟨interlace b, dens, sub⟩)).2.map some⟩)) ∧
      ∀ f ∈ fns, (f.2 dist ⟨interlace b, dens, sub⟩).length = 2 * n := by
  unfold newRates2 at h
  rw [hg.1, params2_true hg hd hs hlen] at h
  simp only [bind, Except.bind] at h
  have key : List.Forall₂ (fun (f : String × GammaFn K) p =>
      (p = (f.1, (⟨(deinterlace (f.2 dist ⟨interlace b, dens, sub⟩)).1.map some,
        (deinterlace (f.2 dist ⟨interlace b, dens, sub⟩)).2.map some⟩ : Bins (NV K)))) ∧
      (f.2 dist ⟨interlace b, dens, sub⟩).length = 2 * n) fns r := by
    refine forall₂_left h ?_
    intro f hf c hb
    obtain ⟨new, hn, hb⟩ := bind_ok_iff.1 hb
    rw [pure_ok_iff] at hb
    unfold reshape2 at hn
    split at hn
    · next hl =>
      simp only [Except.ok.injEq] at hn
      subst hn
      exact ⟨hb.symm, hl⟩
    · simp at hn
  clear h
  constructor
  · induction key with
    | nil => rfl
    | cons hab _ ih => simp only [List.map_cons]; rw [← ih, hab.1]
  · induction key with
    | nil => simp
    | cons hab _ ih =>
      intro f hf
      rcases List.mem_cons.1 hf with rfl | hf
      · exact hab.2
      · exact ih f hf

/-- with an all-true mask the recalculation ignores the previous rates -/
theorem recalcRates1_true {n : Nat} {dist : Dist K} {g : List K} {fns : List (String × GammaFn K)}
    {dens : List K} {sub : List (List K)} {prev r : Rates1 K} (hg : g.length = n)
    (hprev : ∀ f ∈ fns, ∃ v, prev.lookup f.1 = some v ∧ v.length = n)
    (h : recalcRates1 dist g fns dens sub prev (List.replicate n true) = .ok r) :
    newRates1 dist g fns dens sub = .ok r := by
  unfold recalcRates1 at h
  unfold newRates1
  rw [hg]
  obtain ⟨p, hp, h⟩ := bind_ok_iff.1 h
  rw [bind_ok_iff]
  refine ⟨p, hp, ?_⟩
  rw [mapM_ok_iff] at h ⊢
  rw [List.forall₂_iff_get] at h ⊢
  refine ⟨h.1, fun i h1 h2 => ?_⟩
  have := h.2 i h1 h2
  obtain ⟨old, ho, hb⟩ := bind_ok_iff.1 this
  obtain ⟨new, hn, hb⟩ := bind_ok_iff.1 hb
  obtain ⟨v, hv, hvl⟩ := hprev _ (List.getElem_mem h1)
  rw [dictGet_ok, show fns.get ⟨i, h1⟩ = fns[i] from rfl, hv] at ho
  simp only [Option.some.injEq] at ho
  subst ho
  rw [show countMask (List.replicate n true) = n by simp [countMask]] at hn
  obtain ⟨rfl, hnl⟩ := reshape1_spec hn
  rw [bind_ok_iff]
  refine ⟨_, hn, ?_⟩
  rw [scatter_replicate_true (by simpa using hnl) hvl] at hb
  exact hb

theorem recalcRates2_true {n : Nat} {dist : Dist K} {b : Bins K} {fns : List (String × GammaFn K)}
    {dens : List K} {sub : List (List K)} {prev r : Rates2 K} (hg : b.lb.length = n)
    (hprev : ∀ f ∈ fns, ∃ v, prev.lookup f.1 = some v ∧ v.Len n)
    (h : recalcRates2 dist b fns dens sub prev (List.replicate n true) = .ok r) :
    newRates2 dist b fns dens sub = .ok r := by
  unfold recalcRates2 at h
  unfold newRates2
  rw [hg]
  obtain ⟨p, hp, h⟩ := bind_ok_iff.1 h
  rw [bind_ok_iff]
  refine ⟨p, hp, ?_⟩
  rw [mapM_ok_iff] at h ⊢
  rw [List.forall₂_iff_get] at h ⊢
  refine ⟨h.1, fun i h1 h2 => ?_⟩
  have := h.2 i h1 h2
  obtain ⟨old, ho, hb⟩ := bind_ok_iff.1 this
  obtain ⟨new, hn, hb⟩ := bind_ok_iff.1 hb
  obtain ⟨v, hv, hvl⟩ := hprev _ (List.getElem_mem h1)
  rw [dictGet_ok, show fns.get ⟨i, h1⟩ = fns[i] from rfl, hv] at ho
  simp only [Option.some.injEq] at ho
  subst ho
  rw [show countMask (List.replicate n true) = n by simp [countMask]] at hn
  obtain ⟨hnl, -, -⟩ := reshape2_spec hn
  rw [bind_ok_iff]
  refine ⟨_, hn, ?_⟩
  rw [scatter_replicate_true (by simpa using hnl.1) hvl.1,
    scatter_replicate_true (by simpa using hnl.2) hvl.2] at hb
  exact hb

/-- the stored rates are those of the stored arrays, and the bins have the standard width -/
structure Fresh (cfg : Cfg K) (s : State K) : Prop where
  en : newRates2 s.dist s.bins cfg.enFns s.dens s.sub = .ok s.en
  rel : newRates1 s.dist s.bins.lb cfg.relFns s.dens s.sub = .ok s.rel
  abs : newRates1 s.dist s.bins.lb cfg.absFns s.dens s.sub = .ok s.abs
  ub : s.bins.ub = s.bins.lb.map (· * (1 + binSizeFactor))

theorem updateBinUb_true {b : Bins K} {n : Nat} (hb : b.Len n) :
    updateBinUb b (List.replicate n true) = ⟨b.lb, b.lb.map (· * (1 + binSizeFactor))⟩ := by
  unfold updateBinUb
  have h1 : select (List.replicate n true) b.lb = b.lb := by
    rw [← hb.1]; exact select_replicate_true _
  rw [h1, scatter_replicate_true (by simpa using hb.1) hb.2]

theorem initState_fresh {cfg : Cfg K} {dist : Dist K} {s : State K} (h : initState cfg dist = .ok s) :
    Fresh cfg s := by
  obtain ⟨sub, h1, e1, e2, e3, h2, h3, h4, e4, e5, e6⟩ := initState_parts h
  have hb : s.bins = ⟨cfg.initialGamma, cfg.initialGamma.map (· * (1 + binSizeFactor))⟩ := by
    rw [e1, updateBinUb_true ⟨rfl, by simp⟩]
  have hlb : s.bins.lb = cfg.initialGamma := by rw [hb]
  refine ⟨by rw [e6, e3]; exact h2, by rw [e6, e3, hlb]; exact h3, by rw [e6, e3, hlb]; exact h4, ?_⟩
  rw [hb]

theorem lookup_len1 {fns : List (String × GammaFn K)} {n : Nat} {mask : List Bool} {r : Rates1 K}
    (hnd : (fns.map Prod.fst).Nodup)
    (h : List.Forall₂ (fun f p => p.1 = f.1 ∧ GoodOff n mask f.2 p.2) fns r) :
    ∀ f ∈ fns, ∃ v, r.lookup f.1 = some v ∧ v.length = n := by
  intro f hf
  obtain ⟨v, hv, hp⟩ := lookup_forall₂ (P := fun f (v : List (NV K)) => GoodOff n mask f.2 v) h hnd f hf
  exact ⟨v, hv, hp.1⟩

theorem lookup_len2 {fns : List (String × GammaFn K)} {n : Nat} {mask : List Bool} {r : Rates2 K}
    (hnd : (fns.map Prod.fst).Nodup)
    (h : List.Forall₂ (fun f p => p.1 = f.1 ∧ (GoodOff n mask f.2 p.2.lb ∧ GoodOff n mask f.2 p.2.ub))
      fns r) :
    ∀ f ∈ fns, ∃ v, r.lookup f.1 = some v ∧ v.Len n := by
  intro f hf
  obtain ⟨v, hv, hp⟩ := lookup_forall₂ (P := fun f (v : Bins (NV K)) => GoodOff n mask f.2 v.lb ∧
    GoodOff n mask f.2 v.ub) h hnd f hf
  exact ⟨v, hv, hp.1.1, hp.2.1⟩

/-- shape of one successful step (used by several properties) -/
theorem step_mapped {cfg : Cfg K} (wf : cfg.WF) {s s' : State K} (hI : Inv cfg s)
    (hg : s.elapsed < cfg.totalTime) (h : step cfg s = .ok s') :
    ∃ enG relG absG inj t0 left o l left' mask,
      groupRates cfg s = .ok (enG, relG, absG) ∧
      totalInjection s.dens s.sub relG absG = .ok inj ∧
      chooseStep cfg s enG relG absG = .ok (t0, left) ∧
      applyTimeChanges cfg (toErg cfg s.bins) s.dens s.sub enG inj (truncStep cfg s.elapsed t0) = .ok o ∧
      recalcMask cfg left (truncStep cfg s.elapsed t0) o = .ok (left', mask) ∧
      refresh cfg s (truncStep cfg s.elapsed t0) o left' mask = .ok s' ∧
      StepLen s enG relG absG ∧ (∀ r ∈ inj, r.length = s.bins.lb.length) ∧
      o.mapping = l.map enc ∧ Mapped s.bins.lb.length o.dist s.sub.length o.bins o.dens o.sub l ∧
      mask.length = l.length ∧
      (∀ j (h : j < l.length) (h' : j < mask.length), l[j] = none → mask[j] = true) ∧
      (cfg.optimize = false → mask = List.replicate l.length true) := by
  obtain ⟨enG, relG, absG, inj, t0, left, t, o, left', mask, h1, h2, h3, rfl, h4, h5, h6⟩ :=
    step_parts h
  obtain ⟨g1, g2, g3⟩ := groupRates_len rfl hI.en.len hI.rel.len hI.abs.len h1
  have hlen : s.bins.Len s.bins.lb.length := ⟨rfl, hI.ublen⟩
  have hinj := totalInjection_len hI.denslen hI.sublen g2 g3 h2
  obtain ⟨c1, c2, c3⟩ := chooseStep_spec wf hI ⟨g1, g2, g3⟩ h3
  obtain ⟨l, hmap, hM, hsub, hbd, hDnn⟩ :=
    applyTimeChanges_spec wf (toErg_len hlen) hI.denslen hI.subne hI.sublen g1 hinj h4
  obtain ⟨m1, m2, m3, m4⟩ := recalcMask_spec hmap hM.range hM.ublen hM.dlen (fun ho => by
    obtain ⟨a, b⟩ := c3 ho
    exact ⟨a, fun x hx => le_trans (truncStep_le_t _ _ _) (b x hx),
      truncStep_pos (c2 (wf.optAuto ho)) hg⟩) h5
  refine ⟨enG, relG, absG, inj, t0, left, o, l, left', mask, h1, h2, h3, h4, h5, h6, ⟨g1, g2, g3⟩, hinj,
    hmap, hM, m1, ?_, fun ho => (m4 ho).1⟩
  intro j hj hj' hn
  refine m2 j hj' (hM.new j hj ?_)
  rw [List.getD_eq_getElem _ _ hj, hn]

theorem step_fresh {cfg : Cfg K} (wf : cfg.WF) (hopt : cfg.optimize = false) {s s' : State K}
    (hI : Inv cfg s) (hg : s.elapsed < cfg.totalTime) (h : step cfg s = .ok s') : Fresh cfg s' := by
  obtain ⟨_, _, _, _, _, _, o, l, left', mask, -, -, -, -, -, h6, -, -, hmap, hM, m1, hnew, m4⟩ :=
    step_mapped wf hI hg h
  have hmask := m4 hopt
  obtain ⟨pe, pa, pr, r1, r2, r3, r4, r5, r6, e1, e2, e3, e4, e5, e6⟩ := refresh_parts h6
  rw [hmap] at r1 r2 r3
  have q1 := remapRates2_good hI.en hM.range hnew r1
  have q2 := remapRates1_good hI.abs hM.range hnew r2
  have q3 := remapRates1_good hI.rel hM.range hnew r3
  have hb : s'.bins = ⟨o.bins.lb, o.bins.lb.map (· * (1 + binSizeFactor))⟩ := by
    rw [e1, hmask, updateBinUb_true ⟨hM.lblen, hM.ublen⟩]
  have hlb : s'.bins.lb = o.bins.lb := by rw [hb]
  rw [hmask] at r4 r5 r6
  refine ⟨?_, ?_, ?_, by rw [hb]⟩
  · rw [e6, e2, e3, e1, hmask]
    exact recalcRates2_true hM.lblen (lookup_len2 wf.keysEn q1) r4
  · rw [e6, e2, e3, hlb]
    exact recalcRates1_true hM.lblen (lookup_len1 wf.keysRel q3) r6
  · rw [e6, e2, e3, hlb]
    exact recalcRates1_true hM.lblen (lookup_len1 wf.keysAbs q2) r5

theorem reach_fresh {cfg : Cfg K} (wf : cfg.WF) (hopt : cfg.optimize = false) {dist : Dist K}
    (hnn : ∀ x, 0 ≤ dist.eval x) {s : State K} (h : Reach cfg dist s) : Fresh cfg s := by
  cases h with
  | init h => exact initState_fresh h
  | step hr hg hs => exact step_fresh wf hopt (reach_inv wf hnn hr).1 hg hs

end Verif.TE
