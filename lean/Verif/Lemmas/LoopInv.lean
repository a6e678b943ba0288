import Mathlib.Tactic.Positivity
import Verif.Lemmas.StepInv2

/- The invariant is preserved by one turn of the loop, holds initially, hence at every moment. -/

namespace Verif.TE

open Verif.Np

set_option linter.unusedSectionVars false

variable {K : Type} [Field K] [LinearOrder K] [IsStrictOrderedRing K]

theorem gather_nil {α : Type} {m : List Int} {r : List α} (h : gather ([] : List α) m = .ok r) :
    m = [] := by
  cases m with
  | nil => rfl
  | cons a m =>
    exfalso
    have hl := gather_length h
    obtain ⟨j, -, hj, -⟩ := gather_getElem h 0 (by simp) (by rw [hl]; simp)
    simp at hj

theorem remap_enc_ok {α : Type} {v r : List α} {d : α} {l : List (Option Nat)}
    (h : InRange v.length l) (e : remap (l.map enc) v (some d) = .ok r) : r = pull l v d := by
  by_cases hne : v ≠ [] ∨ none ∉ l
  · rw [remap_enc v d l h hne] at e
    simpa using e.symm
  · exfalso
    simp only [not_or, not_not] at hne
    obtain ⟨rfl, hn⟩ := hne
    unfold remap at e
    obtain ⟨x, hx, -⟩ := bind_ok_iff.1 e
    have := gather_nil hx
    simp only [List.map_eq_nil_iff] at this
    subst this
    simp at hn

theorem forall₂_mapM {α β γ : Type} {f : β → Except Err γ} {R : α → β → Prop} {S : α → γ → Prop}
    {l : List α} {r : List β} {r' : List γ} (h : List.Forall₂ R l r) (hm : r.mapM f = .ok r')
    (hs : ∀ a b c, R a b → f b = .ok c → S a c) : List.Forall₂ S l r' := by
  have h2 := mapM_ok_iff.1 hm
  rw [List.forall₂_iff_get] at h h2 ⊢
  exact ⟨h.1.trans h2.1, fun i h1 h2' => hs _ _ _ (h.2 i h1 (by omega)) (h2.2 i (by omega) h2')⟩

theorem remapRates1_good {fns : List (String × GammaFn K)} {n : Nat} {r r' : Rates1 K}
    {l : List (Option Nat)} {mask : List Bool} (hr : RatesGood1 fns n r) (h : InRange n l)
    (hnew : ∀ j (h : j < l.length) (h' : j < mask.length), l[j] = none → mask[j] = true)
    (e : remapRates1 (l.map enc) r = .ok r') :
    List.Forall₂ (fun f p => p.1 = f.1 ∧ GoodOff l.length mask f.2 p.2) fns r' := by
  unfold remapRates1 at e
  refine forall₂_mapM hr e ?_
  intro f p q hp hq
  obtain ⟨x, hx, hq⟩ := bind_ok_iff.1 hq
  rw [pure_ok_iff] at hq
  subst hq
  have := remap_enc_ok (by rw [hp.2.1]; exact h) hx
  subst this
  exact ⟨hp.1, pull_goodOff hp.2 h hnew⟩

theorem remapRates2_good {fns : List (String × GammaFn K)} {n : Nat} {r r' : Rates2 K}
    {l : List (Option Nat)} {mask : List Bool} (hr : RatesGood2 fns n r) (h : InRange n l)
    (hnew : ∀ j (h : j < l.length) (h' : j < mask.length), l[j] = none → mask[j] = true)
    (e : remapRates2 (l.map enc) r = .ok r') :
    List.Forall₂ (fun f p => p.1 = f.1 ∧ (GoodOff l.length mask f.2 p.2.lb ∧
      GoodOff l.length mask f.2 p.2.ub)) fns r' := by
  unfold remapRates2 at e
  refine forall₂_mapM hr e ?_
  intro f p q hp hq
  obtain ⟨b, hb, hq⟩ := bind_ok_iff.1 hq
  rw [pure_ok_iff] at hq
  subst hq
  unfold remapBins at hb
  obtain ⟨x, hx, hb⟩ := bind_ok_iff.1 hb
  obtain ⟨y, hy, hb⟩ := bind_ok_iff.1 hb
  rw [pure_ok_iff] at hb
  subst hb
  have h1 := remap_enc_ok (by rw [hp.2.1.1]; exact h) hx
  have h2 := remap_enc_ok (by rw [hp.2.2.1]; exact h) hy
  subst h1 h2
  exact ⟨hp.1, pull_goodOff hp.2.1 h hnew, pull_goodOff hp.2.2 h hnew⟩

/-! ### the step time -/

theorem toErg_len {cfg : Cfg K} {n : Nat} {b : Bins K} (h : b.Len n) : (toErg cfg b).Len n :=
  ⟨by simp [toErg, h.1], by simp [toErg, h.2]⟩

theorem calcMaxTimePerBin_spec {cfg : Cfg K} {n : Nat} {en : Bins K} {dens : List K}
    {sub : List (List K)} {enG : List (Bins K)} {relG absG : List (List K)} (he : en.Len n)
    (hd : dens.length = n) (hs : ∀ r ∈ sub, r.length = n) (h2 : ∀ b ∈ enG, b.Len n)
    (h1 : ∀ r ∈ relG, r.length = n) (h0 : ∀ r ∈ absG, r.length = n) {r : List (WithTop K)}
    (h : calcMaxTimePerBin cfg en dens sub enG relG absG = .ok r) :
    r.length = n ∧
    (∀ k (hk : k < sub.length) (hk2 : k < enG.length) (hk1 : k < relG.length) (hk0 : k < absG.length),
      ∀ j, j < n → r.getD j ⊤ ≤ maxTimeBin cfg (en.lb.getD j 0) (en.ub.getD j 0)
      (enG[k].lb.getD j 0) (enG[k].ub.getD j 0) (relG[k].getD j 0) (absG[k].getD j 0)) ∧
    ((0 < cfg.maxEnergyChange ∧ 0 < cfg.maxDensityChange ∧ 0 < cfg.maxInjection) →
      ∀ j, j < n → 0 < en.lb.getD j 0 → en.lb.getD j 0 < en.ub.getD j 0 → 0 < r.getD j ⊤) := by
  unfold calcMaxTimePerBin at h
  split at h
  · simp at h
  · next hlen =>
    have hg : ∀ g ∈ List.zip (densitiesGrouped dens sub) (List.zip enG (List.zip relG absG)),
        GroupLen n g := by
      intro g hg
      obtain ⟨k, hk, rfl⟩ := List.mem_iff_getElem.1 hg
      simp only [List.length_zip] at hk
      simp only [List.getElem_zip]
      refine ⟨?_, h2 _ (List.getElem_mem _), h1 _ (List.getElem_mem _), h0 _ (List.getElem_mem _)⟩
      simp only [densitiesGrouped, List.getElem_map, mulRow, List.length_zipWith]
      rw [hd, hs _ (List.getElem_mem _)]; simp
    obtain ⟨r1, -, r3, r4, -⟩ := foldlM_maxTimes he _ hg _ r (by simpa using hd) h
    refine ⟨r1, ?_, ?_⟩
    · intro k hk hk2 hk1 hk0 j hj
      have hkd : k < (densitiesGrouped dens sub).length := by simpa [densitiesGrouped] using hk
      have := r3 ((densitiesGrouped dens sub)[k], enG[k], relG[k], absG[k]) (by
        rw [List.mem_iff_getElem]
        exact ⟨k, by simp; omega, by simp [List.getElem_zip]⟩) j hj
      exact this
    · rintro ⟨t1, t2, t3⟩ j hj hp hw
      refine r4 j hj ?_ (fun g _ => maxTimeBin_pos t1 t2 t3 hp hw)
      have : j < (List.replicate dens.length (⊤ : WithTop K)).length := by simp; omega
      rw [List.getD_eq_getElem _ _ this, List.getElem_replicate]
      exact WithTop.coe_lt_top 0

/-- lengths needed to run a step -/
structure StepLen (s : State K) (enG : List (Bins K)) (relG absG : List (List K)) : Prop where
  en : ∀ b ∈ enG, b.Len s.bins.lb.length
  rel : ∀ r ∈ relG, r.length = s.bins.lb.length
  abs : ∀ r ∈ absG, r.length = s.bins.lb.length

theorem chooseStep_spec {cfg : Cfg K} (wf : cfg.WF) {s : State K} (hI : Inv cfg s)
    {enG : List (Bins K)} {relG absG : List (List K)} (hL : StepLen s enG relG absG)
    {t0 : WithTop K} {left : List (WithTop K)}
    (h : chooseStep cfg s enG relG absG = .ok (t0, left)) :
    (cfg.optimize = false → left = s.timeLeft) ∧
    (cfg.stepDuration = .auto → 0 < t0) ∧
    (cfg.optimize = true → left.length = s.bins.lb.length ∧ ∀ x ∈ left, t0 ≤ x) := by
  unfold chooseStep at h
  cases hsd : cfg.stepDuration with
  | fixed dt =>
    simp only [hsd, pure, Except.pure, Except.ok.injEq, Prod.mk.injEq] at h
    obtain ⟨rfl, rfl⟩ := h
    refine ⟨fun _ => rfl, by simp, ?_⟩
    intro ho
    have := wf.optAuto ho
    simp [hsd] at this
  | auto =>
    simp only [hsd] at h
    obtain ⟨mt, h1, h⟩ := bind_ok_iff.1 h
    have hlen : s.bins.Len s.bins.lb.length := ⟨rfl, hI.ublen⟩
    obtain ⟨ml, -, mp⟩ := calcMaxTimePerBin_spec (toErg_len hlen) hI.denslen hI.sublen hL.en hL.rel
      hL.abs h1
    have hth := wf.thresholds hsd
    have mpos : ∀ j, j < s.bins.lb.length → 0 < mt.getD j ⊤ := by
      intro j hj
      have e1 : (toErg cfg s.bins).lb.getD j 0 = s.bins.lb.getD j 0 * cfg.mec2 :=
        getD_map' _ 0 0 hj
      have e2 : (toErg cfg s.bins).ub.getD j 0 = s.bins.ub.getD j 0 * cfg.mec2 :=
        getD_map' _ 0 0 (by rw [hI.ublen]; exact hj)
      have hp : 0 < s.bins.lb.getD j 0 := hI.pos _ (getD_mem hj)
      refine mp hth j hj ?_ ?_
      · rw [e1]; exact mul_pos hp wf.mec2
      · rw [e1, e2]; exact mul_lt_mul_of_pos_right (hI.width j hj) wf.mec2
    split at h
    · next ho =>
      obtain ⟨t, h2, h⟩ := bind_ok_iff.1 h
      rw [pure_ok_iff] at h
      simp only [Prod.mk.injEq] at h
      obtain ⟨rfl, rfl⟩ := h
      obtain ⟨hm, hmin⟩ := minTime_spec h2
      refine ⟨by simp [ho], fun _ => ?_, fun _ => ⟨by simp [hI.leftlen ho, ml], hmin⟩⟩
      obtain ⟨j, hj, e⟩ := List.mem_iff_getElem.1 hm
      rw [List.getElem_zipWith] at e
      simp only [List.length_zipWith, hI.leftlen ho, ml, min_self] at hj
      rw [← e]
      split
      · have := mpos j hj
        rwa [List.getD_eq_getElem _ _ (by omega)] at this
      · next hne =>
        exact lt_of_le_of_ne (hI.leftnn ho _ (List.getElem_mem _)) (Ne.symm hne)
    · next ho =>
      obtain ⟨t, h2, h⟩ := bind_ok_iff.1 h
      rw [pure_ok_iff] at h
      simp only [Prod.mk.injEq] at h
      obtain ⟨rfl, rfl⟩ := h
      obtain ⟨hm, -⟩ := minTime_spec h2
      refine ⟨fun _ => rfl, fun _ => ?_, by simp [ho]⟩
      obtain ⟨j, hj, e⟩ := List.mem_iff_getElem.1 hm
      have := mpos j (by omega)
      rw [List.getD_eq_getElem _ _ (by omega), e] at this
      exact this

theorem truncStep_le (cfg : Cfg K) (el : K) (t : WithTop K) : truncStep cfg el t ≤ cfg.totalTime - el := by
  unfold truncStep
  split
  · exact le_refl _
  · next h =>
    cases t with
    | top => exact absurd (WithTop.coe_lt_top _) h
    | coe x =>
      have := not_lt.1 h
      simpa using (WithTop.coe_le_coe.1 this)

theorem truncStep_le_t (cfg : Cfg K) (el : K) (t : WithTop K) :
    ((truncStep cfg el t : K) : WithTop K) ≤ t := by
  unfold truncStep
  split
  · next h => exact le_of_lt h
  · next h =>
    cases t with
    | top => exact le_top
    | coe x => simp

theorem truncStep_pos {cfg : Cfg K} {el : K} {t : WithTop K} (ht : 0 < t) (h : el < cfg.totalTime) :
    0 < truncStep cfg el t := by
  unfold truncStep
  split
  · linarith
  · next h =>
    cases t with
    | top => simp; linarith
    | coe x => simpa using (WithTop.coe_lt_coe.1 ht)

theorem subTime_nonneg {t : K} {x : WithTop K} (h : (t : WithTop K) ≤ x) : 0 ≤ subTime t x := by
  unfold subTime
  cases x with
  | top => exact le_top
  | coe y =>
    have := WithTop.coe_le_coe.1 h
    rw [WithTop.map_coe]
    have h2 : 0 ≤ y - t := by linarith
    exact_mod_cast h2

theorem recalcMask_spec {cfg : Cfg K} {left left' : List (WithTop K)} {t : K} {o : StepOut K}
    {mask : List Bool} {l : List (Option Nat)} {n : Nat} (hl : o.mapping = l.map enc)
    (hr : InRange n l) (hub : o.bins.ub.length = l.length) (hd : o.dens.length = l.length)
    (hleft : cfg.optimize = true → left.length = n ∧ (∀ x ∈ left, (t : WithTop K) ≤ x) ∧ 0 < t)
    (h : recalcMask cfg left t o = .ok (left', mask)) :
    mask.length = l.length ∧
    (∀ j (hj : j < mask.length), o.bins.ub.getD j 0 = 0 → mask[j] = true) ∧
    (cfg.optimize = true → left'.length = l.length ∧ (∀ x ∈ left', 0 ≤ x)) ∧
    (cfg.optimize = false → mask = List.replicate l.length true ∧ left' = left) := by
  unfold recalcMask at h
  split at h
  · next ho =>
    obtain ⟨h1, h2, h3⟩ := hleft ho
    obtain ⟨x, hx, h⟩ := bind_ok_iff.1 h
    rw [hl] at hx
    have := remap_enc_ok (by simpa [h1] using hr) hx
    subst this
    dsimp only at h
    rw [pure_ok_iff] at h
    simp only [Prod.mk.injEq] at h
    obtain ⟨rfl, rfl⟩ := h
    refine ⟨by simp [hub], ?_, ?_, by simp [ho]⟩
    · intro j hj hz
      simp only [List.length_map, List.length_zipWith, hub, pull_length, min_self] at hj
      rw [List.getElem_map, List.getElem_zipWith]
      rw [List.getD_eq_getElem _ _ (by omega)] at hz
      rw [if_pos hz]
      simpa using h3
    · intro _
      refine ⟨by simp [hub], ?_⟩
      intro y hy
      obtain ⟨j, hj, rfl⟩ := List.mem_iff_getElem.1 hy
      rw [List.getElem_zipWith]
      split
      · exact le_refl _
      · rw [List.getElem_zipWith]
        split
        · exact le_refl _
        · rcases mem_pull (v := left.map (subTime t)) (by simpa [h1] using hr)
            (List.getElem_mem (l := pull l (left.map (subTime t)) 0) (n := j)
              (by simp only [List.length_map, List.length_zipWith] at hj; omega)) with hm | ⟨hm, -⟩
          · obtain ⟨z, hz, e⟩ := List.mem_map.1 hm
            rw [← e]
            exact subTime_nonneg (h2 z hz)
          · rw [hm]
  · next ho =>
    rw [pure_ok_iff] at h
    simp only [Prod.mk.injEq] at h
    obtain ⟨rfl, rfl⟩ := h
    refine ⟨by simp [hd], by simp, by simp [ho], fun _ => ⟨?_, rfl⟩⟩
    rw [List.map_const', hd]

theorem updateBinUb_spec {b : Bins K} {mask : List Bool} {n : Nat} (hb : b.Len n)
    (hm : mask.length = n) : (updateBinUb b mask).lb = b.lb ∧ (updateBinUb b mask).ub.length = n ∧
    ∀ j (hj : j < mask.length), (updateBinUb b mask).ub.getD j 0
      = if mask[j] then b.lb.getD j 0 * (1 + binSizeFactor) else b.ub.getD j 0 := by
  have e : (updateBinUb b mask).ub = List.zipWith
      (fun c p => if c then p.1 * (1 + binSizeFactor) else p.2) mask (List.zip b.lb b.ub) :=
    scatter_select (by rw [hm, hb.1]) (by rw [hm, hb.2])
  refine ⟨rfl, by rw [e]; simp [hm, hb.1, hb.2], ?_⟩
  intro j hj
  have h1 := hb.1
  have h2 := hb.2
  rw [e, List.getD_eq_getElem _ _ (by simp; omega), List.getElem_zipWith, List.getElem_zip,
    List.getD_eq_getElem _ _ (by omega), List.getD_eq_getElem _ _ (by omega)]

theorem binSizeFactor_pos : (0 : K) < binSizeFactor := by unfold binSizeFactor; positivity

/-- what the parts of one successful turn of the loop were -/
theorem step_parts {cfg : Cfg K} {s s' : State K} (h : step cfg s = .ok s') :
    ∃ enG relG absG inj t0 left t o left' mask,
      groupRates cfg s = .ok (enG, relG, absG) ∧
      totalInjection s.dens s.sub relG absG = .ok inj ∧
      chooseStep cfg s enG relG absG = .ok (t0, left) ∧
      t = truncStep cfg s.elapsed t0 ∧
      applyTimeChanges cfg (toErg cfg s.bins) s.dens s.sub enG inj t = .ok o ∧
      recalcMask cfg left t o = .ok (left', mask) ∧
      refresh cfg s t o left' mask = .ok s' := by
  unfold step at h
  obtain ⟨⟨enG, relG, absG⟩, h1, h⟩ := bind_ok_iff.1 h
  obtain ⟨inj, h2, h⟩ := bind_ok_iff.1 h
  obtain ⟨⟨t0, left⟩, h3, h⟩ := bind_ok_iff.1 h
  obtain ⟨o, h4, h⟩ := bind_ok_iff.1 h
  obtain ⟨⟨left', mask⟩, h5, h⟩ := bind_ok_iff.1 h
  exact ⟨enG, relG, absG, inj, t0, left, _, o, left', mask, h1, h2, h3, rfl, h4, h5, h⟩

theorem refresh_parts {cfg : Cfg K} {s s' : State K} {t : K} {o : StepOut K} {left : List (WithTop K)}
    {mask : List Bool} (h : refresh cfg s t o left mask = .ok s') :
    ∃ pe pa pr, remapRates2 o.mapping s.en = .ok pe ∧ remapRates1 o.mapping s.abs = .ok pa ∧
      remapRates1 o.mapping s.rel = .ok pr ∧
      recalcRates2 o.dist (updateBinUb o.bins mask) cfg.enFns o.dens o.sub pe mask = .ok s'.en ∧
      recalcRates1 o.dist o.bins.lb cfg.absFns o.dens o.sub pa mask = .ok s'.abs ∧
      recalcRates1 o.dist o.bins.lb cfg.relFns o.dens o.sub pr mask = .ok s'.rel ∧
      s'.bins = updateBinUb o.bins mask ∧ s'.dens = o.dens ∧ s'.sub = o.sub ∧ s'.timeLeft = left ∧
      s'.elapsed = s.elapsed + t ∧ s'.dist = o.dist := by
  unfold refresh at h
  obtain ⟨pe, h1, h⟩ := bind_ok_iff.1 h
  obtain ⟨en, h2, h⟩ := bind_ok_iff.1 h
  obtain ⟨pa, h3, h⟩ := bind_ok_iff.1 h
  obtain ⟨ab, h4, h⟩ := bind_ok_iff.1 h
  obtain ⟨pr, h5, h⟩ := bind_ok_iff.1 h
  obtain ⟨re, h6, h⟩ := bind_ok_iff.1 h
  rw [pure_ok_iff] at h
  subst h
  exact ⟨pe, pa, pr, h1, h3, h5, h2, h4, h6, rfl, rfl, rfl, rfl, rfl, rfl⟩

theorem step_inv {cfg : Cfg K} (wf : cfg.WF) {s s' : State K} (hI : Inv cfg s)
    (hg : s.elapsed < cfg.totalTime) (h : step cfg s = .ok s') :
    Inv cfg s' ∧ (InvSub s → InvSub s') ∧ s'.sub.length = s.sub.length := by
  obtain ⟨enG, relG, absG, inj, t0, left, t, o, left', mask, h1, h2, h3, rfl, h4, h5, h6⟩ :=
    step_parts h
  obtain ⟨g1, g2, g3⟩ := groupRates_len rfl hI.en.len hI.rel.len hI.abs.len h1
  have hlen : s.bins.Len s.bins.lb.length := ⟨rfl, hI.ublen⟩
  have hinj := totalInjection_len hI.denslen hI.sublen g2 g3 h2
  obtain ⟨c1, c2, c3⟩ := chooseStep_spec wf hI ⟨g1, g2, g3⟩ h3
  obtain ⟨l, hmap, hM, hsub, hbd, hDnn⟩ :=
    applyTimeChanges_spec wf (toErg_len hlen) hI.denslen hI.subne hI.sublen g1 hinj h4
  obtain ⟨m1, m2, m3, m4⟩ := recalcMask_spec hmap hM.range hM.ublen hM.dlen (fun ho => by
    obtain ⟨a, b⟩ := c3 ho
    exact ⟨a, fun x hx => le_trans (truncStep_le_t _ _ _) (b x hx),
      truncStep_pos (c2 (wf.optAuto ho)) hg⟩) h5
  obtain ⟨pe, pa, pr, r1, r2, r3, r4, r5, r6, e1, e2, e3, e4, e5, e6⟩ := refresh_parts h6
  have hnew : ∀ j (h : j < l.length) (h' : j < mask.length), l[j] = none → mask[j] = true := by
    intro j hj hj' hn
    refine m2 j hj' (hM.new j hj ?_)
    rw [List.getD_eq_getElem _ _ hj, hn]
  obtain ⟨u1, u2, u3⟩ := updateBinUb_spec ⟨hM.lblen, hM.ublen⟩ m1
  rw [hmap] at r1 r2 r3
  have q1 := recalcRates2_spec wf.keysEn m1 (remapRates2_good hI.en hM.range hnew r1) r4
  have q2 := recalcRates1_spec wf.keysAbs m1 (remapRates1_good hI.abs hM.range hnew r2) r5
  have q3 := recalcRates1_spec wf.keysRel m1 (remapRates1_good hI.rel hM.range hnew r3) r6
  have hlb : s'.bins.lb = o.bins.lb := by rw [e1, u1]
  have hlbl : s'.bins.lb.length = l.length := by rw [hlb, hM.lblen]
  refine ⟨⟨?_, ?_, ?_, ?_, ?_, ?_, ?_, ?_, ?_, ?_, ?_, ?_, ?_, ?_, ?_, ?_⟩, ?_, ?_⟩
  · rw [hlbl, e1, u2]
  · rw [e2, hM.dlen, hlbl]
  · rw [e3]; exact hM.sne
  · rw [e3, hlbl]; exact hM.rowlen
  · intro ho; rw [e4, hlbl]; exact (m3 ho).1
  · intro ho; rw [e4]; exact (m3 ho).2
  · rw [hlb]; exact hM.pos
  · rw [hlb]; exact hM.sorted
  · intro j hj
    rw [hlbl] at hj
    rw [hlb, e1, u3 j (by omega)]
    have hp : 0 < o.bins.lb.getD j 0 := hM.pos _ (getD_mem (by rw [hM.lblen]; exact hj))
    split
    · have := mul_pos hp (binSizeFactor_pos (K := K))
      linarith
    · next hm =>
      rcases hM.width j hj with h0 | h0
      · exact absurd (m2 j (by omega) h0) hm
      · exact h0
  · rw [e2]; exact hM.dnn
  · intro lo hi hb x hx
    rw [hlb] at hx
    obtain ⟨b1, b2⟩ := hbd lo hi hb x hx
    refine ⟨b1, le_trans b2 ?_⟩
    have hx0 := hM.pos x hx
    have hf : (0 : K) < 1 + binSizeFactor := by have := binSizeFactor_pos (K := K); linarith
    rw [le_div_iff₀ hf] at b2
    rw [div_le_iff₀ hf]
    have := mul_pos hx0 hf
    have h0 : 0 ≤ hi * binSizeFactor := mul_nonneg (by linarith) (le_of_lt binSizeFactor_pos)
    linarith
  · rw [hlbl]; exact q1
  · rw [hlbl]; exact q3
  · rw [hlbl]; exact q2
  · rw [e6]; exact hDnn
  · rw [e6, e2, hlb]; exact hM.agree
  · intro hS
    have := hsub ⟨hS.nn, hS.sum⟩
    exact ⟨by rw [e3]; exact this.1, by rw [e3, hlbl]; exact this.2⟩
  · rw [e3]; exact hM.slen

end Verif.TE
