import Verif.Lemmas.Reach

/- Properties of single energy-change rates that are kept by sums and averages (signs, bounds by zero) hold for all
rates used during a run, and the positions of the bins move accordingly. -/

namespace Verif.TE

open Verif.Np

set_option linter.unusedSectionVars false

variable {K : Type} [Field K] [LinearOrder K] [IsStrictOrderedRing K]

/-- all values returned by the functions for non-negative distributions and positive Lorentz factors satisfy `P` -/
def FnsIn (P : K → Prop) (fns : List (String × GammaFn K)) : Prop :=
  ∀ f ∈ fns, ∀ d p, (∀ x, 0 ≤ d.eval x) → (∀ g ∈ p.gamma, 0 < g) → ∀ v ∈ f.2 d p, P v

/-- all known rates satisfy `P` -/
def RatesIn (P : K → Prop) (r : Rates2 K) : Prop :=
  ∀ q ∈ r, (∀ v, some v ∈ q.2.lb → P v) ∧ ∀ v, some v ∈ q.2.ub → P v

def BinsIn (P : K → Prop) (b : Bins K) : Prop := (∀ v ∈ b.lb, P v) ∧ ∀ v ∈ b.ub, P v

theorem reshape2_mem {n : Nat} {l : List K} {b : Bins K} (h : reshape2 n l = .ok b) :
    (∀ v ∈ b.lb, v ∈ l) ∧ ∀ v ∈ b.ub, v ∈ l := by
  unfold reshape2 at h
  split at h
  · simp only [Except.ok.injEq] at h
    subst h
    exact ⟨fun v => (deinterlace_mem (x := v)).1, fun v => (deinterlace_mem (x := v)).2⟩
  · simp at h

theorem scatter_mem {α : Type} (m : List Bool) : ∀ n o : List α, ∀ x ∈ scatter m n o, x ∈ n ∨ x ∈ o := by
  induction m with
  | nil => intro n o x hx; simp [scatter] at hx
  | cons b bs ih =>
    intro n o x hx
    cases b with
    | true =>
      cases n with
      | nil => simp [scatter] at hx
      | cons a n =>
        cases o with
        | nil => simp [scatter] at hx
        | cons c o =>
          simp only [scatter, List.mem_cons] at hx
          rcases hx with rfl | hx
          · simp
          · rcases ih n o x hx with h | h <;> simp [h]
    | false =>
      cases o with
      | nil => simp [scatter] at hx
      | cons c o =>
        simp only [scatter, List.mem_cons] at hx
        rcases hx with rfl | hx
        · simp
        · rcases ih n o x hx with h | h <;> simp [h]

theorem get_mem {α : Type} {v : List α} {i : Int} {x : α} (h : Np.get v i = .ok x) : x ∈ v := by
  unfold Np.get at h
  split at h
  · split at h
    · next h' =>
      simp only [Except.ok.injEq] at h
      subst h
      exact List.mem_of_getElem? h'
    · simp at h
  · simp at h

theorem remap_mem {m : List Int} {v r : List (NV K)} (h : remap m v (some none) = .ok r) :
    ∀ x, some x ∈ r → some x ∈ v := by
  unfold remap at h
  obtain ⟨g, h1, h⟩ := bind_ok_iff.1 h
  have hg : ∀ y ∈ g, y ∈ v := mapM_forall_mem h1 (fun a _ b hb => get_mem hb)
  split at h
  · simp only [pure_ok_iff] at h
    subst h
    intro x hx
    obtain ⟨j, hj, e⟩ := List.mem_iff_getElem.1 hx
    rw [List.getElem_zipWith] at e
    split at e
    · simp at e
    · rw [← e]; exact hg _ (List.getElem_mem _)
  · rw [pure_ok_iff] at h
    subst h
    exact fun x hx => hg _ hx

theorem remapRates2_in {P : K → Prop} {m : List Int} {r r' : Rates2 K} (hr : RatesIn P r)
    (h : remapRates2 m r = .ok r') : RatesIn P r' := by
  refine mapM_forall_mem h ?_
  intro a ha b hb
  obtain ⟨c, h1, hb⟩ := bind_ok_iff.1 hb
  rw [pure_ok_iff] at hb
  subst hb
  unfold remapBins at h1
  obtain ⟨lb, h2, h1⟩ := bind_ok_iff.1 h1
  obtain ⟨ub, h3, h1⟩ := bind_ok_iff.1 h1
  rw [pure_ok_iff] at h1
  subst h1
  exact ⟨fun v hv => (hr a ha).1 v (remap_mem h2 v hv), fun v hv => (hr a ha).2 v (remap_mem h3 v hv)⟩

theorem interlace_mem {b : Bins K} {x : K} (h : x ∈ interlace b) : x ∈ b.lb ∨ x ∈ b.ub := by
  unfold interlace at h
  obtain ⟨l, hl, hx⟩ := List.mem_flatten.1 h
  obtain ⟨j, hj, rfl⟩ := List.mem_iff_getElem.1 hl
  rw [List.getElem_zipWith] at hx
  simp only [List.mem_cons, List.not_mem_nil, or_false] at hx
  rcases hx with rfl | rfl
  · exact .inl (List.getElem_mem _)
  · exact .inr (List.getElem_mem _)

theorem params2_pos {b : Bins K} {dens : List K} {sub : List (List K)} {mask : List Bool} {p : FnParams K}
    (hb : BinsIn (0 < ·) b) (h : params2 b dens sub mask = .ok p) : ∀ g ∈ p.gamma, 0 < g := by
  unfold params2 at h
  obtain ⟨s, -, h⟩ := bind_ok_iff.1 h
  rw [pure_ok_iff] at h
  subst h
  intro g hg
  rcases interlace_mem hg with h | h
  · exact hb.1 g (select_mem h)
  · exact hb.2 g (select_mem h)

theorem newRates2_in {P : K → Prop} {dist : Dist K} {b : Bins K} {fns : List (String × GammaFn K)} {dens : List K}
    {sub : List (List K)} {r : Rates2 K} (hf : FnsIn P fns) (hdn : ∀ x, 0 ≤ dist.eval x)
    (hb : BinsIn (0 < ·) b) (h : newRates2 dist b fns dens sub = .ok r) :
    RatesIn P r := by
  unfold newRates2 at h
  obtain ⟨p, hpar, h⟩ := bind_ok_iff.1 h
  have hpos := params2_pos hb hpar
  refine mapM_forall_mem h ?_
  intro a ha c hc
  obtain ⟨new, h1, hc⟩ := bind_ok_iff.1 hc
  rw [pure_ok_iff] at hc
  subst hc
  have hm := reshape2_mem h1
  refine ⟨?_, ?_⟩
  · intro v hv
    simp only [List.mem_map, Option.some.injEq, exists_eq_right] at hv
    exact hf a ha _ _ hdn hpos v (hm.1 v hv)
  · intro v hv
    simp only [List.mem_map, Option.some.injEq, exists_eq_right] at hv
    exact hf a ha _ _ hdn hpos v (hm.2 v hv)

theorem recalcRates2_in {P : K → Prop} {dist : Dist K} {b : Bins K} {fns : List (String × GammaFn K)} {dens : List K}
    {sub : List (List K)} {prev r : Rates2 K} {mask : List Bool} (hf : FnsIn P fns) (hdn : ∀ x, 0 ≤ dist.eval x)
    (hb : BinsIn (0 < ·) b)
    (hp : RatesIn P prev)
    (h : recalcRates2 dist b fns dens sub prev mask = .ok r) : RatesIn P r := by
  unfold recalcRates2 at h
  obtain ⟨p, hpar, h⟩ := bind_ok_iff.1 h
  have hpos := params2_pos hb hpar
  refine mapM_forall_mem h ?_
  intro a ha c hc
  obtain ⟨old, h0, hc⟩ := bind_ok_iff.1 hc
  obtain ⟨new, h1, hc⟩ := bind_ok_iff.1 hc
  rw [pure_ok_iff] at hc
  subst hc
  have hm := reshape2_mem h1
  have hold : (a.1, old) ∈ prev := by
    unfold dictGet at h0
    split at h0
    · next h' =>
      simp only [Except.ok.injEq] at h0
      subst h0
      exact lookup_mem h'
    · simp at h0
  refine ⟨?_, ?_⟩
  · intro v hv
    rcases scatter_mem _ _ _ _ hv with hv | hv
    · simp only [List.mem_map, Option.some.injEq, exists_eq_right] at hv
      exact hf a ha _ _ hdn hpos v (hm.1 v hv)
    · exact (hp _ hold).1 v hv
  · intro v hv
    rcases scatter_mem _ _ _ _ hv with hv | hv
    · simp only [List.mem_map, Option.some.injEq, exists_eq_right] at hv
      exact hf a ha _ _ hdn hpos v (hm.2 v hv)
    · exact (hp _ hold).2 v hv

/-- the properties considered are kept by sums and halves -/
structure Convex (P : K → Prop) : Prop where
  zero : P 0
  add : ∀ a b, P a → P b → P (a + b)
  avg : ∀ a b, P a → P b → P ((a + b) / 2)

def NVBinsIn (P : K → Prop) (b : Bins (NV K)) : Prop := (∀ v, some v ∈ b.lb → P v) ∧ ∀ v, some v ∈ b.ub → P v

theorem addRow_in {P : K → Prop} (hP : Convex P) {a b : List (NV K)} (ha : ∀ v, some v ∈ a → P v)
    (hb : ∀ v, some v ∈ b → P v) : ∀ v, some v ∈ addRow a b → P v := by
  intro v hv
  unfold addRow at hv
  obtain ⟨j, hj, e⟩ := List.mem_iff_getElem.1 hv
  rw [List.getElem_zipWith] at e
  rw [List.length_zipWith] at hj
  have h1 : a[j] ∈ a := List.getElem_mem _
  have h2 : b[j] ∈ b := List.getElem_mem _
  cases ea : a[j] with
  | none => rw [ea] at e; simp [addNV] at e
  | some x => cases eb : b[j] with
    | none => rw [ea, eb] at e; simp [addNV] at e
    | some y =>
      rw [ea, eb] at e
      simp only [addNV, Option.some.injEq] at e
      rw [← e]
      exact hP.add _ _ (ha x (ea ▸ h1)) (hb y (eb ▸ h2))

theorem foldl_addBins_in {P : K → Prop} (hP : Convex P) (l : List (Bins (NV K))) (hl : ∀ b ∈ l, NVBinsIn P b)
    (a : Bins (NV K)) (ha : NVBinsIn P a) : NVBinsIn P (l.foldl addBins a) := by
  induction l generalizing a with
  | nil => exact ha
  | cons b l ih =>
    refine ih (fun c hc => hl c (by simp [hc])) _ ?_
    have := hl b (by simp)
    exact ⟨addRow_in hP ha.1 this.1, addRow_in hP ha.2 this.2⟩

theorem zerosNV_in {P : K → Prop} (hP : Convex P) (n : Nat) : NVBinsIn P ⟨zerosNV n, zerosNV n⟩ := by
  have : ∀ v : K, some v ∈ (zerosNV n : List (NV K)) → P v := by
    intro v hv
    unfold zerosNV at hv
    obtain ⟨-, h⟩ := List.mem_replicate.1 hv
    simp only [Option.some.injEq] at h
    subst h
    exact hP.zero
  exact ⟨this, this⟩

theorem sumRates2_in {P : K → Prop} (hP : Convex P) {r : Rates2 K} (hr : RatesIn P r) (n : Nat)
    (sg : Option (List (List String))) : ∀ b ∈ sumRates2 r n sg, NVBinsIn P b := by
  unfold sumRates2
  cases sg with
  | none =>
    simp only [List.mem_singleton, forall_eq]
    refine foldl_addBins_in hP _ ?_ _ (zerosNV_in hP n)
    intro b hb
    obtain ⟨q, hq, rfl⟩ := List.mem_map.1 hb
    exact hr q hq
  | some rows =>
    intro b hb
    obtain ⟨row, -, rfl⟩ := List.mem_map.1 hb
    split
    · refine foldl_addBins_in hP _ ?_ _ (zerosNV_in hP n)
      intro b hb
      obtain ⟨k, -, hk⟩ := List.mem_filterMap.1 hb
      exact hr _ (lookup_mem hk)
    · exact zerosNV_in hP n

theorem finiteBins_in {P : K → Prop} {b : Bins (NV K)} {c : Bins K} (hb : NVBinsIn P b) (h : finiteBins b = .ok c) :
    BinsIn P c := by
  have key : ∀ (l : List (NV K)) (m : List K), finiteRow l = .ok m → ∀ x ∈ m, some x ∈ l := by
    intro l m hm x hx
    obtain ⟨j, hj, rfl⟩ := List.mem_iff_getElem.1 hx
    have hlen := mapM_ok_length hm
    have := mapM_ok_getElem hm j (by omega) hj
    have hl : l[j] ∈ l := List.getElem_mem (by omega)
    split at this
    · next v hv =>
      simp only [Except.ok.injEq] at this
      rw [← this, ← hv]; exact hl
    · simp at this
  unfold finiteBins at h
  obtain ⟨lb, h2, h1⟩ := bind_ok_iff.1 h
  obtain ⟨ub, h3, h1⟩ := bind_ok_iff.1 h1
  rw [pure_ok_iff] at h1
  subst h1
  exact ⟨fun v hv => hb.1 v (key _ _ h2 v hv), fun v hv => hb.2 v (key _ _ h3 v hv)⟩

theorem groupRates_in {P : K → Prop} (hP : Convex P) {cfg : Cfg K} {s : State K} (hr : RatesIn P s.en)
    {enG : List (Bins K)} {relG absG : List (List K)} (h : groupRates cfg s = .ok (enG, relG, absG)) :
    ∀ b ∈ enG, BinsIn P b := by
  unfold groupRates at h
  obtain ⟨e1, h1, h⟩ := bind_ok_iff.1 h
  obtain ⟨e2, h2, h⟩ := bind_ok_iff.1 h
  obtain ⟨e3, h3, h⟩ := bind_ok_iff.1 h
  rw [pure_ok_iff] at h
  simp only [Prod.mk.injEq] at h
  obtain ⟨rfl, rfl, rfl⟩ := h
  exact mapM_forall_mem h1 (fun a ha b hb => finiteBins_in (sumRates2_in hP hr _ _ a ha) hb)

theorem averageBins_in {P : K → Prop} (hP : Convex P) {a b : Bins K} (ha : BinsIn P a) (hb : BinsIn P b) :
    BinsIn P (averageBins a b) := by
  have key : ∀ l m : List K, (∀ v ∈ l, P v) → (∀ v ∈ m, P v) →
      ∀ v ∈ List.zipWith (fun x y => (x + y) / 2) l m, P v := by
    intro l m hl hm v hv
    obtain ⟨j, hj, rfl⟩ := List.mem_iff_getElem.1 hv
    rw [List.getElem_zipWith]
    exact hP.avg _ _ (hl _ (List.getElem_mem _)) (hm _ (List.getElem_mem _))
  exact ⟨key _ _ ha.1 hb.1, key _ _ ha.2 hb.2⟩

/-- the rates used by the (second) update are within `P`, too -/
theorem applyStages12_in {P : K → Prop} (hP : Convex P) {cfg : Cfg K} (hl : cfg.num.Lawful) (hm : 0 < cfg.mec2)
    (hf : FnsIn P cfg.enFns) {n : Nat}
    {en : Bins K} {dens : List K} {sub : List (List K)} {enRates : List (Bins K)} {injRates : List (List K)} {t : K}
    (he : en.Len n) (hd : dens.length = n)
    (hs : ∀ r ∈ sub, r.length = n) (hlen : ∀ b ∈ enRates, b.Len n) (hi : ∀ r ∈ injRates, r.length = n)
    (hr : ∀ b ∈ enRates, BinsIn P b)
    {gm : Bins K} {d : List K} {s : List (List K)} {dist : Dist K} {rates : List (Bins K)}
    (e : applyStages12 cfg en dens sub enRates injRates t = .ok (gm, d, s, dist, rates)) :
    ∀ b ∈ rates, BinsIn P b := by
  unfold applyStages12 at e
  obtain ⟨⟨gm1, d1, sub1⟩, h1, e⟩ := bind_ok_iff.1 e
  obtain ⟨dist1, h2, e⟩ := bind_ok_iff.1 e
  dsimp only at e h1 h2
  have ev1 := applyTimeEval_spec hl hm he hd hs (by
    intro b hb
    obtain ⟨b', hb', rfl⟩ := List.mem_map.1 hb
    exact scaleBins_len (hlen b' hb')) (by
    intro r hr'
    obtain ⟨r', hr'', rfl⟩ := List.mem_map.1 hr'
    simp [hi r' hr'']) h1
  have hpos : BinsIn (0 < ·) gm1 := by
    refine ⟨(forall_mem_iff_getD 0).2 (by rw [ev1.len.1]; exact ev1.pos), (forall_mem_iff_getD 0).2 ?_⟩
    rw [ev1.len.2]
    exact fun j hj => lt_trans (ev1.pos j hj) (ev1.width j hj)
  split at e
  · obtain ⟨r, h3, e⟩ := bind_ok_iff.1 e
    obtain ⟨rec, h4, e⟩ := bind_ok_iff.1 e
    obtain ⟨⟨gm2, d2, sub2⟩, h5, e⟩ := bind_ok_iff.1 e
    obtain ⟨dist2, h6, e⟩ := bind_ok_iff.1 e
    dsimp only at e h5 h6
    rw [pure_ok_iff] at e
    simp only [Prod.mk.injEq] at e
    obtain ⟨rfl, rfl, rfl, rfl, rfl⟩ := e
    have hrec : ∀ b ∈ rec, BinsIn P b :=
      mapM_forall_mem h4 (fun a ha b hb => finiteBins_in (sumRates2_in hP (newRates2_in hf (updateDistribution_nonneg hl h2) hpos h3) _ _ a ha) hb)
    intro b hb
    obtain ⟨k, hk, rfl⟩ := List.mem_iff_getElem.1 hb
    rw [List.getElem_zipWith]
    exact averageBins_in hP (hr _ (List.getElem_mem _)) (hrec _ (List.getElem_mem _))
  · rw [pure_ok_iff] at e
    simp only [Prod.mk.injEq] at e
    obtain ⟨rfl, rfl, rfl, rfl, rfl⟩ := e
    exact hr

theorem Inv.binsPos {cfg : Cfg K} {s : State K} (h : Inv cfg s) : BinsIn (0 < ·) s.bins := by
  refine ⟨h.pos, (forall_mem_iff_getD 0).2 ?_⟩
  rw [h.ublen]
  exact fun j hj => lt_trans (h.pos _ (getD_mem hj)) (h.width j hj)

/-- One step without bounds: there are rates `v i` within `P`, one for each old bin, such that every new bin lies
between two of the displaced old ones. -/
theorem step_displaced {P : K → Prop} (hP : Convex P) {cfg : Cfg K} (wf : cfg.WF) (hf : FnsIn P cfg.enFns)
    (hb : cfg.gammaBounds = none) {s s' : State K} (hI : Inv cfg s) (hr : RatesIn P s.en)
    (hI' : Inv cfg s') (h : step cfg s = .ok s') :
    RatesIn P s'.en ∧ ∃ v : Nat → K, (∀ i, i < s.bins.lb.length → P (v i)) ∧
      ∀ x ∈ s'.bins.lb, ∃ i j, i < s.bins.lb.length ∧ j < s.bins.lb.length ∧
        (s.bins.lb.getD i 0 * cfg.mec2 + v i * (s'.elapsed - s.elapsed)) / cfg.mec2 ≤ x ∧
        x ≤ (s.bins.lb.getD j 0 * cfg.mec2 + v j * (s'.elapsed - s.elapsed)) / cfg.mec2 := by
  obtain ⟨enG, relG, absG, inj, t0, left, t, o, left', mask, h1, h2, h3, ht, h4, h5, h6⟩ := step_parts h
  obtain ⟨pe, pa, pr, q1, -, -, q2, -, -, e1, e2, e3, e4, e5, e6⟩ := refresh_parts h6
  refine ⟨recalcRates2_in hf (e6 ▸ hI'.distnn) (e1 ▸ hI'.binsPos) (remapRates2_in hr q1) q2, ?_⟩
  obtain ⟨g1, g2, g3⟩ := groupRates_len rfl hI.en.len hI.rel.len hI.abs.len h1
  have hin := groupRates_in hP hr h1
  have hlen : s.bins.Len s.bins.lb.length := ⟨rfl, hI.ublen⟩
  have hinj := totalInjection_len hI.denslen hI.sublen g2 g3 h2
  have hel : s'.elapsed - s.elapsed = t := by rw [e5]; ring
  have hlb : s'.bins.lb = o.bins.lb := by rw [e1]; rfl
  rw [hel, hlb]
  unfold applyTimeChanges at h4
  obtain ⟨⟨gm, d, sb, dist, rates⟩, a1, h4⟩ := bind_ok_iff.1 h4
  obtain ⟨⟨b3, d3, m3⟩, a3, h4⟩ := bind_ok_iff.1 h4
  obtain ⟨s3, a4, h4⟩ := bind_ok_iff.1 h4
  obtain ⟨⟨b5, d5, s5, m5⟩, a5, h4⟩ := bind_ok_iff.1 h4
  dsimp only at h4 a3 a4 a5
  rw [pure_ok_iff] at h4
  subst h4
  unfold applyBounds at a5
  simp only [hb, pure, Except.pure, Except.ok.injEq, Prod.mk.injEq] at a5
  obtain ⟨rfl, rfl, rfl, rfl⟩ := a5
  obtain ⟨sub0, chg, ev, hsl, hsr, hok, hud, hrl, rfl, hheun⟩ :=
    applyStages12_spec wf.lawful wf.mec2 (toErg_len hlen) hI.denslen hI.sublen g1 hinj a1
  have hrin := applyStages12_in hP wf.lawful wf.mec2 hf (toErg_len hlen) hI.denslen hI.sublen g1 hinj hin a1
  have hgpos : ∀ v ∈ gm.lb, 0 < v := (forall_mem_iff_getD 0).2 (by rw [ev.len.1]; exact ev.pos)
  have hub : gm.ub.length = gm.lb.length := by rw [ev.len.1, ev.len.2]
  have hdl : d.length = gm.lb.length := by rw [ev.len.1, ev.tlen]
  obtain ⟨idx, rfl, hmg⟩ := sortAndMergeBins_spec wf.lawful hub hdl hgpos a3
  obtain ⟨moved, newDens, p1, p2, p3, p4, p5, p6, p7, p8⟩ := ev.groups
  have hcl := ev.chgLen
  have hil := ev.injLen
  have hsp := ev.subne
  have hrl0 : 0 < rates.length := by simp only [List.length_map] at hcl; omega
  have hg0 := p3 0 hsp (by omega) (by omega) (by omega)
  have hg00 := p4 (by omega)
  have hgm : ∀ i, i < s.bins.lb.length → gm.lb.getD i 0
      = (s.bins.lb.getD i 0 * cfg.mec2 + rates[0].lb.getD i 0 * t) / cfg.mec2 := by
    intro i hi
    have h0 := hg0.lb i hi
    rw [hg00] at h0
    have hl0 := hrl _ (List.getElem_mem hrl0)
    rw [show (toErg cfg s.bins).lb.getD i 0 = s.bins.lb.getD i 0 * cfg.mec2 from getD_map' _ 0 0 hi,
      List.getElem_map] at h0
    rw [show (scaleBins t rates[0]).lb.getD i 0 = rates[0].lb.getD i 0 * t from
      getD_map' _ 0 0 (by rw [hl0.1]; exact hi)] at h0
    exact h0
  refine ⟨fun i => rates[0].lb.getD i 0, ?_, ?_⟩
  · intro i hi
    have hl0 := hrl _ (List.getElem_mem hrl0)
    exact (hrin _ (List.getElem_mem hrl0)).1 _ (getD_mem (by rw [hl0.1]; exact hi))
  · intro x hx
    obtain ⟨p, hp, rfl⟩ := List.mem_iff_getElem.1 hx
    have hpl : p < idx.length := by rw [← hmg.len_lb]; exact hp
    have hrange : ∀ y ∈ gm.lb, ∃ i, i < s.bins.lb.length ∧ y = gm.lb.getD i 0 := by
      intro y hy
      obtain ⟨i, hi, rfl⟩ := List.mem_iff_getElem.1 hy
      exact ⟨i, by rw [← ev.len.1]; exact hi, (List.getD_eq_getElem _ _ hi).symm⟩
    have hent := hmg.entry p hpl
    rw [List.getD_eq_getElem _ _ hp] at hent
    rcases hent with ⟨he, -, -⟩ | ⟨-, ⟨lo, hlo, hi, hhi, hle1, hle2⟩, -⟩
    · have hi' : idx.getD p 0 < s.bins.lb.length := by
        rw [← ev.len.1]
        rw [List.getD_eq_getElem _ _ hpl]
        exact hmg.range _ (List.getElem_mem _)
      refine ⟨idx.getD p 0, idx.getD p 0, hi', hi', ?_, ?_⟩
      · rw [← hgm _ hi']; exact he.ge
      · rw [← hgm _ hi']; exact he.le
    · obtain ⟨i, hil', rfl⟩ := hrange lo hlo
      obtain ⟨j, hjl', rfl⟩ := hrange hi hhi
      exact ⟨i, j, hil', hjl', by rw [← hgm _ hil']; exact hle1, by rw [← hgm _ hjl']; exact hle2⟩

theorem initState_in {P : K → Prop} {cfg : Cfg K} (wf : cfg.WF) (hf : FnsIn P cfg.enFns) {dist : Dist K}
    (hnn : ∀ x, 0 ≤ dist.eval x) {s : State K} (h : initState cfg dist = .ok s) : RatesIn P s.en := by
  have hI := (initState_inv wf hnn h).1
  obtain ⟨sub, h1, e1, e2, e3, h2, h3, h4, e4, e5, e6⟩ := initState_parts h
  exact newRates2_in hf hnn (e1 ▸ hI.binsPos) h2

theorem reach_in {P : K → Prop} {cfg : Cfg K} (wf : cfg.WF) (hf : FnsIn P cfg.enFns)
    {dist : Dist K} (hnn : ∀ x, 0 ≤ dist.eval x) {s : State K} (h : Reach cfg dist s) : RatesIn P s.en := by
  induction h with
  | init h => exact initState_in wf hf hnn h
  | step hr hg hs ih =>
    have hI' := (reach_inv wf hnn (.step hr hg hs)).1
    obtain ⟨enG, relG, absG, inj, t0, left, t, o, left', mask, h1, h2, h3, ht, h4, h5, h6⟩ := step_parts hs
    obtain ⟨pe, pa, pr, q1, -, -, q2, -, -, e1, -, -, -, -, e6⟩ := refresh_parts h6
    exact recalcRates2_in hf (e6 ▸ hI'.distnn) (e1 ▸ hI'.binsPos) (remapRates2_in ih q1) q2

/-- one step without bounds of a reachable state -/
theorem reach_displaced {P : K → Prop} (hP : Convex P) {cfg : Cfg K} (wf : cfg.WF) (hf : FnsIn P cfg.enFns)
    (hb : cfg.gammaBounds = none) {dist : Dist K} (hnn : ∀ x, 0 ≤ dist.eval x) {s s' : State K}
    (hr : Reach cfg dist s) (hg : s.elapsed < cfg.totalTime) (h : step cfg s = .ok s') :
    ∃ v : Nat → K, (∀ i, i < s.bins.lb.length → P (v i)) ∧
      ∀ x ∈ s'.bins.lb, ∃ i j, i < s.bins.lb.length ∧ j < s.bins.lb.length ∧
        (s.bins.lb.getD i 0 * cfg.mec2 + v i * (s'.elapsed - s.elapsed)) / cfg.mec2 ≤ x ∧
        x ≤ (s.bins.lb.getD j 0 * cfg.mec2 + v j * (s'.elapsed - s.elapsed)) / cfg.mec2 :=
  (step_displaced hP wf hf hb (reach_inv wf hnn hr).1 (reach_in wf hf hnn hr)
    (reach_inv wf hnn (.step hr hg h)).1 h).2

end Verif.TE
