import Verif.Lemmas.Trace

/- Automatic steps: every bin has used up at most the time its rates allow. -/

namespace Verif.TE

open Verif.Np

set_option linter.unusedSectionVars false

variable {K : Type} [Field K] [LinearOrder K] [IsStrictOrderedRing K]

/-! ### rates of bins that are not recalculated are carried along -/

theorem scatter_nvAt {mask : List Bool} {new : List K} {old : List (NV K)} {n j : Nat}
    (hm : mask.length = n) (ho : old.length = n) (hn : new.length = countMask mask) (hj : j < n)
    (h : ∀ h' : j < mask.length, mask[j] = false) :
    nvAt (scatter mask (new.map some) old) j = nvAt old j := by
  have hl := scatter_length (m := mask) (new := new.map some) (old := old) (by omega)
    (by simpa [countMask] using hn)
  obtain ⟨-, h2⟩ := scatter_getElem (m := mask) (new := new.map some) (old := old) (by omega)
    (by simpa [countMask] using hn) j (by omega) (by omega) (by omega)
  unfold nvAt
  rw [List.getD_eq_getElem _ _ (by omega), List.getD_eq_getElem _ _ (by omega), h2 (h (by omega))]

theorem lookup_none_iff {α : Type} {r : List (String × α)} {k : String} :
    r.lookup k = none ↔ k ∉ r.map Prod.fst := by
  induction r with
  | nil => simp
  | cons p r ih =>
    obtain ⟨pk, pv⟩ := p
    rw [List.lookup_cons]
    by_cases hk : k = pk
    · subst hk; simp
    · simp only [beq_eq_false_iff_ne.2 hk, List.map_cons, List.mem_cons, hk, false_or]
      exact ih

theorem recalcRates1_rateAt {dist : Dist K} {g : List K} {fns : List (String × GammaFn K)}
    {dens : List K} {sub : List (List K)} {prev r : Rates1 K} {mask : List Bool} {n j : Nat}
    (hm : mask.length = n) (hkeys : prev.map Prod.fst = fns.map Prod.fst)
    (hlen : ∀ p ∈ prev, p.2.length = n) (hj : j < n) (hoff : ∀ h' : j < mask.length, mask[j] = false)
    (h : recalcRates1 dist g fns dens sub prev mask = .ok r) (name : String) :
    rateAt r j name = rateAt prev j name := by
  unfold recalcRates1 at h
  obtain ⟨p, -, h⟩ := bind_ok_iff.1 h
  have h2 : List.Forall₂ (fun (f : String × GammaFn K) q => q.1 = f.1 ∧ ∃ (old : List (NV K)) (new : List K), prev.lookup f.1 = some old ∧
      new.length = countMask mask ∧ q.2 = scatter mask (new.map some) old) fns r := by
    refine forall₂_left h ?_
    intro f hf b hb
    obtain ⟨old, ho, hb⟩ := bind_ok_iff.1 hb
    obtain ⟨new, hn, hb⟩ := bind_ok_iff.1 hb
    rw [pure_ok_iff] at hb
    subst hb
    exact ⟨rfl, old, new, dictGet_ok.1 ho, (reshape1_spec hn).2, rfl⟩
  have hk := forall₂_keys (P := fun f q => ∃ (old : List (NV K)) (new : List K), prev.lookup f.1 = some old ∧
      new.length = countMask mask ∧ q.2 = scatter mask (new.map some) old) h2
  unfold rateAt
  cases hr : r.lookup name with
  | none =>
    rw [lookup_none_iff, hk, ← hkeys, ← lookup_none_iff] at hr
    rw [hr]
  | some v =>
    have hmem := lookup_mem hr
    obtain ⟨i, hi, e⟩ := List.mem_iff_getElem.1 hmem
    rw [List.forall₂_iff_get] at h2
    obtain ⟨hq, old, new, hold, hnl, hv⟩ := h2.2 i (by omega) hi
    simp only [List.get_eq_getElem] at hq hold hv
    rw [e] at hq hv
    simp only at hq hv
    rw [← hq] at hold
    rw [hold]
    simp only
    rw [hv]
    exact scatter_nvAt hm (hlen _ (lookup_mem hold)) hnl hj hoff

theorem recalcRates2_rateAt {dist : Dist K} {g : Bins K} {fns : List (String × GammaFn K)}
    {dens : List K} {sub : List (List K)} {prev r : Rates2 K} {mask : List Bool} {n j : Nat}
    (hm : mask.length = n) (hkeys : prev.map Prod.fst = fns.map Prod.fst)
    (hlen : ∀ p ∈ prev, p.2.Len n) (hj : j < n) (hoff : ∀ h' : j < mask.length, mask[j] = false)
    (h : recalcRates2 dist g fns dens sub prev mask = .ok r) (name : String) :
    rateAt (lowerRow r) j name = rateAt (lowerRow prev) j name ∧
    rateAt (upperRow r) j name = rateAt (upperRow prev) j name := by
  unfold recalcRates2 at h
  obtain ⟨p, -, h⟩ := bind_ok_iff.1 h
  have h2 : List.Forall₂ (fun (f : String × GammaFn K) q => q.1 = f.1 ∧ ∃ (old : Bins (NV K)) (new : Bins K), prev.lookup f.1 = some old ∧
      new.Len (countMask mask) ∧ q.2 = ⟨scatter mask (new.lb.map some) old.lb,
        scatter mask (new.ub.map some) old.ub⟩) fns r := by
    refine forall₂_left h ?_
    intro f hf b hb
    obtain ⟨old, ho, hb⟩ := bind_ok_iff.1 hb
    obtain ⟨new, hn, hb⟩ := bind_ok_iff.1 hb
    rw [pure_ok_iff] at hb
    subst hb
    exact ⟨rfl, old, new, dictGet_ok.1 ho, (reshape2_spec hn).1, rfl⟩
  have hk : r.map Prod.fst = fns.map Prod.fst := by
    refine forall₂_keys (P := fun _ _ => True) ?_
    exact h2.imp (fun a b h => ⟨h.1, trivial⟩)
  unfold rateAt lowerRow upperRow
  rw [lookup_map, lookup_map, lookup_map, lookup_map]
  cases hr : r.lookup name with
  | none =>
    rw [lookup_none_iff, hk, ← hkeys, ← lookup_none_iff] at hr
    rw [hr]
    exact ⟨rfl, rfl⟩
  | some v =>
    have hmem := lookup_mem hr
    obtain ⟨i, hi, e⟩ := List.mem_iff_getElem.1 hmem
    rw [List.forall₂_iff_get] at h2
    obtain ⟨hq, old, new, hold, hnl, hv⟩ := h2.2 i (by omega) hi
    simp only [List.get_eq_getElem] at hq hold hv
    rw [e] at hq hv
    simp only at hq hv
    rw [← hq] at hold
    rw [hold]
    simp only [Option.map_some]
    rw [hv]
    have hl := hlen _ (lookup_mem hold)
    exact ⟨scatter_nvAt hm hl.1 hnl.1 hj hoff, scatter_nvAt hm hl.2 hnl.2 hj hoff⟩

theorem pull_nvAt {l : List (Option Nat)} {v : List (NV K)} {j i : Nat} (hj : j < l.length)
    (h : l.getD j none = some i) : nvAt (pull l v none) j = nvAt v i := by
  unfold nvAt
  rw [pull_getD _ _ _ _ hj]
  rw [List.getD_eq_getElem _ _ hj] at h
  rw [h]

theorem remapRates1_rateAt {r r' : Rates1 K} {l : List (Option Nat)} {n j i : Nat}
    (hlen : ∀ p ∈ r, p.2.length = n) (hr : InRange n l) (hj : j < l.length)
    (h : l.getD j none = some i) (e : remapRates1 (l.map enc) r = .ok r') :
    r'.map Prod.fst = r.map Prod.fst ∧ (∀ p ∈ r', p.2.length = l.length) ∧
    ∀ name, rateAt r' j name = rateAt r i name := by
  have hr' : r' = r.map fun p => (p.1, pull l p.2 none) := by
    unfold remapRates1 at e
    have : ∀ p ∈ r, ∀ q, (do return (p.1, ← remap (l.map enc) p.2 (some none)) : Except Err _) = .ok q →
        q = (p.1, pull l p.2 none) := by
      intro p hp q hq
      obtain ⟨x, hx, hq⟩ := bind_ok_iff.1 hq
      rw [pure_ok_iff] at hq
      rw [← hq, remap_enc_ok (by rw [hlen p hp]; exact hr) hx]
    have h2 := forall₂_left (Q := fun p q => q = (p.1, pull l p.2 none)) e this
    clear e this hlen
    induction h2 with
    | nil => rfl
    | cons h _ ih => simp [h, ih]
  subst hr'
  refine ⟨by simp, ?_, ?_⟩
  · intro p hp
    obtain ⟨q, -, rfl⟩ := List.mem_map.1 hp
    simp
  intro name
  unfold rateAt
  rw [lookup_map (fun v : List (NV K) => pull l v none)]
  cases r.lookup name with
  | none => rfl
  | some v => exact pull_nvAt hj h

theorem remapRates2_rateAt {r r' : Rates2 K} {l : List (Option Nat)} {n j i : Nat}
    (hlen : ∀ p ∈ r, p.2.Len n) (hr : InRange n l) (hj : j < l.length)
    (h : l.getD j none = some i) (e : remapRates2 (l.map enc) r = .ok r') :
    r'.map Prod.fst = r.map Prod.fst ∧ (∀ p ∈ r', p.2.Len l.length) ∧
    ∀ name, rateAt (lowerRow r') j name = rateAt (lowerRow r) i name ∧
      rateAt (upperRow r') j name = rateAt (upperRow r) i name := by
  have hr' : r' = r.map fun p => (p.1, ⟨pull l p.2.lb none, pull l p.2.ub none⟩) := by
    unfold remapRates2 at e
    have : ∀ p ∈ r, ∀ q, (do return (p.1, ← remapBins (l.map enc) p.2 (some none)) : Except Err _) = .ok q →
        q = (p.1, ⟨pull l p.2.lb none, pull l p.2.ub none⟩) := by
      intro p hp q hq
      obtain ⟨x, hx, hq⟩ := bind_ok_iff.1 hq
      rw [pure_ok_iff] at hq
      subst hq
      unfold remapBins at hx
      obtain ⟨y, hy, hx⟩ := bind_ok_iff.1 hx
      obtain ⟨z, hz, hx⟩ := bind_ok_iff.1 hx
      rw [pure_ok_iff] at hx
      subst hx
      rw [remap_enc_ok (by rw [(hlen p hp).1]; exact hr) hy,
        remap_enc_ok (by rw [(hlen p hp).2]; exact hr) hz]
    have h2 := forall₂_left (Q := fun (p : String × Bins (NV K)) q =>
      q = (p.1, (⟨pull l p.2.lb none, pull l p.2.ub none⟩ : Bins (NV K)))) e this
    clear e this hlen
    induction h2 with
    | nil => rfl
    | cons h _ ih => simp [h, ih]
  subst hr'
  refine ⟨by simp, ?_, ?_⟩
  · intro p hp
    obtain ⟨q, -, rfl⟩ := List.mem_map.1 hp
    exact ⟨by simp, by simp⟩
  intro name
  unfold rateAt lowerRow upperRow
  simp only [lookup_map Bins.lb, lookup_map Bins.ub,
    lookup_map (fun (b : Bins (NV K)) => (⟨pull l b.lb none, pull l b.ub none⟩ : Bins (NV K)))]
  cases r.lookup name with
  | none => exact ⟨rfl, rfl⟩
  | some v => exact ⟨pull_nvAt hj h, pull_nvAt hj h⟩

theorem groupRate_congr {cfg : Cfg K} {r r' : Rates1 K} {i j k : Nat}
    (hk : r'.map Prod.fst = r.map Prod.fst) (h : ∀ name, rateAt r' j name = rateAt r i name) :
    groupRate cfg r' k j = groupRate cfg r k i := by
  unfold groupRate
  have : namesOf cfg r' k = namesOf cfg r k := by
    unfold namesOf
    cases cfg.subgroups <;> simp [hk]
  rw [this]
  congr 1
  exact List.map_congr_left (fun x _ => h x)

/-! ### the bookkeeping of `time_left_per_bin` -/

/-- Bin `j` of state `s` may still move for a time `T`: its edges have moved for a time `τ` from the energies
`elo`, `ehi` with the rates of the first group, and `τ + T` is within the limits of every group. -/
def Allowed (cfg : Cfg K) (s : State K) (j : Nat) (T : WithTop K) : Prop :=
  ∃ elo ehi τ : K, 0 < elo ∧ elo < ehi ∧ 0 ≤ τ ∧ (cfg.optimize = false → τ = 0) ∧
    s.bins.lb.getD j 0 * cfg.mec2 = elo + (binRates cfg s 0 j).lo * τ ∧
    s.bins.ub.getD j 0 * cfg.mec2 = ehi + (binRates cfg s 0 j).hi * τ ∧
    ∀ k, k < s.sub.length → (τ : WithTop K) + T ≤ maxTimeBin cfg elo ehi
      (binRates cfg s k j).lo (binRates cfg s k j).hi (binRates cfg s k j).rel (binRates cfg s k j).abs

theorem Allowed.mono {cfg : Cfg K} {s : State K} {j : Nat} {T T' : WithTop K} (h : Allowed cfg s j T)
    (hT : T' ≤ T) : Allowed cfg s j T' := by
  obtain ⟨elo, ehi, τ, h1, h2, h3, h4, h5, h6, h7⟩ := h
  exact ⟨elo, ehi, τ, h1, h2, h3, h4, h5, h6, fun k hk => le_trans (by gcongr) (h7 k hk)⟩

/-- the invariant on `time_left_per_bin` -/
def Hist (cfg : Cfg K) (s : State K) : Prop :=
  cfg.optimize = true → ∀ j, j < s.bins.lb.length →
    s.timeLeft.getD j 0 = 0 ∨ Allowed cfg s j (s.timeLeft.getD j 0)

theorem allowed_of_max {cfg : Cfg K} (wf : cfg.WF) {s : State K} (hI : Inv cfg s)
    {enG : List (Bins K)} {relG absG : List (List K)} (hg : groupRates cfg s = .ok (enG, relG, absG))
    {mt : List (WithTop K)}
    (h : calcMaxTimePerBin cfg (toErg cfg s.bins) s.dens s.sub enG relG absG = .ok mt) {j : Nat}
    (hj : j < s.bins.lb.length) : Allowed cfg s j (mt.getD j ⊤) := by
  obtain ⟨-, -, h3⟩ := calcMax_le wf hI hg h
  refine ⟨s.bins.lb.getD j 0 * cfg.mec2, s.bins.ub.getD j 0 * cfg.mec2, 0, ?_, ?_, le_refl _, fun _ => rfl,
    by ring, by ring, ?_⟩
  · exact mul_pos (hI.pos _ (getD_mem hj)) wf.mec2
  · exact mul_lt_mul_of_pos_right (hI.width j hj) wf.mec2
  · intro k hk
    have := h3 k hk j hj
    rw [WithTop.coe_zero, zero_add]
    exact this

theorem chooseStep_allowed {cfg : Cfg K} (wf : cfg.WF) {s : State K} (hI : Inv cfg s) (hH : Hist cfg s)
    (hauto : cfg.stepDuration = .auto)
    {enG : List (Bins K)} {relG absG : List (List K)} (hg : groupRates cfg s = .ok (enG, relG, absG))
    {t0 : WithTop K} {left : List (WithTop K)}
    (h : chooseStep cfg s enG relG absG = .ok (t0, left)) :
    (∀ j, j < s.bins.lb.length → Allowed cfg s j t0) ∧
    (cfg.optimize = true → ∀ j, j < s.bins.lb.length → Allowed cfg s j (left.getD j 0)) := by
  unfold chooseStep at h
  simp only [hauto] at h
  obtain ⟨mt, h1, h⟩ := bind_ok_iff.1 h
  obtain ⟨ml, -, -⟩ := calcMax_le wf hI hg h1
  have hmt := fun {j} (hj : j < s.bins.lb.length) => allowed_of_max wf hI hg h1 hj
  split at h
  · next ho =>
    obtain ⟨t, h2, h⟩ := bind_ok_iff.1 h
    rw [pure_ok_iff] at h
    simp only [Prod.mk.injEq] at h
    obtain ⟨rfl, rfl⟩ := h
    obtain ⟨hm, hmin⟩ := minTime_spec h2
    have hll := hI.leftlen ho
    have hall : ∀ j, j < s.bins.lb.length → Allowed cfg s j
        ((List.zipWith (fun l m => if l = 0 then m else l) s.timeLeft mt).getD j 0) := by
      intro j hj
      rw [List.getD_eq_getElem _ _ (by simp [hll, ml, hj]), List.getElem_zipWith]
      split
      · have := hmt hj
        rwa [List.getD_eq_getElem _ _ (by omega)] at this
      · next hne =>
        rcases hH ho j hj with h0 | h0
        · rw [List.getD_eq_getElem _ _ (by omega)] at h0; exact absurd h0 hne
        · rwa [List.getD_eq_getElem _ _ (by omega)] at h0
    refine ⟨fun j hj => (hall j hj).mono ?_, fun _ => hall⟩
    rw [List.getD_eq_getElem _ _ (by simp [hll, ml, hj])]
    exact hmin _ (List.getElem_mem _)
  · next ho =>
    obtain ⟨t, h2, h⟩ := bind_ok_iff.1 h
    rw [pure_ok_iff] at h
    simp only [Prod.mk.injEq] at h
    obtain ⟨rfl, rfl⟩ := h
    obtain ⟨hm, hmin⟩ := minTime_spec h2
    refine ⟨fun j hj => (hmt hj).mono ?_, by simp [ho]⟩
    rw [List.getD_eq_getElem _ _ (by omega)]
    exact hmin _ (List.getElem_mem _)

/-- where the optimised loop does not recalculate, the bin is an old bin with time left -/
theorem recalcMask_off {cfg : Cfg K} {left left' : List (WithTop K)} {t : K} {o : StepOut K}
    {mask : List Bool} {l : List (Option Nat)} {n : Nat} (hopt : cfg.optimize = true)
    (hl : o.mapping = l.map enc) (hr : InRange n l) (hub : o.bins.ub.length = l.length)
    (hleft : left.length = n) (ht : 0 < t) (h : recalcMask cfg left t o = .ok (left', mask)) :
    mask.length = l.length ∧ left'.length = l.length ∧ ∀ j, j < l.length →
      left'.getD j 0 = 0 ∨ ((∀ h' : j < mask.length, mask[j] = false) ∧ o.bins.ub.getD j 0 ≠ 0 ∧
        ∃ i, l.getD j none = some i ∧ i < n ∧ left'.getD j 0 = subTime t (left.getD i 0)) := by
  unfold recalcMask at h
  rw [if_pos hopt] at h
  obtain ⟨x, hx, h⟩ := bind_ok_iff.1 h
  rw [hl] at hx
  have := remap_enc_ok (by simpa [hleft] using hr) hx
  subst this
  dsimp only at h
  rw [pure_ok_iff] at h
  simp only [Prod.mk.injEq] at h
  obtain ⟨rfl, rfl⟩ := h
  refine ⟨by simp [hub], by simp [hub], ?_⟩
  intro j hj
  rw [List.getD_eq_getElem _ _ (by simp [hub]; omega)]
  simp only [List.getElem_zipWith, List.getElem_map]
  by_cases hz : o.bins.ub[j]'(by omega) = 0
  · left
    simp [hz]
  · simp only [hz, if_false]
    by_cases hm : (pull l (left.map (subTime t)) 0)[j]'(by simpa using hj) < (t : WithTop K)
    · left; simp [hm]
    · right
      refine ⟨fun _ => by simp [hm], by rw [List.getD_eq_getElem _ _ (by omega)]; exact hz, ?_⟩
      simp only [hm, decide_false, Bool.false_eq_true, if_false]
      rw [pull_getElem] at hm ⊢
      cases hlj : l[j] with
      | none =>
        exfalso
        apply hm
        rw [hlj]
        show (0 : WithTop K) < t
        exact_mod_cast ht
      | some i =>
        have hi : i < n := hr i (hlj ▸ List.getElem_mem hj)
        refine ⟨i, by rw [List.getD_eq_getElem _ _ hj, hlj], hi, ?_⟩
        simp only
        exact getD_map' _ 0 0 (by omega)

theorem coe_add_subTime {τ t : K} {T : WithTop K} (h : (t : WithTop K) ≤ T) :
    ((τ + t : K) : WithTop K) + subTime t T = (τ : WithTop K) + T := by
  unfold subTime
  cases T with
  | top => simp
  | coe x =>
    rw [WithTop.map_coe, ← WithTop.coe_add, ← WithTop.coe_add]
    congr 1
    ring

theorem step_hist {cfg : Cfg K} (wf : cfg.WF) (heun : cfg.heun = false) {s s' : State K} (hI : Inv cfg s)
    (hH : Hist cfg s) (hg : s.elapsed < cfg.totalTime) (h : step cfg s = .ok s') : Hist cfg s' := by
  intro ho j hj'
  have hauto := wf.optAuto ho
  obtain ⟨enG, relG, absG, inj, t0, left, t, o, left', mask, h1, h2, h3, ht, h4, h5, h6⟩ :=
    step_parts h
  obtain ⟨g1, g2, g3⟩ := groupRates_len rfl hI.en.len hI.rel.len hI.abs.len h1
  obtain ⟨-, -, -, d1, -, -⟩ := groupRates_spec hI wf h1
  have hlen : s.bins.Len s.bins.lb.length := ⟨rfl, hI.ublen⟩
  have hinj := totalInjection_len hI.denslen hI.sublen g2 g3 h2
  obtain ⟨c1, c2, c3⟩ := chooseStep_spec wf hI ⟨g1, g2, g3⟩ h3
  obtain ⟨-, hall⟩ := chooseStep_allowed wf hI hH hauto h1 h3
  obtain ⟨l, hmap, hM, -, -, -⟩ :=
    applyTimeChanges_spec wf (toErg_len hlen) hI.denslen hI.subne hI.sublen g1 hinj h4
  obtain ⟨l', gm, d, sub0, sub', rates, hmap', hT, ev, hsl, -, -, hne⟩ :=
    applyTimeChanges_trace wf (toErg_len hlen) hI.denslen hI.subne hI.sublen g1 hinj h4
  have : l' = l := by
    rw [hmap] at hmap'
    exact (List.map_injective_iff.2 enc_injective hmap').symm
  subst this
  obtain ⟨hs0, hr0⟩ := hne heun
  subst hs0 hr0
  have htpos : 0 < t := ht ▸ truncStep_pos (c2 hauto) hg
  obtain ⟨c3a, c3b⟩ := c3 ho
  have htle : ∀ i, i < s.bins.lb.length → (t : WithTop K) ≤ left.getD i 0 := by
    intro i hi
    rw [List.getD_eq_getElem _ _ (by omega)]
    exact le_trans (ht ▸ truncStep_le_t _ _ _) (c3b _ (List.getElem_mem _))
  obtain ⟨m1, m2, m3⟩ := recalcMask_off ho hmap hM.range hM.ublen c3a htpos h5
  obtain ⟨pe, pa, pr, r1, r2, r3, r4, r5, r6, e1, e2, e3, e4, e5, e6⟩ := refresh_parts h6
  obtain ⟨u1, u2, u3⟩ := updateBinUb_spec ⟨hM.lblen, hM.ublen⟩ m1
  have hlbl : s'.bins.lb.length = l'.length := by rw [e1, u1, hM.lblen]
  have hj : j < l'.length := by omega
  rw [e4]
  rcases m3 j hj with h0 | ⟨hoff, hub, i, hli, hi, hlt⟩
  · exact Or.inl h0
  right
  rw [hlt]
  rw [hmap] at r1 r2 r3
  obtain ⟨k1, n1, v1⟩ := remapRates2_rateAt hI.en.len hM.range hj hli r1
  obtain ⟨k2, n2, v2⟩ := remapRates1_rateAt hI.abs.len hM.range hj hli r2
  obtain ⟨k3, n3, v3⟩ := remapRates1_rateAt hI.rel.len hM.range hj hli r3
  have kk1 := k1.trans hI.en.keys
  have kk2 := k2.trans hI.abs.keys
  have kk3 := k3.trans hI.rel.keys
  have w1 := fun name => recalcRates2_rateAt m1 kk1 n1 hj hoff r4 name
  have w2 := fun name => recalcRates1_rateAt m1 kk2 n2 hj hoff r5 name
  have w3 := fun name => recalcRates1_rateAt m1 kk3 n3 hj hoff r6 name
  have hI' := (step_inv wf hI hg h).1
  have hbr : ∀ k, binRates cfg s' k j = binRates cfg s k i := by
    intro k
    unfold binRates
    congr 1
    · refine groupRate_congr ?_ (fun name => ((w1 name).1).trans (v1 name).1)
      rw [keys_lowerRow, keys_lowerRow, hI'.en.keys, hI.en.keys]
    · refine groupRate_congr ?_ (fun name => ((w1 name).2).trans (v1 name).2)
      rw [keys_upperRow, keys_upperRow, hI'.en.keys, hI.en.keys]
    · exact groupRate_congr (by rw [hI'.rel.keys, hI.rel.keys]) (fun name => (w3 name).trans (v3 name))
    · exact groupRate_congr (by rw [hI'.abs.keys, hI.abs.keys]) (fun name => (w2 name).trans (v2 name))
  obtain ⟨elo, ehi, τ, a1, a2, a3, a4, a5, a6, a7⟩ := hall ho i hi
  have hsub : s'.sub.length = s.sub.length := (step_inv wf hI hg h).2.2
  -- the moved bin
  obtain ⟨moved, newDens, q1, q2, q3, q4, -⟩ := ev.groups
  have hs0 : 0 < s.sub.length := ev.subne
  have hr0 : 0 < rates.length := by have := ev.chgLen; simp at this; omega
  have hi0 : 0 < inj.length := by have := ev.injLen; simp at this; omega
  have G := q3 0 hs0 (by simpa using hr0) (by simpa using hi0) (by omega)
  have hgm := q4 (by omega)
  have elb := G.lb i hi
  have eub := G.ub i hi
  rw [hgm] at elb eub
  have hrl := g1 rates[0] (List.getElem_mem _)
  have x1 : (toErg cfg s.bins).lb.getD i 0 = s.bins.lb.getD i 0 * cfg.mec2 := getD_map' _ 0 0 hi
  have x2 : (toErg cfg s.bins).ub.getD i 0 = s.bins.ub.getD i 0 * cfg.mec2 :=
    getD_map' _ 0 0 (by rw [hI.ublen]; exact hi)
  have x3 : (scaleBins t rates[0]).lb.getD i 0 = rates[0].lb.getD i 0 * t := getD_map' _ 0 0 (by rw [hrl.1]; exact hi)
  have x4 : (scaleBins t rates[0]).ub.getD i 0 = rates[0].ub.getD i 0 * t := getD_map' _ 0 0 (by rw [hrl.2]; exact hi)
  simp only [List.getElem_map] at elb eub
  rw [x1, x3, (d1 0 hr0 i hi).1] at elb
  rw [x2, x4, (d1 0 hr0 i hi).2] at eub
  rcases hT j hj with ⟨hn, -⟩ | ⟨i', hi', -, hor⟩
  · rw [hn] at hli; simp at hli
  · have : i' = i := by rw [hi'] at hli; simpa using hli
    subst this
    rcases hor with ⟨y1, -, y2 | y2⟩ | ⟨y2, -⟩
    · refine ⟨elo, ehi, τ + t, a1, a2, by linarith, by simp [ho], ?_, ?_, ?_⟩
      · rw [hbr, e1, u1, y1, elb, div_mul_cancel₀ _ (ne_of_gt wf.mec2), a5]
        simp only [binRates]
        ring
      · rw [hbr, e1, u3 j (by omega), if_neg (by rw [hoff]; simp), y2, eub,
          div_mul_cancel₀ _ (ne_of_gt wf.mec2), a6]
        simp only [binRates]
        ring
      · intro k hk
        rw [hbr, coe_add_subTime (htle _ hi)]
        exact a7 k (by omega)
    · exact absurd y2 hub
    · exact absurd y2 hub

theorem reach_hist {cfg : Cfg K} (wf : cfg.WF) (heun : cfg.heun = false) {dist : Dist K}
    (hnn : ∀ x, 0 ≤ dist.eval x) {s : State K} (h : Reach cfg dist s) : Hist cfg s := by
  induction h with
  | init h =>
    intro _ j hj
    obtain ⟨sub, -, -, -, -, -, -, -, ht, -⟩ := initState_parts h
    left
    rw [ht]
    by_cases hj2 : j < cfg.initialGamma.length
    · exact getD_map' _ 0 0 hj2
    · rw [List.getD_eq_default _ _ (by simpa using hj2)]
  | step hr hg hs ih => exact step_hist wf heun (reach_inv wf hnn hr).1 ih hg hs

end Verif.TE
