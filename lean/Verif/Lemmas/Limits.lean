import Verif.Lemmas.Sums
import Verif.Lemmas.Reach

/- What the automatic step guarantees. -/

namespace Verif.TE

open Verif.Np

set_option linter.unusedSectionVars false

variable {K : Type} [Field K] [LinearOrder K] [IsStrictOrderedRing K]

/-- The user's limits on one bin of one group during a time `t`: `elo`, `ehi` are the energies of its edges,
`rlo`, `rhi` their rates, `rel`/`abs` the injection rates. -/
structure WithinLimits (cfg : Cfg K) (elo ehi rlo rhi rel abs t : K) : Prop where
  lower : |rlo| * t ≤ cfg.maxEnergyChange * elo
  upper : |rhi| * t ≤ cfg.maxEnergyChange * ehi
  /-- the bin stays open and the density changes by a factor within `[1/(1+thr), 1+thr]` -/
  width : 0 < ehi - elo + (rhi - rlo) * t
  thin : 1 / (1 + cfg.maxDensityChange) ≤ (ehi - elo) / (ehi - elo + (rhi - rlo) * t)
  dense : (ehi - elo) / (ehi - elo + (rhi - rlo) * t) ≤ 1 + cfg.maxDensityChange
  escape : -(1 / 2) ≤ rel * t
  inject : |abs| * t ≤ cfg.maxInjection

theorem withinLimits_of_le {cfg : Cfg K} (h1 : 0 < cfg.maxEnergyChange) (h2 : 0 < cfg.maxDensityChange)
    (h3 : 0 < cfg.maxInjection) {elo ehi rlo rhi rel abs t : K} (hl : 0 < elo) (hw : elo < ehi)
    (ht : 0 ≤ t) (h : (t : WithTop K) ≤ maxTimeBin cfg elo ehi rlo rhi rel abs) :
    WithinLimits cfg elo ehi rlo rhi rel abs t := by
  unfold maxTimeBin at h
  simp only [le_min_iff] at h
  obtain ⟨⟨e1, e2⟩, e3, e4, e5⟩ := h
  have edge : ∀ {e r : K}, 0 < e → (t : WithTop K) ≤ timeEdge cfg e r → |r| * t ≤ cfg.maxEnergyChange * e := by
    intro e r he h
    unfold timeEdge at h
    split at h
    · next hr =>
      rw [WithTop.coe_le_coe, le_div_iff₀ (abs_pos.2 hr)] at h
      linarith
    · next hr =>
      have : r = 0 := not_not.1 hr
      rw [this, abs_zero, zero_mul]
      exact le_of_lt (mul_pos h1 he)
  have hw0 : 0 < ehi - elo := sub_pos.2 hw
  set w := ehi - elo with hwd
  set D := rhi - rlo with hD
  set thr := cfg.maxDensityChange with hthr
  have h1t : 0 < 1 + thr := by linarith
  -- the two bounds on the new width
  have hD2 : D * t ≤ w * thr ∧ -(w * thr / (1 + thr)) ≤ D * t := by
    unfold timeDensity at e3
    rw [← hD, ← hwd] at e3
    split at e3
    · next hr =>
      simp only [← hthr] at e3
      rw [WithTop.coe_le_coe] at e3
      rcases lt_or_gt_of_ne hr with hneg | hpos
      · have hx : ¬ (w / D > 0) := not_lt.2 (le_of_lt (div_neg_of_pos_of_neg hw0 hneg))
        rw [if_neg hx] at e3
        have : t * (-D) ≤ w * thr / (1 + thr) := by
          have hnD : 0 < -D := by linarith
          calc t * (-D) ≤ (-(w / D) * thr / (1 + thr)) * (-D) := mul_le_mul_of_nonneg_right e3 (le_of_lt hnD)
            _ = w * thr / (1 + thr) := by field_simp
        refine ⟨?_, by linarith⟩
        have : D * t ≤ 0 := mul_nonpos_of_nonpos_of_nonneg (le_of_lt hneg) ht
        have := mul_pos hw0 h2
        linarith
      · rw [if_pos (div_pos hw0 hpos)] at e3
        refine ⟨?_, ?_⟩
        · calc D * t ≤ D * (w / D * thr) := mul_le_mul_of_nonneg_left e3 (le_of_lt hpos)
            _ = w * thr := by field_simp
        · have : 0 ≤ D * t := mul_nonneg (le_of_lt hpos) ht
          have := div_pos (mul_pos hw0 h2) h1t
          linarith
    · next hr =>
      have : D = 0 := not_not.1 hr
      rw [this, zero_mul]
      exact ⟨le_of_lt (mul_pos hw0 h2), neg_nonpos.2 (le_of_lt (div_pos (mul_pos hw0 h2) h1t))⟩
  have hlow : w / (1 + thr) ≤ w + D * t := by
    have : w / (1 + thr) = w - w * thr / (1 + thr) := by field_simp; ring
    rw [this]; linarith [hD2.2]
  have hwp : 0 < w + D * t := lt_of_lt_of_le (div_pos hw0 h1t) hlow
  refine ⟨edge hl e1, edge (lt_trans hl hw) e2, hwp, ?_, ?_, ?_, ?_⟩
  · rw [div_le_div_iff₀ h1t hwp]
    linarith [hD2.1]
  · rw [div_le_iff₀ hwp]
    rw [div_le_iff₀ h1t] at hlow
    linarith
  · unfold timeRel at e4
    split at e4
    · next hr =>
      rw [WithTop.coe_le_coe] at e4
      have := mul_le_mul_of_nonpos_left e4 (le_of_lt hr)
      have e : rel * (-(1 / 2) / rel) = -(1 / 2) := by field_simp [ne_of_lt hr]
      linarith
    · next hr =>
      have := mul_nonneg (not_lt.1 hr) ht
      linarith
  · unfold timeAbs at e5
    split at e5
    · next hr =>
      rw [WithTop.coe_le_coe, le_div_iff₀ (abs_pos.2 hr)] at e5
      linarith
    · next hr =>
      have : abs = 0 := not_not.1 hr
      rw [this, abs_zero, zero_mul]
      exact le_of_lt h3

/-! ### the grouped rates of a step -/

/-- names of the functions in group `k`: the `k`-th row of `subgroups`; without subgroups, all of them -/
def namesOf {α : Type} (cfg : Cfg K) (r : List (String × α)) (k : Nat) : List String :=
  match cfg.subgroups with
  | some rows => rows.getD k []
  | none => r.map Prod.fst

/-- number of groups -/
def groupCount (cfg : Cfg K) : Nat :=
  match cfg.subgroups with
  | some rows => rows.length
  | none => 1

/-- the rate of group `k` in bin `j` -/
def groupRate (cfg : Cfg K) (r : Rates1 K) (k j : Nat) : K := ((namesOf cfg r k).map (rateAt r j)).sum

theorem groupRate_spec {cfg : Cfg K} {r : Rates1 K} {n : Nat} (hlen : ∀ p ∈ r, p.2.length = n)
    (hnd : (r.map Prod.fst).Nodup) {G : List (List K)}
    (h : (sumRates1 r n cfg.subgroups).mapM finiteRow = .ok G) :
    G.length = groupCount cfg ∧ ∀ k (hk : k < G.length), ∀ j, j < n →
      G[k].getD j 0 = groupRate cfg r k j := by
  unfold groupCount groupRate namesOf
  cases hsg : cfg.subgroups with
  | none =>
    rw [hsg] at h
    obtain ⟨u, rfl, a⟩ := sumRates1_none hlen hnd h
    refine ⟨rfl, ?_⟩
    intro k hk j hj
    have : k = 0 := by simpa using hk
    subst this
    exact a j hj
  | some rows =>
    rw [hsg] at h
    obtain ⟨a, b⟩ := sumRates1_some hlen h
    refine ⟨a, ?_⟩
    intro k hk j hj
    have hk' : k < rows.length := by omega
    rw [b k hk' hk j hj]
    simp [hk']

theorem forall₂_keys {α β : Type} {P : String × α → String × β → Prop} {fns : List (String × α)}
    {r : List (String × β)} (h : List.Forall₂ (fun f p => p.1 = f.1 ∧ P f p) fns r) :
    r.map Prod.fst = fns.map Prod.fst := by
  induction h with
  | nil => rfl
  | cons h _ ih => simp [h.1, ih]

theorem RatesGood1.keys {fns : List (String × GammaFn K)} {n : Nat} {r : Rates1 K}
    (h : RatesGood1 fns n r) : r.map Prod.fst = fns.map Prod.fst :=
  forall₂_keys (P := fun f p => Good1 n f.2 p.2) h

theorem RatesGood2.keys {fns : List (String × GammaFn K)} {n : Nat} {r : Rates2 K}
    (h : RatesGood2 fns n r) : r.map Prod.fst = fns.map Prod.fst :=
  forall₂_keys (P := fun f p => Good2 n f.2 p.2) h

theorem keys_lowerRow (r : Rates2 K) : (lowerRow r).map Prod.fst = r.map Prod.fst := by
  simp [lowerRow, Function.comp_def]

theorem keys_upperRow (r : Rates2 K) : (upperRow r).map Prod.fst = r.map Prod.fst := by
  simp [upperRow, Function.comp_def]

/-- the grouped rates used by a step, in terms of the stored rates -/
theorem groupRates_spec {cfg : Cfg K} {s : State K} (hI : Inv cfg s) (wf : cfg.WF)
    {enG : List (Bins K)} {relG absG : List (List K)} (h : groupRates cfg s = .ok (enG, relG, absG)) :
    enG.length = groupCount cfg ∧ relG.length = groupCount cfg ∧ absG.length = groupCount cfg ∧
    (∀ k (hk : k < enG.length), ∀ j, j < s.bins.lb.length →
      enG[k].lb.getD j 0 = groupRate cfg (lowerRow s.en) k j ∧
      enG[k].ub.getD j 0 = groupRate cfg (upperRow s.en) k j) ∧
    (∀ k (hk : k < relG.length), ∀ j, j < s.bins.lb.length → relG[k].getD j 0 = groupRate cfg s.rel k j) ∧
    (∀ k (hk : k < absG.length), ∀ j, j < s.bins.lb.length →
      absG[k].getD j 0 = groupRate cfg s.abs k j) := by
  unfold groupRates at h
  dsimp only at h
  obtain ⟨e1, g1, h⟩ := bind_ok_iff.1 h
  obtain ⟨e2, g2, h⟩ := bind_ok_iff.1 h
  obtain ⟨e3, g3, h⟩ := bind_ok_iff.1 h
  rw [pure_ok_iff] at h
  simp only [Prod.mk.injEq] at h
  obtain ⟨rfl, rfl, rfl⟩ := h
  obtain ⟨p1, p2⟩ := mapM_finiteBins g1
  rw [sumRates2_lb] at p1
  rw [sumRates2_ub] at p2
  have kn : (s.en.map Prod.fst).Nodup := by rw [hI.en.keys]; exact wf.keysEn
  obtain ⟨a1, b1⟩ := groupRate_spec (by
    intro p hp
    obtain ⟨q, hq, rfl⟩ := List.mem_map.1 hp
    exact (hI.en.len q hq).1) (by rw [keys_lowerRow]; exact kn) p1
  obtain ⟨a2, b2⟩ := groupRate_spec (by
    intro p hp
    obtain ⟨q, hq, rfl⟩ := List.mem_map.1 hp
    exact (hI.en.len q hq).2) (by rw [keys_upperRow]; exact kn) p2
  obtain ⟨a3, b3⟩ := groupRate_spec hI.rel.len (by rw [hI.rel.keys]; exact wf.keysRel) g2
  obtain ⟨a4, b4⟩ := groupRate_spec hI.abs.len (by rw [hI.abs.keys]; exact wf.keysAbs) g3
  rw [List.length_map] at a1
  refine ⟨a1, a3, a4, ?_, b3, b4⟩
  intro k hk j hj
  refine ⟨?_, ?_⟩
  · rw [← b1 k (by simpa using hk) j hj, List.getElem_map]
  · rw [← b2 k (by simpa using hk) j hj, List.getElem_map]

/-- the rates of one bin in one group -/
structure BinRates (K : Type) where
  lo : K
  hi : K
  rel : K
  abs : K

/-- the rates of group `k` in bin `j` of a state -/
def binRates (cfg : Cfg K) (s : State K) (k j : Nat) : BinRates K :=
  ⟨groupRate cfg (lowerRow s.en) k j, groupRate cfg (upperRow s.en) k j, groupRate cfg s.rel k j,
    groupRate cfg s.abs k j⟩

theorem calcMax_le {cfg : Cfg K} (wf : cfg.WF) {s : State K} (hI : Inv cfg s)
    {enG : List (Bins K)} {relG absG : List (List K)} (hg : groupRates cfg s = .ok (enG, relG, absG))
    {mt : List (WithTop K)}
    (h : calcMaxTimePerBin cfg (toErg cfg s.bins) s.dens s.sub enG relG absG = .ok mt) :
    mt.length = s.bins.lb.length ∧ s.sub.length ≤ groupCount cfg ∧
    ∀ k, k < s.sub.length → ∀ j, j < s.bins.lb.length →
      mt.getD j ⊤ ≤ maxTimeBin cfg (s.bins.lb.getD j 0 * cfg.mec2) (s.bins.ub.getD j 0 * cfg.mec2)
        (binRates cfg s k j).lo (binRates cfg s k j).hi (binRates cfg s k j).rel (binRates cfg s k j).abs := by
  obtain ⟨g1, g2, g3⟩ := groupRates_len rfl hI.en.len hI.rel.len hI.abs.len hg
  obtain ⟨c1, c2, c3, d1, d2, d3⟩ := groupRates_spec hI wf hg
  have hlen : s.bins.Len s.bins.lb.length := ⟨rfl, hI.ublen⟩
  obtain ⟨r1, r2, -⟩ := calcMaxTimePerBin_spec (toErg_len hlen) hI.denslen hI.sublen g1 g2 g3 h
  have hsub : s.sub.length ≤ groupCount cfg := by
    unfold calcMaxTimePerBin at h
    split at h
    · simp at h
    · omega
  refine ⟨r1, hsub, ?_⟩
  intro k hk j hj
  have := r2 k hk (by omega) (by omega) (by omega) j hj
  rw [(d1 k (by omega) j hj).1, (d1 k (by omega) j hj).2, d2 k (by omega) j hj, d3 k (by omega) j hj] at this
  have e1 : (toErg cfg s.bins).lb.getD j 0 = s.bins.lb.getD j 0 * cfg.mec2 := getD_map' _ 0 0 hj
  have e2 : (toErg cfg s.bins).ub.getD j 0 = s.bins.ub.getD j 0 * cfg.mec2 :=
    getD_map' _ 0 0 (by rw [hI.ublen]; exact hj)
  rw [e1, e2] at this
  exact this

end Verif.TE
