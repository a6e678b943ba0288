import Verif.Lemmas.AutoSafe
import Verif.Props.TEBasics

/- C09 (particle number), C10 and C11 (automatic steps). -/

namespace Verif.TE

open Verif.Np

set_option linter.unusedSectionVars false

variable {K : Type} [Field K] [LinearOrder K] [IsStrictOrderedRing K]

/-! ### C09 -/

/-- Moving one group of particles (`recalc_gamma_bins_and_density`, then injection): whenever this does not
raise, every bin keeps its number of particles (density times energy width) up to the injection. -/
theorem C09_group_conserves {cfg : Cfg K} (hm : 0 < cfg.mec2) {n : Nat} {en chg : Bins K}
    {dens frac inj : List K} (he : en.Len n) (hc : chg.Len n) (hd : dens.length = n) (hf : frac.length = n)
    (hi : inj.length = n) {p q : Bins K × List K} (h1 : evalGroup cfg en dens frac chg = .ok p)
    (h2 : addInjection p inj = .ok q) :
    q.1.Len n ∧ q.2.length = n ∧ ∀ j, j < n →
      q.1.lb.getD j 0 * cfg.mec2 = en.lb.getD j 0 + chg.lb.getD j 0 ∧
      q.1.ub.getD j 0 * cfg.mec2 = en.ub.getD j 0 + chg.ub.getD j 0 ∧
      q.2.getD j 0 * (q.1.ub.getD j 0 * cfg.mec2 - q.1.lb.getD j 0 * cfg.mec2) =
        dens.getD j 0 * frac.getD j 0 * (en.ub.getD j 0 - en.lb.getD j 0) +
          inj.getD j 0 * (q.1.ub.getD j 0 * cfg.mec2 - q.1.lb.getD j 0 * cfg.mec2) := by
  have G := group_spec hm he hd hf hc hi h1 h2
  refine ⟨G.len, G.dlen, ?_⟩
  intro j hj
  have e1 : q.1.lb.getD j 0 * cfg.mec2 = en.lb.getD j 0 + chg.lb.getD j 0 := by
    rw [G.lb j hj, div_mul_cancel₀ _ hm.ne']
  have e2 : q.1.ub.getD j 0 * cfg.mec2 = en.ub.getD j 0 + chg.ub.getD j 0 := by
    rw [G.ub j hj, div_mul_cancel₀ _ hm.ne']
  have hw : (en.ub.getD j 0 + chg.ub.getD j 0) - (en.lb.getD j 0 + chg.lb.getD j 0) ≠ 0 := by
    rw [← e1, ← e2]
    have := mul_lt_mul_of_pos_right (G.width j hj) hm
    exact (sub_pos.2 this).ne'
  refine ⟨e1, e2, ?_⟩
  rw [G.dens j hj, e1, e2]
  field_simp

example : ∃ p q : Bins ℚ × List ℚ,
    evalGroup demoCfg ⟨[1, 2], [2, 4]⟩ [3, 5] [1, 1/2] ⟨[1, 1], [2, 0]⟩ = .ok p ∧
    addInjection p [1, 0] = .ok q ∧ q.2 = [5/2, 5] := by
  refine ⟨(⟨[2, 3], [4, 4]⟩, [3/2, 5]), (⟨[2, 3], [4, 4]⟩, [5/2, 5]), ?_, ?_, rfl⟩ <;> decide +kernel

theorem sum_range_affine (m : Nat) (f g : Nat → K) (a t : K) :
    ((List.range m).map fun k => a * f k + g k * t).sum
      = a * ((List.range m).map f).sum + ((List.range m).map g).sum * t := by
  induction m with
  | zero => simp
  | succ m ih => simp only [List.range_succ, List.map_append, List.sum_append, ih, List.map_cons,
      List.map_nil, List.sum_cons, List.sum_nil]; ring

/-- total injection per unit time into bin `i`: escape and relative terms scale with the density of the
group, absolute ones do not -/
def injectionRate (cfg : Cfg K) (s : State K) (i : Nat) : K :=
  ((List.range s.sub.length).map fun k => s.dens.getD i 0 * (s.sub.getD k []).getD i 0 *
    (binRates cfg s k i).rel + (binRates cfg s k i).abs).sum

/-- One step of the evolution, with a single group, or with several groups that share the energy changes:
every old bin `i` turns into the bin `[lo i, hi i]` with density `d i`, its particle number changed only by
injection; and every bin of the new state is one of those, or an empty one created at the bounds, or
replaces merged ones and lies between them. -/
theorem C09_step_conserves {cfg : Cfg K} (wf : cfg.WF) (hfr : cfg.FractionsOK) {dist : Dist K}
    (hnn : ∀ x, 0 ≤ dist.eval x) {s s' : State K} (hr : Reach cfg dist s) (h : step cfg s = .ok s')
    (hone : s.sub.length = 1 ∨ (cfg.heun = false ∧ ∀ k, k < s.sub.length → ∀ i, i < s.bins.lb.length →
      (binRates cfg s k i).lo = (binRates cfg s 0 i).lo ∧ (binRates cfg s k i).hi = (binRates cfg s 0 i).hi)) :
    ∃ (lo hi d : Nat → K),
      (∀ i, i < s.bins.lb.length → 0 < lo i ∧ lo i < hi i ∧
        d i * (hi i - lo i) = s.dens.getD i 0 * (s.bins.ub.getD i 0 - s.bins.lb.getD i 0) +
          injectionRate cfg s i * (s'.elapsed - s.elapsed) * (hi i - lo i) ∧
        (cfg.heun = false →
          lo i * cfg.mec2 = s.bins.lb.getD i 0 * cfg.mec2 + (binRates cfg s 0 i).lo * (s'.elapsed - s.elapsed) ∧
          hi i * cfg.mec2 = s.bins.ub.getD i 0 * cfg.mec2 + (binRates cfg s 0 i).hi * (s'.elapsed - s.elapsed))) ∧
      ∀ j, j < s'.bins.lb.length →
        s'.dens.getD j 0 = 0 ∨
        (∃ i, i < s.bins.lb.length ∧ s'.bins.lb.getD j 0 = lo i ∧ s'.dens.getD j 0 = d i) ∨
        (∃ a b, a < s.bins.lb.length ∧ b < s.bins.lb.length ∧ lo a ≤ s'.bins.lb.getD j 0 ∧
          s'.bins.lb.getD j 0 ≤ lo b ∧ s'.dens.getD j 0 = s'.dist.eval (s'.bins.lb.getD j 0)) := by
  obtain ⟨hI, hS⟩ := reach_inv wf hnn hr
  have hS := hS hfr
  obtain ⟨enG, relG, absG, inj, t0, left, t, o, left', mask, h1, h2, h3, ht, h4, h5, h6⟩ :=
    step_parts h
  obtain ⟨g1, g2, g3⟩ := groupRates_len rfl hI.en.len hI.rel.len hI.abs.len h1
  obtain ⟨k1, k2, k3, d1, d2, d3⟩ := groupRates_spec hI wf h1
  have hlen : s.bins.Len s.bins.lb.length := ⟨rfl, hI.ublen⟩
  have hinj := totalInjection_len hI.denslen hI.sublen g2 g3 h2
  obtain ⟨l, gm, d, sub0, sub', rates, hmap, hT, ev, hsl, hso, hrl, hne⟩ :=
    applyTimeChanges_trace wf (toErg_len hlen) hI.denslen hI.subne hI.sublen g1 hinj h4
  obtain ⟨l2, hmap2, hM, -, -, -⟩ :=
    applyTimeChanges_spec wf (toErg_len hlen) hI.denslen hI.subne hI.sublen g1 hinj h4
  have hll : l2.length = l.length := by
    have := congrArg List.length (hmap.symm.trans hmap2)
    simpa using this.symm
  obtain ⟨pe, pa, pr, -, -, -, -, -, -, e1, e2, e3, e4, e5, e6⟩ := refresh_parts h6
  have hel : s'.elapsed - s.elapsed = t := by rw [e5]; ring
  have hlb : s'.bins.lb = o.bins.lb := by rw [e1]; rfl
  obtain ⟨moved, newDens, q1, q2, q3, q4, q5, q6, q7, q8⟩ := ev.groups
  have hcl := ev.chgLen
  have hil := ev.injLen
  have hsp := ev.subne
  simp only [List.length_map] at hcl hil
  have x1 : ∀ i, i < s.bins.lb.length → (toErg cfg s.bins).lb.getD i 0 = s.bins.lb.getD i 0 * cfg.mec2 :=
    fun i hi => getD_map' _ 0 0 hi
  have x2 : ∀ i, i < s.bins.lb.length → (toErg cfg s.bins).ub.getD i 0 = s.bins.ub.getD i 0 * cfg.mec2 :=
    fun i hi => getD_map' _ 0 0 (by rw [hI.ublen]; exact hi)
  have x3 : ∀ k (hk : k < rates.length), ∀ i, i < s.bins.lb.length →
      (scaleBins t rates[k]).lb.getD i 0 = rates[k].lb.getD i 0 * t ∧
      (scaleBins t rates[k]).ub.getD i 0 = rates[k].ub.getD i 0 * t := by
    intro k hk i hi
    have := hrl _ (List.getElem_mem hk)
    exact ⟨getD_map' _ 0 0 (by rw [this.1]; exact hi), getD_map' _ 0 0 (by rw [this.2]; exact hi)⟩
  have hlr : s.sub.length ≤ relG.length := by
    rcases hone with hone | ⟨hh, -⟩
    · rw [hone]
      by_contra hc
      have r0 : relG = [] := List.length_eq_zero_iff.1 (by omega)
      have a0 : absG = [] := List.length_eq_zero_iff.1 (by omega)
      obtain ⟨f, hf⟩ := List.length_eq_one_iff.1 hone
      rw [r0, a0, hf] at h2
      simp [totalInjection, bcastRows, densitiesGrouped, bind, Except.bind] at h2
      subst h2
      simp only [List.length_nil] at hil
      omega
    · have := (hne hh).2
      subst this
      omega
  have hfrac := (hso ⟨hS.nn, hS.sum⟩).2
  have hm0 := q4 (by omega)
  -- all groups move to the same bins
  have hsame : ∀ k (hk : k < moved.length), moved[k].1 = gm := by
    intro k hk
    rcases hone with hone | ⟨hh, hrate⟩
    · have : k = 0 := by omega
      subst this
      exact hm0
    · obtain ⟨es, er⟩ := hne hh
      subst er
      have G0 := q3 0 (by omega) (by simp; omega) (by simp; omega) (by omega)
      have Gk := q3 k (by omega) (by simp; omega) (by simp; omega) hk
      rw [← hm0]
      have hb : ∀ i, i < s.bins.lb.length → rates[k].lb.getD i 0 = rates[0].lb.getD i 0 ∧
          rates[k].ub.getD i 0 = rates[0].ub.getD i 0 := by
        intro i hi
        have r := hrate k (by omega) i hi
        rw [(d1 k (by omega) i hi).1, (d1 k (by omega) i hi).2, (d1 0 (by omega) i hi).1,
          (d1 0 (by omega) i hi).2]
        exact r
      have ext : ∀ {a b : List K}, a.length = s.bins.lb.length → b.length = s.bins.lb.length →
          (∀ i, i < s.bins.lb.length → a.getD i 0 = b.getD i 0) → a = b := by
        intro a b ha hb hab
        apply List.ext_getElem (by omega)
        intro i h1 h2
        have := hab i (by omega)
        rwa [List.getD_eq_getElem _ _ h1, List.getD_eq_getElem _ _ h2] at this
      have el : moved[k].1.lb = moved[0].1.lb := ext Gk.len.1 G0.len.1 (by
        intro i hi
        rw [Gk.lb i hi, G0.lb i hi]
        simp only [List.getElem_map]
        rw [(x3 k (by omega) i hi).1, (x3 0 (by omega) i hi).1, (hb i hi).1])
      have eu : moved[k].1.ub = moved[0].1.ub := ext Gk.len.2 G0.len.2 (by
        intro i hi
        rw [Gk.ub i hi, G0.ub i hi]
        simp only [List.getElem_map]
        rw [(x3 k (by omega) i hi).2, (x3 0 (by omega) i hi).2, (hb i hi).2])
      cases hx : moved[k].1
      cases hy : moved[0].1
      rw [hx, hy] at el eu
      simp only at el eu
      rw [el, eu]
  refine ⟨fun i => gm.lb.getD i 0, fun i => gm.ub.getD i 0, fun i => d.getD i 0, ?_, ?_⟩
  · intro i hi
    have hpos := ev.pos i hi
    have hw := ev.width i hi
    refine ⟨hpos, hw, ?_, ?_⟩
    · have hd : d.getD i 0 = ((List.range s.sub.length).map fun k =>
          (s.dens.getD i 0 * ((s.bins.ub.getD i 0 - s.bins.lb.getD i 0) / (gm.ub.getD i 0 - gm.lb.getD i 0))) *
            (sub0.getD k []).getD i 0 +
          (s.dens.getD i 0 * (s.sub.getD k []).getD i 0 * (binRates cfg s k i).rel +
            (binRates cfg s k i).abs) * t).sum := by
        rw [q7 i hi]
        congr 1
        apply List.ext_getElem (by simp; omega)
        intro k hk hk'
        simp only [List.length_map, List.length_range] at hk hk'
        simp only [List.getElem_map, List.getElem_range]
        have G := q3 k (by omega) (by simp; omega) (by simp; omega) (by omega)
        have hsk := hsame k (by omega)
        have hwid : (toErg cfg s.bins).ub.getD i 0 + (scaleBins t rates[k]).ub.getD i 0 -
            ((toErg cfg s.bins).lb.getD i 0 + (scaleBins t rates[k]).lb.getD i 0) =
            (gm.ub.getD i 0 - gm.lb.getD i 0) * cfg.mec2 := by
          have a := G.ub i hi
          have b := G.lb i hi
          simp only [List.getElem_map] at a b
          rw [← hsk, a, b]
          have := wf.mec2.ne'
          field_simp
        have ti : (inj[k].map (· * t)).getD i 0 = inj[k].getD i 0 * t :=
          getD_map' _ 0 0 (by rw [hinj _ (List.getElem_mem _)]; exact hi)
        have tot := totalInjection_spec hI.denslen hI.sublen g2 g3 (by omega) h2 k (by omega)
          (by omega) (by omega) (by omega) i hi hlr
        rw [q5 k (by omega) (by omega) hsk, G.dens i hi]
        simp only [List.getElem_map]
        rw [hwid, ti, tot, d2 k (by omega) i hi, d3 k (by omega) i hi, x1 i hi, x2 i hi,
          List.getD_eq_getElem _ _ (show k < sub0.length by omega),
          List.getD_eq_getElem _ _ (show k < s.sub.length by omega)]
        have hmz := wf.mec2.ne'
        have hwz : gm.ub.getD i 0 - gm.lb.getD i 0 ≠ 0 := (sub_pos.2 hw).ne'
        simp only [binRates]
        field_simp
      dsimp only
      rw [hd, sum_range_affine]
      have hf1 : ((List.range s.sub.length).map fun k => (sub0.getD k []).getD i 0).sum = 1 := by
        rw [← hfrac i hi]
        congr 1
        apply List.ext_getElem (by simp; omega)
        intro k hk hk'
        simp only [List.length_map, List.length_range] at hk hk'
        simp only [List.getElem_map, List.getElem_range]
        rw [List.getD_eq_getElem _ _ (show k < sub0.length by omega)]
      rw [hf1, hel]
      have hwz : gm.ub.getD i 0 - gm.lb.getD i 0 ≠ 0 := (sub_pos.2 hw).ne'
      simp only [injectionRate]
      field_simp
    · intro hh
      obtain ⟨es, er⟩ := hne hh
      subst er
      have G0 := q3 0 (by omega) (by simp; omega) (by simp; omega) (by omega)
      have hmz := wf.mec2.ne'
      have a := G0.ub i hi
      have b := G0.lb i hi
      simp only [List.getElem_map] at a b
      rw [hm0] at a b
      dsimp only
      rw [a, b, hel, (x3 0 (by omega) i hi).1, (x3 0 (by omega) i hi).2, (d1 0 (by omega) i hi).1,
        (d1 0 (by omega) i hi).2, x1 i hi, x2 i hi, div_mul_cancel₀ _ hmz, div_mul_cancel₀ _ hmz]
      exact ⟨rfl, rfl⟩
  · intro j hj
    rw [e2, hlb, e6]
    rw [hlb] at hj
    have hjl : j < l.length := by
      have := hM.lblen
      omega
    have gl := ev.len.1
    rcases hT j hjl with ⟨-, -, hz⟩ | ⟨i, -, hi, hc | ⟨-, ⟨a, ha, b, hb, hab⟩, hd⟩⟩
    · exact Or.inl hz
    · exact Or.inr (Or.inl ⟨i, by omega, hc.1, hc.2.1⟩)
    · right; right
      obtain ⟨ia, hia, rfl⟩ := List.mem_iff_getElem.1 ha
      obtain ⟨ib, hib, rfl⟩ := List.mem_iff_getElem.1 hb
      refine ⟨ia, ib, by omega, by omega, ?_, ?_, hd⟩ <;> dsimp only
      · rw [List.getD_eq_getElem _ _ hia]; exact hab.1
      · rw [List.getD_eq_getElem _ _ hib]; exact hab.2

/-- one group, no bounds, no merging: the run used as an example for C09 -/
def demoOne : Cfg ℚ := { demoCfg with subgroups := none, gammaBounds := none, mergeCloser := none }

theorem demoOne_wf : demoOne.WF := { demoCfg_wf with bounds := by intro _ _ h; simp [demoOne] at h }

/-- the hypotheses of `C09_step_conserves` are met by the first step of this run -/
example : ∃ s s', Reach demoOne demoDist s ∧ step demoOne s = .ok s' ∧ s.sub.length = 1 ∧
    s.dens = [8, 4, 2] ∧ s'.dens.length = 3 ∧ s'.elapsed = 1/2 := by
  have h1 : ∃ s, initState demoOne demoDist = .ok s ∧ s.sub.length = 1 ∧ s.dens = [8, 4, 2] ∧
      ∃ s', step demoOne s = .ok s' ∧ s'.dens.length = 3 ∧ s'.elapsed = 1/2 := by
    have c : (match initState demoOne demoDist with
      | .ok s => (match step demoOne s with
        | .ok s' => decide (s.sub.length = 1 ∧ s.dens = [8, 4, 2] ∧ s'.dens.length = 3 ∧ s'.elapsed = 1/2)
        | _ => false)
      | _ => false) = true := by decide +kernel
    split at c
    · next s hs =>
      split at c
      · next s' hs' =>
        rw [decide_eq_true_eq] at c
        exact ⟨s, hs, c.1, c.2.1, s', hs', c.2.2⟩
      · simp at c
    · simp at c
  obtain ⟨s, hs, a, b, s', hs', c, d⟩ := h1
  exact ⟨s, s', .init hs, hs', a, b, c, d⟩

/-! ### C10 -/

/-- Automatic steps without optimisation: a step is positive, and during it every bin of every subgroup
stays within each of the limits set by the user. Holds for both methods. -/
theorem C10_step_within_limits {cfg : Cfg K} (wf : cfg.WF) {dist : Dist K} (hnn : ∀ x, 0 ≤ dist.eval x)
    (hauto : cfg.stepDuration = .auto) (hopt : cfg.optimize = false) {s s' : State K}
    (hr : Reach cfg dist s) (hg : s.elapsed < cfg.totalTime) (h : step cfg s = .ok s') :
    0 < s'.elapsed - s.elapsed ∧
    ∀ k, k < s.sub.length → ∀ j, j < s.bins.lb.length →
      WithinLimits cfg (s.bins.lb.getD j 0 * cfg.mec2) (s.bins.ub.getD j 0 * cfg.mec2)
        (binRates cfg s k j).lo (binRates cfg s k j).hi (binRates cfg s k j).rel (binRates cfg s k j).abs
        (s'.elapsed - s.elapsed) := by
  obtain ⟨hI, -⟩ := reach_inv wf hnn hr
  have hH : Hist cfg s := by intro ho; rw [hopt] at ho; simp at ho
  obtain ⟨enG, relG, absG, inj, t0, left, t, o, left', mask, h1, h2, h3, ht, h4, h5, h6⟩ :=
    step_parts h
  obtain ⟨t1, t2, t3⟩ := wf.thresholds hauto
  obtain ⟨g1, g2, g3⟩ := groupRates_len rfl hI.en.len hI.rel.len hI.abs.len h1
  obtain ⟨-, cpos, -⟩ := chooseStep_spec wf hI ⟨g1, g2, g3⟩ h3
  obtain ⟨hall, -⟩ := chooseStep_allowed wf hI hH hauto h1 h3
  obtain ⟨pe, pa, pr, -, -, -, -, -, -, e1, e2, e3, e4, e5, e6⟩ := refresh_parts h6
  have hel : s'.elapsed - s.elapsed = t := by rw [e5]; ring
  have htp : 0 < t := by rw [ht]; exact truncStep_pos (cpos hauto) hg
  have htle : (t : WithTop K) ≤ t0 := by rw [ht]; exact truncStep_le_t _ _ _
  rw [hel]
  refine ⟨htp, ?_⟩
  intro k hk j hj
  obtain ⟨elo, ehi, τ, a1, a2, a3, a4, a5, a6, a7⟩ := (hall j hj).mono htle
  have hτ := a4 hopt
  subst hτ
  rw [mul_zero, add_zero] at a5 a6
  have := a7 k hk
  rw [WithTop.coe_zero, zero_add] at this
  rw [a5, a6]
  exact withinLimits_of_le t1 t2 t3 a1 a2 htp.le this

/-- With optimised recalculation the rates of a bin are kept for several steps. Then the limits hold for the
whole time `τ + dt` since those rates were calculated, relative to the energies the bin had at that time,
from which it has moved linearly to where it is now. -/
theorem C10_optimised_within_limits {cfg : Cfg K} (wf : cfg.WF) {dist : Dist K} (hnn : ∀ x, 0 ≤ dist.eval x)
    (hauto : cfg.stepDuration = .auto) (heun : cfg.heun = false) {s s' : State K}
    (hr : Reach cfg dist s) (hg : s.elapsed < cfg.totalTime) (h : step cfg s = .ok s') :
    0 < s'.elapsed - s.elapsed ∧
    ∀ j, j < s.bins.lb.length → ∃ elo ehi τ, 0 < elo ∧ elo < ehi ∧ 0 ≤ τ ∧
      (cfg.optimize = false → τ = 0) ∧
      s.bins.lb.getD j 0 * cfg.mec2 = elo + (binRates cfg s 0 j).lo * τ ∧
      s.bins.ub.getD j 0 * cfg.mec2 = ehi + (binRates cfg s 0 j).hi * τ ∧
      ∀ k, k < s.sub.length → WithinLimits cfg elo ehi
        (binRates cfg s k j).lo (binRates cfg s k j).hi (binRates cfg s k j).rel (binRates cfg s k j).abs
        (τ + (s'.elapsed - s.elapsed)) := by
  obtain ⟨hI, -⟩ := reach_inv wf hnn hr
  have hH := reach_hist wf heun hnn hr
  obtain ⟨enG, relG, absG, inj, t0, left, t, o, left', mask, h1, h2, h3, ht, h4, h5, h6⟩ :=
    step_parts h
  obtain ⟨t1, t2, t3⟩ := wf.thresholds hauto
  obtain ⟨g1, g2, g3⟩ := groupRates_len rfl hI.en.len hI.rel.len hI.abs.len h1
  obtain ⟨-, cpos, -⟩ := chooseStep_spec wf hI ⟨g1, g2, g3⟩ h3
  obtain ⟨hall, -⟩ := chooseStep_allowed wf hI hH hauto h1 h3
  obtain ⟨pe, pa, pr, -, -, -, -, -, -, e1, e2, e3, e4, e5, e6⟩ := refresh_parts h6
  have hel : s'.elapsed - s.elapsed = t := by rw [e5]; ring
  have htp : 0 < t := by rw [ht]; exact truncStep_pos (cpos hauto) hg
  have htle : (t : WithTop K) ≤ t0 := by rw [ht]; exact truncStep_le_t _ _ _
  rw [hel]
  refine ⟨htp, ?_⟩
  intro j hj
  obtain ⟨elo, ehi, τ, a1, a2, a3, a4, a5, a6, a7⟩ := (hall j hj).mono htle
  refine ⟨elo, ehi, τ, a1, a2, a3, a4, a5, a6, fun k hk => ?_⟩
  have := a7 k hk
  rw [← WithTop.coe_add] at this
  exact withinLimits_of_le t1 t2 t3 a1 a2 (by linarith) this

/-- automatic, not optimised -/
def demoPlainAuto : Cfg ℚ := { demoAuto with optimize := false }

theorem demoPlainAuto_wf : demoPlainAuto.WF := { demoAuto_wf with optAuto := by intro h; simp [demoPlainAuto] at h }

/-- a run of several steps for both modes -/
example : (checkRun demoPlainAuto demoDist 15 fun s => decide (s.elapsed = 1/4)) = true ∧
    (checkRun demoAuto demoDist 15 fun s => decide (s.elapsed = 1/4)) = true ∧
    (checkRun demoPlainAuto demoDist 2 fun _ => true) = false ∧
    (checkRun demoAuto demoDist 2 fun _ => true) = false := by decide +kernel

/-! ### C11 -/

theorem loop_benign {cfg : Cfg K} {dist : Dist K}
    (hs : ∀ s, Reach cfg dist s → s.elapsed < cfg.totalTime → Benign (step cfg s)) (n : Nat) :
    ∀ s, Reach cfg dist s → Benign (loop cfg n s) := by
  induction n with
  | zero =>
    intro s _
    unfold loop
    split <;> exact benign_ok _
  | succ n ih =>
    intro s hr
    unfold loop
    split
    · next hg => exact benign_bind (hs s hr hg) (fun s' hs' => ih s' (.step hr hg hs'))
    · exact benign_ok _

/-- With automatic steps, an energy threshold below one, a density threshold of at most one, the Euler method
and no negative absolute injection, a run of any length never raises one of the four errors about steps that
are too long. -/
theorem C11_auto_never_too_long {cfg : Cfg K} (wf : cfg.WF) (hfr : cfg.FractionsOK) {dist : Dist K}
    (hnn : ∀ x, 0 ≤ dist.eval x) (hauto : cfg.stepDuration = .auto) (heun : cfg.heun = false)
    (hme : cfg.maxEnergyChange < 1) (hmd : cfg.maxDensityChange ≤ 1)
    (habs : ∀ f ∈ cfg.absFns, ∀ d p, ∀ x ∈ f.2 d p, 0 ≤ x) (fuel : Nat) (e : Err)
    (h : evaluate cfg dist fuel = .error e) :
    e ≠ .negativeGamma ∧ e ≠ .negativeWidth ∧ e ≠ .nonFiniteDensity ∧ e ≠ .negativeDensity := by
  have hb : Benign (evaluate cfg dist fuel) := by
    unfold evaluate
    refine benign_bind (benign_initState _ _) (fun s hs => ?_)
    refine loop_benign ?_ fuel s (.init hs)
    intro s hr hg
    obtain ⟨hI, hS⟩ := reach_inv wf hnn hr
    exact step_benign wf heun hauto hme hmd habs hI (hS hfr) (reach_hist wf heun hnn hr) hg
  have := hb.not_bad e h
  refine ⟨?_, ?_, ?_, ?_⟩ <;> rintro rfl <;> exact this (by simp [Bad])

/-- The hypotheses are met by the example run, including several groups and bounds. -/
example (fuel : Nat) (e : Err) (h : evaluate demoAuto demoDist fuel = .error e) : e ≠ .negativeGamma :=
  (C11_auto_never_too_long demoAuto_wf demoAuto_fractions demoDist_nonneg rfl rfl (by norm_num [demoAuto, demoCfg])
    (by norm_num [demoAuto, demoCfg]) (by
      intro f hf d p x hx
      simp only [demoAuto, demoCfg, List.mem_singleton] at hf
      subst hf
      simp only [List.mem_map] at hx
      obtain ⟨_, _, rfl⟩ := hx
      norm_num) fuel e h).1

/-- an absolute rate of -100 on densities of at most 8 -/
def demoDrain : Cfg ℚ :=
  { demoPlainAuto with absFns := [("inj", fun _ p => p.gamma.map fun _ => -100)],
                       maxInjection := 100, subgroups := none }

/-- The restriction on absolute injection is needed: the limit on it is absolute and does not look at the
density that is there, so an automatic step can take away more than there is and the run fails. -/
theorem C11_negative_injection_fails :
    ∃ cfg : Cfg ℚ, cfg.WF ∧ cfg.stepDuration = .auto ∧ cfg.maxEnergyChange < 1 ∧ cfg.maxDensityChange ≤ 1 ∧
      evaluate cfg demoDist 15 = .error .negativeDensity := by
  refine ⟨demoDrain, ?_, rfl, by norm_num [demoDrain, demoPlainAuto, demoAuto, demoCfg],
    by norm_num [demoDrain, demoPlainAuto, demoAuto, demoCfg], ?_⟩
  · exact { demoPlainAuto_wf with
      keysAbs := by simp [demoDrain]
      thresholds := by intro _; norm_num [demoDrain, demoPlainAuto, demoAuto, demoCfg] }
  · have c : (match evaluate demoDrain demoDist 15 with
      | .error .negativeDensity => true | _ => false) = true := by decide +kernel
    split at c
    · assumption
    · simp at c

end Verif.TE
