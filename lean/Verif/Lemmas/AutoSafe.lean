import Mathlib.Tactic.Linarith
import Verif.Lemmas.Benign

/- Automatic steps keep energies, widths and densities in range. -/

namespace Verif.TE

open Verif.Np

set_option linter.unusedSectionVars false

variable {K : Type} [Field K] [LinearOrder K] [IsStrictOrderedRing K]

/-- a bin moved for `τ` with group 0 and then for `t` with group `k`, the whole time within the limits -/
theorem move_ok {me md elo ehi l0 h0 lk hk rel τ t : K} (me1 : me < 1) (md0 : 0 < md) (md1 : md ≤ 1)
    (he : 0 < elo) (hw : elo < ehi) (hτ : 0 ≤ τ) (ht : 0 < t)
    (a0 : |l0| * (τ + t) ≤ me * elo) (ak : |lk| * (τ + t) ≤ me * elo)
    (d0 : -((ehi - elo) * md / (1 + md)) ≤ (h0 - l0) * (τ + t))
    (dk : -((ehi - elo) * md / (1 + md)) ≤ (hk - lk) * (τ + t))
    (uk : (hk - lk) * (τ + t) ≤ (ehi - elo) * md)
    (r : -(1 / 2) ≤ rel * (τ + t)) :
    0 < elo + l0 * τ + lk * t ∧
    0 < (ehi + h0 * τ) - (elo + l0 * τ) ∧
    0 < (ehi + h0 * τ + hk * t) - (elo + l0 * τ + lk * t) ∧
    0 ≤ ((ehi + h0 * τ) - (elo + l0 * τ)) / ((ehi + h0 * τ + hk * t) - (elo + l0 * τ + lk * t)) + rel * t := by
  set T := τ + t with hT
  have hTp : 0 < T := by linarith
  have htT : t ≤ T := by linarith
  set w := ehi - elo with hwd
  have hwp : 0 < w := sub_pos.2 hw
  set c := w * md / (1 + md) with hc
  have h1m : 0 < 1 + md := by linarith
  have hc0 : 0 < c := div_pos (mul_pos hwp md0) h1m
  have hc2 : c ≤ w / 2 := by
    rw [hc, div_le_div_iff₀ h1m (by norm_num)]
    have := mul_le_mul_of_nonneg_left md1 hwp.le
    linarith
  have hcw : c < w := by linarith
  -- scale by T
  have key : ∀ x y : K, 0 < x * T → x * T = y → 0 < x := fun x y h _ => by
    by_contra hn
    exact absurd (mul_nonpos_of_nonpos_of_nonneg (not_lt.1 hn) hTp.le) (not_le.2 h)
  have hE : 0 < elo + l0 * τ + lk * t := by
    have e1 : -(me * elo) ≤ l0 * T := by
      have := neg_abs_le l0
      have := mul_le_mul_of_nonneg_right this hTp.le
      linarith
    have e2 : -(me * elo) ≤ lk * T := by
      have := neg_abs_le lk
      have := mul_le_mul_of_nonneg_right this hTp.le
      linarith
    refine key _ _ ?_ rfl
    have p1 := mul_le_mul_of_nonneg_right e1 hτ
    have p2 := mul_le_mul_of_nonneg_right e2 ht.le
    have p3 : 0 < (1 - me) * elo * T := mul_pos (mul_pos (by linarith) he) hTp
    have : (elo + l0 * τ + lk * t) * T = (1 - me) * elo * T + (l0 * T * τ + me * elo * τ) +
        (lk * T * t + me * elo * t) := by rw [hT]; ring
    rw [this]
    linarith
  have hW0 : w - c * τ / T ≤ (ehi + h0 * τ) - (elo + l0 * τ) := by
    have p1 := mul_le_mul_of_nonneg_right d0 hτ
    have : -(c * τ / T) ≤ (h0 - l0) * τ := by
      rw [← neg_div, div_le_iff₀ hTp]
      linarith
    linarith
  have hτT : c * τ / T ≤ c := by
    rw [div_le_iff₀ hTp]
    exact mul_le_mul_of_nonneg_left (by linarith) hc0.le
  have hWp : 0 < (ehi + h0 * τ) - (elo + l0 * τ) := by linarith
  have hWk : -(c * t / T) ≤ (hk - lk) * t := by
    have p1 := mul_le_mul_of_nonneg_right dk ht.le
    rw [← neg_div, div_le_iff₀ hTp]
    linarith
  have hsum : c * τ / T + c * t / T = c := by
    rw [← add_div, ← mul_add, ← hT, mul_div_assoc, div_self hTp.ne', mul_one]
  have hWkp : 0 < (ehi + h0 * τ + hk * t) - (elo + l0 * τ + lk * t) := by linarith
  refine ⟨hE, hWp, hWkp, ?_⟩
  -- new width at most twice the old one
  have hup : (hk - lk) * t ≤ w * md * t / T := by
    rw [le_div_iff₀ hTp]
    have := mul_le_mul_of_nonneg_right uk ht.le
    linarith
  have hup2 : w * md * t / T ≤ w * t / T := by
    rw [div_le_div_iff_of_pos_right hTp]
    have := mul_le_mul_of_nonneg_left md1 hwp.le
    exact mul_le_mul_of_nonneg_right (by linarith) ht.le
  have hsumw : w * τ / T + w * t / T = w := by
    rw [← add_div, ← mul_add, ← hT, mul_div_assoc, div_self hTp.ne', mul_one]
  have hcτ : c * τ / T ≤ w * τ / T := by
    rw [div_le_div_iff_of_pos_right hTp]
    exact mul_le_mul_of_nonneg_right hcw.le hτ
  have h2 : (ehi + h0 * τ + hk * t) - (elo + l0 * τ + lk * t) ≤ 2 * ((ehi + h0 * τ) - (elo + l0 * τ)) := by
    linarith
  have hratio : 1 / 2 ≤ ((ehi + h0 * τ) - (elo + l0 * τ)) /
      ((ehi + h0 * τ + hk * t) - (elo + l0 * τ + lk * t)) := by
    rw [div_le_div_iff₀ (by norm_num) hWkp]
    linarith
  have hrel : -(1 / 2) ≤ rel * t := by
    rcases le_or_gt 0 rel with h | h
    · have := mul_nonneg h ht.le
      linarith
    · have := mul_le_mul_of_nonpos_left htT h.le
      linarith
  linarith

/-- the limits in the form used by `move_ok` -/
theorem limits_of_le {cfg : Cfg K} (h1 : 0 < cfg.maxEnergyChange) (h2 : 0 < cfg.maxDensityChange)
    (h3 : 0 < cfg.maxInjection) {elo ehi rlo rhi rel abs t : K} (hl : 0 < elo) (hw : elo < ehi)
    (ht : 0 ≤ t) (h : (t : WithTop K) ≤ maxTimeBin cfg elo ehi rlo rhi rel abs) :
    |rlo| * t ≤ cfg.maxEnergyChange * elo ∧
    -((ehi - elo) * cfg.maxDensityChange / (1 + cfg.maxDensityChange)) ≤ (rhi - rlo) * t ∧
    (rhi - rlo) * t ≤ (ehi - elo) * cfg.maxDensityChange ∧ -(1 / 2) ≤ rel * t := by
  have W := withinLimits_of_le h1 h2 h3 hl hw ht h
  have hw0 : 0 < ehi - elo := sub_pos.2 hw
  have h1t : 0 < 1 + cfg.maxDensityChange := by linarith
  refine ⟨W.lower, ?_, ?_, W.escape⟩
  · have := W.dense
    rw [div_le_iff₀ W.width] at this
    have e : (ehi - elo) * cfg.maxDensityChange / (1 + cfg.maxDensityChange)
        = (ehi - elo) - (ehi - elo) / (1 + cfg.maxDensityChange) := by field_simp; ring
    rw [e]
    have : (ehi - elo) / (1 + cfg.maxDensityChange) ≤ ehi - elo + (rhi - rlo) * t := by
      rw [div_le_iff₀ h1t]; linarith
    linarith
  · have := W.thin
    rw [div_le_div_iff₀ h1t W.width] at this
    linarith

/-- one row of the injection used by a step -/
theorem totalInjection_spec {n : Nat} {dens : List K} {sub relG absG inj : List (List K)}
    (hd : dens.length = n) (hs : ∀ r ∈ sub, r.length = n) (hr : ∀ r ∈ relG, r.length = n)
    (ha : ∀ r ∈ absG, r.length = n) (hra : relG.length = absG.length)
    (h : totalInjection dens sub relG absG = .ok inj) (k : Nat) (hk : k < sub.length)
    (hk1 : k < relG.length) (hk2 : k < absG.length) (hk3 : k < inj.length) (j : Nat) (hj : j < n) :
    sub.length ≤ relG.length →
    inj[k].getD j 0 = dens.getD j 0 * sub[k].getD j 0 * relG[k].getD j 0 + absG[k].getD j 0 := by
  intro hle
  unfold totalInjection at h
  obtain ⟨x, hx, h⟩ := bind_ok_iff.1 h
  -- rows of x
  have hxl : x.length = relG.length ∧ ∀ (h1 : k < x.length), x[k] = mulRow (mulRow dens sub[k]) relG[k] := by
    unfold bcastRows at hx
    split at hx
    · next e =>
      simp only [Except.ok.injEq] at hx
      subst hx
      refine ⟨by simp [e], fun h1 => ?_⟩
      simp [densitiesGrouped]
    · next e =>
      split at hx
      · next b y hy =>
        simp only [Except.ok.injEq] at hx
        subst hx
        refine ⟨by simp, fun h1 => ?_⟩
        have hsl : sub.length = 1 := by
          have := congrArg List.length hy
          simpa [densitiesGrouped] using this
        have hk0 : k = 0 := by omega
        subst hk0
        have : y = mulRow dens sub[0] := by
          have h0 : (densitiesGrouped dens sub)[0]'(by simp [densitiesGrouped]; omega) = y := by
            simp [hy]
          rw [← h0]; simp [densitiesGrouped]
        simp [this]
      · next a y hne hy =>
        simp only [Except.ok.injEq] at hx
        subst hx
        exfalso
        have : (densitiesGrouped dens sub).length = sub.length := by simp [densitiesGrouped]
        simp at hle e
        omega
      · simp at hx
  obtain ⟨hxl1, hxk⟩ := hxl
  unfold bcastRows at h
  rw [if_pos (by omega)] at h
  simp only [Except.ok.injEq] at h
  subst h
  rw [List.getElem_zipWith, hxk]
  have l1 := hs sub[k] (List.getElem_mem _)
  have l2 := hr relG[k] (List.getElem_mem _)
  have l3 := ha absG[k] (List.getElem_mem _)
  have lm : (mulRow dens sub[k]).length = n := by simp [mulRow, hd, l1]
  have lm2 : (mulRow (mulRow dens sub[k]) relG[k]).length = n := by
    show (List.zipWith _ _ _).length = n
    simp [lm, l2]
  rw [getD_zipWith _ 0 0 0 (by omega) (by omega)]
  unfold mulRow at lm ⊢
  rw [getD_zipWith _ 0 0 0 (by omega) (by omega), getD_zipWith _ 0 0 0 (by omega) (by omega)]

theorem any_false_of {α : Type} {p : α → Bool} {l : List α} (h : ∀ x ∈ l, p x = false) : l.any p = false := by
  rw [List.any_eq_false]
  intro x hx
  simp [h x hx]

/-- moving one group raises nothing when the new energies and widths are positive -/
theorem benign_evalGroup {cfg : Cfg K} {n : Nat} {en chg : Bins K} {dens frac : List K}
    (he : en.Len n) (hc : chg.Len n)
    (h1 : ∀ j, j < n → 0 < en.lb.getD j 0 + chg.lb.getD j 0)
    (h2 : ∀ j, j < n → en.lb.getD j 0 + chg.lb.getD j 0 < en.ub.getD j 0 + chg.ub.getD j 0) :
    Benign (evalGroup cfg en dens frac chg) := by
  unfold evalGroup recalcGammaBins
  refine benign_bind ?_ (fun a _ => by obtain ⟨b, c⟩ := a; exact benign_pure _)
  have lbl : (List.zipWith (· + ·) en.lb chg.lb).length = n := by simp [he.1, hc.1]
  have ubl : (List.zipWith (· + ·) en.ub chg.ub).length = n := by simp [he.2, hc.2]
  have e1 : ∀ j, j < n → (List.zipWith (· + ·) en.lb chg.lb).getD j 0 = en.lb.getD j 0 + chg.lb.getD j 0 :=
    fun j hj => getD_zipWith _ 0 0 0 (by rw [he.1]; exact hj) (by rw [hc.1]; exact hj)
  have e2 : ∀ j, j < n → (List.zipWith (· + ·) en.ub chg.ub).getD j 0 = en.ub.getD j 0 + chg.ub.getD j 0 :=
    fun j hj => getD_zipWith _ 0 0 0 (by rw [he.2]; exact hj) (by rw [hc.2]; exact hj)
  have p1 : ∀ x ∈ List.zipWith (· + ·) en.lb chg.lb, 0 < x :=
    (forall_mem_iff_getD 0).2 (by intro j hj; rw [e1 j (by omega)]; exact h1 j (by omega))
  have p2 : ∀ x ∈ List.zipWith (· + ·) en.ub chg.ub, 0 < x :=
    (forall_mem_iff_getD 0).2 (by
      intro j hj; rw [e2 j (by omega)]; exact lt_trans (h1 j (by omega)) (h2 j (by omega)))
  have p3 : ∀ x ∈ List.zipWith (· - ·) (List.zipWith (· + ·) en.ub chg.ub) (List.zipWith (· + ·) en.lb chg.lb),
      0 < x := (forall_mem_iff_getD 0).2 (by
    intro j hj
    have hj' : j < n := by rw [List.length_zipWith] at hj; omega
    rw [getD_zipWith _ 0 0 0 (by omega) (by omega), e1 j hj', e2 j hj']
    exact sub_pos.2 (h2 j hj'))
  unfold recalcEnergyBins
  dsimp only
  rw [any_false_of (fun x hx => by simpa using p1 x hx), any_false_of (fun x hx => by simpa using p2 x hx),
    any_false_of (fun x hx => by simpa using (p3 x hx).le),
    any_false_of (fun x hx => by simpa using (p3 x hx).ne')]
  exact benign_ok _

theorem evalGroup_dens {cfg : Cfg K} {n : Nat} {en chg : Bins K} {dens frac : List K}
    (he : en.Len n) (hc : chg.Len n) (hd : dens.length = n) (hf : frac.length = n) {p : Bins K × List K}
    (h : evalGroup cfg en dens frac chg = .ok p) :
    p.2.length = n ∧ ∀ j, j < n → p.2.getD j 0 = dens.getD j 0 * frac.getD j 0 *
      ((en.ub.getD j 0 - en.lb.getD j 0) /
        ((en.ub.getD j 0 + chg.ub.getD j 0) - (en.lb.getD j 0 + chg.lb.getD j 0))) := by
  unfold evalGroup recalcGammaBins at h
  obtain ⟨⟨new, inc⟩, h3, h4⟩ := bind_ok_iff.1 h
  obtain ⟨hnl, hil, hs⟩ := recalcEnergyBins_spec hc he h3
  simp only [pure_ok_iff] at h4
  subst h4
  have hml : (mulRow dens frac).length = n := by simp [mulRow, hd, hf]
  refine ⟨by simp [hml, hil], ?_⟩
  intro j hj
  simp only
  rw [getD_zipWith _ 0 0 0 (by omega) (by omega), (hs j hj).2.2.2.2, (hs j hj).1, (hs j hj).2.1]
  unfold mulRow
  rw [getD_zipWith _ 0 0 0 (by omega) (by omega)]

theorem benign_applyTimeEval {cfg : Cfg K} {n : Nat} {en : Bins K} {dens : List K} {sub : List (List K)}
    {chg : List (Bins K)} {inj : List (List K)} (he : en.Len n) (hd : dens.length = n)
    (hs : ∀ r ∈ sub, r.length = n) (hc : ∀ b ∈ chg, b.Len n) (hi : ∀ r ∈ inj, r.length = n)
    (h1 : ∀ k (_ : k < sub.length) (h2 : k < chg.length), ∀ j, j < n →
      0 < en.lb.getD j 0 + chg[k].lb.getD j 0 ∧
      en.lb.getD j 0 + chg[k].lb.getD j 0 < en.ub.getD j 0 + chg[k].ub.getD j 0)
    (h2 : ∀ k (h1 : k < sub.length) (h2 : k < chg.length) (h3 : k < inj.length), ∀ j, j < n →
      0 ≤ dens.getD j 0 * sub[k].getD j 0 * ((en.ub.getD j 0 - en.lb.getD j 0) /
        ((en.ub.getD j 0 + chg[k].ub.getD j 0) - (en.lb.getD j 0 + chg[k].lb.getD j 0))) + inj[k].getD j 0) :
    Benign (applyTimeEval cfg en dens sub chg inj) := by
  unfold applyTimeEval
  split
  · exact benign_bind (benign_throw (by simp [Bad])) (fun _ _ => by
      refine benign_bind ?_ ?_ <;> exact absurd ‹_› (by simp [throw, throwThe, MonadExceptOf.throw]))
  · next hlen =>
    simp only [Bool.or_eq_true, decide_eq_true_eq, not_or, not_lt] at hlen
    refine benign_bind ?_ (fun moved0 hm0 => benign_bind ?_ (fun moved hm => ?_))
    · apply benign_mapM
      intro a ha
      obtain ⟨k, hk, rfl⟩ := List.mem_iff_getElem.1 ha
      simp only [List.length_zip] at hk
      simp only [List.getElem_zip]
      exact benign_evalGroup he (hc _ (List.getElem_mem _)) (fun j hj => (h1 k (by omega) (by omega) j hj).1)
        (fun j hj => (h1 k (by omega) (by omega) j hj).2)
    · apply benign_mapM
      intro a ha
      obtain ⟨k, hk, rfl⟩ := List.mem_iff_getElem.1 ha
      have hl0 : moved0.length = sub.length := by
        rw [mapM_ok_length hm0, List.length_zip]; omega
      simp only [List.length_zip] at hk
      simp only [List.getElem_zip]
      have a := mapM_ok_getElem hm0 k (by simp; omega) (by omega)
      simp only [List.getElem_zip] at a
      obtain ⟨dl, dd⟩ := evalGroup_dens he (hc _ (List.getElem_mem _)) hd (hs _ (List.getElem_mem _)) a
      unfold addInjection
      dsimp only
      have hil := hi inj[k] (List.getElem_mem _)
      rw [any_false_of]
      · exact benign_ok _
      · have : ∀ x ∈ List.zipWith (· + ·) moved0[k].2 inj[k], 0 ≤ x := (forall_mem_iff_getD 0).2 (by
          intro j hj
          have hj' : j < n := by rw [List.length_zipWith] at hj; omega
          rw [getD_zipWith _ 0 0 0 (by omega) (by omega), dd j hj']
          exact h2 k (by omega) (by omega) (by omega) j hj')
        intro x hx
        simpa using this x hx
    · cases moved with
      | nil => exact benign_throw (by simp [Bad])
      | cons first rest =>
        refine benign_bind (benign_mapM (fun _ _ => benign_regrid _ _ _)) ?_
        benign

/-- the groups' absolute injection rates are non-negative when the functions are -/
theorem groupRate_nonneg {cfg : Cfg K} {fns : List (String × GammaFn K)} {n : Nat} {r : Rates1 K}
    (hr : RatesGood1 fns n r) (hf : ∀ f ∈ fns, ∀ d p, ∀ x ∈ f.2 d p, 0 ≤ x) (k j : Nat) :
    0 ≤ groupRate cfg r k j := by
  unfold groupRate
  apply List.sum_nonneg
  intro x hx
  obtain ⟨name, -, rfl⟩ := List.mem_map.1 hx
  unfold rateAt
  split
  · next v hv =>
    have hm := lookup_mem hv
    obtain ⟨i, hi, e⟩ := List.mem_iff_getElem.1 hm
    have h2 := List.forall₂_iff_get.1 hr
    obtain ⟨-, -, hg⟩ := h2.2 i (by omega) hi
    simp only [List.get_eq_getElem] at hg
    rw [e] at hg
    simp only at hg
    unfold nvAt
    by_cases hj : j < v.length
    · rw [List.getD_eq_getElem _ _ hj]
      obtain ⟨y, hy, d, p, hp⟩ := hg _ (List.getElem_mem hj)
      rw [hy]
      exact hf _ (List.getElem_mem (by omega)) d p y hp
    · rw [List.getD_eq_default _ _ (not_lt.1 hj)]; simp
  · exact le_refl _

theorem step_benign {cfg : Cfg K} (wf : cfg.WF) (heun : cfg.heun = false) (hauto : cfg.stepDuration = .auto)
    (hme : cfg.maxEnergyChange < 1) (hmd : cfg.maxDensityChange ≤ 1)
    (habs : ∀ f ∈ cfg.absFns, ∀ d p, ∀ x ∈ f.2 d p, 0 ≤ x) {s : State K} (hI : Inv cfg s)
    (hS : InvSub s) (hH : Hist cfg s) (hg : s.elapsed < cfg.totalTime) : Benign (step cfg s) := by
  unfold step
  refine benign_bind (benign_groupRates _ _) (fun a h1 => ?_)
  obtain ⟨enG, relG, absG⟩ := a
  refine benign_bind (benign_totalInjection _ _ _ _) (fun inj h2 => ?_)
  refine benign_bind (benign_chooseStep _ _ _ _ _) (fun a h3 => ?_)
  obtain ⟨t0, left⟩ := a
  dsimp only at h2 h3 ⊢
  refine benign_bind ?_ (fun o _ => benign_bind (benign_recalcMask _ _ _ _) (fun a _ => ?_))
  swap
  · obtain ⟨l', m⟩ := a
    exact benign_refresh _ _ _ _ _ _
  obtain ⟨t1, t2, t3⟩ := wf.thresholds hauto
  obtain ⟨g1, g2, g3⟩ := groupRates_len rfl hI.en.len hI.rel.len hI.abs.len h1
  obtain ⟨c1, c2, c3, d1, d2, d3⟩ := groupRates_spec hI wf h1
  have hlen : s.bins.Len s.bins.lb.length := ⟨rfl, hI.ublen⟩
  have hinj := totalInjection_len hI.denslen hI.sublen g2 g3 h2
  obtain ⟨-, cpos, -⟩ := chooseStep_spec wf hI ⟨g1, g2, g3⟩ h3
  obtain ⟨hall, -⟩ := chooseStep_allowed wf hI hH hauto h1 h3
  have hsub : s.sub.length ≤ groupCount cfg := by
    unfold chooseStep at h3
    simp only [hauto] at h3
    obtain ⟨mt, hmt, -⟩ := bind_ok_iff.1 h3
    exact (calcMax_le wf hI h1 hmt).2.1
  set t := truncStep cfg s.elapsed t0 with ht
  have htp : 0 < t := truncStep_pos (cpos hauto) hg
  have htle : (t : WithTop K) ≤ t0 := truncStep_le_t _ _ _
  unfold applyTimeChanges applyStages12
  rw [heun]
  -- the move of one bin of one group
  have hmove : ∀ k, k < s.sub.length → ∀ j, j < s.bins.lb.length →
      0 < s.bins.lb.getD j 0 * cfg.mec2 + (binRates cfg s k j).lo * t ∧
      s.bins.lb.getD j 0 * cfg.mec2 + (binRates cfg s k j).lo * t
        < s.bins.ub.getD j 0 * cfg.mec2 + (binRates cfg s k j).hi * t ∧
      0 ≤ (s.bins.ub.getD j 0 * cfg.mec2 - s.bins.lb.getD j 0 * cfg.mec2) /
        ((s.bins.ub.getD j 0 * cfg.mec2 + (binRates cfg s k j).hi * t) -
          (s.bins.lb.getD j 0 * cfg.mec2 + (binRates cfg s k j).lo * t)) + (binRates cfg s k j).rel * t := by
    intro k hk j hj
    obtain ⟨elo, ehi, τ, a1, a2, a3, -, a5, a6, a7⟩ := (hall j hj).mono htle
    have hT0 : 0 ≤ τ + t := by linarith
    have b0 := limits_of_le t1 t2 t3 a1 a2 hT0 (by rw [WithTop.coe_add]; exact a7 0 (by omega))
    have bk := limits_of_le t1 t2 t3 a1 a2 hT0 (by rw [WithTop.coe_add]; exact a7 k hk)
    obtain ⟨m1, -, m3, m4⟩ := move_ok hme t2 hmd a1 a2 a3 htp b0.1 bk.1 b0.2.1 bk.2.1 bk.2.2.1 bk.2.2.2
    rw [a5, a6]
    exact ⟨m1, sub_pos.1 m3, m4⟩
  have x1 : ∀ j, j < s.bins.lb.length → (toErg cfg s.bins).lb.getD j 0 = s.bins.lb.getD j 0 * cfg.mec2 :=
    fun j hj => getD_map' _ 0 0 hj
  have x2 : ∀ j, j < s.bins.lb.length → (toErg cfg s.bins).ub.getD j 0 = s.bins.ub.getD j 0 * cfg.mec2 :=
    fun j hj => getD_map' _ 0 0 (by rw [hI.ublen]; exact hj)
  have x3 : ∀ k (hk : k < enG.length), ∀ j, j < s.bins.lb.length →
      (scaleBins t enG[k]).lb.getD j 0 = (binRates cfg s k j).lo * t := by
    intro k hk j hj
    have : (scaleBins t enG[k]).lb.getD j 0 = enG[k].lb.getD j 0 * t :=
      getD_map' _ 0 0 (by rw [(g1 _ (List.getElem_mem hk)).1]; exact hj)
    rw [this, (d1 k hk j hj).1]; rfl
  have x4 : ∀ k (hk : k < enG.length), ∀ j, j < s.bins.lb.length →
      (scaleBins t enG[k]).ub.getD j 0 = (binRates cfg s k j).hi * t := by
    intro k hk j hj
    have : (scaleBins t enG[k]).ub.getD j 0 = enG[k].ub.getD j 0 * t :=
      getD_map' _ 0 0 (by rw [(g1 _ (List.getElem_mem hk)).2]; exact hj)
    rw [this, (d1 k hk j hj).2]; rfl
  have hEval : Benign (applyTimeEval cfg (toErg cfg s.bins) s.dens s.sub (enG.map (scaleBins t))
      (inj.map (·.map (· * t)))) := by
    refine benign_applyTimeEval (n := s.bins.lb.length) (toErg_len hlen) hI.denslen hI.sublen ?_ ?_ ?_ ?_
    · intro b hb
      obtain ⟨b', hb', rfl⟩ := List.mem_map.1 hb
      exact scaleBins_len (g1 b' hb')
    · intro r hr
      obtain ⟨r', hr', rfl⟩ := List.mem_map.1 hr
      simp [hinj r' hr']
    · intro k hk hk2 j hj
      have hk' : k < enG.length := by simpa using hk2
      simp only [List.getElem_map]
      rw [x1 j hj, x2 j hj, x3 k hk' j hj, x4 k hk' j hj]
      exact ⟨(hmove k hk j hj).1, (hmove k hk j hj).2.1⟩
    · intro k hk hk2 hk3 j hj
      have hk' : k < enG.length := by simpa using hk2
      have hki : k < inj.length := by simpa using hk3
      simp only [List.getElem_map]
      rw [x1 j hj, x2 j hj, x3 k hk' j hj, x4 k hk' j hj]
      have e : (inj[k].map (· * t)).getD j 0 = inj[k].getD j 0 * t :=
        getD_map' _ 0 0 (by rw [hinj _ (List.getElem_mem hki)]; exact hj)
      rw [e, totalInjection_spec hI.denslen hI.sublen g2 g3 (by omega) h2 k hk (by omega) (by omega) hki j hj
        (by omega), d2 k (by omega) j hj, d3 k (by omega) j hj]
      have n1 : 0 ≤ s.dens.getD j 0 := hI.densnn _ (getD_mem (by rw [hI.denslen]; exact hj))
      have n2 : 0 ≤ s.sub[k].getD j 0 := hS.nn _ (List.getElem_mem hk) _
        (getD_mem (by rw [hI.sublen _ (List.getElem_mem hk)]; exact hj))
      have n3 : 0 ≤ groupRate cfg s.abs k j := groupRate_nonneg hI.abs habs k j
      have := mul_nonneg (mul_nonneg n1 n2) (hmove k hk j hj).2.2
      have e3 := mul_nonneg n3 htp.le
      have e4 : (binRates cfg s k j).rel = groupRate cfg s.rel k j := rfl
      rw [e4] at this
      linarith
  refine benign_bind ?_ (fun a _ => ?_)
  · refine benign_bind hEval (fun a _ => ?_)
    obtain ⟨gm1, d1', sub1⟩ := a
    refine benign_bind (benign_updateDistribution _ _ _) (fun d _ => ?_)
    simp only [Bool.false_eq_true, if_false]
    exact benign_pure _
  · obtain ⟨gm, d, s1, dist, rates⟩ := a
    refine benign_bind (benign_sortAndMergeBins _ _ _ _) (fun a _ => ?_)
    obtain ⟨b3, d3', m3⟩ := a
    refine benign_bind (benign_remapSubgroups _ _) (fun s3 _ => ?_)
    refine benign_bind (benign_applyBounds _ _ _ _ _ _) (fun a _ => ?_)
    obtain ⟨b5, d5, s5, m5⟩ := a
    exact benign_pure _

end Verif.TE
