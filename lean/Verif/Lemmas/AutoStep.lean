import Mathlib.Order.WithBot
import Mathlib.Algebra.Order.Monoid.WithTop
import Verif.Lemmas.Rates

/- Automatic step selection. -/

namespace Verif.TE

open Verif.Np

set_option linter.unusedSectionVars false

variable {K : Type} [Field K] [LinearOrder K] [IsStrictOrderedRing K]

theorem coe_pos' {x : K} (h : 0 < x) : (0 : WithTop K) < (x : WithTop K) := by
  exact_mod_cast h

theorem timeEdge_pos {cfg : Cfg K} (h : 0 < cfg.maxEnergyChange) {e rate : K} (he : 0 < e) :
    0 < timeEdge cfg e rate := by
  unfold timeEdge
  split
  · next hr => exact coe_pos' (div_pos (mul_pos h he) (abs_pos.2 hr))
  · exact WithTop.coe_lt_top 0

theorem timeDensity_pos {cfg : Cfg K} (h : 0 < cfg.maxDensityChange) {elo ehi rlo rhi : K}
    (he : elo < ehi) : 0 < timeDensity cfg elo ehi rlo rhi := by
  unfold timeDensity
  split
  · next hr =>
    apply coe_pos'
    have hw : 0 < ehi - elo := sub_pos.2 he
    split
    · next hx => exact mul_pos hx h
    · next hx =>
      have hx0 : (ehi - elo) / (rhi - rlo) ≠ 0 := div_ne_zero (ne_of_gt hw) hr
      have hneg : (ehi - elo) / (rhi - rlo) < 0 := lt_of_le_of_ne (not_lt.1 hx) hx0
      exact div_pos (mul_pos (neg_pos.2 hneg) h) (by linarith)
  · exact WithTop.coe_lt_top 0

theorem timeRel_pos (rel : K) : 0 < timeRel rel := by
  unfold timeRel
  split
  · next hr =>
    apply coe_pos'
    have : (-(1 / 2) : K) < 0 := by norm_num
    exact div_pos_of_neg_of_neg this hr
  · exact WithTop.coe_lt_top 0

theorem timeAbs_pos {cfg : Cfg K} (h : 0 < cfg.maxInjection) (a : K) : 0 < timeAbs cfg a := by
  unfold timeAbs
  split
  · next hr => exact coe_pos' (div_pos h (abs_pos.2 hr))
  · exact WithTop.coe_lt_top 0

theorem maxTimeBin_pos {cfg : Cfg K} (h1 : 0 < cfg.maxEnergyChange) (h2 : 0 < cfg.maxDensityChange)
    (h3 : 0 < cfg.maxInjection) {elo ehi rlo rhi rel abs : K} (hl : 0 < elo) (hw : elo < ehi) :
    0 < maxTimeBin cfg elo ehi rlo rhi rel abs := by
  unfold maxTimeBin
  exact lt_min (lt_min (timeEdge_pos h1 hl) (timeEdge_pos h1 (lt_trans hl hw)))
    (lt_min (timeDensity_pos h2 hw) (lt_min (timeRel_pos rel) (timeAbs_pos h3 abs)))

theorem maxTimesGroup_length {cfg : Cfg K} {n : Nat} {en r : Bins K} {rel abs : List K} (he : en.Len n)
    (hr : r.Len n) (h1 : rel.length = n) (h2 : abs.length = n) :
    (maxTimesGroup cfg en r rel abs).length = n := by
  simp [maxTimesGroup, he.1, he.2, hr.1, hr.2, h1, h2]

theorem maxTimesGroup_getD {cfg : Cfg K} {n : Nat} {en r : Bins K} {rel abs : List K} (he : en.Len n)
    (hr : r.Len n) (h1 : rel.length = n) (h2 : abs.length = n) {j : Nat} (hj : j < n) :
    (maxTimesGroup cfg en r rel abs).getD j ⊤ = maxTimeBin cfg (en.lb.getD j 0) (en.ub.getD j 0)
      (r.lb.getD j 0) (r.ub.getD j 0) (rel.getD j 0) (abs.getD j 0) := by
  obtain ⟨he1, he2⟩ := he
  obtain ⟨hr1, hr2⟩ := hr
  unfold maxTimesGroup
  rw [List.getD_eq_getElem _ _ (by simp; omega), List.getElem_zipWith]
  simp only [List.getElem_zip]
  rw [List.getD_eq_getElem _ _ (by omega), List.getD_eq_getElem _ _ (by omega),
    List.getD_eq_getElem _ _ (by omega), List.getD_eq_getElem _ _ (by omega),
    List.getD_eq_getElem _ _ (by omega), List.getD_eq_getElem _ _ (by omega)]

/-- lengths of one group's data -/
def GroupLen (n : Nat) (g : List K × Bins K × List K × List K) : Prop :=
  g.1.length = n ∧ g.2.1.Len n ∧ g.2.2.1.length = n ∧ g.2.2.2.length = n

theorem foldlM_maxTimes {cfg : Cfg K} {n : Nat} {en : Bins K} (he : en.Len n)
    (gs : List (List K × Bins K × List K × List K)) (hg : ∀ g ∈ gs, GroupLen n g)
    (acc r : List (WithTop K)) (ha : acc.length = n)
    (h : gs.foldlM (maxTimesStep cfg en) acc = .ok r) :
    r.length = n ∧ (∀ j, j < n → r.getD j ⊤ ≤ acc.getD j ⊤) ∧
    (∀ g ∈ gs, ∀ j, j < n → r.getD j ⊤ ≤ maxTimeBin cfg (en.lb.getD j 0) (en.ub.getD j 0)
      (g.2.1.lb.getD j 0) (g.2.1.ub.getD j 0) (g.2.2.1.getD j 0) (g.2.2.2.getD j 0)) ∧
    (∀ j, j < n → 0 < acc.getD j ⊤ → (∀ g ∈ gs, 0 < maxTimeBin cfg (en.lb.getD j 0) (en.ub.getD j 0)
      (g.2.1.lb.getD j 0) (g.2.1.ub.getD j 0) (g.2.2.1.getD j 0) (g.2.2.2.getD j 0)) →
      0 < r.getD j ⊤) ∧
    (∀ g ∈ gs, ∀ j, j < n → g.1.getD j 0 = 0 → 0 ≤ g.2.2.2.getD j 0) := by
  induction gs generalizing acc with
  | nil =>
    simp only [List.foldlM_nil, pure, Except.pure, Except.ok.injEq] at h
    subst h
    exact ⟨ha, fun _ _ => le_refl _, by simp, fun _ _ h _ => h, by simp⟩
  | cons g gs ih =>
    rw [List.foldlM_cons] at h
    obtain ⟨acc', h1, h2⟩ := bind_ok_iff.1 h
    obtain ⟨g1, g2, g3, g4⟩ := hg g (by simp)
    unfold maxTimesStep at h1
    split at h1
    · simp at h1
    · next hz =>
      simp only [Except.ok.injEq] at h1
      have hmg := maxTimesGroup_length (cfg := cfg) he g2 g3 g4
      have ha' : acc'.length = n := by rw [← h1]; simp [ha, hmg]
      have hget : ∀ j, j < n → acc'.getD j ⊤ = min (acc.getD j ⊤)
          (maxTimeBin cfg (en.lb.getD j 0) (en.ub.getD j 0)
      (g.2.1.lb.getD j 0) (g.2.1.ub.getD j 0) (g.2.2.1.getD j 0) (g.2.2.2.getD j 0)) := by
        intro j hj
        rw [← h1, getD_zipWith _ ⊤ ⊤ ⊤ (by omega) (by omega), maxTimesGroup_getD he g2 g3 g4 hj]
      obtain ⟨i1, i2, i3, i4, i5⟩ := ih (fun g hg' => hg g (by simp [hg'])) acc' ha' h2
      refine ⟨i1, ?_, ?_, ?_, ?_⟩
      · intro j hj
        exact le_trans (i2 j hj) (by rw [hget j hj]; exact min_le_left _ _)
      · intro g' hg' j hj
        rcases List.mem_cons.1 hg' with rfl | hg'
        · exact le_trans (i2 j hj) (by rw [hget j hj]; exact min_le_right _ _)
        · exact i3 g' hg' j hj
      · intro j hj hacc hall
        refine i4 j hj ?_ (fun g' hg' => hall g' (by simp [hg']))
        rw [hget j hj]
        exact lt_min hacc (hall g (by simp))
      · intro g' hg' j hj h0
        rcases List.mem_cons.1 hg' with rfl | hg'
        · by_contra hneg
          apply hz
          rw [List.any_eq_true]
          refine ⟨true, ?_, rfl⟩
          rw [List.mem_iff_getElem]
          refine ⟨j, by simp; omega, ?_⟩
          rw [List.getElem_zipWith, decide_eq_true_eq]
          rw [List.getD_eq_getElem _ _ (by omega)] at h0 hneg
          exact ⟨h0, not_le.1 hneg⟩
        · exact i5 g' hg' j hj h0

theorem minTime_spec {l : List (WithTop K)} {t : WithTop K} (h : minTime l = .ok t) :
    t ∈ l ∧ ∀ x ∈ l, t ≤ x := by
  unfold minTime at h
  cases hm : l.min? with
  | none => simp [hm] at h
  | some x =>
    simp only [hm, Except.ok.injEq] at h
    subst h
    exact List.min?_eq_some_iff.1 hm

end Verif.TE
