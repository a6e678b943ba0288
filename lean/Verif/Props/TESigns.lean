import Verif.Lemmas.Signs
import Verif.Props.TELoop
import Verif.Props.TEBasics

/-
C74: with losses only no particle ever gains energy, with gains only none ever loses any.
-/

namespace Verif.TE

open Verif.Np

set_option linter.unusedSectionVars false

variable {K : Type} [Field K] [LinearOrder K] [IsStrictOrderedRing K]

/-- the step duration, if given, is positive -/
def ForwardSteps (cfg : Cfg K) : Prop := ∀ dt, cfg.stepDuration = .fixed dt → 0 < dt

theorem convex_nonpos : Convex (fun v : K => v ≤ 0) where
  zero := le_rfl
  add := fun a b ha hb => by linarith
  avg := fun a b ha hb => by linarith

theorem convex_nonneg : Convex (fun v : K => 0 ≤ v) where
  zero := le_rfl
  add := fun a b ha hb => by linarith
  avg := fun a b ha hb => by linarith

theorem step_forward {cfg : Cfg K} (wf : cfg.WF) (hd : ForwardSteps cfg) {s s' : State K}
    (hI : Inv cfg s) (hg : s.elapsed < cfg.totalTime) (h : step cfg s = .ok s') : s.elapsed ≤ s'.elapsed := by
  cases hs : cfg.stepDuration with
  | fixed dt =>
    rw [step_elapsed_fixed hs h]
    exact le_min (by have := hd dt hs; linarith) hg.le
  | auto => exact (step_elapsed_auto wf hs hI hg h).le

theorem later_state {cfg : Cfg K} {dist : Dist K} {R : State K → State K → Prop} (hrefl : ∀ s, R s s)
    (htrans : ∀ a b c, R a b → R b c → R a c)
    (hstep : ∀ s s', Reach cfg dist s → s.elapsed < cfg.totalTime → step cfg s = .ok s' → R s s')
    {k m : Nat} {s s' : State K} (hk : ReachN cfg dist k s) (hm : ReachN cfg dist m s') (h : k ≤ m) : R s s' := by
  induction hm with
  | init h0 =>
    have : k = 0 := by omega
    subst this
    rw [reachN_unique hk (.init h0)]
    exact hrefl _
  | @step m a b ha hg hs ih =>
    rcases Nat.lt_or_ge m k with hlt | hge
    · have : k = m + 1 := by omega
      subst this
      rw [reachN_unique hk (.step ha hg hs)]
      exact hrefl _
    · exact htrans _ _ _ (ih hge) (hstep _ _ (reach_of_reachN ha) hg hs)

/-- no Lorentz factor of `b` exceeds all of `a` -/
def BelowAll (a b : List K) : Prop := ∀ x ∈ b, ∃ y ∈ a, x ≤ y

/-- no Lorentz factor of `b` is below all of `a` -/
def AboveAll (a b : List K) : Prop := ∀ x ∈ b, ∃ y ∈ a, y ≤ x

theorem losses_step {cfg : Cfg K} (wf : cfg.WF) (hd : ForwardSteps cfg) (hb : cfg.gammaBounds = none)
    (hf : FnsIn (· ≤ 0) cfg.enFns) {dist : Dist K} (hnn : ∀ x, 0 ≤ dist.eval x) {s s' : State K}
    (hr : Reach cfg dist s) (hg : s.elapsed < cfg.totalTime) (h : step cfg s = .ok s') :
    BelowAll s.bins.lb s'.bins.lb := by
  obtain ⟨v, hv, hx⟩ := reach_displaced convex_nonpos wf hf hb hnn hr hg h
  intro x hxm
  obtain ⟨-, j, -, hj, -, hle⟩ := hx x hxm
  refine ⟨s.bins.lb.getD j 0, getD_mem hj, le_trans hle ?_⟩
  have ht := step_forward wf hd (reach_inv wf hnn hr).1 hg h
  rw [div_le_iff₀ wf.mec2]
  have := mul_nonpos_of_nonpos_of_nonneg (hv j hj) (sub_nonneg.2 ht)
  linarith

theorem gains_step {cfg : Cfg K} (wf : cfg.WF) (hd : ForwardSteps cfg) (hb : cfg.gammaBounds = none)
    (hf : FnsIn (0 ≤ ·) cfg.enFns) {dist : Dist K} (hnn : ∀ x, 0 ≤ dist.eval x) {s s' : State K}
    (hr : Reach cfg dist s) (hg : s.elapsed < cfg.totalTime) (h : step cfg s = .ok s') :
    AboveAll s.bins.lb s'.bins.lb := by
  obtain ⟨v, hv, hx⟩ := reach_displaced convex_nonneg wf hf hb hnn hr hg h
  intro x hxm
  obtain ⟨j, -, hj, -, hle, -⟩ := hx x hxm
  refine ⟨s.bins.lb.getD j 0, getD_mem hj, le_trans ?_ hle⟩
  have ht := step_forward wf hd (reach_inv wf hnn hr).1 hg h
  rw [le_div_iff₀ wf.mec2]
  have := mul_nonneg (hv j hj) (sub_nonneg.2 ht)
  linarith

theorem reach_initial {cfg : Cfg K} {dist : Dist K} {R : State K → State K → Prop} (hrefl : ∀ s, R s s)
    (htrans : ∀ a b c, R a b → R b c → R a c)
    (hstep : ∀ s s', Reach cfg dist s → s.elapsed < cfg.totalTime → step cfg s = .ok s' → R s s')
    {s : State K} (h : Reach cfg dist s) : ∃ s0, initState cfg dist = .ok s0 ∧ R s0 s := by
  induction h with
  | init h => exact ⟨_, h, hrefl _⟩
  | step hr hg hs ih =>
    obtain ⟨s0, h0, hR⟩ := ih
    exact ⟨s0, h0, htrans _ _ _ hR (hstep _ _ hr hg hs)⟩

theorem initState_gamma {cfg : Cfg K} {dist : Dist K} {s : State K} (h : initState cfg dist = .ok s) :
    s.bins.lb = cfg.initialGamma := by
  obtain ⟨sub, h1, e1, -⟩ := initState_parts h
  rw [e1]; rfl

/-- All energy-change functions return values that are not positive (losses): in every record passed to the
callback or returned, no Lorentz factor exceeds the largest initial one, the reported energy-change rates are not
positive, and the largest Lorentz factor never grows from one callback to a later one.  Any step mode, any method,
any subgroups, with or without merging. -/
theorem C74_losses_only {cfg : Cfg K} (wf : cfg.WF) (hd : ForwardSteps cfg) (hb : cfg.gammaBounds = none)
    (hf : FnsIn (· ≤ 0) cfg.enFns) {dist : Dist K} (hnn : ∀ x, 0 ≤ dist.eval x) :
    (∀ r dist', Observed cfg dist r dist' → BelowAll cfg.initialGamma r.gamma ∧
      ∀ q ∈ r.enChgRates, ∀ v, some v ∈ q.2 → v ≤ 0) ∧
    ∀ k m c c', KthCallback cfg dist k c → KthCallback cfg dist m c' → k ≤ m → BelowAll c.gamma c'.gamma := by
  have hstep := fun s s' hr hg h => losses_step (s := s) (s' := s') wf hd hb hf hnn hr hg h
  have hrefl : ∀ s : State K, BelowAll s.bins.lb s.bins.lb := fun s x hx => ⟨x, hx, le_rfl⟩
  have htrans : ∀ a b c : State K, BelowAll a.bins.lb b.bins.lb → BelowAll b.bins.lb c.bins.lb →
      BelowAll a.bins.lb c.bins.lb := by
    intro a b c h1 h2 x hx
    obtain ⟨y, hy, hxy⟩ := h2 x hx
    obtain ⟨z, hz, hyz⟩ := h1 y hy
    exact ⟨z, hz, le_trans hxy hyz⟩
  refine ⟨?_, ?_⟩
  · intro r dist' ho
    obtain ⟨s, hr, -, -, hgam, -, -, hen, -⟩ := observed_reach ho
    refine ⟨?_, ?_⟩
    · obtain ⟨s0, h0, hR⟩ := reach_initial hrefl htrans hstep hr
      rw [hgam, ← initState_gamma h0]
      exact hR
    · rw [hen]
      intro q hq v hv
      obtain ⟨p, hp, rfl⟩ := List.mem_map.1 hq
      exact (reach_in wf hf hnn hr p hp).1 v hv
  · rintro k m c c' ⟨s, h1, -, rfl⟩ ⟨s', h2, -, rfl⟩ hkm
    exact later_state hrefl htrans hstep h1 h2 hkm

/-- The same with gains only: nothing falls below the smallest initial Lorentz factor. -/
theorem C74_gains_only {cfg : Cfg K} (wf : cfg.WF) (hd : ForwardSteps cfg) (hb : cfg.gammaBounds = none)
    (hf : FnsIn (0 ≤ ·) cfg.enFns) {dist : Dist K} (hnn : ∀ x, 0 ≤ dist.eval x) :
    (∀ r dist', Observed cfg dist r dist' → AboveAll cfg.initialGamma r.gamma ∧
      ∀ q ∈ r.enChgRates, ∀ v, some v ∈ q.2 → 0 ≤ v) ∧
    ∀ k m c c', KthCallback cfg dist k c → KthCallback cfg dist m c' → k ≤ m → AboveAll c.gamma c'.gamma := by
  have hstep := fun s s' hr hg h => gains_step (s := s) (s' := s') wf hd hb hf hnn hr hg h
  have hrefl : ∀ s : State K, AboveAll s.bins.lb s.bins.lb := fun s x hx => ⟨x, hx, le_rfl⟩
  have htrans : ∀ a b c : State K, AboveAll a.bins.lb b.bins.lb → AboveAll b.bins.lb c.bins.lb →
      AboveAll a.bins.lb c.bins.lb := by
    intro a b c h1 h2 x hx
    obtain ⟨y, hy, hxy⟩ := h2 x hx
    obtain ⟨z, hz, hyz⟩ := h1 y hy
    exact ⟨z, hz, le_trans hyz hxy⟩
  refine ⟨?_, ?_⟩
  · intro r dist' ho
    obtain ⟨s, hr, -, -, hgam, -, -, hen, -⟩ := observed_reach ho
    refine ⟨?_, ?_⟩
    · obtain ⟨s0, h0, hR⟩ := reach_initial hrefl htrans hstep hr
      rw [hgam, ← initState_gamma h0]
      exact hR
    · rw [hen]
      intro q hq v hv
      obtain ⟨p, hp, rfl⟩ := List.mem_map.1 hq
      exact (reach_in wf hf hnn hr p hp).1 v hv
  · rintro k m c c' ⟨s, h1, -, rfl⟩ ⟨s', h2, -, rfl⟩ hkm
    exact later_state hrefl htrans hstep h1 h2 hkm

/-! ### the hypotheses can be met -/

theorem halfCfg_wf : halfCfg.WF := { demoCfg_wf with bounds := by intro lo hi h; simp [halfCfg] at h }

/-- C74 applies to the demonstration run without bounds: two subgroups, cooling, escape and injection -/
example : ∃ r d, Observed halfCfg demoDist r d ∧ r.gamma ≠ [1, 2, 4] ∧ BelowAll [1, 2, 4] r.gamma := by
  obtain ⟨s, h, e⟩ := returns_of_check (cfg := halfCfg) (dist := demoDist) (fuel := 3)
    (p := fun s => decide (s.bins.lb ≠ [1, 2, 4])) (by decide +kernel)
  refine ⟨_, _, .inl h, of_decide_eq_true e, ?_⟩
  refine ((C74_losses_only halfCfg_wf ?_ rfl ?_ demoDist_nonneg).1 _ _ (.inl h)).1
  · intro dt hdt
    have : dt = 1 / 2 := by simpa [halfCfg, demoCfg] using hdt.symm
    rw [this]; norm_num
  · intro f hf d p _ _ v hv
    simp only [halfCfg, demoCfg, List.mem_singleton] at hf
    subst hf
    obtain ⟨g, -, rfl⟩ := List.mem_map.1 hv
    have := mul_self_nonneg g
    show -(g * g) / 8 ≤ 0
    linarith

end Verif.TE
