import Verif.Props.TESteady
import Verif.Lemmas.AutoStep
import Verif.Lemmas.Progress
import Verif.Lemmas.TwoHalves

/-
C118: with injection and escape alone, automatic steps are all alike: the run is the one with the fixed step that is the
smallest of half the escape times and of the times in which the permitted number of particles is injected.
-/

namespace Verif.TE

open Filter Topology

/-- injection at the rate `inj` and escape after the time `esc`, automatic steps -/
structure AutoEscapeRun (cfg : Cfg ℝ) (inj esc : ℝ → ℝ) (dist : Dist ℝ) : Prop where
  wf : cfg.WF
  en : cfg.enFns = []
  rel : ∃ name, cfg.relFns = [(name, fun _ q => q.gamma.map fun g => -(1 / esc g))]
  abs : ∃ name, cfg.absFns = [(name, fun _ q => q.gamma.map inj)]
  auto : cfg.stepDuration = .auto
  noOpt : cfg.optimize = false
  euler : cfg.heun = false
  noGroups : cfg.subgroups = none
  noBounds : cfg.gammaBounds = none
  timepos : 0 ≤ cfg.totalTime
  two : 2 ≤ cfg.initialGamma.length
  order : (cfg.initialGamma.map cfg.num.log10).Pairwise (· < ·)
  apart : ∀ thr, cfg.mergeCloser = some thr → ∀ j, j + 1 < cfg.initialGamma.length →
    thr ≤ cfg.num.log10 (cfg.initialGamma.getD (j + 1) 0) - cfg.num.log10 (cfg.initialGamma.getD j 0)
  nonneg : ∀ x ∈ cfg.initialGamma, 0 ≤ dist.eval x
  injection : ∀ x ∈ cfg.initialGamma, 0 < inj x
  escape : ∀ x ∈ cfg.initialGamma, 0 < esc x

/-- the same with steps of the length `dt` -/
def withStep (cfg : Cfg ℝ) (dt : ℝ) : Cfg ℝ := { cfg with stepDuration := .fixed dt }

/-- the limits on the step -/
def stepLimits (cfg : Cfg ℝ) (inj esc : ℝ → ℝ) : Set ℝ :=
  {t | ∃ x ∈ cfg.initialGamma, t = esc x / 2 ∨ t = cfg.maxInjection / inj x}

theorem exists_least_limit {cfg : Cfg ℝ} {inj esc : ℝ → ℝ} (h : 2 ≤ cfg.initialGamma.length) :
    ∃ dt, IsLeast (stepLimits cfg inj esc) dt := by
  have hfin : (stepLimits cfg inj esc).Finite := by
    have : stepLimits cfg inj esc ⊆ {t | t ∈ cfg.initialGamma.map fun x => esc x / 2}
        ∪ {t | t ∈ cfg.initialGamma.map fun x => cfg.maxInjection / inj x} := by
      rintro t ⟨x, hx, rfl | rfl⟩
      · exact Or.inl (List.mem_map.2 ⟨x, hx, rfl⟩)
      · exact Or.inr (List.mem_map.2 ⟨x, hx, rfl⟩)
    exact ((List.finite_toSet _).union (List.finite_toSet _)).subset this
  have hne : (stepLimits cfg inj esc).Nonempty := by
    match hg : cfg.initialGamma with
    | [] => rw [hg] at h; simp at h
    | x :: _ => exact ⟨esc x / 2, x, by rw [hg]; simp, Or.inl rfl⟩
  obtain ⟨m, hm, hle⟩ := Set.exists_min_image _ id hfin hne
  exact ⟨m, hm, fun t ht => hle t ht⟩

theorem AutoEscapeRun.fixed {cfg : Cfg ℝ} {inj esc : ℝ → ℝ} {dist : Dist ℝ} (h : AutoEscapeRun cfg inj esc dist) {dt : ℝ}
    (hdt : IsLeast (stepLimits cfg inj esc) dt) : EscapeRun (withStep cfg dt) inj esc dt dist := by
  obtain ⟨ne, hrel⟩ := h.rel
  obtain ⟨ni, habs⟩ := h.abs
  refine ⟨⟨ni, ne, { h.wf with
      optAuto := fun ho => by
        have : cfg.optimize = true := ho
        rw [h.noOpt] at this
        exact absurd this (by simp)
      thresholds := fun ha => by simp [withStep] at ha },
    h.en, hrel, habs, rfl, h.euler, h.noGroups, h.noBounds⟩, ?_, h.timepos, h.two, h.order, h.apart, h.nonneg, h.injection, ?_⟩
  · obtain ⟨x, hx, rfl | rfl⟩ := hdt.1
    · have := h.escape x hx
      positivity
    · have := h.injection x hx
      have := (h.wf.thresholds h.auto).2.2
      positivity
  · intro x hx
    have h1 := hdt.2 ⟨x, hx, Or.inl rfl⟩
    have := h.escape x hx
    linarith

/-- a state with the pairs `P` is given the step `dt` by `cfg` -/
def ChoosesStep (cfg : Cfg ℝ) (enL relL absL : List (String × (ℝ → ℝ))) (dt : ℝ) (P : List (ℝ × ℝ)) : Prop :=
  ∀ el tl d, chooseStep cfg (localState enL relL absL P el tl d)
    [⟨(P.map Prod.fst).map (totalOf enL), ((P.map Prod.fst).map (· * (1 + binSizeFactor))).map (totalOf enL)⟩]
    [(P.map Prod.fst).map (totalOf relL)] [(P.map Prod.fst).map (totalOf absL)] = .ok ((dt : WithTop ℝ), tl)

/-- the automatic step is the smallest of the limits of the bins -/
theorem choose_general {cfg : Cfg ℝ} (hauto : cfg.stepDuration = .auto) (hopt : cfg.optimize = false)
    {enL relL absL : List (String × (ℝ → ℝ))} {P : List (ℝ × ℝ)} (hne : P ≠ []) (habs : ∀ p ∈ P, 0 ≤ totalOf absL p.1)
    {f : ℝ × ℝ → ℝ}
    (hbin : ∀ p ∈ P, maxTimeBin cfg (p.1 * cfg.mec2) (p.1 * (1 + binSizeFactor) * cfg.mec2) (totalOf enL p.1)
      (totalOf enL (p.1 * (1 + binSizeFactor))) (totalOf relL p.1) (totalOf absL p.1) = ((f p : ℝ) : WithTop ℝ)) :
    ∃ p ∈ P, (∀ q ∈ P, f p ≤ f q) ∧ ChoosesStep cfg enL relL absL (f p) P := by
  have hmax : ∀ el tl d, calcMaxTimePerBin cfg (toErg cfg (localState enL relL absL P el tl d).bins)
      (localState enL relL absL P el tl d).dens (localState enL relL absL P el tl d).sub
      [⟨(P.map Prod.fst).map (totalOf enL), ((P.map Prod.fst).map (· * (1 + binSizeFactor))).map (totalOf enL)⟩]
      [(P.map Prod.fst).map (totalOf relL)] [(P.map Prod.fst).map (totalOf absL)]
      = .ok (P.map fun p => ((f p : ℝ) : WithTop ℝ)) := by
    intro el tl d
    unfold calcMaxTimePerBin localState
    simp only [List.length_cons, List.length_nil, lt_irrefl, if_false, densitiesGrouped, List.map_cons, List.map_nil,
      List.zip_cons_cons, List.zip_nil_right, List.foldlM_cons, List.foldlM_nil]
    have hno : ¬ ((List.zipWith (fun d a => decide (d = 0 ∧ a < 0)) (mulRow (P.map Prod.snd) (P.map fun _ => 1))
        ((P.map Prod.fst).map (totalOf absL))).any id = true) := by
      unfold mulRow
      rw [zipWith_maps, List.map_map, zipWith_maps]
      simp only [List.any_map, List.any_eq_true, not_exists, not_and]
      intro p hp
      simp only [Function.comp, id, decide_eq_true_eq]
      intro hc
      exact absurd hc.2 (habs p hp).not_gt
    unfold maxTimesStep
    simp only [hno]
    unfold maxTimesGroup toErg
    simp only [List.map_map, zip_maps, zipWith_maps]
    have hrep : List.replicate (P.map Prod.snd).length (⊤ : WithTop ℝ) = P.map fun _ => ⊤ := by
      rw [List.length_map, List.map_const']
    rw [hrep, zipWith_maps]
    simp only [Function.comp]
    show Except.ok _ = _
    congr 1
    refine List.map_congr_left fun p hp => ?_
    rw [hbin p hp]
    simp
  obtain ⟨t, ht⟩ := minTime_ok (l := P.map fun p => ((f p : ℝ) : WithTop ℝ)) (by simpa using hne)
  obtain ⟨hm, hle⟩ := minTime_spec ht
  obtain ⟨p, hp, rfl⟩ := List.mem_map.1 hm
  refine ⟨p, hp, fun q hq => WithTop.coe_le_coe.1 (hle _ (List.mem_map.2 ⟨q, hq, rfl⟩)), fun el tl d => ?_⟩
  unfold chooseStep
  simp only [hauto, hmax el tl d, hopt]
  show (do let t ← minTime _; pure (t, tl) : Except Err _) = _
  rw [ht]
  rfl

/-- the step chosen in any state of the run -/
theorem choose_auto {cfg : Cfg ℝ} {inj esc : ℝ → ℝ} {dist : Dist ℝ} (h : AutoEscapeRun cfg inj esc dist) {dt : ℝ}
    (hdt : IsLeast (stepLimits cfg inj esc) dt) {relL absL : List (String × (ℝ → ℝ))}
    (hrel : ∀ x, totalOf relL x = -(1 / esc x)) (habs : ∀ x, totalOf absL x = inj x) {P : List (ℝ × ℝ)}
    (hP : P.map Prod.fst = cfg.initialGamma) : ChoosesStep cfg [] relL absL dt P := by
  have hz : ∀ x : ℝ, totalOf ([] : List (String × (ℝ → ℝ))) x = 0 := fun x => by simp [totalOf]
  have hmem : ∀ p ∈ P, p.1 ∈ cfg.initialGamma := fun p hp => by rw [← hP]; exact List.mem_map_of_mem hp
  have hne : P ≠ [] := by
    rintro rfl
    have := h.two
    rw [← hP] at this
    simp at this
  obtain ⟨p, hp, hle, hc⟩ := choose_general h.auto h.noOpt (enL := []) (relL := relL) (absL := absL) hne
    (fun p hp => by rw [habs]; exact (h.injection _ (hmem p hp)).le)
    (f := fun p => min (esc p.1 / 2) (cfg.maxInjection / inj p.1)) (by
    intro p hp
    have he := h.escape _ (hmem p hp)
    have hi := h.injection _ (hmem p hp)
    have h1 : -(1 / esc p.1) < 0 := neg_lt_zero.2 (one_div_pos.2 he)
    have h2 : -(1 / 2) / -(1 / esc p.1) = esc p.1 / 2 := by field_simp
    simp only [hz, hrel, habs, maxTimeBin, timeEdge, timeDensity, timeRel, timeAbs, ne_eq, not_true_eq_false, if_false,
      sub_self, h1, if_true, hi.ne', not_false_eq_true, abs_of_pos hi, h2, WithTop.coe_min]
    simp)
  have e : min (esc p.1 / 2) (cfg.maxInjection / inj p.1) = dt := by
    apply le_antisymm
    · obtain ⟨x, hx, hx'⟩ := hdt.1
      rw [← hP] at hx
      obtain ⟨q, hq, rfl⟩ := List.mem_map.1 hx
      refine (hle q hq).trans ?_
      rcases hx' with e | e <;> rw [e]
      · exact min_le_left _ _
      · exact min_le_right _ _
    · exact le_min (hdt.2 ⟨p.1, hmem p hp, Or.inl rfl⟩) (hdt.2 ⟨p.1, hmem p hp, Or.inr rfl⟩)
  rw [← e]
  exact hc

theorem step_withStep {cfg : Cfg ℝ} {dt : ℝ} {enL relL absL : List (String × (ℝ → ℝ))}
    (hc : LocalCfg (withStep cfg dt) enL relL absL dt) {P : List (ℝ × ℝ)} (hP : ChoosesStep cfg enL relL absL dt P)
    (el : ℝ) (tl : List (WithTop ℝ)) (d : Dist ℝ) :
    step cfg (localState enL relL absL P el tl d) = step (withStep cfg dt) (localState enL relL absL P el tl d) := by
  have hg : groupRates cfg (localState enL relL absL P el tl d)
      = groupRates (withStep cfg dt) (localState enL relL absL P el tl d) := rfl
  unfold step
  rw [hg, groupRates_local hc]
  simp only [Bind.bind, Except.bind]
  rw [hP el tl d]
  rfl

/-- if the step is the same in every state, the states are those of the run with a fixed step -/
theorem reach_equal_steps {cfg : Cfg ℝ} {dt : ℝ} {enL relL absL : List (String × (ℝ → ℝ))} {dist : Dist ℝ}
    (hl : LocalRates (withStep cfg dt) enL relL absL dt) (hp : 0 < dt) (h2 : 2 ≤ cfg.initialGamma.length)
    {E : ℕ → List (ℝ × ℝ)}
    (hE : E = eulerRun (eulerBin cfg.mec2 (rateSum enL) (rateSum relL) (rateSum absL)) dt cfg.totalTime
      (startPairs cfg dist))
    (hsm : ∀ k : ℕ, (k : ℝ) * dt < cfg.totalTime → Smooth (withStep cfg dt) (rateSum enL) (rateSum relL) (rateSum absL)
      (min dt (cfg.totalTime - k * dt)) (E k))
    (hch : ∀ k : ℕ, (∀ i : ℕ, i < k → (i : ℝ) * dt < cfg.totalTime) → ChoosesStep cfg enL relL absL dt (E k))
    (k : ℕ) (s : State ℝ) : ReachN cfg dist k s ↔ ReachN (withStep cfg dt) dist k s := by
  have hreach := local_reachN hl.local hp (dist := dist) (E := E) (by rw [hE]; rfl) (fun k hk tl d => by
    have hlen : 2 ≤ (E k).length := by
      rw [hE, eulerRun_length]; simpa [startPairs] using h2
    obtain ⟨d', hst⟩ := step_local hl.local hl.euler (el := k * dt) (tl := tl) (dist := d) rfl
      ((hsm k hk).binOK hl.wf.mec2) ((hsm k hk).gridOK hl.wf.mec2 hlen)
    refine ⟨d', ?_⟩
    rw [hst]
    congr 2
    rw [hE]
    show _ = List.map _ _
    congr 1
    funext p
    exact eulerBin_eq hl.wf.mec2 _ _ _ _ p)
  have key : ∀ k s, ReachN (withStep cfg dt) dist k s → step cfg s = step (withStep cfg dt) s := by
    intro k s hk
    have hkN : k ≤ ⌈cfg.totalTime / dt⌉₊ := by
      rcases Nat.eq_zero_or_pos k with rfl | hpos
      · exact Nat.zero_le _
      · exact (C02_callback_times hl.fixed hp ⟨s, hk, hpos, rfl⟩).2
    obtain ⟨tl, d, hr⟩ := hreach k hkN
    rw [reachN_unique hk hr]
    refine step_withStep hl.local (hch k fun i hi => ?_) _ _ _
    have : (i : ℝ) < cfg.totalTime / dt := Nat.lt_ceil.1 (lt_of_lt_of_le hi hkN)
    rwa [lt_div_iff₀ hp] at this
  constructor
  · intro hk
    induction hk with
    | init h0 => exact .init h0
    | step _ hg hs ih => exact .step ih hg (by rw [← key _ _ ih]; exact hs)
  · intro hk
    induction hk with
    | init h0 => exact .init h0
    | step hr hg hs ih => exact .step ih hg (by rw [key _ _ hr]; exact hs)

/-- the states of the two runs are the same -/
theorem reach_withStep {cfg : Cfg ℝ} {inj esc : ℝ → ℝ} {dist : Dist ℝ} (h : AutoEscapeRun cfg inj esc dist) {dt : ℝ}
    (hdt : IsLeast (stepLimits cfg inj esc) dt) (k : ℕ) (s : State ℝ) :
    ReachN cfg dist k s ↔ ReachN (withStep cfg dt) dist k s := by
  have hf := h.fixed hdt
  obtain ⟨ni, ne, hl⟩ := hf.rates
  have hrel : ∀ x, rateSum [(ne, fun g => -(1 / esc g))] x = -(1 / esc x) := fun x => by simp [rateSum]
  have habs : ∀ x, rateSum [(ni, inj)] x = inj x := fun x => by simp [rateSum]
  refine reach_equal_steps hl hf.dtpos hf.two rfl
    (fill_smooth hl hf.dtpos (fun x => by simp [rateSum]) (dist := dist) hf.order hf.apart hf.nonneg
    (fun x hx => by rw [habs]; exact (hf.injection x hx).le)
    (fun x hx => by
      rw [hrel]
      have he := h.escape x hx
      have h1 : dt / esc x < 1 := (div_lt_one he).2 (hf.short x hx)
      have : -(1 / esc x) * dt = -(dt / esc x) := by ring
      linarith) (by
      rw [List.filter_eq_self.2 (fun x hx => ?_)]
      · exact hf.two
      · rw [habs]
        have := hf.nonneg x hx
        have := hf.injection x hx
        simp only [decide_eq_true_eq]
        linarith)) (fun k _ => ?_) k s
  refine choose_auto h hdt (fun x => by simp [totalOf]) (fun x => by simp [totalOf]) ?_
  unfold startPairs
  rw [static_run (en := rateSum []) (fun x => by simp [rateSum]) h.wf.gammaPos, List.map_map]
  exact List.map_id' _

theorem returns_of_reachN {cfg cfg' : Cfg ℝ} {dist : Dist ℝ} (h : ∀ k s, ReachN cfg dist k s → ReachN cfg' dist k s)
    (ht : cfg'.totalTime = cfg.totalTime) {r : Result ℝ} {d : Dist ℝ} (hr : Returns cfg dist r d) : Returns cfg' dist r d := by
  obtain ⟨s, hs, hend, e1, e2⟩ := returns_reach hr
  obtain ⟨k, hk⟩ := reachN_of_reach hs
  refine ⟨k + 1, s, ?_, e1, e2⟩
  rw [evaluate_of_reachN (h k s hk)]
  simp [loop, ht, hend]

/-- **C118**: with injection and escape alone the automatic steps are all alike. The run is the one with the fixed step that
is the smallest of half the escape times and of the times in which the permitted number of particles is injected. -/
theorem C118_auto_is_fixed {cfg : Cfg ℝ} {inj esc : ℝ → ℝ} {dist : Dist ℝ} (h : AutoEscapeRun cfg inj esc dist) :
    ∃ dt, IsLeast (stepLimits cfg inj esc) dt ∧ (∀ r d, Returns cfg dist r d ↔ Returns (withStep cfg dt) dist r d) ∧
      ∀ k c, KthCallback cfg dist k c ↔ KthCallback (withStep cfg dt) dist k c := by
  obtain ⟨dt, hdt⟩ := exists_least_limit (inj := inj) (esc := esc) h.two
  have hr := reach_withStep h hdt
  refine ⟨dt, hdt, fun r d => ⟨returns_of_reachN (fun k s => (hr k s).1) rfl, returns_of_reachN (fun k s => (hr k s).2) rfl⟩,
    fun k c => ?_⟩
  unfold KthCallback
  simp only [hr]

/-- **C118**: so automatic steps never overshoot the steady state `inj * esc`: the run returns, no bin moves, and in each bin
the density at the end, and at each callback, is on the same side of it as at the start, nearer at least by the factor
`exp(-t / esc)`. -/
theorem C118_auto_steady_state {cfg : Cfg ℝ} {inj esc : ℝ → ℝ} {dist : Dist ℝ} (h : AutoEscapeRun cfg inj esc dist) :
    (∃ r d, Returns cfg dist r d) ∧
    (∀ r d, Returns cfg dist r d → r.gamma = cfg.initialGamma ∧ ∃ n : ℝ → ℝ, r.density = cfg.initialGamma.map n ∧
      ∀ x ∈ cfg.initialGamma, Approaches (Real.exp (-(cfg.totalTime / esc x))) (inj x * esc x) (dist.eval x) (n x)) ∧
    (∀ k c, KthCallback cfg dist k c → c.gamma = cfg.initialGamma ∧ ∃ n : ℝ → ℝ, c.density = cfg.initialGamma.map n ∧
      ∀ x ∈ cfg.initialGamma, Approaches (Real.exp (-(c.totalTime / esc x))) (inj x * esc x) (dist.eval x) (n x)) := by
  obtain ⟨dt, hdt, h1, h2⟩ := C118_auto_is_fixed h
  obtain ⟨m1, m2, m3⟩ := C116_steady_state (h.fixed hdt)
  refine ⟨?_, fun r d hr => m2 r d ((h1 r d).1 hr), fun k c hc => m3 k c ((h2 k c).1 hc)⟩
  obtain ⟨r, d, hr⟩ := m1
  exact ⟨r, d, (h1 r d).2 hr⟩

/-- **C118**: the number of steps is the number of the fixed step in the total time, rounded up, and callback `k` comes at
`k` of them -/
theorem C118_callback_times {cfg : Cfg ℝ} {inj esc : ℝ → ℝ} {dist : Dist ℝ} (h : AutoEscapeRun cfg inj esc dist) {dt : ℝ}
    (hdt : IsLeast (stepLimits cfg inj esc) dt) {k : ℕ} {c : Result ℝ} (hc : KthCallback cfg dist k c) :
    c.totalTime = min (k * dt) cfg.totalTime ∧ k ≤ ⌈cfg.totalTime / dt⌉₊ := by
  obtain ⟨dt', hdt', _, h2⟩ := C118_auto_is_fixed h
  obtain rfl := hdt.unique hdt'
  exact C02_callback_times (cfg := withStep cfg dt) rfl (h.fixed hdt).dtpos ((h2 k c).1 hc)

/-! ### the hypotheses can be met -/

example {k : Consts} (hk : k.Pos) {T : ℝ} (hT : 0 < T) :
    AutoEscapeRun
      { steadyCfg k 1 T with
        stepDuration := .auto, maxEnergyChange := 1 / 10, maxDensityChange := 1 / 10, maxInjection := 1 } (fun _ => 2) (fun g => g) physDist := by
  have hs := physCfg_start k (fun _ p => p.gamma.map fun _ => 0) 1 T
  refine ⟨{ physCfg_wf hk (fun _ p => p.gamma.map fun _ => 0) 1 T with
      keysEn := by simp [steadyCfg]
      keysRel := by simp [steadyCfg]
      keysAbs := by simp [steadyCfg]
      thresholds := by norm_num
      optAuto := fun _ => rfl }, rfl, ⟨"esc", rfl⟩, ⟨"inj", rfl⟩, rfl, rfl, rfl, rfl, rfl, hT.le, hs.two, hs.order, hs.apart,
    hs.nonneg, fun _ _ => two_pos, ?_⟩
  intro x hx
  have : x = 10 ∨ x = 100 := by simpa [steadyCfg, physCfg] using hx
  rcases this with rfl | rfl <;> norm_num

end Verif.TE
