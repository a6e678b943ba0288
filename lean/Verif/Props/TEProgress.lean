import Verif.Lemmas.NoChangeTotal
import Verif.Props.TELoop
import Verif.Props.TENoChange

/-
C78: which exceptions `evaluate()` can end with, and C12: without processes it returns.

`RateShapes cfg`: every rate function returns one value per energy it is given (anything else is a shape error
of numpy's, reported on the first call).
-/

namespace Verif.TE

open Verif.Np

set_option linter.unusedSectionVars false

variable {K : Type} [Field K] [LinearOrder K] [IsStrictOrderedRing K]

/-- every rate function returns as many values as it is given energies -/
def RateShapes (cfg : Cfg K) : Prop :=
  ∀ f ∈ cfg.enFns ++ cfg.relFns ++ cfg.absFns, ∀ d p, (f.2 d p).length = p.gamma.length

theorem RateShapes.parts {cfg : Cfg K} (h : RateShapes cfg) :
    Shaped cfg.enFns ∧ Shaped cfg.relFns ∧ Shaped cfg.absFns :=
  ⟨fun f hf => h f (by simp [hf]), fun f hf => h f (by simp [hf]), fun f hf => h f (by simp [hf])⟩

theorem loop_error {cfg : Cfg K} {dist : Dist K} {n : Nat} {s : State K} (hr : Reach cfg dist s) {e : Err}
    (h : loop cfg n s = .error e) : ∃ s', Reach cfg dist s' ∧ s'.elapsed < cfg.totalTime ∧ step cfg s' = .error e := by
  induction n generalizing s with
  | zero =>
    unfold loop at h
    split at h <;> cases h
  | succ n ih =>
    unfold loop at h
    split at h
    · next hlt =>
      cases hs : step cfg s with
      | error e' =>
        rw [hs] at h
        cases h
        exact ⟨s, hr, hlt, hs⟩
      | ok s1 =>
        rw [hs] at h
        exact ih (Reach.step hr hlt hs) h
    · cases h

/-- **C78.** When the configuration is well formed (strictly increasing positive energies inside the bounds, a
nonempty list of groups, initial fractions with one row per group) and the rate functions return arrays of the
right shape, the only exceptions `evaluate()` can end with are: a bin moved to a non-positive energy, a bin
turned inside out, a bin shrunk to zero width, a density made negative, escape from an empty bin, all particles in
one energy, too few occupied bins to interpolate - and, only when bounds or a merging threshold are configured,
an `IndexError` because no bin is left to work with.  In particular no bookkeeping failure (missing rate, wrong
shape, NaN rate used, missing default value) occurs at any step of any run. -/
theorem C78_errors {cfg : Cfg K} (wf : cfg.WF) (hs : cfg.Sensible) (hsh : RateShapes cfg) {dist : Dist K}
    (hnn : ∀ x, 0 ≤ dist.eval x) {fuel : Nat} {e : Err} (h : evaluate cfg dist fuel = .error e) :
    e = .negativeGamma ∨ e = .negativeWidth ∨ e = .nonFiniteDensity ∨ e = .negativeDensity ∨
      e = .escapeAtZeroDensity ∨ e = .collapse ∨ e = .interpError ∨
      (e = .indexError ∧ (cfg.gammaBounds ≠ none ∨ cfg.mergeCloser ≠ none)) := by
  obtain ⟨he, hr, ha⟩ := hsh.parts
  obtain ⟨s0, h0, -⟩ := initState_live wf hs he hr ha dist
  unfold evaluate at h
  rw [h0] at h
  obtain ⟨s, hrs, hlt, hst⟩ := loop_error (Reach.init h0) h
  rcases step_only wf he hr ha (reach_inv wf hnn hrs).1 (reach_live wf hs he hr ha hnn hrs) hlt e hst with h1 | h1
  · cases e <;> simp_all [Physical]
  · cases e <;> simp_all [Emptied]

/-- ... and the first state is always computed. -/
theorem C78_starts {cfg : Cfg K} (wf : cfg.WF) (hs : cfg.Sensible) (hsh : RateShapes cfg) (dist : Dist K) :
    ∃ s, Reach cfg dist s :=
  let ⟨s, h, _⟩ := initState_live wf hs hsh.parts.1 hsh.parts.2.1 hsh.parts.2.2 dist
  ⟨s, .init h⟩

theorem demoCfg_sensible : demoCfg.Sensible where
  gamma := by simp [demoCfg]
  groups := by simp [demoCfg]
  rows := by simp [demoCfg]

theorem demoCfg_shapes : RateShapes demoCfg := by simp [RateShapes, demoCfg]

/-- the exception a run ends with -/
def failsWith (cfg : Cfg ℚ) (dist : Dist ℚ) (fuel : Nat) (e : Err) : Bool :=
  match evaluate cfg dist fuel with
  | .error e' => decide (e = e')
  | _ => false

/-- cooling that takes every bin below the lower bound in one step -/
def coldCfg : Cfg ℚ := { demoCfg with
  enFns := [("cool", fun _ p => p.gamma.map fun g => -(7/4) * g)], relFns := [], absFns := [], subgroups := none }

theorem failsWith_eq {cfg : Cfg ℚ} {dist : Dist ℚ} {fuel : Nat} {e : Err} (h : failsWith cfg dist fuel e = true) :
    evaluate cfg dist fuel = .error e := by
  unfold failsWith at h
  split at h
  · next e' he' =>
    rw [he', of_decide_eq_true h]
  · cases h

/-- the `IndexError` does happen: with bounds [1, 8], bins at 1, 2 and 4 and a step that divides all energies
by eight, no bin is left; without bounds the same run succeeds, and without a minimum energy it raises the
documented exception -/
theorem C78_no_bin_left : coldCfg.WF ∧ coldCfg.Sensible ∧ RateShapes coldCfg ∧
    evaluate coldCfg demoDist 5 = .error .indexError ∧
    checkRun { coldCfg with gammaBounds := none } demoDist 5 (fun s => decide (s.elapsed = 3/4)) = true ∧
    evaluate { coldCfg with enFns := [("cool", fun _ p => p.gamma.map fun g => -3 * g)] } demoDist 5
      = .error .negativeGamma := by
  refine ⟨⟨demoCfg_wf.lawful, demoCfg_wf.mec2, demoCfg_wf.optAuto, demoCfg_wf.thresholds, by simp [coldCfg],
    by simp [coldCfg], by simp [coldCfg], demoCfg_wf.gammaPos, demoCfg_wf.gammaSorted, demoCfg_wf.bounds,
    by simp [coldCfg, demoCfg]⟩, ⟨by simp [coldCfg, demoCfg], by simp [coldCfg], by simp [coldCfg]⟩,
    by simp [RateShapes, coldCfg], failsWith_eq (by decide +kernel), by decide +kernel,
    failsWith_eq (by decide +kernel)⟩

/-! ### C12: the run returns -/

theorem loop_quiet {cfg : Cfg K} {P : State K → Prop}
    (hstep : ∀ s, P s → s.elapsed < cfg.totalTime → ∃ s', step cfg s = .ok s' ∧ P s') :
    ∀ (n : Nat) (s : State K), P s → ∃ r, loop cfg n s = .ok r := by
  intro n
  induction n with
  | zero =>
    intro s _
    unfold loop
    split <;> exact ⟨_, rfl⟩
  | succ n ih =>
    intro s hs
    unfold loop
    split
    · next hlt =>
      obtain ⟨s', h1, h2⟩ := hstep s hs hlt
      rw [h1]
      exact ih s' h2
    · exact ⟨_, rfl⟩

/-- the initial densities can be interpolated: all zero, or positive in at least two bins -/
def Interpolable (cfg : Cfg K) (dist : Dist K) : Prop :=
  (∀ x ∈ cfg.initialGamma, dist.eval x = 0) ∨
    ∃ x ∈ cfg.initialGamma, ∃ y ∈ cfg.initialGamma, x ≠ y ∧ dist.eval x ≠ 0 ∧ dist.eval y ≠ 0

/-- **C12**, the run does return: with nothing to do, at least two bins and densities that are all zero or
positive in at least two bins, `evaluate()` ends without an exception, for automatic steps as for fixed ones. -/
theorem C12_returns [FloorSemiring K] {cfg : Cfg K} (wf : cfg.WF) (hf : cfg.FractionsOK)
    (hq : NothingToDo cfg) (hs : cfg.Sensible) (hsh : RateShapes cfg) (h2 : 2 ≤ cfg.initialGamma.length)
    (hdt : ∀ dt, cfg.stepDuration = .fixed dt → 0 < dt) {dist : Dist K} (hnn : ∀ x, 0 ≤ dist.eval x)
    (hi : Interpolable cfg dist) :
    ∃ r d, Returns cfg dist r d ∧ r.gamma = cfg.initialGamma ∧ r.density = cfg.initialGamma.map dist.eval ∧
      r.subgroups = startFractions cfg := by
  suffices h : ∃ r d, Returns cfg dist r d by
    obtain ⟨r, d, h⟩ := h
    exact ⟨r, d, h, C12_no_process_no_change wf hf hq hnn (Or.inl h)⟩
  obtain ⟨he, hr, ha⟩ := hsh.parts
  obtain ⟨s0, h0, hL0⟩ := initState_live wf hs he hr ha dist
  have hap : Apart cfg cfg.initialGamma := ⟨wf.gammaPos, hq.distinct, hq.apart⟩
  have hin : ∀ lo hi, cfg.gammaBounds = some (lo, hi) → ∀ x ∈ cfg.initialGamma,
      lo ≤ x ∧ x ≤ hi / (1 + binSizeFactor) := by
    intro lo hi hb x hx
    refine ⟨((wf.bounds lo hi hb).2.2.2 x hx).1, ?_⟩
    rw [le_div_iff₀ (by have := binSizeFactor_pos (K := K); linarith)]
    exact hq.inside lo hi hb x hx
  have hz1 : ∀ f ∈ cfg.enFns, ZeroFn f.2 := fun f hf => hq.zero f (by simp [hf])
  have hz2 : ∀ f ∈ cfg.relFns, ZeroFn f.2 := fun f hf => hq.zero f (by simp [hf])
  have hz3 : ∀ f ∈ cfg.absFns, ZeroFn f.2 := fun f hf => hq.zero f (by simp [hf])
  -- every reachable state with the initial arrays makes a step
  have hstep : ∀ s, Reach cfg dist s ∧ s.bins = s0.bins ∧ s.dens = s0.dens → s.elapsed < cfg.totalTime →
      ∃ s', step cfg s = .ok s' ∧ (Reach cfg dist s' ∧ s'.bins = s0.bins ∧ s'.dens = s0.dens) ∧
        (cfg.stepDuration = .auto → (cfg.optimize = true → ∀ x ∈ s.timeLeft, x = 0) →
          s'.elapsed = cfg.totalTime) := by
    rintro s ⟨hrs, eb, ed⟩ hlt
    obtain ⟨sub, i1, e1, e2, e3, -⟩ := initState_parts h0
    have hb : s0.bins = ⟨cfg.initialGamma, cfg.initialGamma.map (· * (1 + binSizeFactor))⟩ := by
      rw [e1, updateBinUb_true ⟨rfl, by simp⟩]
    have hbl : s.bins.lb = cfg.initialGamma := by rw [eb, hb]
    have hstd : Std s.bins := by rw [eb, hb]; rfl
    obtain ⟨hI, hS⟩ := reach_inv wf hnn hrs
    have hd : s.dens = cfg.initialGamma.map dist.eval := by rw [ed, e2]
    have hud : ∃ d, updateDistribution cfg.num s.bins s.dens = .ok d := by
      have hdec := C17_decision wf.lawful hI.ublen hI.denslen hI.pos hI.densnn
      obtain ⟨c1, -, -, c4⟩ := hdec
      have hval : ∀ i, i < s.bins.lb.length → s.dens.getD i 0 = dist.eval (cfg.initialGamma.getD i 0) := by
        intro i hi
        rw [hbl] at hi
        rw [hd, getD_map' _ 0 0 hi]
      rcases hi with h0 | ⟨x, hx, y, hy, hxy, hx0, hy0⟩
      · obtain ⟨d, hd, -⟩ := c1 (by
          rintro i ⟨hi, hp⟩
          rw [hval i hi, h0 _ (getD_mem (by rw [← hbl]; exact hi))] at hp
          exact lt_irrefl _ hp)
        exact ⟨d, hd⟩
      · obtain ⟨i, hi, rfl⟩ := List.mem_iff_getElem.1 hx
        obtain ⟨j, hj, rfl⟩ := List.mem_iff_getElem.1 hy
        have hij : i ≠ j := fun h => hxy (by subst h; rfl)
        refine c4 ⟨i, j, ⟨by rw [hbl]; exact hi, ?_⟩, ⟨by rw [hbl]; exact hj, ?_⟩, ?_⟩
        · rw [hval i (by rw [hbl]; exact hi), List.getD_eq_getElem _ _ hi]
          exact lt_of_le_of_ne (hnn _) (Ne.symm hx0)
        · rw [hval j (by rw [hbl]; exact hj), List.getD_eq_getElem _ _ hj]
          exact lt_of_le_of_ne (hnn _) (Ne.symm hy0)
        · dsimp only
          rw [hbl, List.getD_eq_getElem _ _ hi, List.getD_eq_getElem _ _ hj]
          have hp := List.pairwise_iff_getElem.1 hq.distinct
          rcases Nat.lt_or_gt_of_ne hij with h | h
          · have := hp i j (by simpa using hi) (by simpa using hj) h
            simp only [List.getElem_map] at this
            exact ne_of_lt this
          · have := hp j i (by simpa using hj) (by simpa using hi) h
            simp only [List.getElem_map] at this
            exact ne_of_gt this
    obtain ⟨s', hs', hauto⟩ := step_zero_ok wf hI (hS hf) (reach_live wf hs he hr ha hnn hrs) (by rw [hbl]; exact h2)
      (by rw [hbl]; exact hap) (by rw [hbl]; exact hin) hz1 hz2 hz3 he hr ha hud hlt
    obtain ⟨a, b, -⟩ := step_zero wf hI (hS hf) hstd (by rw [hbl]; exact hap) (by rw [hbl]; exact hin) hz1 hz2 hz3 hlt hs'
    exact ⟨s', hs', ⟨.step hrs hlt hs', by rw [a, eb], by rw [b, ed]⟩, hauto⟩
  have hP0 : Reach cfg dist s0 ∧ s0.bins = s0.bins ∧ s0.dens = s0.dens := ⟨.init h0, rfl, rfl⟩
  cases hd : cfg.stepDuration with
  | fixed dt =>
    obtain ⟨r, hl⟩ := loop_quiet (cfg := cfg) (P := fun s => Reach cfg dist s ∧ s.bins = s0.bins ∧ s.dens = s0.dens)
      (fun s hp hlt => by obtain ⟨s', q1, q2, -⟩ := hstep s hp hlt; exact ⟨s', q1, q2⟩) ⌈cfg.totalTime / dt⌉₊ s0 hP0
    have hev : evaluate cfg dist ⌈cfg.totalTime / dt⌉₊ = .ok r := by
      unfold evaluate
      rw [h0]
      exact hl
    cases r with
    | none => exact absurd hev (C02_terminates hd (hdt dt hd) dist _ le_rfl)
    | some s => exact ⟨_, _, _, s, hev, rfl, rfl⟩
  | auto =>
    by_cases hlt : s0.elapsed < cfg.totalTime
    · obtain ⟨s1, q1, -, q3⟩ := hstep s0 hP0 hlt
      have hel : s1.elapsed = cfg.totalTime := q3 hd (by
        intro _ x hx
        obtain ⟨_, -, -, -, -, -, -, -, e7, -⟩ := initState_parts h0
        rw [e7] at hx
        obtain ⟨_, -, rfl⟩ := List.mem_map.1 hx
        rfl)
      refine ⟨_, _, 1, s1, ?_, rfl, rfl⟩
      unfold evaluate
      rw [h0]
      show loop cfg 1 s0 = _
      unfold loop
      rw [if_pos hlt, q1]
      show loop cfg 0 s1 = _
      unfold loop
      rw [if_neg (by rw [hel]; exact lt_irrefl _)]
    · refine ⟨_, _, 0, s0, ?_, rfl, rfl⟩
      unfold evaluate
      rw [h0]
      show loop cfg 0 s0 = _
      unfold loop
      rw [if_neg hlt]

/-- hypotheses met by `quietCfg`; also with automatic, optimised steps -/
example : ∃ r d, Returns { quietCfg with stepDuration := .auto, optimize := true } demoDist r d ∧ r.gamma = [1, 2, 4] := by
  obtain ⟨r, d, h, hg, -⟩ := C12_returns (cfg := { quietCfg with stepDuration := .auto, optimize := true })
    (dist := demoDist)
    ⟨quietCfg_wf.lawful, quietCfg_wf.mec2, fun _ => rfl, by simp [quietCfg, demoCfg], quietCfg_wf.keysEn, quietCfg_wf.keysRel,
      quietCfg_wf.keysAbs, quietCfg_wf.gammaPos, quietCfg_wf.gammaSorted, quietCfg_wf.bounds, quietCfg_wf.fractions⟩
    (by
      intro f h
      simp only [quietCfg, Option.some.injEq] at h
      subst h
      refine ⟨by simp; norm_num, ?_⟩
      intro j hj
      simp only [quietCfg, demoCfg, List.length_cons, List.length_nil] at hj
      have : j = 0 ∨ j = 1 ∨ j = 2 := by omega
      rcases this with rfl | rfl | rfl <;> norm_num)
    ⟨quietCfg_quiet.zero, quietCfg_quiet.distinct, quietCfg_quiet.apart, quietCfg_quiet.inside⟩
    ⟨by simp [quietCfg, demoCfg], by simp [quietCfg, demoCfg], by
      intro g f hg hf
      simp only [quietCfg, demoCfg, Option.some.injEq] at hg hf
      subst hg hf
      rfl⟩
    (by simp [RateShapes, quietCfg]) (by simp [quietCfg, demoCfg]) (by simp) demoDist_nonneg
    (Or.inr ⟨1, by simp [quietCfg, demoCfg], 2, by simp [quietCfg, demoCfg], by norm_num,
      by norm_num [demoDist], by norm_num [demoDist]⟩)
  exact ⟨r, d, h, hg⟩

end Verif.TE
