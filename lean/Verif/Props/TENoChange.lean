import Verif.Lemmas.NoChange
import Verif.Props.TEBasics

/-
C12: no process, no change.
-/

namespace Verif.TE

open Verif.Np

set_option linter.unusedSectionVars false

variable {K : Type} [Field K] [LinearOrder K] [IsStrictOrderedRing K]

/-- all rate functions return zeros, and the initial grid has nothing to merge (distinct `log10` values, no
two neighbours closer than the merge threshold) and nothing to cut off (the top of the last bin is inside the
bounds) -/
structure NothingToDo (cfg : Cfg K) : Prop where
  zero : ∀ f ∈ cfg.enFns ++ cfg.relFns ++ cfg.absFns, ∀ d p, ∀ y ∈ f.2 d p, y = 0
  distinct : (cfg.initialGamma.map cfg.num.log10).Pairwise (· < ·)
  apart : ∀ thr, cfg.mergeCloser = some thr → ∀ j, j + 1 < cfg.initialGamma.length →
    thr ≤ cfg.num.log10 (cfg.initialGamma.getD (j + 1) 0) - cfg.num.log10 (cfg.initialGamma.getD j 0)
  inside : ∀ lo hi, cfg.gammaBounds = some (lo, hi) → ∀ x ∈ cfg.initialGamma,
    x * (1 + binSizeFactor) ≤ hi

/-- the fractions a run starts with: those given; otherwise everything is in the first subgroup -/
def startFractions (cfg : Cfg K) : List (List K) :=
  let n := cfg.initialGamma.length
  match cfg.subgroups, cfg.initialFractions with
  | none, _ => [List.replicate n 1]
  | some _, some f => f
  | some rows, none => (List.range rows.length).map fun i => List.replicate n (if i = 0 then 1 else 0)

theorem initialSub_start {cfg : Cfg K} {sub : List (List K)} (h : initialSub cfg = .ok sub) :
    sub = startFractions cfg := by
  unfold initialSub at h
  unfold startFractions
  cases hsg : cfg.subgroups with
  | none =>
    simp only [hsg, Except.ok.injEq] at h
    exact h.symm
  | some rows =>
    cases hf : cfg.initialFractions with
    | some f =>
      simp only [hsg, hf, Except.ok.injEq] at h
      exact h.symm
    | none =>
      simp only [hsg, hf] at h
      cases rows with
      | nil => simp at h
      | cons r rs =>
        simp only [Except.ok.injEq] at h
        subst h
        simp only [List.length_cons, List.range_succ_eq_map, List.map_cons, List.map_map, if_true]
        congr 1
        apply List.ext_getElem <;> simp

/-- In every record the user sees — after any number of steps, for both methods, for fixed, automatic and
optimised steps, with and without subgroups and bounds — energies, densities and fractions are the
initial ones. -/
theorem C12_no_process_no_change {cfg : Cfg K} (wf : cfg.WF) (hf : cfg.FractionsOK)
    (hq : NothingToDo cfg) {dist d : Dist K} (hnn : ∀ x, 0 ≤ dist.eval x) {r : Result K}
    (h : Observed cfg dist r d) :
    r.gamma = cfg.initialGamma ∧ r.density = cfg.initialGamma.map dist.eval ∧
      r.subgroups = startFractions cfg := by
  obtain ⟨s, hr, -, -, eg, ed, es, -⟩ := observed_reach h
  rw [eg, ed, es]
  clear eg ed es
  have hap : Apart cfg cfg.initialGamma := ⟨wf.gammaPos, hq.distinct, hq.apart⟩
  have hin : ∀ lo hi, cfg.gammaBounds = some (lo, hi) → ∀ x ∈ cfg.initialGamma,
      lo ≤ x ∧ x ≤ hi / (1 + binSizeFactor) := by
    intro lo hi hb x hx
    refine ⟨((wf.bounds lo hi hb).2.2.2 x hx).1, ?_⟩
    rw [le_div_iff₀ (by have := binSizeFactor_pos (K := K); linarith)]
    exact hq.inside lo hi hb x hx
  have key : s.bins.lb = cfg.initialGamma ∧ Std s.bins ∧ s.dens = cfg.initialGamma.map dist.eval ∧
      s.sub = startFractions cfg := by
    induction hr with
    | @init s0 h0 =>
      obtain ⟨sub, h1, e1, e2, e3, -⟩ := initState_parts h0
      have hb : s0.bins = ⟨cfg.initialGamma, cfg.initialGamma.map (· * (1 + binSizeFactor))⟩ := by
        rw [e1, updateBinUb_true ⟨rfl, by simp⟩]
      exact ⟨by rw [hb], by rw [hb]; rfl, e2, by rw [e3]; exact initialSub_start h1⟩
    | @step s0 s1 hr hg hs ih =>
      obtain ⟨i1, i2, i3, i4⟩ := ih
      obtain ⟨hI, hS⟩ := reach_inv wf hnn hr
      obtain ⟨a, b, c⟩ := step_zero wf hI (hS hf) i2 (by rw [i1]; exact hap) (by rw [i1]; exact hin)
        (fun f hf => hq.zero f (by simp [hf])) (fun f hf => hq.zero f (by simp [hf]))
        (fun f hf => hq.zero f (by simp [hf])) hg hs
      exact ⟨by rw [a, i1], by rw [a]; exact i2, by rw [b, i3], by rw [c, i4]⟩
  exact ⟨key.1, key.2.2.1, key.2.2.2⟩

/-- a run with zero rates: two subgroups, bounds, merging threshold, Heun's method -/
def quietCfg : Cfg ℚ :=
  { demoCfg with
    enFns := [("cool", fun _ p => p.gamma.map fun _ => 0)]
    relFns := [("esc", fun _ p => p.gamma.map fun _ => 0)]
    absFns := [("inj", fun _ p => p.gamma.map fun _ => 0)]
    heun := true
    initialFractions := some [[1/2, 1/3, 1], [1/2, 2/3, 0]] }

theorem quietCfg_wf : quietCfg.WF where
  lawful := demoCfg_wf.lawful
  mec2 := demoCfg_wf.mec2
  optAuto := demoCfg_wf.optAuto
  thresholds := demoCfg_wf.thresholds
  keysEn := by simp [quietCfg]
  keysRel := by simp [quietCfg]
  keysAbs := by simp [quietCfg]
  gammaPos := demoCfg_wf.gammaPos
  gammaSorted := demoCfg_wf.gammaSorted
  bounds := demoCfg_wf.bounds
  fractions := by
    intro f h
    simp only [quietCfg, Option.some.injEq] at h
    subst h
    simp [quietCfg, demoCfg]

theorem quietCfg_quiet : NothingToDo quietCfg where
  zero := by simp [quietCfg]
  distinct := by simp [quietCfg, demoCfg, toyNumerics, mkNumerics]; norm_num
  apart := by
    intro thr h j hj
    simp only [quietCfg, demoCfg, Option.some.injEq] at h
    subst h
    simp only [quietCfg, demoCfg, List.length_cons, List.length_nil] at hj
    have : j = 0 ∨ j = 1 := by omega
    rcases this with rfl | rfl <;> norm_num [quietCfg, demoCfg, toyNumerics, mkNumerics]
  inside := by
    intro lo hi h
    simp only [quietCfg, demoCfg, Option.some.injEq, Prod.mk.injEq] at h
    obtain ⟨rfl, rfl⟩ := h
    simp [quietCfg, demoCfg, binSizeFactor]; norm_num

example : ∃ r d, Returns quietCfg demoDist r d ∧ r.totalTime = 3/4 ∧ r.gamma = [1, 2, 4] ∧
    r.density = [8, 4, 2] ∧ r.subgroups = [[1/2, 1/3, 1], [1/2, 2/3, 0]] := by
  have hc : checkRun quietCfg demoDist 5 (fun s => decide (s.elapsed = 3/4)) = true := by decide +kernel
  obtain ⟨s, hs, hp⟩ := returns_of_check hc
  have := C12_no_process_no_change quietCfg_wf (by
    intro f h
    simp only [quietCfg, Option.some.injEq] at h
    subst h
    refine ⟨by simp; norm_num, ?_⟩
    intro j hj
    simp only [quietCfg, demoCfg, List.length_cons, List.length_nil] at hj
    have : j = 0 ∨ j = 1 ∨ j = 2 := by omega
    rcases this with rfl | rfl | rfl <;> norm_num) quietCfg_quiet demoDist_nonneg (Or.inl hs)
  obtain ⟨h1, h2, h3⟩ := this
  refine ⟨_, _, hs, by simpa [resultOf] using hp, h1, ?_, h3⟩
  rw [h2]
  simp [quietCfg, demoCfg, demoDist]; norm_num

end Verif.TE
