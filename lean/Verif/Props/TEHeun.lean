import Verif.Lemmas.ConstRates
import Verif.Props.TEBasics

/- C14: the Heun method agrees with the Euler method when the rates are constant. -/

namespace Verif.TE

open Verif.Np

set_option linter.unusedSectionVars false

variable {K : Type} [Field K] [LinearOrder K] [IsStrictOrderedRing K]

/-- Without subgroups and with energy-change functions that return a constant, a run with `method="heun"` gives
the same outcome (result, exception, or still running) as with `method="euler"`, after any number of steps.
Injection functions are arbitrary.
Missing for the full statement: several subgroups, for which it is false (`C14_subgroups_violated`). -/
theorem C14_heun_eq_euler_partial {cfg : Cfg K} (wf : cfg.WF) {dist : Dist K} (hnn : ∀ x, 0 ≤ dist.eval x)
    (hf : ∀ f ∈ cfg.enFns, ConstFn f.2) (hsg : cfg.subgroups = none) (hif : cfg.initialFractions = none)
    (fuel : Nat) :
    evaluate { cfg with heun := true } dist fuel = evaluate { cfg with heun := false } dist fuel := by
  have wfE : ({ cfg with heun := false } : Cfg K).WF := { wf with }
  have hfr : ({ cfg with heun := false } : Cfg K).FractionsOK := by
    intro f h; simp [hif] at h
  have inv : ∀ s, Reach { cfg with heun := false } dist s → Inv cfg s ∧ InvSub s ∧ s.sub.length = 1 := by
    intro s hr
    obtain ⟨hI, hS⟩ := reach_inv wfE hnn hr
    refine ⟨{ hI with }, hS hfr, ?_⟩
    clear hI hS
    induction hr with
    | init h =>
      unfold initState at h
      obtain ⟨sub, h1, h⟩ := bind_ok_iff.1 h
      obtain ⟨_, -, h⟩ := bind_ok_iff.1 h
      obtain ⟨_, -, h⟩ := bind_ok_iff.1 h
      obtain ⟨_, -, h⟩ := bind_ok_iff.1 h
      rw [pure_ok_iff] at h
      subst h
      simp only [initialSub, hsg, Except.ok.injEq] at h1
      subst h1
      rfl
    | step hr hg h ih =>
      rw [(step_inv wfE (reach_inv wfE hnn hr).1 hg h).2.2]
      exact ih
  have main : ∀ n s, Reach { cfg with heun := false } dist s →
      loop { cfg with heun := true } n s = loop { cfg with heun := false } n s := by
    intro n
    induction n with
    | zero => intro s _; rfl
    | succ n ih =>
      intro s hr
      obtain ⟨hI, hS, h1⟩ := inv s hr
      unfold loop
      dsimp only
      rw [step_heun_const wf hf hI hS h1]
      split
      · next hg =>
        cases hst : step { cfg with heun := false } s with
        | error e => rfl
        | ok s' => exact ih s' (.step hr hg hst)
      · rfl
  unfold evaluate
  have e0 : initState { cfg with heun := true } dist = initState { cfg with heun := false } dist := rfl
  rw [e0]
  cases h : initState { cfg with heun := false } dist with
  | error e => rfl
  | ok s => exact main fuel s (.init h)

/-- two steps of a constant gain, with escape and injection -/
def demoConst : Cfg ℚ :=
  { demoCfg with enFns := [("gain", fun _ p => p.gamma.map fun _ => 1)], subgroups := none,
                 gammaBounds := none }

theorem demoConst_wf : demoConst.WF :=
  { demoCfg_wf with keysEn := by simp [demoConst], bounds := by intro _ _ h; simp [demoConst] at h }

/-- the hypotheses are met by a run that changes energies and densities -/
example : (∀ f ∈ demoConst.enFns, ConstFn f.2) ∧ checkRun { demoConst with heun := true } demoDist 3
    (fun s => decide (s.bins.lb = [7/4, 11/4, 19/4] ∧ s.dens ≠ [8, 4, 2])) = true := by
  constructor
  · intro f hf
    simp only [demoConst, List.mem_singleton] at hf
    subst hf
    exact ⟨1, fun d p => by simp⟩
  · decide +kernel

/-- constant rates, injection into the second of two groups -/
def demoTwo : Cfg ℚ :=
  { demoConst with relFns := [], subgroups := some [["gain"], ["gain", "inj"]], totalTime := 1/2 }

theorem demoTwo_wf : demoTwo.WF := { demoConst_wf with keysRel := by simp [demoTwo] }

/-- With subgroups the statement fails: after a single step of constant rates the two methods report different
subgroup fractions (the corrector starts from the fractions the predictor has already updated), although gamma
and total density agree. -/
theorem C14_subgroups_violated :
    ∃ (cfg : Cfg ℚ) (s s' : State ℚ), cfg.WF ∧ (∀ f ∈ cfg.enFns, ConstFn f.2) ∧
      evaluate { cfg with heun := false } demoDist 1 = .ok (some s) ∧
      evaluate { cfg with heun := true } demoDist 1 = .ok (some s') ∧
      s.bins.lb = s'.bins.lb ∧ s.dens = s'.dens ∧ s.sub ≠ s'.sub := by
  have c : (match evaluate { demoTwo with heun := false } demoDist 1,
      evaluate { demoTwo with heun := true } demoDist 1 with
      | .ok (some s), .ok (some s') => decide (s.bins.lb = s'.bins.lb ∧ s.dens = s'.dens ∧ s.sub ≠ s'.sub)
      | _, _ => false) = true := by decide +kernel
  split at c
  · next s s' h1 h2 =>
    refine ⟨demoTwo, s, s', demoTwo_wf, ?_, h1, h2, by simpa using c⟩
    intro f hf
    simp only [demoTwo, demoConst, List.mem_singleton] at hf
    subst hf
    exact ⟨1, fun d p => by simp⟩
  · simp at c

end Verif.TE
