import Verif.Props.TEEuler

/-
C81: with rates that depend on the Lorentz factor only and `method="heun"`, `evaluate()` is Heun's method for the
energies of the two edges of every bin, and Euler's method for the injection.
-/

namespace Verif.TE

open Verif.Np

set_option linter.unusedSectionVars false

variable {K : Type} [Field K] [LinearOrder K] [IsStrictOrderedRing K]

/-! ### the specification -/

/-- mean of the rate at `x` and at the place where a step with that rate leads -/
def meanRate (mec2 : K) (en : K → K) (t x : K) : K := (en x + en (x + en x * t / mec2)) / 2

/-- One step of length `t` of Heun's method for the pair (Lorentz factor `γ`, density `n`): both edges of the bin
`[γ, 1.0001 γ]` move with the mean of the rates before and after a trial step, the density is multiplied by the ratio of
the old to the new width, and the particles injected at the old position at the rate `n·rel + abs` are added. -/
def heunBin (mec2 : K) (en rel abs : K → K) (t : K) (p : K × K) : K × K :=
  (p.1 + meanRate mec2 en t p.1 * t / mec2,
    p.2 * (p.1 / 10000) / (p.1 / 10000
        + (meanRate mec2 en t (p.1 * (1 + 1 / 10000)) - meanRate mec2 en t p.1) * t / mec2)
      + (p.2 * rel p.1 + abs p.1) * t)

theorem heunBin_eq (mec2 : K) (en rel abs : K → K) (t : K) :
    heunBin mec2 en rel abs t = eulerBin mec2 (meanRate mec2 en t) rel abs t := rfl

/-- the configurations considered: as for C70, but with `method="heun"` -/
structure HeunRates (cfg : Cfg K) (enL relL absL : List (String × (K → K))) (dt : K) : Prop where
  wf : cfg.WF
  en : cfg.enFns = enL.map fun p => (p.1, fun _ q => q.gamma.map p.2)
  rel : cfg.relFns = relL.map fun p => (p.1, fun _ q => q.gamma.map p.2)
  abs : cfg.absFns = absL.map fun p => (p.1, fun _ q => q.gamma.map p.2)
  fixed : cfg.stepDuration = .fixed dt
  heun : cfg.heun = true
  noGroups : cfg.subgroups = none
  noBounds : cfg.gammaBounds = none

/-- nothing happens in a step of length `t` that would make the code raise, merge or reorder bins, neither in the trial
step (after which nothing is merged) nor in the step itself -/
structure SmoothHeun (cfg : Cfg K) (en rel abs : K → K) (t : K) (P : List (K × K)) : Prop where
  trial : Smooth { cfg with mergeCloser := none } en rel abs t P
  final : Smooth cfg (meanRate cfg.mec2 en t) rel abs t P

/-! ### C81 -/

theorem HeunRates.local {cfg : Cfg K} {enL relL absL : List (String × (K → K))} {dt : K}
    (h : HeunRates cfg enL relL absL dt) : LocalCfg cfg enL relL absL dt where
  lawful := h.wf.lawful
  en := h.en
  rel := h.rel
  abs := h.abs
  keysEn := by have := h.wf.keysEn; rw [h.en] at this; simpa [Function.comp_def] using this
  keysRel := by have := h.wf.keysRel; rw [h.rel] at this; simpa [Function.comp_def] using this
  keysAbs := by have := h.wf.keysAbs; rw [h.abs] at this; simpa [Function.comp_def] using this
  fixed := h.fixed
  noOpt := by
    cases ho : cfg.optimize with
    | false => rfl
    | true => have := h.wf.optAuto ho; rw [h.fixed] at this; simp at this
  noGroups := h.noGroups
  noBounds := h.noBounds

theorem heunSlope_eq {mec2 : K} (hm : 0 < mec2) (en : K → K) (t : K) : heunSlope mec2 en t = meanRate mec2 en t := by
  funext x
  unfold heunSlope meanRate
  rw [add_div (x * mec2), mul_div_cancel_right₀ _ (ne_of_gt hm)]

/-- Under the conditions above, `evaluate()` does not raise: the `k`-th callback reports the pairs after `k` steps of
Heun's method, there are `⌈T/dt⌉` callbacks, and what is returned are the pairs after all of them. -/
theorem C81_heun_run [FloorSemiring K] {cfg : Cfg K} {enL relL absL : List (String × (K → K))} {dt : K}
    (h : HeunRates cfg enL relL absL dt) (hp : 0 < dt) {dist : Dist K}
    (h2 : 2 ≤ cfg.initialGamma.length)
    {E : Nat → List (K × K)}
    (hE : E = eulerRun (heunBin cfg.mec2 (rateSum enL) (rateSum relL) (rateSum absL)) dt cfg.totalTime
      (startPairs cfg dist))
    (hs : ∀ k : ℕ, (k : K) * dt < cfg.totalTime → SmoothHeun cfg (rateSum enL) (rateSum relL) (rateSum absL)
      (min dt (cfg.totalTime - k * dt)) (E k)) :
    (∃ r d, Returns cfg dist r d) ∧
    (∀ r d, Returns cfg dist r d → r.gamma = (E ⌈cfg.totalTime / dt⌉₊).map Prod.fst ∧
      r.density = (E ⌈cfg.totalTime / dt⌉₊).map Prod.snd ∧ r.subgroups = [r.gamma.map fun _ => 1]) ∧
    ∀ k, 0 < k → k ≤ ⌈cfg.totalTime / dt⌉₊ → (∃ c, KthCallback cfg dist k c) ∧
      ∀ c, KthCallback cfg dist k c → c.gamma = (E k).map Prod.fst ∧ c.density = (E k).map Prod.snd := by
  refine run_of_steps h.local hp (by rw [hE]; rfl) ?_
  intro k hlt tl d
  have hsm := hs k hlt
  have hlen : 2 ≤ (E k).length := by rw [hE, eulerRun_length]; simpa [startPairs] using h2
  have hm := h.wf.mec2
  have hfin := hsm.final
  rw [← heunSlope_eq hm] at hfin
  obtain ⟨d', hst⟩ := step_local_heun h.local h.heun (P := E k) (el := k * dt) (tl := tl) (dist := d) rfl
    (hsm.trial.binOK (cfg := { cfg with mergeCloser := none }) hm)
    (hsm.trial.gridOK (cfg := { cfg with mergeCloser := none }) hm hlen)
    (hfin.binOK hm) (hfin.gridOK hm hlen)
  refine ⟨d', ?_⟩
  have e1 : (E k).map (moveBin cfg.mec2 (heunSlope cfg.mec2 (totalOf enL) (min dt (cfg.totalTime - k * dt)))
      (totalOf relL) (totalOf absL) (min dt (cfg.totalTime - k * dt))) = E (k + 1) := by
    rw [hE]
    show _ = List.map _ _
    congr 1
    funext p
    rw [heunSlope_eq hm, heunBin_eq]
    exact eulerBin_eq hm _ _ _ _ p
  rw [e1] at hst
  exact hst

/-! ### the hypotheses can be met -/

theorem eulerCfg_heun : HeunRates { eulerCfg with heun := true } [("cool", fun g => -(g * g) / 8)]
    [("esc", fun _ => -1/10)] [("inj", fun _ => 1)] (1/2) where
  wf := { eulerCfg_local.wf with }
  en := rfl
  rel := rfl
  abs := rfl
  fixed := rfl
  heun := rfl
  noGroups := rfl
  noBounds := rfl

/-- C81 applies: two steps, of which the second is cut.  Euler's method gives other Lorentz factors. -/
example : ∃ r d, Returns { eulerCfg with heun := true } demoDist r d ∧
    r.gamma.getD 2 0 = 201067484191 / 68719476736 := by
  have h := C81_heun_run eulerCfg_heun (by norm_num) (dist := demoDist) (by decide) rfl (by
    intro k hk
    have hk2 : k < 2 := by
      have : (k : ℚ) < 3 / 2 := by
        have : (k : ℚ) * (1 / 2) < 3 / 4 := hk
        linarith
      have : (k : ℚ) < (2 : ℕ) := by push_cast; linarith
      exact_mod_cast this
    have : k = 0 ∨ k = 1 := by omega
    rcases this with rfl | rfl
    all_goals
      constructor
      · refine ⟨by decide +kernel, by decide +kernel, by decide +kernel, by decide +kernel, ?_, by decide +kernel⟩
        intro thr hthr
        simp at hthr
      · refine ⟨by decide +kernel, by decide +kernel, by decide +kernel, by decide +kernel, ?_, by decide +kernel⟩
        intro thr hthr
        have : thr = 1/1000 := by simpa [eulerCfg, demoCfg] using hthr.symm
        subst this
        intro j hj
        rw [eulerRun_length] at hj
        have hj2 : j < 2 := by simp [startPairs, eulerCfg, demoCfg] at hj; omega
        have : j = 0 ∨ j = 1 := by omega
        rcases this with rfl | rfl <;> decide +kernel)
  obtain ⟨⟨r, d, hr⟩, h2, -⟩ := h
  refine ⟨r, d, hr, ?_⟩
  rw [(h2 r d hr).1]
  have : ⌈({ eulerCfg with heun := true } : Cfg ℚ).totalTime / (1/2 : ℚ)⌉₊ = 2 := by
    rw [Nat.ceil_eq_iff (by norm_num)]
    norm_num [eulerCfg, demoCfg]
  rw [this]
  decide +kernel

end Verif.TE
