import Mathlib.Algebra.Order.Floor.Semiring
import Mathlib.Data.Rat.Floor
import Verif.Lemmas.Count
import Verif.Props.TEBasics

/-
C02 (number of steps) and C13 (callback versus return value).
-/

namespace Verif.TE

open Verif.Np

variable {K : Type} [Field K] [LinearOrder K] [IsStrictOrderedRing K]

/-! ### C02 -/

/-- The `k`-th callback (numbered from 1) of a run reports the record `r`. -/
def KthCallback (cfg : Cfg K) (dist : Dist K) (k : Nat) (r : Result K) : Prop :=
  ∃ s, ReachN cfg dist k s ∧ 0 < k ∧ r = callbackOf s

/-- With a positive step duration `evaluate()` never takes more than `⌈T/dt⌉` steps ... -/
theorem C02_terminates [FloorSemiring K] {cfg : Cfg K} {dt : K} (hd : cfg.stepDuration = .fixed dt)
    (hp : 0 < dt) (dist : Dist K) (fuel : Nat) (hf : ⌈cfg.totalTime / dt⌉₊ ≤ fuel) :
    evaluate cfg dist fuel ≠ .ok none := by
  intro h
  unfold evaluate at h
  obtain ⟨s0, h0, h⟩ := bind_ok_iff.1 h
  have := loop_none_fixed hd (le_of_lt hp) h
  rw [initState_elapsed h0, zero_add] at this
  have h2 : cfg.totalTime / dt ≤ fuel := le_trans (Nat.le_ceil _) (by exact_mod_cast hf)
  rw [div_le_iff₀ hp] at h2
  exact absurd this (not_lt.2 h2)

/-- ... and never returns after fewer. -/
theorem C02_not_earlier [FloorSemiring K] {cfg : Cfg K} {dt : K} (hd : cfg.stepDuration = .fixed dt)
    (hp : 0 < dt) (dist : Dist K) (fuel : Nat) (hf : fuel < ⌈cfg.totalTime / dt⌉₊) (s : State K) :
    evaluate cfg dist fuel ≠ .ok (some s) := by
  intro h
  unfold evaluate at h
  obtain ⟨s0, h0, h⟩ := bind_ok_iff.1 h
  have := loop_some_fixed hd (le_of_lt hp) h
  rw [initState_elapsed h0, zero_add] at this
  have h2 : (fuel : K) < cfg.totalTime / dt := Nat.lt_ceil.1 hf
  rw [lt_div_iff₀ hp] at h2
  exact absurd this (not_le.2 h2)

/-- The `k`-th callback comes at time `min (k·dt) T`, and there are at most `⌈T/dt⌉` of them. -/
theorem C02_callback_times [FloorSemiring K] {cfg : Cfg K} {dt : K} (hd : cfg.stepDuration = .fixed dt)
    (hp : 0 < dt) {dist : Dist K} {k : Nat} {r : Result K} (h : KthCallback cfg dist k r) :
    r.totalTime = min (k * dt) cfg.totalTime ∧ k ≤ ⌈cfg.totalTime / dt⌉₊ := by
  obtain ⟨s, hr, hk, rfl⟩ := h
  have h0 : 0 < cfg.totalTime := by
    obtain ⟨s0, hs0, hg0⟩ := reachN_prefix hr 0 hk
    cases hs0 with
    | init h => rwa [initState_elapsed h] at hg0
  refine ⟨reachN_elapsed_fixed hd (le_of_lt hp) (le_of_lt h0) hr, ?_⟩
  cases hr with
  | init _ => omega
  | @step k s _ hr hg _ =>
    rw [reachN_elapsed_fixed hd (le_of_lt hp) (le_of_lt h0) hr, min_lt_iff] at hg
    rcases hg with hg | hg
    · have : (k : K) < cfg.totalTime / dt := by rwa [lt_div_iff₀ hp]
      exact Nat.lt_ceil.2 this
    · exact absurd hg (lt_irrefl _)

/-- A step duration of zero or less is not rejected, and then `evaluate()` never returns. -/
theorem C02_nonpositive_step {cfg : Cfg K} {dt : K} (hd : cfg.stepDuration = .fixed dt) (hp : dt ≤ 0)
    (hT : 0 < cfg.totalTime) (dist d : Dist K) (r : Result K) : ¬ Returns cfg dist r d := by
  rintro ⟨fuel, s, h, -, -⟩
  unfold evaluate at h
  obtain ⟨s0, h0, h⟩ := bind_ok_iff.1 h
  have := loop_some_nonpos hd hp h
  rw [initState_elapsed h0] at this
  exact absurd hT (not_lt.2 this)

/-- 3/4 in steps of 1/2: two steps -/
example : ⌈demoCfg.totalTime / (1/2)⌉₊ = 2 ∧ demoCfg.stepDuration = .fixed (1/2) ∧
    checkRun demoCfg demoDist 2 (fun s => s.elapsed == 3/4) = true := by
  refine ⟨?_, rfl, by decide +kernel⟩
  rw [Nat.ceil_eq_iff (by norm_num)]
  norm_num [demoCfg]

/-- with step duration 0 the same run keeps going -/
example : evaluate { demoCfg with stepDuration := .fixed 0, gammaBounds := none } demoDist 5
    matches .ok none := by
  decide +kernel

/-! ### C13 -/

/-- The property one expects: the record of the last callback is the returned record. -/
def LastCallbackIsReturned (cfg : Cfg K) (dist : Dist K) : Prop :=
  ∀ r d c dc, Returns cfg dist r d → CallsBack cfg dist c dc → c.totalTime = cfg.totalTime → c = r

/-- What holds (partial: the two injection fields are exchanged): the callback reporting the final time
exists whenever a positive time is requested, the blob is in its final state then, and all fields but
the two injection fields agree, those being exchanged. -/
theorem C13_last_callback_partial {cfg : Cfg K} {dist d : Dist K} {r : Result K}
    (hT : 0 < cfg.totalTime) (h : Returns cfg dist r d) :
    (∃ c, CallsBack cfg dist c d ∧ c.totalTime = cfg.totalTime) ∧
    ∀ c dc, CallsBack cfg dist c dc → c.totalTime = cfg.totalTime →
      dc = d ∧ c = { r with relInjRates := r.absInjRates, absInjRates := r.relInjRates } := by
  obtain ⟨s, hr, hg, rfl, rfl⟩ := returns_reach h
  constructor
  · cases hr with
    | init hi => rw [initState_elapsed hi] at hg; exact absurd hT hg
    | @step s0 _ h0 hg0 hs =>
      refine ⟨callbackOf s, ⟨s0, s, h0, hg0, hs, rfl, rfl⟩, ?_⟩
      have := reach_elapsed (Reach.step h0 hg0 hs)
      rw [max_eq_right (le_of_lt hT)] at this
      exact le_antisymm this (not_lt.1 hg)
  · rintro c dc ⟨s1, s', hr', hg', hs', rfl, rfl⟩ ht
    have : s = s' := reach_final_unique hr (.step hr' hg' hs') hg (by
      have : s'.elapsed = cfg.totalTime := ht
      rw [this]; exact lt_irrefl _)
    subst this
    exact ⟨rfl, rfl⟩

/-- one step of a run with an escape and an injection -/
def swapCfg : Cfg ℚ := { demoCfg with totalTime := 1/2 }

theorem swapCfg_run : checkRun swapCfg demoDist 1
    (fun s => s.rel.map Prod.fst == ["esc"] && s.abs.map Prod.fst == ["inj"]) = true := by
  decide +kernel

/-- The expected property fails: in the run of `swapCfg` the callback's `rel_inj_rates` holds the absolute
injection rates. -/
theorem C13_callback_violated : ∃ (cfg : Cfg ℚ) (dist : Dist ℚ), cfg.WF ∧ ¬ LastCallbackIsReturned cfg dist := by
  refine ⟨swapCfg, demoDist, ?_, ?_⟩
  · exact ⟨demoCfg_wf.lawful, demoCfg_wf.mec2, demoCfg_wf.optAuto, demoCfg_wf.thresholds,
      demoCfg_wf.keysEn, demoCfg_wf.keysRel, demoCfg_wf.keysAbs, demoCfg_wf.gammaPos,
      demoCfg_wf.gammaSorted, demoCfg_wf.bounds, demoCfg_wf.fractions⟩
  · intro hall
    obtain ⟨s, h, e⟩ := returns_of_check swapCfg_run
    simp only [Bool.and_eq_true, beq_iff_eq] at e
    obtain ⟨⟨c, hc, ht⟩, -⟩ := C13_last_callback_partial (by norm_num [swapCfg]) h
    have h1 := hall _ _ c _ h hc ht
    obtain ⟨-, h2⟩ := (C13_last_callback_partial (by norm_num [swapCfg]) h).2 c _ hc ht
    rw [h1] at h2
    have h3 := congrArg (fun r => r.relInjRates.map Prod.fst) h2
    simp only [resultOf, e.1, e.2] at h3
    exact absurd h3 (by decide)

end Verif.TE
