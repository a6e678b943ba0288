import Verif.Lemmas.TwoHalves
import Verif.Props.TEBasics

/-
C21: evolving in two halves equals evolving in one go.
-/

namespace Verif.TE

open Verif.Np

variable {K : Type} [Field K] [LinearOrder K] [IsStrictOrderedRing K]

/-- what a caller gets out of `evaluate()`: an exception, nothing yet (`none`: still running after `fuel`
steps), or the record and the distribution left in the blob -/
def outcome (cfg : Cfg K) (dist : Dist K) (fuel : Nat) : Except Err (Option (Result K × Dist K)) :=
  (evaluate cfg dist fuel).map (Option.map fun s => (resultOf s, s.dist))

/-- the configuration for continuing for a time `T2` from the record `r`: the returned energies as
`initial_gamma_array` and, when subgroups are in use, the returned fractions -/
def Cfg.restart (cfg : Cfg K) (r : Result K) (T2 : K) : Cfg K :=
  { cfg with
    totalTime := T2
    initialGamma := r.gamma
    initialFractions := if cfg.subgroups.isSome then some r.subgroups else none }

/-- the same record with `T1` added to its time -/
def Result.later (T1 : K) (r : Result K) : Result K := { r with totalTime := T1 + r.totalTime }

theorem Cfg.WF.withTime {cfg : Cfg K} (wf : cfg.WF) (T : K) : ({ cfg with totalTime := T } : Cfg K).WF :=
  ⟨wf.lawful, wf.mec2, wf.optAuto, wf.thresholds, wf.keysEn, wf.keysRel, wf.keysAbs, wf.gammaPos,
    wf.gammaSorted, wf.bounds, wf.fractions⟩

/-- the initial state of the restarted run is the final state of the first one, but for the clock -/
theorem restart_init {cfg : Cfg K} (wf : cfg.WF) (hfr : cfg.FractionsOK) (ho : cfg.optimize = false)
    {dist : Dist K} (hnn : ∀ x, 0 ≤ dist.eval x) {s : State K} (h : Reach cfg dist s)
    (hpos : ∀ x ∈ s.dens, 0 < x) (T2 : K) :
    initState (cfg.restart (resultOf s) T2) s.dist
      = .ok { s with timeLeft := s.bins.lb.map fun _ => 0, elapsed := 0 } := by
  obtain ⟨I, IS⟩ := reach_inv wf hnn h
  have IS := IS hfr
  have F := reach_fresh wf ho hnn h
  have hb : updateBinUb ⟨s.bins.lb, s.bins.lb.map fun _ => 0⟩ (List.replicate s.bins.lb.length true)
      = s.bins := by
    rw [updateBinUb_true ⟨rfl, by simp⟩]
    simp only
    rw [← F.ub]
  have hdens : s.bins.lb.map s.dist.eval = s.dens := by
    apply List.ext_getElem
    · simp [I.denslen]
    · intro j h1 h2
      rw [List.getElem_map]
      rw [List.length_map] at h1
      have := I.agree j h1
      rw [List.getD_eq_getElem _ _ h2, List.getD_eq_getElem _ _ h1] at this
      rcases this with h0 | h0
      · exact absurd (hpos _ (List.getElem_mem h2)) (by rw [h0]; exact lt_irrefl _)
      · exact h0.symm
  have hsub : initialSub (cfg.restart (resultOf s) T2) = .ok s.sub := by
    unfold initialSub Cfg.restart
    simp only
    cases hs : cfg.subgroups with
    | some rows => rfl
    | none =>
      simp only [Except.ok.injEq]
      have hl := reach_sub_length wf hnn hs h
      obtain ⟨row, hrow⟩ := List.length_eq_one_iff.1 hl
      rw [hrow]
      congr 1
      have hrl : row.length = s.bins.lb.length := I.sublen row (by rw [hrow]; simp)
      symm
      rw [List.eq_replicate_iff]
      refine ⟨by rw [hrl]; rfl, ?_⟩
      intro x hx
      obtain ⟨j, hj, rfl⟩ := List.mem_iff_getElem.1 hx
      have := IS.sum j (by omega)
      rw [hrow] at this
      simp only [List.map_cons, List.map_nil, List.sum_cons, List.sum_nil, add_zero] at this
      rwa [List.getD_eq_getElem _ _ hj] at this
  unfold initState
  rw [hsub]
  simp only [bind, Except.bind, Cfg.restart, resultOf]
  rw [hb, hdens, F.en, F.rel, F.abs]
  rfl

/-- Fixed steps `dt > 0`.  Evolve for `T1 = k·dt`, obtaining the record `r1` (all densities positive) and
leaving `d1` in the blob.  Then continuing for any `T2 ≥ 0` has, step for step, the same outcome as
evolving for `T1 + T2` in one go: same exception, still running, or same arrays, rates and blob. -/
theorem C21_two_halves {cfg : Cfg K} (wf : cfg.WF) (hfr : cfg.FractionsOK) {dt : K}
    (hd : cfg.stepDuration = .fixed dt) (hp : 0 < dt) (k : Nat) {T2 : K} (hT2 : 0 ≤ T2)
    {dist : Dist K} (hnn : ∀ x, 0 ≤ dist.eval x) {r1 : Result K} {d1 : Dist K}
    (h1 : Returns { cfg with totalTime := k * dt } dist r1 d1) (hpos : ∀ x ∈ r1.density, 0 < x)
    (fuel : Nat) :
    outcome { cfg with totalTime := k * dt + T2 } dist (k + fuel)
      = (outcome (cfg.restart r1 T2) d1 fuel).map
          (Option.map fun p => (p.1.later (k * dt), p.2)) := by
  have ho : cfg.optimize = false := by
    cases h : cfg.optimize with
    | false => rfl
    | true => have := wf.optAuto h; rw [hd] at this; simp at this
  set one : Cfg K := { cfg with totalTime := k * dt } with hone
  set full : Cfg K := { cfg with totalTime := k * dt + T2 } with hfull
  obtain ⟨s, hr, hg, rfl, rfl⟩ := returns_reach h1
  have wf1 : one.WF := wf.withTime _
  have hT1 : 0 ≤ one.totalTime := mul_nonneg (Nat.cast_nonneg k) (le_of_lt hp)
  obtain ⟨j, hj⟩ := reachN_of_reach hr
  have hel := reachN_elapsed_fixed (cfg := one) hd (le_of_lt hp) hT1 hj
  have hkj : k ≤ j := by
    by_contra hlt
    have hlt : (j : K) < k := by exact_mod_cast not_le.1 hlt
    apply hg
    rw [hel]
    exact lt_of_le_of_lt (min_le_left _ _) (mul_lt_mul_of_pos_right hlt hp)
  have hjk : j = k := by
    rcases Nat.lt_or_ge k j with hlt | hge
    · obtain ⟨x, hx, hxg⟩ := reachN_prefix hj k hlt
      rw [reachN_elapsed_fixed (cfg := one) hd (le_of_lt hp) hT1 hx] at hxg
      simp only [hone, min_self] at hxg
      exact absurd hxg (lt_irrefl _)
    · omega
  subst hjk
  have hels : s.elapsed = j * dt := by rw [hel]; simp [hone]
  have hN := reachN_extend (cfg := cfg) (one := one) (full := full) hd ho hp hT2 hone hfull hj
  unfold outcome
  rw [evaluate_of_reachN hN fuel]
  have hinit := restart_init wf1 hfr ho hnn hr hpos T2
  have hre : Cfg.restart one (resultOf s) T2 = cfg.restart (resultOf s) T2 := rfl
  rw [hre] at hinit
  unfold evaluate
  rw [hinit]
  simp only [bind, Except.bind]
  set s2 : State K := { s with timeLeft := s.bins.lb.map fun _ => 0, elapsed := 0 } with hs2
  have hsh : s = s2.shift (j * dt) s.timeLeft := by
    rw [hs2]; simp only [State.shift, add_zero]; rw [← hels]
  conv_lhs => rw [hsh]
  rw [loop_shift (cfg := cfg) (cfg2 := cfg.restart (resultOf s) T2) (full := full) hd ho rfl hfull]
  cases loop (cfg.restart (resultOf s) T2) fuel s2 with
  | error e => rfl
  | ok x =>
    cases x with
    | none => rfl
    | some y => rfl

/-- The same in terms of returned values: the second half returns `r` exactly when the whole evolution
returns `r` with the time of the first half added. -/
theorem C21_two_halves_returns {cfg : Cfg K} (wf : cfg.WF) (hfr : cfg.FractionsOK) {dt : K}
    (hd : cfg.stepDuration = .fixed dt) (hp : 0 < dt) (k : Nat) {T2 : K} (hT2 : 0 ≤ T2)
    {dist : Dist K} (hnn : ∀ x, 0 ≤ dist.eval x) {r1 : Result K} {d1 : Dist K}
    (h1 : Returns { cfg with totalTime := k * dt } dist r1 d1) (hpos : ∀ x ∈ r1.density, 0 < x)
    {r : Result K} {d : Dist K} (h2 : Returns (cfg.restart r1 T2) d1 r d) :
    Returns { cfg with totalTime := k * dt + T2 } dist (r.later (k * dt)) d := by
  obtain ⟨fuel, s, he, rfl, rfl⟩ := h2
  have := C21_two_halves wf hfr hd hp k hT2 hnn h1 hpos fuel
  unfold outcome at this
  rw [he] at this
  simp only [Except.map, Option.map] at this
  split at this
  · simp at this
  · next x hx =>
    simp only [Except.ok.injEq] at this
    cases x with
    | none => simp at this
    | some y =>
      simp only [Option.some.injEq, Prod.mk.injEq] at this
      exact ⟨_, y, hx, this.1.symm, this.2.symm⟩

/-- one step of 1/2, then 1/4 more: the first record has positive densities -/
example : ∃ r1 d1, Returns { halfCfg with totalTime := (1 : ℕ) * (1 / 2) } demoDist r1 d1 ∧
    (∀ x ∈ r1.density, 0 < x) ∧ r1.gamma.length = 3 := by
  obtain ⟨s, h, e⟩ := returns_of_check (cfg := { halfCfg with totalTime := (1 : ℕ) * (1 / 2) })
    (dist := demoDist) (fuel := 3)
    (p := fun s => s.dens.all (0 < ·) && s.bins.lb.length == 3) (by decide +kernel)
  simp only [Bool.and_eq_true, beq_iff_eq, List.all_eq_true, decide_eq_true_eq] at e
  exact ⟨_, _, h, e.1, e.2⟩

end Verif.TE
