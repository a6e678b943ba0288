import Mathlib.Algebra.Order.Floor.Semiring
import Mathlib.Data.Rat.Floor
import Mathlib.Tactic.FieldSimp
import Verif.Lemmas.Euler
import Verif.Props.TELoop
import Verif.Props.TEBasics

/-
C70: with rates that depend on the Lorentz factor only, `evaluate()` is the explicit Euler integration of every
bin on its own.
-/

namespace Verif.TE

open Verif.Np

set_option linter.unusedSectionVars false

variable {K : Type} [Field K] [LinearOrder K] [IsStrictOrderedRing K]

/-! ### the specification -/

/-- One explicit Euler step of length `t` for the pair (Lorentz factor `γ`, density `n`): the bin
`[γ, 1.0001 γ]` moves with the energy-change rate `en` (erg/s) at its two ends, the density is
multiplied by the ratio of the old to the new width, and the particles injected at the old position at
the rate `n·rel + abs` are added. -/
def eulerBin (mec2 : K) (en rel abs : K → K) (t : K) (p : K × K) : K × K :=
  (p.1 + en p.1 * t / mec2,
    p.2 * (p.1 / 10000) / (p.1 / 10000 + (en (p.1 * (1 + 1 / 10000)) - en p.1) * t / mec2)
      + (p.2 * rel p.1 + abs p.1) * t)

/-- the pairs after `k` steps of length `dt`, the last one being cut at the total time `T` -/
def eulerRun (f : K → K × K → K × K) (dt T : K) (P : List (K × K)) : Nat → List (K × K)
  | 0 => P
  | k + 1 => (eulerRun f dt T P k).map (f (min dt (T - k * dt)))

/-- sum of the named rates at a Lorentz factor -/
def rateSum (L : List (String × (K → K))) (x : K) : K := (L.map fun p => p.2 x).sum

/-- nothing happens to the pairs `P` in a step of length `t` that would make the code raise, merge or reorder
bins -/
structure Smooth (cfg : Cfg K) (en rel abs : K → K) (t : K) (P : List (K × K)) : Prop where
  /-- energies stay positive -/
  pos : ∀ p ∈ P, 0 < (eulerBin cfg.mec2 en rel abs t p).1
  /-- no bin turns inside out -/
  width : ∀ p ∈ P, 0 < p.1 / 10000 + (en (p.1 * (1 + 1 / 10000)) - en p.1) * t / cfg.mec2
  /-- densities stay non-negative -/
  dens : ∀ p ∈ P, 0 ≤ (eulerBin cfg.mec2 en rel abs t p).2
  /-- bins stay in order and distinguishable -/
  order : (P.map fun p => cfg.num.log10 (eulerBin cfg.mec2 en rel abs t p).1).Pairwise (· < ·)
  /-- and further apart than the merging threshold, if there is one -/
  apart : ∀ thr, cfg.mergeCloser = some thr → ∀ j, j + 1 < P.length →
    thr ≤ cfg.num.log10 (eulerBin cfg.mec2 en rel abs t (P.getD (j + 1) (0, 0))).1
      - cfg.num.log10 (eulerBin cfg.mec2 en rel abs t (P.getD j (0, 0))).1
  /-- all densities are zero, or at least two are not -/
  interp : (∀ p ∈ P, (eulerBin cfg.mec2 en rel abs t p).2 = 0) ∨
    2 ≤ (P.filter fun p => decide ((eulerBin cfg.mec2 en rel abs t p).2 ≠ 0)).length

/-- the configurations considered: rate functions of the Lorentz factor alone (given by their name and the
function), fixed steps, Euler's method, no subgroups, no bounds -/
structure LocalRates (cfg : Cfg K) (enL relL absL : List (String × (K → K))) (dt : K) : Prop where
  wf : cfg.WF
  en : cfg.enFns = enL.map fun p => (p.1, fun _ q => q.gamma.map p.2)
  rel : cfg.relFns = relL.map fun p => (p.1, fun _ q => q.gamma.map p.2)
  abs : cfg.absFns = absL.map fun p => (p.1, fun _ q => q.gamma.map p.2)
  fixed : cfg.stepDuration = .fixed dt
  euler : cfg.heun = false
  noGroups : cfg.subgroups = none
  noBounds : cfg.gammaBounds = none

theorem LocalRates.local {cfg : Cfg K} {enL relL absL : List (String × (K → K))} {dt : K}
    (h : LocalRates cfg enL relL absL dt) : LocalCfg cfg enL relL absL dt where
  lawful := h.wf.lawful
  en := h.en
  rel := h.rel
  abs := h.abs
  keysEn := by have := h.wf.keysEn; rw [h.en] at this; simpa [Function.comp_def] using this
  keysRel := by have := h.wf.keysRel; rw [h.rel] at this; simpa [Function.comp_def] using this
  keysAbs := by have := h.wf.keysAbs; rw [h.abs] at this; simpa [Function.comp_def] using this
  fixed := h.fixed
  noOpt := by
    cases ho : cfg.optimize with
    | false => rfl
    | true => have := h.wf.optAuto ho; rw [h.fixed] at this; simp at this
  noGroups := h.noGroups
  noBounds := h.noBounds

theorem eulerBin_eq {mec2 : K} (hm : 0 < mec2) (en rel abs : K → K) (t : K) (p : K × K) :
    moveBin mec2 en rel abs t p = eulerBin mec2 en rel abs t p := by
  have hm' := ne_of_gt hm
  have hb : (binSizeFactor : K) = 1 / 10000 := rfl
  unfold moveBin eulerBin
  rw [hb]
  refine Prod.ext ?_ ?_
  · show (p.1 * mec2 + en p.1 * t) / mec2 = _
    rw [add_div, mul_div_cancel_right₀ _ hm']
  · show _ + _ = _ + _
    congr 1
    have e1 : p.1 * (1 + 1 / 10000) * mec2 - p.1 * mec2 = p.1 / 10000 * mec2 := by ring
    have e2 : p.1 * (1 + 1 / 10000) * mec2 + en (p.1 * (1 + 1 / 10000)) * t - (p.1 * mec2 + en p.1 * t)
        = (p.1 / 10000 + (en (p.1 * (1 + 1 / 10000)) - en p.1) * t / mec2) * mec2 := by
      field_simp; ring
    rw [e1, e2, mul_div_mul_right _ _ hm', mul_div_assoc p.2]

theorem Smooth.binOK {cfg : Cfg K} (hm : 0 < cfg.mec2) {en rel abs : K → K} {t : K} {P : List (K × K)}
    (h : Smooth cfg en rel abs t P) : ∀ p ∈ P, BinOK cfg.mec2 en rel abs t p := by
  intro p hp
  have hm' := ne_of_gt hm
  have hb : (binSizeFactor : K) = 1 / 10000 := rfl
  refine ⟨?_, ?_, by rw [eulerBin_eq hm]; exact h.dens p hp⟩
  · have := mul_pos (h.pos p hp) hm
    unfold eulerBin at this
    simp only at this
    rwa [add_mul, div_mul_cancel₀ _ hm'] at this
  · have := mul_pos (h.width p hp) hm
    rw [add_mul, div_mul_cancel₀ _ hm'] at this
    rw [hb]
    nlinarith

theorem Smooth.gridOK {cfg : Cfg K} (hm : 0 < cfg.mec2) {en rel abs : K → K} {t : K} {P : List (K × K)}
    (h : Smooth cfg en rel abs t P) (h2 : 2 ≤ P.length) :
    GridOK cfg (P.map (moveBin cfg.mec2 en rel abs t)) := by
  have e : moveBin cfg.mec2 en rel abs t = eulerBin cfg.mec2 en rel abs t := by
    funext p; exact eulerBin_eq hm en rel abs t p
  rw [e]
  refine ⟨by simpa using h2, ⟨?_, ?_, ?_⟩, ?_, ?_⟩
  · simp only [List.map_map, List.mem_map]
    rintro v ⟨p, hp, rfl⟩
    exact h.pos p hp
  · simpa [List.map_map, Function.comp_def] using h.order
  · intro thr hthr j hj
    simp only [List.length_map] at hj
    have := h.apart thr hthr j hj
    rw [List.getD_eq_getElem _ _ (by simpa using hj), List.getD_eq_getElem _ _ (by simp; omega)]
    rw [List.getD_eq_getElem _ _ hj, List.getD_eq_getElem _ _ (by omega)] at this
    simpa using this
  · simp only [List.mem_map]
    rintro q ⟨p, hp, rfl⟩
    exact h.dens p hp
  · rcases h.interp with h0 | h0
    · left
      simp only [List.mem_map]
      rintro q ⟨p, hp, rfl⟩
      exact h0 p hp
    · right
      rw [List.filter_map, List.length_map]
      exact h0

/-! ### C70 -/

theorem eulerRun_length (f : K → K × K → K × K) (dt T : K) (P : List (K × K)) (k : Nat) :
    (eulerRun f dt T P k).length = P.length := by
  induction k with
  | zero => rfl
  | succ k ih => simp [eulerRun, ih]

/-- the initial pairs: the initial Lorentz factors and the blob's distribution there -/
def startPairs (cfg : Cfg K) (dist : Dist K) : List (K × K) :=
  cfg.initialGamma.map fun x => (x, dist.eval x)

theorem local_reachN [FloorSemiring K] {cfg : Cfg K} {enL relL absL : List (String × (K → K))} {dt : K}
    (h : LocalCfg cfg enL relL absL dt) (hp : 0 < dt) {dist : Dist K} {E : Nat → List (K × K)}
    (hE : E 0 = startPairs cfg dist)
    (hst : ∀ k : ℕ, (k : K) * dt < cfg.totalTime → ∀ tl d, ∃ d',
      step cfg (localState enL relL absL (E k) (k * dt) tl d)
        = .ok (localState enL relL absL (E (k + 1)) (k * dt + min dt (cfg.totalTime - k * dt)) tl d')) :
    ∀ k, k ≤ ⌈cfg.totalTime / dt⌉₊ → ∃ tl d, ReachN cfg dist k
      (localState enL relL absL (E k) (min (k * dt) (max 0 cfg.totalTime)) tl d) := by
  intro k
  induction k with
  | zero =>
    intro _
    refine ⟨cfg.initialGamma.map fun _ => 0, dist, .init ?_⟩
    rw [initState_local h]
    simp [hE, startPairs]
  | succ k ih =>
    intro hk
    obtain ⟨tl, d, hr⟩ := ih (by omega)
    have hlt : (k : K) * dt < cfg.totalTime := by
      have : (k : K) < cfg.totalTime / dt := Nat.lt_ceil.1 hk
      rwa [lt_div_iff₀ hp] at this
    have hk0 : (0 : K) ≤ k * dt := mul_nonneg (Nat.cast_nonneg k) hp.le
    have hT : 0 < cfg.totalTime := lt_of_le_of_lt hk0 hlt
    have hel : min ((k : K) * dt) (max 0 cfg.totalTime) = k * dt := by
      rw [max_eq_right hT.le, min_eq_left hlt.le]
    rw [hel] at hr
    obtain ⟨d', hst⟩ := hst k hlt tl d
    refine ⟨tl, d', ?_⟩
    have e2 : (k : K) * dt + min dt (cfg.totalTime - k * dt)
        = min (((k + 1 : ℕ) : K) * dt) (max 0 cfg.totalTime) := by
      rw [max_eq_right hT.le, ← min_add_add_left]
      congr 1
      · push_cast; ring
      · ring
    rw [e2] at hst
    exact .step hr hlt hst

/-- what a run reports when its steps are known -/
theorem run_of_steps [FloorSemiring K] {cfg : Cfg K} {enL relL absL : List (String × (K → K))} {dt : K}
    (h : LocalCfg cfg enL relL absL dt) (hp : 0 < dt) {dist : Dist K} {E : Nat → List (K × K)}
    (hE : E 0 = startPairs cfg dist)
    (hst : ∀ k : ℕ, (k : K) * dt < cfg.totalTime → ∀ tl d, ∃ d',
      step cfg (localState enL relL absL (E k) (k * dt) tl d)
        = .ok (localState enL relL absL (E (k + 1)) (k * dt + min dt (cfg.totalTime - k * dt)) tl d')) :
    (∃ r d, Returns cfg dist r d) ∧
    (∀ r d, Returns cfg dist r d → r.gamma = (E ⌈cfg.totalTime / dt⌉₊).map Prod.fst ∧
      r.density = (E ⌈cfg.totalTime / dt⌉₊).map Prod.snd ∧ r.subgroups = [r.gamma.map fun _ => 1]) ∧
    ∀ k, 0 < k → k ≤ ⌈cfg.totalTime / dt⌉₊ → (∃ c, KthCallback cfg dist k c) ∧
      ∀ c, KthCallback cfg dist k c → c.gamma = (E k).map Prod.fst ∧ c.density = (E k).map Prod.snd := by
  have key := local_reachN h hp hE hst
  set N := ⌈cfg.totalTime / dt⌉₊ with hN
  obtain ⟨tl, d, hr⟩ := key N le_rfl
  have hdone : ¬ (localState enL relL absL (E N) (min (N * dt) (max 0 cfg.totalTime)) tl d).elapsed
      < cfg.totalTime := by
    show ¬ min (N * dt) (max 0 cfg.totalTime) < cfg.totalTime
    rw [not_lt, le_min_iff]
    refine ⟨?_, le_max_right _ _⟩
    have : cfg.totalTime / dt ≤ N := Nat.le_ceil _
    rwa [div_le_iff₀ hp] at this
  refine ⟨?_, ?_, ?_⟩
  · have := evaluate_of_reachN hr 0
    rw [Nat.add_zero] at this
    unfold loop at this
    rw [if_neg hdone] at this
    exact ⟨_, _, N, _, this, rfl, rfl⟩
  · intro r d' hret
    obtain ⟨s, hrs, hg, rfl, rfl⟩ := returns_reach hret
    have := reach_final_unique hrs (reach_of_reachN hr) hg hdone
    subst this
    refine ⟨rfl, rfl, ?_⟩
    simp [resultOf, localState, Function.comp_def]
  · intro k hk hkN
    obtain ⟨tl', d', hr'⟩ := key k hkN
    refine ⟨⟨_, _, hr', hk, rfl⟩, ?_⟩
    rintro c ⟨s, hrs, -, rfl⟩
    have := reachN_unique hrs hr'
    subst this
    exact ⟨rfl, rfl⟩

/-- Under the conditions above, `evaluate()` does not raise: the `k`-th callback reports the pairs after `k` Euler
steps, there are `⌈T/dt⌉` callbacks, and what is returned are the pairs after all of them. -/
theorem C70_euler_run [FloorSemiring K] {cfg : Cfg K} {enL relL absL : List (String × (K → K))} {dt : K}
    (h : LocalRates cfg enL relL absL dt) (hp : 0 < dt) {dist : Dist K}
    (h2 : 2 ≤ cfg.initialGamma.length)
    {E : Nat → List (K × K)}
    (hE : E = eulerRun (eulerBin cfg.mec2 (rateSum enL) (rateSum relL) (rateSum absL)) dt cfg.totalTime
      (startPairs cfg dist))
    (hs : ∀ k : ℕ, (k : K) * dt < cfg.totalTime → Smooth cfg (rateSum enL) (rateSum relL) (rateSum absL)
      (min dt (cfg.totalTime - k * dt)) (E k)) :
    (∃ r d, Returns cfg dist r d) ∧
    (∀ r d, Returns cfg dist r d → r.gamma = (E ⌈cfg.totalTime / dt⌉₊).map Prod.fst ∧
      r.density = (E ⌈cfg.totalTime / dt⌉₊).map Prod.snd ∧ r.subgroups = [r.gamma.map fun _ => 1]) ∧
    ∀ k, 0 < k → k ≤ ⌈cfg.totalTime / dt⌉₊ → (∃ c, KthCallback cfg dist k c) ∧
      ∀ c, KthCallback cfg dist k c → c.gamma = (E k).map Prod.fst ∧ c.density = (E k).map Prod.snd := by
  refine run_of_steps h.local hp (by rw [hE]; rfl) ?_
  intro k hlt tl d
  have hsm := hs k hlt
  have hlen : 2 ≤ (E k).length := by rw [hE, eulerRun_length]; simpa [startPairs] using h2
  obtain ⟨d', hst⟩ := step_local h.local h.euler (P := E k) (el := k * dt) (tl := tl) (dist := d) rfl
    (hsm.binOK h.wf.mec2) (hsm.gridOK h.wf.mec2 hlen)
  refine ⟨d', ?_⟩
  have e1 : (E k).map (moveBin cfg.mec2 (totalOf enL) (totalOf relL) (totalOf absL)
      (min dt (cfg.totalTime - k * dt))) = E (k + 1) := by
    rw [hE]
    show _ = List.map _ _
    congr 1
    funext p
    exact eulerBin_eq h.wf.mec2 _ _ _ _ p
  rw [e1] at hst
  exact hst

/-! ### the hypotheses can be met -/

/-- the demonstration run without subgroups and bounds: cooling, escape and injection -/
def eulerCfg : Cfg ℚ := { demoCfg with gammaBounds := none, subgroups := none }

theorem eulerCfg_local : LocalRates eulerCfg [("cool", fun g => -(g * g) / 8)] [("esc", fun _ => -1/10)]
    [("inj", fun _ => 1)] (1/2) where
  wf := { demoCfg_wf with bounds := by intro lo hi h; simp [eulerCfg] at h }
  en := rfl
  rel := rfl
  abs := rfl
  fixed := rfl
  euler := rfl
  noGroups := rfl
  noBounds := rfl

/-- C70 applies: two steps, of which the second is cut -/
example : ∃ r d, Returns eulerCfg demoDist r d ∧ r.gamma = [7455/8192, 847/512, 87/32] := by
  have h := C70_euler_run eulerCfg_local (by norm_num) (dist := demoDist) (by decide) rfl (by
    intro k hk
    have hk2 : k < 2 := by
      have : (k : ℚ) < 3 / 2 := by
        have : (k : ℚ) * (1 / 2) < 3 / 4 := hk
        linarith
      have : (k : ℚ) < (2 : ℕ) := by push_cast; linarith
      exact_mod_cast this
    have : k = 0 ∨ k = 1 := by omega
    rcases this with rfl | rfl
    all_goals
      refine ⟨by decide +kernel, by decide +kernel, by decide +kernel, by decide +kernel, ?_, by decide +kernel⟩
      intro thr hthr
      have : thr = 1/1000 := by simpa [eulerCfg, demoCfg] using hthr.symm
      subst this
      intro j hj
      rw [eulerRun_length] at hj
      have hj2 : j < 2 := by simp [startPairs, eulerCfg, demoCfg] at hj; omega
      have : j = 0 ∨ j = 1 := by omega
      rcases this with rfl | rfl <;> decide +kernel)
  obtain ⟨⟨r, d, hr⟩, h2, -⟩ := h
  refine ⟨r, d, hr, ?_⟩
  rw [(h2 r d hr).1]
  have : ⌈eulerCfg.totalTime / (1/2 : ℚ)⌉₊ = 2 := by
    rw [Nat.ceil_eq_iff (by norm_num)]
    norm_num [eulerCfg, demoCfg]
  rw [this]
  decide +kernel

end Verif.TE
