import Verif.Lemmas.Count

/- Restarting an evolution with fixed steps from its returned record. -/

namespace Verif.TE

open Verif.Np

set_option linter.unusedSectionVars false

variable {K : Type} [Field K] [LinearOrder K] [IsStrictOrderedRing K]

/-- the body of the loop for a given step time and no optimisation -/
def stepCore (cfg : Cfg K) (s : State K) (t : K) : Except Err (State K) := do
  let (enG, relG, absG) ← groupRates cfg s
  let inj ← totalInjection s.dens s.sub relG absG
  let o ← applyTimeChanges cfg (toErg cfg s.bins) s.dens s.sub enG inj t
  refresh cfg s t o s.timeLeft (o.dens.map fun _ => true)

theorem step_fixed {cfg : Cfg K} {dt : K} (hd : cfg.stepDuration = .fixed dt)
    (ho : cfg.optimize = false) (s : State K) :
    step cfg s = stepCore cfg s (min dt (cfg.totalTime - s.elapsed)) := by
  unfold step stepCore
  congr 1
  funext ⟨enG, relG, absG⟩
  simp only
  congr 1
  funext inj
  unfold chooseStep
  simp only [hd, pure_bind, truncStep_coe, recalcMask, ho]
  rfl

/-- the other clock -/
def State.shift (T1 : K) (tl : List (WithTop K)) (s : State K) : State K :=
  { s with timeLeft := tl, elapsed := T1 + s.elapsed }

theorem refresh_shift {cfg : Cfg K} (T1 : K) (tl : List (WithTop K)) (s : State K) (t : K) (o : StepOut K)
    (mask : List Bool) : refresh cfg (s.shift T1 tl) t o tl mask
      = (refresh cfg s t o s.timeLeft mask).map (State.shift T1 tl) := by
  unfold refresh
  simp only [State.shift]
  cases remapRates2 o.mapping s.en with
  | error e => rfl
  | ok pe =>
  simp only [bind, Except.bind]
  cases recalcRates2 o.dist (updateBinUb o.bins mask) cfg.enFns o.dens o.sub pe mask with
  | error e => rfl
  | ok en =>
  simp only
  cases remapRates1 o.mapping s.abs with
  | error e => rfl
  | ok pa =>
  simp only
  cases recalcRates1 o.dist (updateBinUb o.bins mask).lb cfg.absFns o.dens o.sub pa mask with
  | error e => rfl
  | ok ab =>
  simp only
  cases remapRates1 o.mapping s.rel with
  | error e => rfl
  | ok pr =>
  simp only
  cases recalcRates1 o.dist (updateBinUb o.bins mask).lb cfg.relFns o.dens o.sub pr mask with
  | error e => rfl
  | ok re =>
  simp only [pure, Except.pure, Except.map, State.shift, add_assoc]

theorem stepCore_shift {cfg : Cfg K} (T1 : K) (tl : List (WithTop K)) (s : State K) (t : K) :
    stepCore cfg (s.shift T1 tl) t = (stepCore cfg s t).map (State.shift T1 tl) := by
  unfold stepCore
  have h1 : groupRates cfg (s.shift T1 tl) = groupRates cfg s := rfl
  rw [h1]
  cases groupRates cfg s with
  | error e => rfl
  | ok g =>
  obtain ⟨enG, relG, absG⟩ := g
  simp only [bind, Except.bind]
  have h2 : totalInjection (s.shift T1 tl).dens (s.shift T1 tl).sub relG absG
    = totalInjection s.dens s.sub relG absG := rfl
  rw [h2]
  cases totalInjection s.dens s.sub relG absG with
  | error e => rfl
  | ok inj =>
  simp only
  have h3 : applyTimeChanges cfg (toErg cfg (s.shift T1 tl).bins) (s.shift T1 tl).dens (s.shift T1 tl).sub enG
    inj t = applyTimeChanges cfg (toErg cfg s.bins) s.dens s.sub enG inj t := rfl
  rw [h3]
  cases applyTimeChanges cfg (toErg cfg s.bins) s.dens s.sub enG inj t with
  | error e => rfl
  | ok o => exact refresh_shift T1 tl s t o _

/-- the later half with its own clock -/
theorem loop_shift {cfg cfg2 full : Cfg K} {dt T1 T2 : K} (hd : cfg.stepDuration = .fixed dt)
    (ho : cfg.optimize = false) {g : List K} {fr : Option (List (List K))}
    (h2 : cfg2 = { cfg with totalTime := T2, initialGamma := g, initialFractions := fr })
    (hf : full = { cfg with totalTime := T1 + T2 }) (n : Nat) (s : State K) (tl : List (WithTop K)) :
    loop full n (s.shift T1 tl) = (loop cfg2 n s).map (Option.map (State.shift T1 tl)) := by
  have hstep : ∀ s : State K, step full (s.shift T1 tl) = (step cfg2 s).map (State.shift T1 tl) := by
    intro s
    rw [step_fixed (cfg := full) (dt := dt) (by rw [hf]; exact hd) (by rw [hf]; exact ho),
      step_fixed (cfg := cfg2) (dt := dt) (by rw [h2]; exact hd) (by rw [h2]; exact ho), stepCore_shift]
    have e : full.totalTime - (s.shift T1 tl).elapsed = cfg2.totalTime - s.elapsed := by
      rw [hf, h2]; simp only [State.shift]; ring
    rw [e]
    have e2 : ∀ t, stepCore full s t = stepCore cfg2 s t := by
      intro t; subst h2 hf; rfl
    rw [e2]
  have hguard : ∀ s : State K, (s.shift T1 tl).elapsed < full.totalTime ↔ s.elapsed < cfg2.totalTime := by
    intro s
    rw [hf, h2]; simp only [State.shift]
    constructor <;> intro h <;> linarith
  induction n generalizing s with
  | zero =>
    simp only [loop, hguard]
    split <;> rfl
  | succ n ih =>
    simp only [loop, hguard]
    split
    · rw [hstep]
      cases step cfg2 s with
      | error e => rfl
      | ok s' => exact ih s'
    · rfl

theorem evaluate_of_reachN {cfg : Cfg K} {dist : Dist K} {k : Nat} {s : State K}
    (h : ReachN cfg dist k s) (n : Nat) : evaluate cfg dist (k + n) = loop cfg n s := by
  unfold evaluate
  have key : ∀ {k : Nat} {s : State K}, ReachN cfg dist k s → ∀ n, ∃ s0, initState cfg dist = .ok s0 ∧
      loop cfg (k + n) s0 = loop cfg n s := by
    intro k s h
    induction h with
    | init h => intro n; exact ⟨_, h, by rw [Nat.zero_add]⟩
    | @step k s s' _ hg hs ih =>
      intro n
      obtain ⟨s0, h0, e⟩ := ih (n + 1)
      refine ⟨s0, h0, ?_⟩
      rw [show k + 1 + n = k + (n + 1) by omega, e]
      conv_lhs => unfold loop
      rw [if_pos hg, hs]
      rfl
  obtain ⟨s0, h0, e⟩ := key h n
  rw [h0]
  exact e

/-- the first half is a prefix of the whole -/
theorem reachN_extend {cfg one full : Cfg K} {dt T2 : K} {k : Nat} (hd : cfg.stepDuration = .fixed dt)
    (ho : cfg.optimize = false) (hp : 0 < dt) (hT2 : 0 ≤ T2)
    (h1 : one = { cfg with totalTime := k * dt }) (hf : full = { cfg with totalTime := k * dt + T2 })
    {dist : Dist K} {i : Nat} {s : State K} (h : ReachN one dist i s) : ReachN full dist i s := by
  have hT1 : 0 ≤ one.totalTime := by rw [h1]; exact mul_nonneg (Nat.cast_nonneg k) (le_of_lt hp)
  induction h with
  | init h => refine .init ?_; subst h1 hf; exact h
  | @step i s s' hr hg hs ih =>
    refine .step ih ?_ ?_
    · have : one.totalTime ≤ full.totalTime := by rw [h1, hf]; simp only; linarith
      exact lt_of_lt_of_le hg this
    · rw [step_fixed (cfg := one) (dt := dt) (by rw [h1]; exact hd) (by rw [h1]; exact ho)] at hs
      rw [step_fixed (cfg := full) (dt := dt) (by rw [hf]; exact hd) (by rw [hf]; exact ho)]
      have hel := reachN_elapsed_fixed (cfg := one) (dt := dt) (by rw [h1]; exact hd) (le_of_lt hp) hT1 hr
      have hik : s.elapsed = i * dt ∧ i < k := by
        rcases min_choice ((i : K) * dt) one.totalTime with e | e
        · rw [e] at hel
          refine ⟨hel, ?_⟩
          rw [hel, h1] at hg
          simp only at hg
          have := lt_of_mul_lt_mul_right hg (le_of_lt hp)
          exact_mod_cast this
        · rw [hel, e] at hg; exact absurd hg (lt_irrefl _)
      have hi1 : (i : K) + 1 ≤ k := by exact_mod_cast hik.2
      have hge : dt ≤ k * dt - s.elapsed := by
        rw [hik.1]
        have := mul_le_mul_of_nonneg_right hi1 (le_of_lt hp)
        linarith
      have e1 : min dt (one.totalTime - s.elapsed) = dt := by
        rw [h1]; exact min_eq_left hge
      have e2 : min dt (full.totalTime - s.elapsed) = dt := by
        rw [hf]; exact min_eq_left (by simp only; linarith)
      rw [e1] at hs
      rw [e2, ← hs]
      subst h1 hf; rfl

theorem reach_sub_length {cfg : Cfg K} (wf : cfg.WF) {dist : Dist K} (hnn : ∀ x, 0 ≤ dist.eval x)
    (hs : cfg.subgroups = none) {s : State K} (h : Reach cfg dist s) : s.sub.length = 1 := by
  induction h with
  | init h =>
    obtain ⟨sub, h1, -, -, e3, -⟩ := initState_parts h
    unfold initialSub at h1
    simp only [hs, Except.ok.injEq] at h1
    rw [e3, ← h1]; rfl
  | step hr hg hs ih =>
    rw [(step_inv wf (reach_inv wf hnn hr).1 hg hs).2.2, ih]

end Verif.TE
