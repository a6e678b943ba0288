import Verif.Lemmas.Fresh

/- Number of steps, determinism, elapsed times. -/

namespace Verif.TE

open Verif.Np

set_option linter.unusedSectionVars false

variable {K : Type} [Field K] [LinearOrder K] [IsStrictOrderedRing K]

/-- state after `k` turns of the loop -/
inductive ReachN (cfg : Cfg K) (dist : Dist K) : Nat → State K → Prop where
  | init {s : State K} : initState cfg dist = .ok s → ReachN cfg dist 0 s
  | step {k : Nat} {s s' : State K} : ReachN cfg dist k s → s.elapsed < cfg.totalTime →
      step cfg s = .ok s' → ReachN cfg dist (k + 1) s'

theorem reachN_of_reach {cfg : Cfg K} {dist : Dist K} {s : State K} (h : Reach cfg dist s) :
    ∃ k, ReachN cfg dist k s := by
  induction h with
  | init h => exact ⟨0, .init h⟩
  | step _ hg hs ih => obtain ⟨k, ih⟩ := ih; exact ⟨k + 1, .step ih hg hs⟩

theorem reach_of_reachN {cfg : Cfg K} {dist : Dist K} {k : Nat} {s : State K} (h : ReachN cfg dist k s) :
    Reach cfg dist s := by
  induction h with
  | init h => exact .init h
  | step _ hg hs ih => exact .step ih hg hs

theorem reachN_unique {cfg : Cfg K} {dist : Dist K} {k : Nat} {s s' : State K}
    (h : ReachN cfg dist k s) (h' : ReachN cfg dist k s') : s = s' := by
  induction h generalizing s' with
  | init h =>
    cases h' with
    | init h' => rw [h] at h'; simpa using h'
  | step _ _ hs ih =>
    cases h' with
    | step h1 _ hs' =>
      have := ih h1
      subst this
      rw [hs] at hs'; simpa using hs'

/-- earlier states on the way -/
theorem reachN_prefix {cfg : Cfg K} {dist : Dist K} {k : Nat} {s : State K} (h : ReachN cfg dist k s) :
    ∀ i, i < k → ∃ s', ReachN cfg dist i s' ∧ s'.elapsed < cfg.totalTime := by
  induction h with
  | init h => intro i hi; omega
  | @step k s s' hr hg hs ih =>
    intro i hi
    by_cases hik : i = k
    · subst hik; exact ⟨s, hr, hg⟩
    · exact ih i (by omega)

theorem reach_final_unique {cfg : Cfg K} {dist : Dist K} {s s' : State K} (h : Reach cfg dist s)
    (h' : Reach cfg dist s') (hf : ¬ s.elapsed < cfg.totalTime) (hf' : ¬ s'.elapsed < cfg.totalTime) :
    s = s' := by
  obtain ⟨k, hk⟩ := reachN_of_reach h
  obtain ⟨k', hk'⟩ := reachN_of_reach h'
  rcases lt_trichotomy k k' with hlt | rfl | hlt
  · obtain ⟨x, hx, hg⟩ := reachN_prefix hk' k hlt
    rw [reachN_unique hk hx] at hf
    exact absurd hg hf
  · exact reachN_unique hk hk'
  · obtain ⟨x, hx, hg⟩ := reachN_prefix hk k' hlt
    rw [reachN_unique hk' hx] at hf'
    exact absurd hg hf'

theorem initState_elapsed {cfg : Cfg K} {dist : Dist K} {s : State K} (h : initState cfg dist = .ok s) :
    s.elapsed = 0 := by
  obtain ⟨_, -, -, -, -, -, -, -, -, e, -⟩ := initState_parts h
  exact e

/-- a step advances the clock by the truncated step time -/
theorem step_elapsed {cfg : Cfg K} {s s' : State K} (h : step cfg s = .ok s') :
    ∃ enG relG absG t0 left, groupRates cfg s = .ok (enG, relG, absG) ∧
      chooseStep cfg s enG relG absG = .ok (t0, left) ∧
      s'.elapsed = s.elapsed + truncStep cfg s.elapsed t0 := by
  obtain ⟨_, _, _, _, _, _, t, _, _, _, h1, -, h3, ht, -, -, h6⟩ := step_parts h
  obtain ⟨_, _, _, -, -, -, -, -, -, -, -, -, -, e, -⟩ := refresh_parts h6
  exact ⟨_, _, _, _, _, h1, h3, by rw [e, ht]⟩

theorem truncStep_coe (cfg : Cfg K) (el dt : K) :
    truncStep cfg el (dt : WithTop K) = min dt (cfg.totalTime - el) := by
  unfold truncStep
  split
  · next h =>
    have := WithTop.coe_lt_coe.1 h
    rw [min_eq_right (le_of_lt this)]
  · next h =>
    have h2 : dt ≤ cfg.totalTime - el := WithTop.coe_le_coe.1 (not_lt.1 h)
    rw [min_eq_left h2]; simp

theorem step_elapsed_fixed {cfg : Cfg K} {dt : K} (hd : cfg.stepDuration = .fixed dt) {s s' : State K}
    (h : step cfg s = .ok s') : s'.elapsed = min (s.elapsed + dt) cfg.totalTime := by
  obtain ⟨_, _, _, t0, left, -, h2, e⟩ := step_elapsed h
  unfold chooseStep at h2
  simp only [hd, pure, Except.pure, Except.ok.injEq, Prod.mk.injEq] at h2
  rw [e, ← h2.1, truncStep_coe, ← min_add_add_left]
  congr 1; ring

theorem loop_none_fixed {cfg : Cfg K} {dt : K} (hd : cfg.stepDuration = .fixed dt) (hp : 0 ≤ dt)
    {n : Nat} {s : State K} (h : loop cfg n s = .ok none) : s.elapsed + n * dt < cfg.totalTime := by
  induction n generalizing s with
  | zero =>
    unfold loop at h
    split at h
    · next hg => simpa using hg
    · simp at h
  | succ n ih =>
    unfold loop at h
    split at h
    · obtain ⟨s1, h1, h⟩ := bind_ok_iff.1 h
      have := ih h
      rw [step_elapsed_fixed hd h1] at this
      have hnd : 0 ≤ (n : K) * dt := mul_nonneg (Nat.cast_nonneg n) hp
      rcases min_choice (s.elapsed + dt) cfg.totalTime with e | e
      · rw [e] at this
        push_cast
        linarith
      · rw [e] at this
        linarith
    · simp at h

theorem loop_some_fixed {cfg : Cfg K} {dt : K} (hd : cfg.stepDuration = .fixed dt) (hp : 0 ≤ dt)
    {n : Nat} {s s' : State K} (h : loop cfg n s = .ok (some s')) :
    cfg.totalTime ≤ s.elapsed + n * dt := by
  induction n generalizing s with
  | zero =>
    unfold loop at h
    split at h
    · simp at h
    · next hg => simpa using hg
  | succ n ih =>
    have hnd : 0 ≤ (n : K) * dt := mul_nonneg (Nat.cast_nonneg n) hp
    unfold loop at h
    split at h
    · obtain ⟨s1, h1, h⟩ := bind_ok_iff.1 h
      have := ih h
      rw [step_elapsed_fixed hd h1] at this
      have := min_le_left (s.elapsed + dt) cfg.totalTime
      push_cast
      linarith
    · next hg =>
      have := not_lt.1 hg
      push_cast
      linarith

theorem loop_some_nonpos {cfg : Cfg K} {dt : K} (hd : cfg.stepDuration = .fixed dt) (hp : dt ≤ 0)
    {n : Nat} {s s' : State K} (h : loop cfg n s = .ok (some s')) : cfg.totalTime ≤ s.elapsed := by
  induction n generalizing s with
  | zero =>
    unfold loop at h
    split at h
    · simp at h
    · next hg => simpa using hg
  | succ n ih =>
    unfold loop at h
    split at h
    · obtain ⟨s1, h1, h⟩ := bind_ok_iff.1 h
      have := ih h
      rw [step_elapsed_fixed hd h1] at this
      have := min_le_left (s.elapsed + dt) cfg.totalTime
      linarith
    · next hg => exact not_lt.1 hg

theorem reachN_elapsed_fixed {cfg : Cfg K} {dt : K} (hd : cfg.stepDuration = .fixed dt) (hp : 0 ≤ dt)
    (hT : 0 ≤ cfg.totalTime) {dist : Dist K} {k : Nat} {s : State K} (h : ReachN cfg dist k s) :
    s.elapsed = min (k * dt) cfg.totalTime := by
  induction h with
  | init h => rw [initState_elapsed h]; simp [hT]
  | @step k s s' _ hg hs ih =>
    rw [step_elapsed_fixed hd hs, ih]
    rcases min_choice ((k : K) * dt) cfg.totalTime with e | e
    · rw [e]; congr 1; push_cast; ring
    · rw [ih, e] at hg; exact absurd hg (lt_irrefl _)

/-- in automatic mode the clock strictly advances -/
theorem step_elapsed_auto {cfg : Cfg K} (wf : cfg.WF) (ha : cfg.stepDuration = .auto) {s s' : State K}
    (hI : Inv cfg s) (hg : s.elapsed < cfg.totalTime) (h : step cfg s = .ok s') :
    s.elapsed < s'.elapsed := by
  obtain ⟨enG, relG, absG, t0, left, h1, h2, e⟩ := step_elapsed h
  obtain ⟨g1, g2, g3⟩ := groupRates_len rfl hI.en.len hI.rel.len hI.abs.len h1
  obtain ⟨-, c2, -⟩ := chooseStep_spec wf hI ⟨g1, g2, g3⟩ h2
  have := truncStep_pos (c2 ha) hg
  rw [e]; linarith

end Verif.TE
