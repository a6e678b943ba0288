import Verif.Lemmas.LoopInv

/- Initial state, reachable states, observed records. -/

namespace Verif.TE

open Verif.Np

set_option linter.unusedSectionVars false

variable {K : Type} [Field K] [LinearOrder K] [IsStrictOrderedRing K]

theorem initialSub_spec {cfg : Cfg K} (wf : cfg.WF) {sub : List (List K)}
    (h : initialSub cfg = .ok sub) : sub ≠ [] ∧ (∀ r ∈ sub, r.length = cfg.initialGamma.length) ∧
      (cfg.FractionsOK → SubOK sub cfg.initialGamma.length) := by
  unfold initialSub at h
  have hone : SubOK [List.replicate cfg.initialGamma.length (1 : K)] cfg.initialGamma.length := by
    refine ⟨?_, ?_⟩
    · intro r hr x hx
      simp only [List.mem_singleton] at hr
      subst hr
      rw [List.eq_of_mem_replicate hx]; exact zero_le_one
    · intro j hj
      simp [hj]
  cases hsg : cfg.subgroups with
  | none =>
    simp only [hsg, Except.ok.injEq] at h
    subst h
    exact ⟨by simp, by simp, fun _ => hone⟩
  | some rows =>
    simp only [hsg] at h
    cases hf : cfg.initialFractions with
    | some f =>
      simp only [hf, Except.ok.injEq] at h
      subst h
      obtain ⟨f1, f2⟩ := wf.fractions _ hf
      exact ⟨f1, f2, fun ho => ho _ hf⟩
    | none =>
      simp only [hf] at h
      cases rows with
      | nil => simp at h
      | cons r rs =>
        simp only [Except.ok.injEq] at h
        subst h
        refine ⟨by simp, ?_, fun _ => ⟨?_, ?_⟩⟩
        · intro r hr
          simp only [List.mem_cons, List.mem_map] at hr
          rcases hr with rfl | ⟨_, -, rfl⟩ <;> simp
        · intro r hr x hx
          simp only [List.mem_cons, List.mem_map] at hr
          rcases hr with rfl | ⟨_, -, rfl⟩
          · rw [List.eq_of_mem_replicate hx]; exact zero_le_one
          · rw [List.eq_of_mem_replicate hx]
        · intro j hj
          simp only [List.map_cons, List.map_map, List.sum_cons]
          have h1 : (List.replicate cfg.initialGamma.length (1 : K)).getD j 0 = 1 := by simp [hj]
          have h2 : (rs.map ((fun x : List K => x.getD j 0) ∘
              fun _ => List.replicate cfg.initialGamma.length (0 : K))).sum = 0 := by
            apply List.sum_eq_zero
            intro x hx
            obtain ⟨_, -, rfl⟩ := List.mem_map.1 hx
            simp [hj]
          rw [h1, h2, add_zero]

theorem initState_parts {cfg : Cfg K} {dist : Dist K} {s : State K} (h : initState cfg dist = .ok s) :
    ∃ sub, initialSub cfg = .ok sub ∧
      s.bins = updateBinUb ⟨cfg.initialGamma, cfg.initialGamma.map fun _ => 0⟩
        (List.replicate cfg.initialGamma.length true) ∧
      s.dens = cfg.initialGamma.map dist.eval ∧ s.sub = sub ∧
      newRates2 dist s.bins cfg.enFns s.dens sub = .ok s.en ∧
      newRates1 dist cfg.initialGamma cfg.relFns s.dens sub = .ok s.rel ∧
      newRates1 dist cfg.initialGamma cfg.absFns s.dens sub = .ok s.abs ∧
      s.timeLeft = (cfg.initialGamma.map fun _ => 0) ∧ s.elapsed = 0 ∧ s.dist = dist := by
  unfold initState at h
  obtain ⟨sub, h1, h⟩ := bind_ok_iff.1 h
  obtain ⟨en, h2, h⟩ := bind_ok_iff.1 h
  obtain ⟨rel, h3, h⟩ := bind_ok_iff.1 h
  obtain ⟨abs, h4, h⟩ := bind_ok_iff.1 h
  rw [pure_ok_iff] at h
  subst h
  exact ⟨sub, h1, rfl, rfl, rfl, h2, h3, h4, rfl, rfl, rfl⟩

theorem initState_inv {cfg : Cfg K} (wf : cfg.WF) {dist : Dist K} (hnn : ∀ x, 0 ≤ dist.eval x)
    {s : State K} (h : initState cfg dist = .ok s) : Inv cfg s ∧ (cfg.FractionsOK → InvSub s) := by
  obtain ⟨sub, h1, e1, e2, e3, h2, h3, h4, e4, e5, e6⟩ := initState_parts h
  obtain ⟨s1, s2, s3⟩ := initialSub_spec wf h1
  obtain ⟨u1, u2, u3⟩ := updateBinUb_spec
    (b := ⟨cfg.initialGamma, cfg.initialGamma.map fun _ => 0⟩)
    (mask := List.replicate cfg.initialGamma.length true) (n := cfg.initialGamma.length)
    ⟨rfl, by simp⟩ (by simp)
  have hlb : s.bins.lb = cfg.initialGamma := by rw [e1, u1]
  have hg2 := newRates2_spec h2
  have hg3 := newRates1_spec h3
  have hg4 := newRates1_spec h4
  refine ⟨⟨?_, ?_, ?_, ?_, ?_, ?_, ?_, ?_, ?_, ?_, ?_, ?_, ?_, ?_, ?_, ?_⟩, ?_⟩
  · rw [hlb, e1, u2]
  · rw [hlb, e2]; simp
  · rw [e3]; exact s1
  · rw [e3, hlb]; exact s2
  · intro _; rw [e4, hlb]; simp
  · intro _ x hx
    rw [e4] at hx
    obtain ⟨_, -, rfl⟩ := List.mem_map.1 hx
    exact le_refl _
  · rw [hlb]; exact wf.gammaPos
  · rw [hlb]; exact wf.gammaSorted
  · intro j hj
    rw [hlb] at hj
    rw [hlb, e1, u3 j (by simpa using hj)]
    simp only [List.getElem_replicate, if_true]
    have hp := wf.gammaPos _ (getD_mem hj)
    have := mul_pos hp (binSizeFactor_pos (K := K))
    linarith
  · intro x hx
    rw [e2] at hx
    obtain ⟨y, -, rfl⟩ := List.mem_map.1 hx
    exact hnn y
  · intro lo hi hb x hx
    rw [hlb] at hx
    exact (wf.bounds lo hi hb).2.2.2 x hx
  · exact hg2
  · rw [hlb]; exact hg3
  · rw [hlb]; exact hg4
  · rw [e6]; exact hnn
  · intro j hj
    rw [hlb] at hj
    rw [e2, e6, hlb, getD_map' _ 0 0 hj]
    exact Or.inr rfl
  · intro ho
    have := s3 ho
    exact ⟨by rw [e3]; exact this.1, by rw [e3, hlb]; exact this.2⟩

theorem reach_inv {cfg : Cfg K} (wf : cfg.WF) {dist : Dist K} (hnn : ∀ x, 0 ≤ dist.eval x)
    {s : State K} (h : Reach cfg dist s) : Inv cfg s ∧ (cfg.FractionsOK → InvSub s) := by
  induction h with
  | init h => exact initState_inv wf hnn h
  | step _ hg hs ih =>
    obtain ⟨a, b, -⟩ := step_inv wf ih.1 hg hs
    exact ⟨a, fun ho => b (ih.2 ho)⟩

theorem loop_reach {cfg : Cfg K} {dist : Dist K} {n : Nat} {s s' : State K} (hr : Reach cfg dist s)
    (h : loop cfg n s = .ok (some s')) : Reach cfg dist s' ∧ ¬ s'.elapsed < cfg.totalTime := by
  induction n generalizing s with
  | zero =>
    unfold loop at h
    split at h
    · simp at h
    · next hg => simp only [Except.ok.injEq, Option.some.injEq] at h; subst h; exact ⟨hr, hg⟩
  | succ n ih =>
    unfold loop at h
    split at h
    · next hg =>
      obtain ⟨s1, h1, h⟩ := bind_ok_iff.1 h
      exact ih (.step hr hg h1) h
    · next hg => simp only [Except.ok.injEq, Option.some.injEq] at h; subst h; exact ⟨hr, hg⟩

theorem returns_reach {cfg : Cfg K} {dist dist' : Dist K} {r : Result K} (h : Returns cfg dist r dist') :
    ∃ s, Reach cfg dist s ∧ ¬ s.elapsed < cfg.totalTime ∧ r = resultOf s ∧ dist' = s.dist := by
  obtain ⟨n, s, h, e1, e2⟩ := h
  unfold evaluate at h
  obtain ⟨s0, h0, h⟩ := bind_ok_iff.1 h
  obtain ⟨a, b⟩ := loop_reach (.init h0) h
  exact ⟨s, a, b, e1, e2⟩

/-- fields on which the two kinds of record do not differ -/
theorem observed_reach {cfg : Cfg K} {dist dist' : Dist K} {r : Result K}
    (h : Observed cfg dist r dist') : ∃ s, Reach cfg dist s ∧ dist' = s.dist ∧
      r.totalTime = s.elapsed ∧ r.gamma = s.bins.lb ∧ r.density = s.dens ∧ r.subgroups = s.sub ∧
      r.enChgRates = energyChangesLb s.en ∧
      ((r.relInjRates = s.rel ∧ r.absInjRates = s.abs) ∨
        (r.relInjRates = s.abs ∧ r.absInjRates = s.rel)) := by
  rcases h with h | ⟨s, s', hr, hg, hs, rfl, rfl⟩
  · obtain ⟨s, h1, h2, rfl, rfl⟩ := returns_reach h
    exact ⟨s, h1, rfl, rfl, rfl, rfl, rfl, rfl, Or.inl ⟨rfl, rfl⟩⟩
  · exact ⟨s', .step hr hg hs, rfl, rfl, rfl, rfl, rfl, rfl, Or.inr ⟨rfl, rfl⟩⟩

theorem reach_elapsed {cfg : Cfg K} {dist : Dist K} {s : State K} (h : Reach cfg dist s) :
    s.elapsed ≤ max 0 cfg.totalTime := by
  cases h with
  | init h =>
    obtain ⟨_, -, -, -, -, -, -, -, -, e, -⟩ := initState_parts h
    rw [e]; exact le_max_left _ _
  | step _ hg hs =>
    obtain ⟨_, _, _, _, _, _, t, _, _, _, -, -, -, ht, -, -, h6⟩ := step_parts hs
    obtain ⟨_, _, _, -, -, -, -, -, -, -, -, -, -, e, -⟩ := refresh_parts h6
    have := truncStep_le cfg _ _ |> (ht ▸ ·)
    rw [e]
    exact le_trans (by linarith) (le_max_right _ _)

end Verif.TE
