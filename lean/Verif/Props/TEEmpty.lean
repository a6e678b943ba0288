import Verif.Lemmas.Trace
import Verif.Props.TEBasics

/- C63: range attributes of the distribution left on the blob. -/

namespace Verif.TE

open Verif.Np

set_option linter.unusedSectionVars false

variable {K : Type} [Field K] [LinearOrder K] [IsStrictOrderedRing K]

theorem updateDistribution_range {num : Numerics K} {b : Bins K} {dens : List K} {d : Dist K}
    (h : updateDistribution num b dens = .ok d) :
    (∃ lo hi, d.gammaMin = .scalar lo ∧ d.gammaMax = .scalar hi ∧ lo ≤ hi ∧
      ∀ x, (x < lo ∨ hi < x) → d.eval x = 0) ∨
    ((∀ x, d.eval x = 0) ∧ ∃ l u, d.gammaMin = .array l ∧ d.gammaMax = .array u) := by
  unfold updateDistribution at h
  obtain ⟨⟨b1, d1, m⟩, h1, h⟩ := bind_ok_iff.1 h
  dsimp only at h
  split at h
  · rw [pure_ok_iff] at h
    subst h
    exact Or.inr ⟨fun _ => rfl, _, _, rfl, rfl⟩
  split at h
  · exact absurd h (by simp [throw, throwThe, MonadExceptOf.throw])
  left
  unfold mkDist at h
  dsimp only at h
  split at h
  · next f lo hi hf hlo hhi =>
    simp only [Except.ok.injEq] at h
    subst h
    refine ⟨lo, hi, rfl, rfl, ?_, ?_⟩
    · exact (List.le_min?_iff hlo).1 (le_refl _) _ (List.max?_mem hhi)
    · intro x hx
      simp only
      rw [if_neg]
      rintro ⟨a, b⟩
      rcases hx with hx | hx
      · exact absurd a (not_le.2 hx)
      · exact absurd b (not_le.2 hx)
  · simp at h

/-- After every step the distribution on the blob has numbers as its limits and vanishes outside
them, unless it is zero everywhere, in which case both limits are arrays.
Missing for the full statement: the empty case, in which it is false (`C63_empty_violated`). -/
theorem C63_range_partial {cfg : Cfg K} (wf : cfg.WF) {dist : Dist K} (hnn : ∀ x, 0 ≤ dist.eval x)
    {s s' : State K} (hr : Reach cfg dist s) (h : step cfg s = .ok s') :
    (∃ lo hi, s'.dist.gammaMin = .scalar lo ∧ s'.dist.gammaMax = .scalar hi ∧ lo ≤ hi ∧
      ∀ x, (x < lo ∨ hi < x) → s'.dist.eval x = 0) ∨
    ((∀ x, s'.dist.eval x = 0) ∧ ∃ l u, s'.dist.gammaMin = .array l ∧ s'.dist.gammaMax = .array u) := by
  obtain ⟨hI, -⟩ := reach_inv wf hnn hr
  obtain ⟨enG, relG, absG, inj, t0, left, t, o, left', mask, h1, h2, h3, ht, h4, h5, h6⟩ := step_parts h
  obtain ⟨g1, g2, g3⟩ := groupRates_len rfl hI.en.len hI.rel.len hI.abs.len h1
  have hlen : s.bins.Len s.bins.lb.length := ⟨rfl, hI.ublen⟩
  have hinj := totalInjection_len hI.denslen hI.sublen g2 g3 h2
  obtain ⟨pe, pa, pr, -, -, -, -, -, -, -, -, -, -, -, e6⟩ := refresh_parts h6
  unfold applyTimeChanges at h4
  obtain ⟨⟨gm, d, sb, D, rates⟩, k1, h4⟩ := bind_ok_iff.1 h4
  obtain ⟨⟨b3, d3, m3⟩, k3, h4⟩ := bind_ok_iff.1 h4
  obtain ⟨s3, k4, h4⟩ := bind_ok_iff.1 h4
  obtain ⟨⟨b5, d5, s5, m5⟩, k5, h4⟩ := bind_ok_iff.1 h4
  dsimp only at h4
  rw [pure_ok_iff] at h4
  obtain ⟨sub0, chg, -, -, -, -, hud, -⟩ :=
    applyStages12_spec wf.lawful wf.mec2 (toErg_len hlen) hI.denslen hI.sublen g1 hinj k1
  rw [e6, ← h4]
  exact updateDistribution_range hud

/-- both disjuncts occur: a spectrum, and no particles at all -/
def zeroDist : Dist ℚ := ⟨fun _ => 0, .scalar 1, .scalar 4⟩

def demoEmpty : Cfg ℚ := { demoCfg with absFns := [], subgroups := some [["cool", "esc"]] }

theorem demoEmpty_wf : demoEmpty.WF := { demoCfg_wf with keysAbs := by simp [demoEmpty] }

example : checkRun demoCfg demoDist 3 (fun s => match s.dist.gammaMin with
    | .scalar x => x == 847/512 | _ => false) = true := by decide +kernel

/-- A run that starts without particles returns normally and leaves a distribution on the blob whose `gamma_min`
and `gamma_max` are arrays. -/
theorem C63_empty_violated :
    ∃ (cfg : Cfg ℚ) (s : State ℚ) (l u : List ℚ), cfg.WF ∧ (∀ x, 0 ≤ zeroDist.eval x) ∧
      Returns cfg zeroDist (resultOf s) s.dist ∧ s.dist.gammaMin = .array l ∧ s.dist.gammaMax = .array u ∧
      1 < l.length := by
  obtain ⟨s, h, e⟩ := returns_of_check (cfg := demoEmpty) (dist := zeroDist) (fuel := 3)
    (p := fun s => match s.dist.gammaMin, s.dist.gammaMax with
      | .array l, .array _ => decide (1 < l.length)
      | _, _ => false) (by decide +kernel)
  split at e
  · next l u h1 h2 => exact ⟨demoEmpty, s, l, u, demoEmpty_wf, fun _ => le_refl _, h, h1, h2, by simpa using e⟩
  · simp at e

end Verif.TE
