import Verif.Props.Opacity

/-
C44 (guard of the shell), C66 (no absorption below the threshold, for the object), C67 (linearity in the luminosity);
cases meeting the hypotheses of C43 and C66.
-/

namespace Verif.Absorption

open MathUtils Spectra Geometry Region Targets

/-! ### C44 -/

/-- C44: exactly which points of the path the guard leaves (or puts) closer to the shell than the relative distance 10⁻⁴
it is meant to enforce: those starting just inside the shell -/
theorem C44_iff {l : List ℝ} {R : ℝ} (hR : 1 ≤ R) :
    (∃ y ∈ guardPath l R, |y - R| < R / 10 ^ 4) ↔ ∃ x ∈ l, R - R / 10 ^ 4 - 1 / 10 ^ 8 ≤ x ∧ x < R := by
  unfold guardPath
  simp only [List.mem_map, exists_exists_and_eq_and]
  refine exists_congr fun x => and_congr_right fun _ => ?_
  unfold closeTo minRelDistance
  rw [abs_of_pos (by linarith : 0 < R), abs_le]
  split_ifs with h
  · rw [abs_lt]
    constructor
    · rintro ⟨h1, h2⟩
      exact ⟨by linarith [h.1], by linarith⟩
    · rintro ⟨h1, h2⟩
      exact ⟨by nlinarith, by linarith⟩
  · constructor
    · intro h1
      rw [abs_lt] at h1
      exact absurd ⟨by linarith, by linarith⟩ h
    · rintro ⟨h1, h2⟩
      exact absurd ⟨by linarith, by nlinarith⟩ h

/-- C44 is false of the code: for a blob at the relative distance 10⁻⁴ inside the shell the guard moves the first point of
the path exactly onto the shell, where the distance to the nearest element is zero and the integrand is infinite -/
theorem C44_violated {R : ℝ} (hR : 1 ≤ R) {n : ℕ} (hn : 1 ≤ n) :
    R ∈ guardPath ((logspace 0 5 n).map (· * (R - R / 10 ^ 4))) R ∧ xReShell 1 R R = 0 := by
  constructor
  · unfold guardPath
    refine List.mem_map.2 ⟨R - R / 10 ^ 4, ?_, ?_⟩
    · refine List.mem_map.2 ⟨1, ?_, one_mul _⟩
      unfold logspace linspace
      refine List.mem_map.2 ⟨0, List.mem_map.2 ⟨0, List.mem_range.2 hn, by simp⟩, by simp⟩
    · have : closeTo (R - R / 10 ^ 4) R := by
        unfold closeTo minRelDistance
        rw [abs_of_pos (by linarith : 0 < R), abs_le]
        constructor <;> linarith
      rw [if_pos this]
      unfold minRelDistance
      ring
  · unfold xReShell
    rw [show R ^ 2 + R ^ 2 - 2 * R * R * 1 = 0 by ring, Real.sqrt_zero]

/-- C44, the part that holds: a path that starts on the shell or outside ends up at the relative distance 10⁻⁴ or more.
Missing: paths with points just inside the shell (`C44_iff`, `C44_violated`). -/
theorem C44_outside_partial {l : List ℝ} {R : ℝ} (hR : 1 ≤ R) (h : ∀ x ∈ l, R ≤ x) :
    ∀ y ∈ guardPath l R, R / 10 ^ 4 ≤ |y - R| := by
  intro y hy
  by_contra hc
  obtain ⟨x, hx, _, h2⟩ := (C44_iff hR).1 ⟨y, hy, not_le.1 hc⟩
  exact absurd (h x hx) (not_le.2 h2)

/-- C44 is false for oblique paths as well: for a blob on the shell and a photon moving at a right angle to the jet the first
point of the path stays at a relative distance below 10⁻⁸, since the shift is applied along the path -/
theorem C44_mu_s_violated {R : ℝ} (hR : 1 ≤ R) {n : ℕ} (hn : 1 ≤ n) :
    ∃ u ∈ guardPathMuS ((logspace (-5) 5 n).map (· * R)) R R 0, |xCross R u 0 - R| < R / 10 ^ 8 := by
  have hR0 : 0 < R := by linarith
  have hx : ∀ e : ℝ, 0 ≤ e → |xCross R (e * R) 0 - R| ≤ R * (e ^ 2 / 2) := by
    intro e he
    unfold xCross
    have h1 : R ^ 2 + (e * R) ^ 2 + 2 * (e * R) * R * 0 = R ^ 2 * (1 + e ^ 2) := by ring
    rw [h1, Real.sqrt_mul (sq_nonneg R), Real.sqrt_sq hR0.le]
    have h2 : √(1 + e ^ 2) ≤ 1 + e ^ 2 / 2 := by
      rw [Real.sqrt_le_left (by positivity)]
      nlinarith [sq_nonneg (e ^ 2)]
    have h3 : 1 ≤ √(1 + e ^ 2) := by rw [Real.one_le_sqrt]; nlinarith [sq_nonneg e]
    rw [abs_of_nonneg (by nlinarith)]
    nlinarith
  have hmem : 1 / 10 ^ 5 * R ∈ (logspace (-5) 5 n).map (· * R) := by
    refine List.mem_map.2 ⟨1 / 10 ^ 5, ?_, rfl⟩
    unfold logspace linspace
    refine List.mem_map.2 ⟨-5, List.mem_map.2 ⟨0, List.mem_range.2 hn, by simp⟩, ?_⟩
    rw [Real.rpow_neg (by norm_num)]
    norm_num
  have hclose : closeTo (xCross R (1 / 10 ^ 5 * R) 0) R := by
    unfold closeTo minRelDistance
    have := hx (1 / 10 ^ 5) (by norm_num)
    rw [abs_of_pos hR0]
    nlinarith
  unfold guardPathMuS
  rw [if_pos ⟨_, hmem, hclose⟩]
  refine ⟨1 / 10 ^ 5 * R + minRelDistance * R, ?_, ?_⟩
  · rw [List.mem_insertionSort]
    refine List.mem_map.2 ⟨_, hmem, ?_⟩
    rw [if_pos hclose]
  · have := hx (1 / 10 ^ 5 + minRelDistance) (by unfold minRelDistance; norm_num)
    rw [add_mul] at this
    refine lt_of_le_of_lt this ?_
    unfold minRelDistance
    nlinarith

/-- a blob on the shell or outside of it, with a photon moving towards larger radii, meets the hypotheses of C43 -/
theorem blr_outside {k : Consts} {a : Abs} {t : BLR} {r : ℝ} (ht : BLROK t r) (hr : t.R_line ≤ r) (hm : 0 ≤ a.mu_s)
    (h1 : a.target = .blr t) (h2 : a.r = some r) : TargetOK k a := by
  obtain ⟨target, r', z, mu_s, mu, phi, l_size⟩ := a
  simp only at h1 h2 hm
  subst h1 h2
  have hR : 0 < t.R_line := by linarith [ht.R_line]
  refine ⟨ht, ?_, ?_⟩
  · intro l hl he
    have h := C44_outside_partial ht.R_line (l := (logspace 0 5 l_size).map (· * r)) (by
      intro x hx
      obtain ⟨y, hy, rfl⟩ := List.mem_map.1 hx
      obtain ⟨e, he, rfl⟩ := List.mem_map.1 hy
      obtain ⟨i, hi, rfl⟩ := List.mem_map.1 he
      have hi' : (0 : ℝ) ≤ (l_size : ℝ) - 1 := by
        have h0 : 1 ≤ l_size := by have := List.mem_range.1 hi; omega
        have : (1 : ℝ) ≤ l_size := by exact_mod_cast h0
        linarith
      have h3 : (0 : ℝ) ≤ 0 + (i : ℝ) * ((5 - 0) / ((l_size : ℝ) - 1)) := by positivity
      have := Real.one_le_rpow (by norm_num : (1 : ℝ) ≤ 10) h3
      have hr0 := ht.r
      nlinarith) l hl
    rw [he, sub_self, abs_zero] at h
    have : 0 < t.R_line / 10 ^ 4 := by positivity
    linarith
  · intro u hu
    have hu0 : 0 < u := by
      have hp := path_pos (a := -5) (b := 5) (n := 2 * l_size) ht.r
      unfold guardPathMuS at hu
      split_ifs at hu
      · rw [List.mem_insertionSort] at hu
        obtain ⟨v, hv, rfl⟩ := List.mem_map.1 hu
        have := hp v hv
        have h2 : 0 ≤ minRelDistance * t.R_line := by unfold minRelDistance; positivity
        split_ifs <;> linarith
      · exact hp u hu
    have : t.R_line < xCross r u mu_s := by
      unfold xCross
      apply Real.lt_sqrt_of_sq_lt
      have h4 : 0 ≤ 2 * u * r * mu_s := by have := ht.r; positivity
      have h5 : 0 < u ^ 2 := by positivity
      nlinarith
    exact this.ne'

/-! ### C66 for the object -/

/-- energy of the target photons when there is only one -/
noncomputable def lineEnergy (k : Consts) : Target → Option ℝ
  | .ps t => some t.epsilon_0
  | .blr t => some t.epsilon_line
  | .dt t => some (t.epsilon_dt k)
  | _ => none

theorem collision_le {e1 e0 c : ℝ} (h1 : 0 ≤ e1) (h0 : 0 ≤ e0) (hc : -1 ≤ c) (h : e1 * e0 ≤ 1) :
    collision e1 e0 c ≤ 1 := by
  unfold collision
  have : 0 ≤ e1 * e0 := mul_nonneg h1 h0
  nlinarith

/-- C66: photons whose energy times that of the target photons is at most (m_e c²)² are not absorbed at all -/
theorem C66_below {k : Consts} {a : Abs} {nu e0 : ℝ} (h : Setup k a nu) (ht : TargetOK k a)
    (he : lineEnergy k a.target = some e0) (hlow : nuToEps k nu a.z 1 * e0 ≤ 1) :
    tau k a nu = some 0 ∧ absorption k a nu = some 1 := by
  have key : tau k a nu = some 0 := by
    have hl : 2 ≤ 2 * a.l_size := by have := h.l_size; omega
    have h1 := h.eps.le
    obtain ⟨target, r, z, mu_s, mu, phi, l_size⟩ := a
    unfold TargetOK at ht
    unfold tau
    rcases target with b | t | t | t | t | _ <;> rcases r with _ | r <;>
      simp only [lineEnergy, Option.some.injEq, reduceCtorEq] at he ht <;>
      by_cases hm : mu_s = 1 <;>
      simp only [hm, if_true, if_false, Option.some.injEq, Option.getD_some] <;> subst he
    · exact C43_ps_aligned _ _ _ _ _ _
    · exact (C66_ps h ht.1 ht.2 (by norm_num)).2.2 fun u _ =>
        collision_le h1 ht.1.epsilon_0.le (C38_range h.mu_s (ps_angle h.mu_s) 0).1 hlow
    · subst hm
      refine (C66_blr h ht.1 ht.2.1).2.2 fun l hl phi _ mu hmu =>
        collision_le h1 ht.1.epsilon_line.le (C38_range h.mu_s (C35_range (h.mu_range mu hmu) ?_) phi).1 hlow
      have hR : 0 < t.R_line := by linarith [ht.1.R_line]
      exact (shell_pos hR (guardPath_pos (path_pos ht.1.r) hR.le l hl) (ht.2.1 l hl) (h.mu_range mu hmu).2).ne'
    · exact (C66_blr_mu_s h ht.1 hl ht.2.2).2 fun u _ phi _ mu hmu =>
        collision_le h1 ht.1.epsilon_line.le (C38_range h.mu_s (shell_angle_mu_s h.mu_s (h.mu_range mu hmu)) _).1 hlow
    · subst hm
      exact (C66_dt h ht.1).2.2 fun l _ phi _ =>
        collision_le h1 (dt_eps_pos h.consts ht.1).le (C38_range h.mu_s ring_angle phi).1 hlow
    · exact (C66_dt_mu_s h ht.1 hl ht.2).2.2 fun u _ phi _ =>
        collision_le h1 (dt_eps_pos h.consts ht.1).le (C38_range h.mu_s (ring_angle_mu_s h.mu_s) _).1 hlow
  refine ⟨key, ?_⟩
  unfold absorption
  rw [key]
  simp

/-! ### C67 -/

/-- the target with `c` times the luminosity (of the disk that is reprocessed, for shell and ring) -/
def Target.brighter (c : ℝ) : Target → Target
  | .ps t => .ps { t with L_0 := c * t.L_0 }
  | .blr t => .blr { t with L_disk := c * t.L_disk }
  | .dt t => .dt { t with L_disk := c * t.L_disk }
  | t => t

/-- C67: for the point source, the shell and the ring the opacity is proportional to the luminosity -/
theorem C67_opacity (k : Consts) (a : Abs) (nu c : ℝ) (h : lineEnergy k a.target ≠ none) :
    tau k { a with target := a.target.brighter c } nu = (tau k a nu).map (c * ·) := by
  obtain ⟨target, r, z, mu_s, mu, phi, l_size⟩ := a
  unfold tau
  rcases target with b | t | t | t | t | _ <;> simp only [lineEnergy, ne_eq, not_true_eq_false] at h <;>
    by_cases hm : mu_s = 1 <;>
    simp only [Target.brighter, hm, if_true, if_false, Option.map_some, Option.some.injEq]
  · unfold tauPS; dsimp only; ring
  · unfold tauPSMuS; dsimp only; ring
  · unfold tauBLR; dsimp only; ring
  · unfold tauBLRMuS; dsimp only; ring
  · unfold tauDT DT.epsilon_dt; dsimp only; ring
  · unfold tauDTMuS DT.epsilon_dt; dsimp only; ring

/-! ### cases meeting the hypotheses -/

/-- unit constants -/
def unitConsts : Consts := ⟨1, 1, 1, 1, 1, 1, 1, 1, 1, 1⟩

theorem unitConsts_pos : unitConsts.Pos := by constructor <;> norm_num [unitConsts]

/-- a torus seen from the jet axis -/
noncomputable def demoDT : Abs :=
  { target := .dt ⟨1, 1 / 10, 1, 3⟩, r := some 2, z := 1, mu_s := 1 / 2, mu := linspace (-1) 1 100
    phi := linspace 0 (2 * Real.pi) 50, l_size := 50 }

example : Setup unitConsts demoDT 5 :=
  setup_new unitConsts_pos (t := .dt ⟨1, 1 / 10, 1, 3⟩) (r := some 2) (by norm_num) (by norm_num)
    (by norm_num : (1 / 2 : ℝ) ∈ Set.Icc (-1) 1) rfl

example : TargetOK unitConsts demoDT :=
  ⟨⟨by norm_num, by norm_num, by norm_num, by norm_num, by norm_num⟩, fun u hu _ _ =>
    ring_path_pos (by norm_num) (path_pos (by norm_num) u hu) (by norm_num [demoDT]) (by norm_num [demoDT])⟩

example : TargetOK unitConsts { demoDT with target := .blr ⟨1, 1 / 10, 1, 2⟩, r := some 3 } :=
  blr_outside (t := ⟨1, 1 / 10, 1, 2⟩) (r := 3) ⟨by norm_num, by norm_num, by norm_num, by norm_num, by norm_num⟩
    (by norm_num) (by norm_num [demoDT]) rfl rfl

example : TargetOK unitConsts { demoDT with target := .ps ⟨1, 1⟩ } :=
  ⟨⟨by norm_num, by norm_num, by norm_num⟩, by norm_num [demoDT]⟩

example : TargetOK unitConsts { demoDT with target := .disk ⟨1, 1, 1 / 12, 6, 200⟩ } :=
  ⟨by norm_num, by norm_num, by norm_num, by norm_num, by norm_num, by norm_num⟩

example : TargetOK unitConsts { demoDT with target := .blob Synchrotron.demoBlob, r := none } :=
  ⟨unitConsts_pos, Synchrotron.demoBlob_good, by norm_num [Synchrotron.demoBlob], by norm_num [Synchrotron.demoBlob],
    by norm_num [Synchrotron.demoBlob], by norm_num [Synchrotron.demoBlob], by norm_num [Synchrotron.demoBlob],
    by norm_num [Synchrotron.demoBlob, Dist.Positive], by simp [Synchrotron.demoBlob, Dist.NonEmpty]⟩

example : nuToEps unitConsts (1 / 10) 1 1 * 1 ≤ 1 := by norm_num [nuToEps, unitConsts, Consts.mec2]

end Verif.Absorption
