import Verif.Lemmas.EmissivityIntegral
import Verif.Props.EnergyCount
import Mathlib.Analysis.Real.Pi.Bounds

/-
C106: the light of the synchrotron process carries what the electrons lose.

The cooling rate used by the time evolution (`electron_energy_loss_rate`) and the SED are written independently in the
code: one is the textbook loss, the other integrates an approximation of the spectrum of one electron over the
electrons.  Here the energy flux (the SED over the logarithm of the frequency) is compared with the losses of the
electrons of the blob.
-/

noncomputable section

namespace Verif.Synchrotron

open MathUtils Spectra MeasureTheory

/-- energy flux through all frequencies: `νF_ν` integrated over `log ν` -/
def wholeFlux (sed : ℝ → ℝ) : ℝ := ∫ nu in Set.Ioi 0, sed nu / nu

/-- energy in the frame of the blob over observed frequency -/
def perNu (m : ℝ) (k : Consts) (z δ : ℝ) : ℝ := (1 + z) * k.h / (m * k.c ^ 2) / δ

/-! ### delta approximation -/

/-- with the delta approximation the energy flux is exactly what the electrons lose -/
theorem C106_delta {k : Consts} {z d_L δ B R_b : ℝ} {n_e : Spectra.Dist} (hk : k.Pos) (hz : -1 < z) (hd : 0 < d_L)
    (hδ : 0 < δ) (hB : 0 < B) :
    wholeFlux (fun nu => sedFluxDelta k nu z d_L δ B R_b n_e)
      = δ ^ 4 / (4 * Real.pi * d_L ^ 2)
        * ∫ g in Set.Ioi 0, (4 / 3 * Real.pi * R_b ^ 3) * n_e.call g * energyLossRate k B g := by
  have hz1 : 0 < 1 + z := by linarith
  obtain ⟨hc, hme, hmp, hh, he, hsT⟩ : 0 < k.c ∧ 0 < k.m_e ∧ 0 < k.m_p ∧ 0 < k.h ∧ 0 < k.e ∧ 0 < k.sigma_T :=
    ⟨hk.c, hk.m_e, hk.m_p, hk.h, hk.e, hk.sigma_T⟩
  have hcr : 0 < epsilonB B := by unfold epsilonB B_cr; positivity
  set a := perNu k.m_e k z δ / epsilonB B with ha
  have ha0 : 0 < a := by unfold a perNu; positivity
  set P := δ ^ 4 * k.c * k.sigma_T * (B ^ 2 / (8 * Real.pi)) / (6 * Real.pi * d_L ^ 2) with hP
  set H : ℝ → ℝ := fun y => P * √y ^ 3 * (volume R_b * n_e.call √y) / y with hH
  have e1 : wholeFlux (fun nu => sedFluxDelta k nu z d_L δ B R_b n_e) = ∫ nu in Set.Ioi 0, a * H (a * nu) := by
    unfold wholeFlux
    refine setIntegral_congr_fun measurableSet_Ioi fun nu hnu => ?_
    have h0 : 0 < nu := hnu
    have e : nuToEps k nu z δ / epsilonB B = a * nu := by
      unfold a perNu nuToEps Consts.mec2
      field_simp
    simp only [sedFluxDelta, e, hH]
    rw [← hP]
    field_simp
  rw [e1, integral_const_mul, integral_comp_mul_left_Ioi H 0 ha0, mul_zero, smul_eq_mul, ← mul_assoc,
    mul_inv_cancel₀ ha0.ne', one_mul, ← integral_comp_rpow_Ioi H (p := 2) (by norm_num), ← integral_const_mul]
  refine setIntegral_congr_fun measurableSet_Ioi fun g hg => ?_
  have h0 : 0 < g := hg
  have e2 : g ^ ((2 : ℝ) - 1) = g := by norm_num
  simp only [hH, e2, smul_eq_mul, Real.rpow_two, Real.sqrt_sq h0.le]
  rw [hP]
  unfold energyLossRate volume
  rw [abs_of_pos (by norm_num : (0 : ℝ) < 2)]
  field_simp
  ring

/-! ### the emission of an electron -/

/-- all of the integrals exist and are these -/
def Whole (F : ℝ → ℝ) (v : ℝ) : Prop := IntegrableOn F (Set.Ioi 0) ∧ ∫ nu in Set.Ioi 0, F nu = v

theorem Whole.const_mul {F : ℝ → ℝ} {v : ℝ} (h : Whole F v) (a : ℝ) : Whole (fun nu => a * F nu) (a * v) :=
  ⟨h.1.const_mul a, by rw [integral_const_mul, h.2]⟩

theorem Whole.add {F G : ℝ → ℝ} {v w : ℝ} (h : Whole F v) (h' : Whole G w) : Whole (fun nu => F nu + G nu) (v + w) :=
  ⟨h.1.add h'.1, by rw [integral_add h.1 h'.1, h.2, h'.2]⟩

theorem whole_zero : Whole (fun _ => 0) 0 := ⟨integrableOn_zero, by simp⟩

theorem whole_trapz {Fs : List (ℝ → ℝ)} {vs : List ℝ} (h : List.Forall₂ Whole Fs vs) (xs : List ℝ) :
    Whole (fun nu => trapz (Fs.map (· nu)) xs) (trapz vs xs) := by
  induction h generalizing xs with
  | nil => simpa [trapz] using whole_zero
  | @cons F v Fs vs h1 t ih =>
    cases t with
    | nil => cases xs <;> simpa [trapz] using whole_zero
    | @cons G w Fs vs h2 t =>
      match xs with
      | [] => simpa [trapz] using whole_zero
      | [_] => simpa [trapz] using whole_zero
      | x :: y :: xs =>
        have := ((h1.add h2).const_mul ((y - x) / 2)).add (ih (y :: xs))
        simp only [List.map_cons, trapz] at this ⊢
        convert this using 2 <;> ring

theorem whole_over {grid : List ℝ} {G : ℝ → ℝ → ℝ} {w : ℝ → ℝ} (h : ∀ x ∈ grid, Whole (G x) (w x)) :
    Whole (fun nu => Verif.over trapz grid fun x => G x nu) (Verif.over trapz grid w) := by
  have : List.Forall₂ Whole (grid.map G) (grid.map w) := by
    rw [List.forall₂_map_left_iff, List.forall₂_map_right_iff]
    exact List.forall₂_same.2 h
  have := whole_trapz this grid
  simpa [Verif.over, List.map_map, Function.comp_def] using this

/-- the integral of the function `R` of the code over its argument -/
def totalR : ℝ := ∫ x in Set.Ioi 0, R x

/-- `R` of a multiple of the frequency -/
theorem whole_R {a : ℝ} (ha : 0 < a) : Whole (fun nu => R (a * nu)) (a⁻¹ * totalR) := by
  refine ⟨?_, ?_⟩
  · rw [integrableOn_Ioi_comp_mul_left_iff R 0 ha, mul_zero]
    exact integrable_R
  · rw [integral_comp_mul_left_Ioi R 0 ha, mul_zero, smul_eq_mul]
    rfl

/-- classical Thomson cross-section of a particle (Gaussian units) -/
def thomson (k : Consts) (m : ℝ) : ℝ := 8 * Real.pi / 3 * (k.e ^ 2 / (m * k.c ^ 2)) ^ 2

/-- textbook power of one particle of charge `e` and mass `m` -/
def particleLoss (k : Consts) (m B g : ℝ) : ℝ := 4 / 3 * thomson k m * k.c * (B ^ 2 / (8 * Real.pi)) * g ^ 2

/-- emitted over lost, for every particle, energy, field and frequency range -/
def quality : ℝ := 27 * √3 / (16 * Real.pi) * totalR

/-- emission of one particle over all energies `ε m c²`: what it loses, but for a number -/
theorem C106_particle {k : Consts} {B g m : ℝ} (hk : k.Pos) (hm : 0 < m) (hB : 0 < B) (hg : 0 < g) :
    Whole (fun ε => power k B ε g m) (quality * particleLoss k m B g) := by
  obtain ⟨hc, hh, he⟩ : 0 < k.c ∧ 0 < k.h ∧ 0 < k.e := ⟨hk.c, hk.h, hk.e⟩
  set a := 4 * Real.pi * m ^ 2 * k.c ^ 3 / (3 * k.e * B * k.h * g ^ 2) with ha
  have ha0 : 0 < a := by unfold a; positivity
  have h := (whole_R ha0).const_mul (√3 * k.e ^ 3 * B / k.h)
  convert h using 1
  · funext ε
    unfold power calcX
    simp only
    rw [ha]
    congr 2
    ring
  · rw [ha]
    unfold quality particleLoss thomson
    field_simp
    ring

/-- the number is between 0.95 and 1.045 -/
theorem C106_quality : 95 / 100 ≤ quality ∧ quality ≤ 1045 / 1000 := by
  obtain ⟨hl, hu⟩ : 1025 / 1000 ≤ totalR ∧ totalR ≤ 1119 / 1000 := integral_R
  have hp := Real.pi_pos
  have p1 := Real.pi_gt_d4
  have p2 := Real.pi_lt_d4
  have s1 : (1732 / 1000 : ℝ) ≤ √3 := Real.le_sqrt_of_sq_le (by norm_num)
  have s2 : √3 ≤ 1733 / 1000 := Real.sqrt_le_iff.2 ⟨by norm_num, by norm_num⟩
  have s0 : 0 < √3 := by positivity
  unfold quality
  rw [div_mul_eq_mul_div, le_div_iff₀ (by positivity), div_le_iff₀ (by positivity)]
  constructor
  · nlinarith
  · nlinarith

/-! ### the SED -/

theorem thomson_loss {k : Consts} (h : k.sigma_T = thomson k k.m_e) (B g : ℝ) :
    particleLoss k k.m_e B g = energyLossRate k B g := by
  unfold particleLoss energyLossRate
  rw [h]

/-- an SED made of particles on a grid -/
theorem whole_sed {k : Consts} {z δ B P m : ℝ} {grid : List ℝ} {N : ℝ → ℝ} {sed : ℝ → ℝ} (hk : k.Pos) (hm : 0 < m)
    (hz : -1 < z) (hδ : 0 < δ) (hB : 0 < B) (hg : ∀ g ∈ grid, 0 < g)
    (h : ∀ nu, sed nu = P * (perNu m k z δ * nu)
      * Verif.over trapz grid fun g => N g * power k B (perNu m k z δ * nu) g m) :
    Whole (fun nu => sed nu / nu) (quality * (P * Verif.over trapz grid fun g => N g * particleLoss k m B g)) := by
  have hz1 : 0 < 1 + z := by linarith
  have hc := hk.c
  have hh := hk.h
  have ha : 0 < perNu m k z δ := by unfold perNu; positivity
  set a := perNu m k z δ with haa
  have hw : Whole (fun nu => a * Verif.over trapz grid fun g => N g * power k B (a * nu) g m)
      (Verif.over trapz grid fun g => N g * (quality * particleLoss k m B g)) := by
    have h1 : ∀ g ∈ grid, Whole (fun nu => N g * power k B (a * nu) g m)
        (N g * (a⁻¹ * (quality * particleLoss k m B g))) := by
      intro g hg'
      obtain ⟨i, e⟩ := C106_particle (B := B) hk hm hB (hg g hg')
      refine Whole.const_mul ⟨?_, ?_⟩ _
      · have := (integrableOn_Ioi_comp_mul_left_iff (fun ε => power k B ε g m) 0 ha).2 (by rw [mul_zero]; exact i)
        exact this
      · rw [integral_comp_mul_left_Ioi (fun ε => power k B ε g m) 0 ha, mul_zero, smul_eq_mul, e]
    have h2 := (whole_over h1).const_mul a
    convert h2 using 1
    rw [← over_trapz_mul]
    congr 1
    funext g
    field_simp
  have h3 := hw.const_mul P
  have e : P * (Verif.over trapz grid fun g => N g * (quality * particleLoss k m B g))
      = quality * (P * Verif.over trapz grid fun g => N g * particleLoss k m B g) := by
    have : (fun g => N g * (quality * particleLoss k m B g)) = fun g => quality * (N g * particleLoss k m B g) := by
      funext g; ring
    rw [this, over_trapz_mul]
    ring
  rw [← e]
  refine ⟨h3.1.congr_fun (fun nu hnu => ?_) measurableSet_Ioi, ?_⟩
  · have h0 : nu ≠ 0 := (Set.mem_Ioi.1 hnu).ne'
    simp only [h]
    field_simp
  · rw [← h3.2]
    refine setIntegral_congr_fun measurableSet_Ioi fun nu hnu => ?_
    have h0 : nu ≠ 0 := (Set.mem_Ioi.1 hnu).ne'
    simp only [h]
    field_simp

theorem nuToEps_perNu (k : Consts) (nu z δ : ℝ) : nuToEps k nu z δ = perNu k.m_e k z δ * nu := by
  unfold nuToEps perNu Consts.mec2; ring

theorem nuToEpsP_perNu (k : Consts) (nu z δ : ℝ) : nuToEpsP k nu z δ = perNu k.m_p k z δ * nu := by
  unfold nuToEpsP perNu Consts.mpc2; ring

variable {k : Consts} {z d_L δ B R_b : ℝ} {d : Spectra.Dist} {gamma : List ℝ}

theorem whole_thin (hk : k.Pos) (hz : -1 < z) (hδ : 0 < δ) (hB : 0 < B) (hg : ∀ g ∈ d.afterCall gamma, 0 < g)
    (hσ : k.sigma_T = thomson k k.m_e) :
    Whole (fun nu => sedFlux k trapz false nu z d_L δ B R_b d gamma / nu)
      (quality * (δ ^ 4 / (4 * Real.pi * d_L ^ 2)
        * Verif.over trapz (d.afterCall gamma) fun g =>
          (4 / 3 * Real.pi * R_b ^ 3) * d.call g * energyLossRate k B g)) := by
  have h := whole_sed (k := k) (z := z) (δ := δ) (B := B) (P := δ ^ 4 / (4 * Real.pi * d_L ^ 2)) (m := k.m_e)
    (grid := d.afterCall gamma) (N := fun g => volume R_b * d.call g)
    (sed := fun nu => sedFlux k trapz false nu z d_L δ B R_b d gamma) hk hk.m_e hz hδ hB hg (fun nu => by
      unfold sedFlux
      simp only [Bool.false_eq_true, if_false]
      rw [sedThin_eq, nuToEps_perNu])
  simp only [thomson_loss hσ] at h
  exact h

/-- energy flux of the SED: what the electrons on the grid lose at the rate the time evolution uses, times a number
which depends on nothing -/
theorem C106_electrons (hk : k.Pos) (hz : -1 < z) (hδ : 0 < δ) (hB : 0 < B) (hg : ∀ g ∈ d.afterCall gamma, 0 < g)
    (hσ : k.sigma_T = thomson k k.m_e) :
    wholeFlux (fun nu => sedFlux k trapz false nu z d_L δ B R_b d gamma)
      = quality * (δ ^ 4 / (4 * Real.pi * d_L ^ 2)
        * Verif.over trapz (d.afterCall gamma) fun g =>
          (4 / 3 * Real.pi * R_b ^ 3) * d.call g * energyLossRate k B g) :=
  (whole_thin hk hz hδ hB hg hσ).2

/-- protons: the same with their own mass -/
theorem C106_protons (hk : k.Pos) (hz : -1 < z) (hδ : 0 < δ) (hB : 0 < B) (hg : ∀ g ∈ d.afterCall gamma, 0 < g) :
    wholeFlux (fun nu => sedFluxProton k trapz nu z d_L δ B R_b d gamma)
      = quality * (δ ^ 4 / (4 * Real.pi * d_L ^ 2)
        * Verif.over trapz (d.afterCall gamma) fun g =>
          (4 / 3 * Real.pi * R_b ^ 3) * d.call g * particleLoss k k.m_p B g) :=
  (whole_sed (k := k) (z := z) (δ := δ) (B := B) (P := δ ^ 4 / (4 * Real.pi * d_L ^ 2)) (m := k.m_p)
    (grid := d.afterCall gamma) (N := fun g => volume R_b * d.call g)
    (sed := fun nu => sedFluxProton k trapz nu z d_L δ B R_b d gamma) hk hk.m_p hz hδ hB hg (fun nu => by
      unfold sedFluxProton Spectra.Dist.evaluate Verif.over
      simp only
      rw [List.map_map, zipWith_mul_map, ← nuToEpsP_perNu]
      rfl)).2

theorem losses_nonneg {nu : ℝ} (hp : Physical k nu z d_L δ B R_b d) (hc : (d.afterCall gamma).IsChain (· ≤ ·))
    (hg : ∀ g ∈ d.afterCall gamma, 0 < g) :
    0 ≤ δ ^ 4 / (4 * Real.pi * d_L ^ 2)
        * Verif.over trapz (d.afterCall gamma) fun g =>
          (4 / 3 * Real.pi * R_b ^ 3) * d.call g * energyLossRate k B g := by
  have hσ := hp.consts.sigma_T
  have hcc := hp.consts.c
  have hR := hp.R_b
  refine mul_nonneg (by positivity) (over_trapz_nonneg hc fun g _ => ?_)
  have h1 := C23_nonneg hp.dist g
  unfold energyLossRate
  positivity

/-- the energy flux is within 5 per cent of what the electrons lose -/
theorem C106_cooling {nu : ℝ} (hp : Physical k nu z d_L δ B R_b d) (hc : (d.afterCall gamma).IsChain (· ≤ ·))
    (hg : ∀ g ∈ d.afterCall gamma, 0 < g) (hσ : k.sigma_T = thomson k k.m_e) :
    |wholeFlux (fun nu => sedFlux k trapz false nu z d_L δ B R_b d gamma)
        - δ ^ 4 / (4 * Real.pi * d_L ^ 2) * Verif.over trapz (d.afterCall gamma) fun g =>
          (4 / 3 * Real.pi * R_b ^ 3) * d.call g * energyLossRate k B g|
      ≤ 5 / 100 * (δ ^ 4 / (4 * Real.pi * d_L ^ 2) * Verif.over trapz (d.afterCall gamma) fun g =>
          (4 / 3 * Real.pi * R_b ^ 3) * d.call g * energyLossRate k B g) := by
  rw [C106_electrons hp.consts (by linarith [hp.z]) hp.delta hp.B hg hσ]
  have h0 := losses_nonneg hp hc hg
  generalize δ ^ 4 / (4 * Real.pi * d_L ^ 2) * Verif.over trapz (d.afterCall gamma) (fun g =>
          (4 / 3 * Real.pi * R_b ^ 3) * d.call g * energyLossRate k B g) = L at h0 ⊢
  have hq := C106_quality
  rw [abs_le]
  constructor <;> nlinarith [hq.1, hq.2]

/-- self-absorption takes energy away and adds none -/
theorem C106_absorbed {nu : ℝ} (hp : Physical k nu z d_L δ B R_b d) (hc : (d.afterCall gamma).IsChain (· ≤ ·))
    (hg : ∀ g ∈ d.afterCall gamma, 0 < g) (hσ : k.sigma_T = thomson k k.m_e) :
    0 ≤ wholeFlux (fun nu => sedFlux k trapz true nu z d_L δ B R_b d gamma)
    ∧ wholeFlux (fun nu => sedFlux k trapz true nu z d_L δ B R_b d gamma)
      ≤ 1045 / 1000 * (δ ^ 4 / (4 * Real.pi * d_L ^ 2) * Verif.over trapz (d.afterCall gamma) fun g =>
          (4 / 3 * Real.pi * R_b ^ 3) * d.call g * energyLossRate k B g) := by
  have hb : ∀ nu : ℝ, 0 < nu → 0 ≤ sedFlux k trapz true nu z d_L δ B R_b d gamma / nu
      ∧ sedFlux k trapz true nu z d_L δ B R_b d gamma / nu ≤ sedFlux k trapz false nu z d_L δ B R_b d gamma / nu := by
    intro nu hnu
    have h := C52_between (nu := nu) ⟨hp.consts, hnu, hp.z, hp.d_L, hp.delta, hp.B, hp.R_b, hp.dist⟩ nonneg_trapz hc hg
    exact ⟨div_nonneg h.1 hnu.le, div_le_div_of_nonneg_right h.2 hnu.le⟩
  have hw := whole_thin (z := z) (d_L := d_L) (R_b := R_b) hp.consts (by linarith [hp.z]) hp.delta hp.B hg hσ
  refine ⟨setIntegral_nonneg measurableSet_Ioi fun nu hnu => (hb nu hnu).1, ?_⟩
  have h1 : wholeFlux (fun nu => sedFlux k trapz true nu z d_L δ B R_b d gamma)
      ≤ ∫ nu in Set.Ioi 0, sedFlux k trapz false nu z d_L δ B R_b d gamma / nu := by
    refine integral_mono_of_nonneg ?_ hw.1 ?_
    · exact (ae_restrict_iff' measurableSet_Ioi).2 (Filter.Eventually.of_forall fun nu hnu => (hb nu hnu).1)
    · exact (ae_restrict_iff' measurableSet_Ioi).2 (Filter.Eventually.of_forall fun nu hnu => (hb nu hnu).2)
  rw [hw.2] at h1
  refine h1.trans ?_
  exact mul_le_mul_of_nonneg_right C106_quality.2 (losses_nonneg hp hc hg)

/-- the SED of a blob: within 5 per cent of the losses of its electrons, with self-absorption not more than that -/
theorem C106_blob {nu : ℝ} {b : Region.Blob} (hg : b.GoodGrid)
    (hp : Physical k nu b.z b.d_L b.delta_D b.B b.R_b b.n_e) (hσ : k.sigma_T = thomson k k.m_e) :
    let lost := b.delta_D ^ 4 / (4 * Real.pi * b.d_L ^ 2) * Verif.over trapz b.gamma_e fun g =>
      (4 / 3 * Real.pi * b.R_b ^ 3) * b.n_e.call g * energyLossRate k b.B g
    95 / 100 * lost ≤ wholeFlux (fun nu => sedFlux k trapz false nu b.z b.d_L b.delta_D b.B b.R_b b.n_e b.gamma_e)
    ∧ wholeFlux (fun nu => sedFlux k trapz false nu b.z b.d_L b.delta_D b.B b.R_b b.n_e b.gamma_e) ≤ 105 / 100 * lost
    ∧ wholeFlux (fun nu => sedFlux k trapz true nu b.z b.d_L b.delta_D b.B b.R_b b.n_e b.gamma_e) ≤ 105 / 100 * lost := by
  intro lost
  have hc : (b.n_e.afterCall b.gamma_e).IsChain (· ≤ ·) := by rw [hg.afterCall]; exact hg.chain
  have hpos : ∀ g ∈ b.n_e.afterCall b.gamma_e, 0 < g := by rw [hg.afterCall]; exact b.gamma_e_pos
  have h1 := abs_le.1 (C106_cooling hp hc hpos hσ)
  have h2 := (C106_absorbed hp hc hpos hσ).2
  have h0 := losses_nonneg hp hc hpos
  rw [hg.afterCall] at h0 h1 h2
  change 0 ≤ lost at h0
  refine ⟨?_, ?_, ?_⟩
  · have := h1.1
    change -(5 / 100 * lost) ≤ _ - lost at this
    linarith
  · have := h1.2
    change _ - lost ≤ 5 / 100 * lost at this
    linarith
  · change _ ≤ 1045 / 1000 * lost at h2
    linarith

/-- units with `c = m_e = h = e = 1` -/
def naturalConsts : Consts := ⟨1, 1, 1836, 1, 1, 8 * Real.pi / 3, 1, 1, 1, 1⟩

theorem natural_physical : Physical naturalConsts 1 0 1 10 1 1 (.powerLaw 1 2 10 1000)
    ∧ naturalConsts.sigma_T = thomson naturalConsts naturalConsts.m_e := by
  have := Real.pi_pos
  refine ⟨⟨⟨?_, ?_, ?_, ?_, ?_, ?_, ?_, ?_, ?_, ?_⟩, by norm_num, by norm_num, by norm_num, by norm_num, by norm_num,
    by norm_num, by norm_num [Dist.Positive]⟩, by norm_num [naturalConsts, thomson]⟩ <;>
    (unfold naturalConsts; simp only; positivity)

/-- the hypotheses of `C106_blob` are met -/
example : demoBlob.GoodGrid
    ∧ Physical naturalConsts 1 demoBlob.z demoBlob.d_L demoBlob.delta_D demoBlob.B demoBlob.R_b demoBlob.n_e
    ∧ naturalConsts.sigma_T = thomson naturalConsts naturalConsts.m_e :=
  ⟨demoBlob_good, natural_physical.1, natural_physical.2⟩

/-- the energy flux of electrons with a spectrum `γ⁻²` between 10 and 1000, in numbers -/
example : wholeFlux (fun nu => sedFluxDelta naturalConsts nu 0 1 10 1 1 (.powerLaw 1 2 10 1000)) = 4400000 / 3 := by
  rw [C106_delta natural_physical.1.consts (by norm_num) (by norm_num) (by norm_num) (by norm_num)]
  have e : ∀ g ∈ Set.Ioi (0 : ℝ), (4 / 3 * Real.pi * 1 ^ 3) * (Spectra.Dist.powerLaw 1 2 10 1000).call g
        * energyLossRate naturalConsts 1 g
      = (Set.Icc (10 : ℝ) 1000).indicator (fun _ => 4 / 3 * Real.pi * (4 / 9)) g := by
    intro g hg
    have h0 : (0 : ℝ) < g := hg
    have hp := Real.pi_pos
    by_cases h : g ∈ Set.Icc (10 : ℝ) 1000
    · rw [Set.indicator_of_mem h]
      have : (Spectra.Dist.powerLaw 1 2 10 1000).call g = (g ^ 2)⁻¹ := by
        simp [Spectra.Dist.call, InBounds, powerLawAt, h.1, h.2, Real.rpow_neg h0.le]
      rw [this]
      unfold energyLossRate naturalConsts
      field_simp
      ring
    · rw [Set.indicator_of_notMem h]
      have : (Spectra.Dist.powerLaw 1 2 10 1000).call g = 0 := by
        simp only [Set.mem_Icc, not_and_or, not_le] at h
        simp [Spectra.Dist.call, InBounds, powerLawAt]
        grind
      rw [this]
      ring
  rw [setIntegral_congr_fun measurableSet_Ioi e, setIntegral_indicator measurableSet_Icc,
    show Set.Ioi (0 : ℝ) ∩ Set.Icc 10 1000 = Set.Icc 10 1000 from
      Set.inter_eq_right.2 fun x hx => Set.mem_Ioi.2 (lt_of_lt_of_le (by norm_num) hx.1), setIntegral_const]
  simp
  have := Real.pi_pos
  field_simp
  norm_num

end Verif.Synchrotron

end
