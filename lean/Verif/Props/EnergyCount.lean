import Verif.Props.ScatteredSpectrum
import Verif.Props.PhotonCount
import Verif.Props.EnergyLoss

/-
C105 on the level of the SEDs: the energy that external Compton sends to the observer is what the electrons lose in
collisions with target photons.

Specification: `power`, the energy lost by an electron in a beam of photons of density `n`.  The energy flux of an SED is
the integral of ν F_ν / ν.
-/

namespace Verif.Compton

open MathUtils Geometry Kernels Targets MeasureTheory

/-- energy put per unit time by one electron into photons of a beam of `n` photons per unit volume of energy `ε`, the
cosine between the directions being `c`: Thomson's `σ_T c n (1 - c)` collisions, `γ` times the energy `γ ε (1 - c)` of the
photon in the frame of the electron for each, less the suppression of Klein and Nishina -/
noncomputable def power (k : Consts) (n ε c g : ℝ) : ℝ :=
  k.sigma_T * k.c * n * (1 - c) * (g * targetEnergy g ε c * k.mec2) * loss (targetEnergy g ε c)

/-- energy per unit area and time below the frequency `m` of an SED -/
noncomputable def energyFlux (m : ℝ) (sed : ℝ → ℝ) : ℝ := ∫ nu in (0)..m, sed nu / nu

variable {m : ℝ}

theorem weighted_over {grid : List ℝ} {G : ℝ → ℝ → ℝ} {w : ℝ → ℝ} (h : ∀ x ∈ grid, Counted m (fun nu => nu * G x nu) (w x)) :
    Counted m (fun nu => nu * Verif.over trapz grid fun x => G x nu) (Verif.over trapz grid w) := by
  have := counted_over h
  simpa only [over_mul'] using this

theorem weighted_fold {Ns gs : List ℝ} {G : ℝ → ℝ → ℝ → ℝ} {w : ℝ → ℝ → ℝ}
    (h : ∀ N, ∀ g ∈ gs, Counted m (fun nu => nu * G N g nu) (w N g)) :
    Counted m (fun nu => nu * fold trapz Ns gs fun N g => G N g nu) (fold trapz Ns gs w) := by
  have := counted_fold (Ns := Ns) h
  simpa only [fold_mul] using this

/-- the integral of the energy over the kernel -/
theorem weighted_kernel {g ε mu_s mu φ κ : ℝ} (hg : 0 < g) (he : 0 < ε) (hκ : 0 < κ) (hm : g ≤ κ * m)
    (h1 : mu_s ∈ Set.Icc (-1) 1) (h2 : mu ∈ Set.Icc (-1) 1) (B : ℝ) :
    Counted m (fun nu => nu * (B * comptonKernel g (κ * nu) ε mu_s mu φ))
      (B * (8 / (3 * κ ^ 2) * g * targetEnergy g ε (cosPsi mu_s mu φ)
        * (g * targetEnergy g ε (cosPsi mu_s mu φ) * loss (targetEnergy g ε (cosPsi mu_s mu φ))))) := by
  have hc := (C38_range h1 h2 φ).2
  have e : ∀ nu, nu * (B * comptonKernel g (κ * nu) ε mu_s mu φ) = B * (nu * comptonKernel g (κ * nu) ε mu_s mu φ) := by
    intro nu; ring
  simp only [e]
  refine Counted.const_mul ?_ B
  rcases eq_or_lt_of_le hc with h | h
  · have hm0 : 0 ≤ m := by
      by_contra hneg
      push Not at hneg
      nlinarith
    rw [h]
    have e : 8 / (3 * κ ^ 2) * g * targetEnergy g ε 1 * (g * targetEnergy g ε 1 * loss (targetEnergy g ε 1)) = 0 := by
      simp [targetEnergy]
    rw [e]
    refine counted_zero.congr hm0 fun nu h0 _ => ?_
    rw [C39_zero hg (by positivity) he hc (Or.inl h), mul_zero]
  · have ha : 0 < targetEnergy g ε (cosPsi mu_s mu φ) := by
      have : 0 < 1 - cosPsi mu_s mu φ := by linarith
      unfold targetEnergy; positivity
    obtain ⟨i, e⟩ := distribution_aux hg he h hm (h := fun s => s) continuousOn_id
    have e2 := collisions_given (γ := g) ha
    have e3 : (fun c => given g (targetEnergy g ε (cosPsi mu_s mu φ)) c) = given g (targetEnergy g ε (cosPsi mu_s mu φ)) := rfl
    rw [e3, e2] at e
    have hf : ∀ nu, nu * comptonKernel g (κ * nu) ε mu_s mu φ
        = 1 / κ * (κ * nu * comptonKernel g (κ * nu) ε mu_s mu φ) := by
      intro nu; field_simp
    simp only [hf]
    refine ⟨?_, ?_⟩
    · have := i.comp_mul_left (c := κ)
      refine IntervalIntegrable.const_mul ?_ _
      simpa [hκ.ne'] using this
    · rw [intervalIntegral.integral_const_mul,
        intervalIntegral.integral_comp_mul_left (fun s => s * comptonKernel g s ε mu_s mu φ) hκ.ne', mul_zero, e,
        smul_eq_mul]
      field_simp

theorem energy_of {κ P V : ℝ} {T sed : ℝ → ℝ} (hm : 0 ≤ m) (hT : Counted m (fun nu => nu * T nu) V)
    (h : ∀ nu, sed nu = P * (κ * nu) ^ 2 * T nu) : energyFlux m sed = P * κ ^ 2 * V := by
  refine ((hT.const_mul (P * κ ^ 2)).congr hm fun nu h0 _ => ?_).2
  rw [h]
  field_simp

variable {k : Consts} {z d_L delta_D mu_s R_b : ℝ} {n_e : Spectra.Dist} {gamma : List ℝ}

/-- C105, point source behind the jet: the energy received is what the electrons lose.  The electrons move along the
line of sight (`comptonKernel` is the head-on approximation), the target photons along the jet. -/
theorem C105_ps {epsilon_0 L_0 r : ℝ} (hk : k.Pos) (hz : -1 < z) (he : 0 < epsilon_0)
    (hs : mu_s ∈ Set.Icc (-1) 1) (hm : 0 ≤ m) (hr : 0 < r) (hd : 0 < d_L) (hg : ∀ g ∈ gamma, 0 < g ∧ g ≤ kappa k z * m) :
    energyFlux m (fun nu => psBehindJet k trapz nu z d_L delta_D mu_s R_b epsilon_0 L_0 r n_e gamma)
      = delta_D ^ 3 / (4 * Real.pi * d_L ^ 2)
        * fold trapz (boostedN n_e R_b delta_D gamma) gamma fun N g =>
          N * power k (L_0 / (4 * Real.pi * k.c * r ^ 2) / (epsilon_0 * k.mec2)) epsilon_0 (cosPsi mu_s 1 0) g := by
  have hκ := kappa_pos hk hz
  have hc := hk.c
  have h1 := hk.h
  have hmec : 0 < k.mec2 := by
    have := hk.m_e
    unfold Consts.mec2; positivity
  have hT := weighted_fold (m := m) (Ns := boostedN n_e R_b delta_D gamma) (gs := gamma)
    (G := fun N g nu => N / g ^ 2 * comptonKernel g (kappa k z * nu) epsilon_0 mu_s 1 0)
    (fun N g h => weighted_kernel (φ := 0) (hg g h).1 he hκ (hg g h).2 hs (by norm_num) (N / g ^ 2))
  rw [energy_of (P := 3 * k.sigma_T * L_0 * delta_D ^ 3 / (2 ^ 7 * Real.pi ^ 2 * d_L ^ 2 * r ^ 2 * epsilon_0 ^ 2))
    (κ := kappa k z) hm hT (fun nu => by unfold psBehindJet; simp only [nuToEps_kappa]; ring)]
  rw [← fold_mul, ← fold_mul]
  refine fold_congr fun N g hgm => ?_
  have hg0 := (hg g hgm).1
  have hz' : 0 < 1 + z := by linarith
  unfold power
  generalize loss (targetEnergy g epsilon_0 (cosPsi mu_s 1 0)) = K
  unfold targetEnergy kappa
  field_simp
  ring

/-- C105, isotropic monochromatic field: the energy received is what the electrons lose, the photons of the field coming evenly from
all directions -/
theorem C105_iso {epsilon_0 u_0 : ℝ} {mu phi : List ℝ} (hk : k.Pos) (hz : -1 < z) (he : 0 < epsilon_0)
    (hs : mu_s ∈ Set.Icc (-1) 1) (hmu : ∀ x ∈ mu, x ∈ Set.Icc (-1) 1) (hm : 0 ≤ m) (hd : 0 < d_L)
    (hg : ∀ g ∈ gamma, 0 < g ∧ g ≤ kappa k z * m) :
    energyFlux m (fun nu => isoMono k trapz nu z d_L delta_D mu_s R_b epsilon_0 u_0 n_e gamma mu phi)
      = delta_D ^ 3 / (4 * Real.pi * d_L ^ 2)
        * Verif.over trapz phi fun φ => Verif.over trapz mu fun μ =>
          fold trapz (boostedN n_e R_b delta_D gamma) gamma fun N g =>
            N * power k (u_0 / (4 * Real.pi) / (epsilon_0 * k.mec2)) epsilon_0 (cosPsi mu_s μ φ) g := by
  have hκ := kappa_pos hk hz
  have hc := hk.c
  have h1 := hk.h
  have hmec : 0 < k.mec2 := by
    have := hk.m_e
    unfold Consts.mec2; positivity
  have hT := weighted_over (m := m) (grid := phi) fun φ _ => weighted_over (m := m) (grid := mu) fun μ hμ =>
    weighted_fold (m := m) (Ns := boostedN n_e R_b delta_D gamma) (gs := gamma)
    (G := fun N g nu => N / g ^ 2 * comptonKernel g (kappa k z * nu) epsilon_0 mu_s μ φ)
    (fun N g h => weighted_kernel (φ := φ) (hg g h).1 he hκ (hg g h).2 hs (hmu μ hμ) (N / g ^ 2))
  rw [energy_of (P := 3 * k.c * k.sigma_T * u_0 * delta_D ^ 3 / (2 ^ 7 * Real.pi ^ 2 * d_L ^ 2 * epsilon_0 ^ 2))
    (κ := kappa k z) hm hT (fun nu => by unfold isoMono; simp only [nuToEps_kappa]; ring)]
  rw [over_mul', over_mul']
  refine over_congr' fun φ _ => ?_
  rw [over_mul', over_mul']
  refine over_congr' fun μ _ => ?_
  rw [← fold_mul, ← fold_mul]
  refine fold_congr fun N g hgm => ?_
  have hg0 := (hg g hgm).1
  have hz' : 0 < 1 + z := by linarith
  unfold power
  generalize loss (targetEnergy g epsilon_0 (cosPsi mu_s μ φ)) = K
  unfold targetEnergy kappa
  field_simp
  ring

/-- C105, torus: the energy received is what the electrons lose, the energy density of a piece of the ring being
`xi_dt L_disk / (8 π² c x²)` per azimuth -/
theorem C105_dt {L_disk xi_dt epsilon_dt R_dt r : ℝ} {phi : List ℝ} (hk : k.Pos) (hz : -1 < z) (he : 0 < epsilon_dt)
    (hs : mu_s ∈ Set.Icc (-1) 1) (hm : 0 ≤ m) (hd : 0 < d_L) (hR : 0 < R_dt)
    (hg : ∀ g ∈ gamma, 0 < g ∧ g ≤ kappa k z * m) :
    energyFlux m (fun nu => dt k trapz nu z d_L delta_D mu_s R_b L_disk xi_dt epsilon_dt R_dt r n_e gamma phi)
      = delta_D ^ 3 / (4 * Real.pi * d_L ^ 2)
        * Verif.over trapz phi fun φ =>
          fold trapz (boostedN n_e R_b delta_D gamma) gamma fun N g =>
            N * power k (xi_dt * L_disk / (8 * Real.pi ^ 2 * k.c * (R_dt ^ 2 + r ^ 2)) / (epsilon_dt * k.mec2)) epsilon_dt
              (cosPsi mu_s (r / √(R_dt ^ 2 + r ^ 2)) φ) g := by
  have hκ := kappa_pos hk hz
  have hc := hk.c
  have h1 := hk.h
  have hmec : 0 < k.mec2 := by
    have := hk.m_e
    unfold Consts.mec2; positivity
  have hx : 0 < R_dt ^ 2 + r ^ 2 := by positivity
  have hmu : r / √(R_dt ^ 2 + r ^ 2) ∈ Set.Icc (-1) 1 := by
    have hr := Real.abs_le_sqrt (show r ^ 2 ≤ R_dt ^ 2 + r ^ 2 by nlinarith)
    rw [abs_le] at hr
    have hp : 0 < √(R_dt ^ 2 + r ^ 2) := Real.sqrt_pos.2 hx
    constructor
    · rw [le_div_iff₀ hp]; linarith
    · rw [div_le_one hp]; exact hr.2
  have hT := weighted_over (m := m) (grid := phi) fun φ _ =>
    weighted_fold (m := m) (Ns := boostedN n_e R_b delta_D gamma) (gs := gamma)
    (G := fun N g nu => N / g ^ 2 * comptonKernel g (kappa k z * nu) epsilon_dt mu_s (r / √(R_dt ^ 2 + r ^ 2)) φ)
    (fun N g h => weighted_kernel (φ := φ) (hg g h).1 he hκ (hg g h).2 hs hmu (N / g ^ 2))
  rw [energy_of (P := 3 * k.sigma_T * xi_dt * L_disk * delta_D ^ 3
      / (2 ^ 8 * Real.pi ^ 3 * d_L ^ 2 * √(R_dt ^ 2 + r ^ 2) ^ 2 * epsilon_dt ^ 2))
    (κ := kappa k z) hm hT (fun nu => by unfold dt xReRing; simp only [nuToEps_kappa]; ring)]
  rw [Real.sq_sqrt hx.le, over_mul', over_mul']
  refine over_congr' fun φ _ => ?_
  rw [← fold_mul, ← fold_mul]
  refine fold_congr fun N g hgm => ?_
  have hg0 := (hg g hgm).1
  have hz' : 0 < 1 + z := by linarith
  unfold power
  generalize cosPsi mu_s (r / √(R_dt ^ 2 + r ^ 2)) φ = c
  generalize loss (targetEnergy g epsilon_dt c) = K
  unfold targetEnergy kappa
  field_simp
  ring

/-- C105, broad line region: the energy received is what the electrons lose, the energy density of a piece of the shell being
`xi_line L_disk / (16 π² c x²)` per solid angle seen from the black hole -/
theorem C105_blr {L_disk xi_line epsilon_line R_line r : ℝ} {mu phi : List ℝ} (hk : k.Pos) (hz : -1 < z)
    (he : 0 < epsilon_line) (hs : mu_s ∈ Set.Icc (-1) 1) (hmu : ∀ x ∈ mu, x ∈ Set.Icc (-1) 1) (hm : 0 ≤ m)
    (hd : 0 < d_L) (hx : ∀ x ∈ mu, xReShell x R_line r ≠ 0)
    (hg : ∀ g ∈ gamma, 0 < g ∧ g ≤ kappa k z * m) :
    energyFlux m
        (fun nu => blr k trapz nu z d_L delta_D mu_s R_b L_disk xi_line epsilon_line R_line r n_e gamma mu phi)
      = delta_D ^ 3 / (4 * Real.pi * d_L ^ 2)
        * Verif.over trapz phi fun φ => Verif.over trapz mu fun μ =>
          fold trapz (boostedN n_e R_b delta_D gamma) gamma fun N g =>
            N * power k (xi_line * L_disk / (16 * Real.pi ^ 2 * k.c * xReShell μ R_line r ^ 2)
                / (epsilon_line * k.mec2)) epsilon_line (cosPsi mu_s (muStarShell μ R_line r) φ) g := by
  have hκ := kappa_pos hk hz
  have hc := hk.c
  have h1 := hk.h
  have hmec : 0 < k.mec2 := by
    have := hk.m_e
    unfold Consts.mec2; positivity
  have hT := weighted_over (m := m) (grid := phi) fun φ _ => weighted_over (m := m) (grid := mu) fun μ hμ =>
    weighted_fold (m := m) (Ns := boostedN n_e R_b delta_D gamma) (gs := gamma)
    (G := fun N g nu => 1 / xReShell μ R_line r ^ 2 * N / g ^ 2
      * comptonKernel g (kappa k z * nu) epsilon_line mu_s (muStarShell μ R_line r) φ)
    (fun N g h => weighted_kernel (φ := φ) (hg g h).1 he hκ (hg g h).2 hs
      (C35_range (hmu μ hμ) (hx μ hμ)) (1 / xReShell μ R_line r ^ 2 * N / g ^ 2))
  rw [energy_of (P := 3 * k.sigma_T * xi_line * L_disk * delta_D ^ 3 / (2 ^ 9 * Real.pi ^ 3 * d_L ^ 2 * epsilon_line ^ 2))
    (κ := kappa k z) hm hT (fun nu => by unfold blr; simp only [nuToEps_kappa]; ring)]
  rw [over_mul', over_mul']
  refine over_congr' fun φ _ => ?_
  rw [over_mul', over_mul']
  refine over_congr' fun μ hμ => ?_
  have hxx := hx μ hμ
  rw [← fold_mul, ← fold_mul]
  refine fold_congr fun N g hgm => ?_
  have hg0 := (hg g hgm).1
  have hz' : 0 < 1 + z := by linarith
  unfold power
  generalize cosPsi mu_s (muStarShell μ R_line r) φ = c
  generalize xReShell μ R_line r = x at hxx
  generalize loss (targetEnergy g epsilon_line c) = K
  unfold targetEnergy kappa
  field_simp
  ring

/-- C105, disk: the energy received is what the electrons lose, the energy density of a ring of the disk being that of
`SSDisk.u` per azimuth -/
theorem C105_disk {M_BH L_disk eta R_in R_out r : ℝ} {mu_size : ℕ} {phi : List ℝ} (hk : k.Pos) (hz : -1 < z)
    (hs : mu_s ∈ Set.Icc (-1) 1) (hm : 0 ≤ m) (hd : 0 < d_L) (hr : 0 < r) (hη : 0 < eta)
    (hmu : ∀ x ∈ SSDisk.muFromRTilde (toRg k R_in M_BH) (toRg k R_out M_BH) (toRg k r M_BH) mu_size,
      0 < x ∧ x < 1 ∧ 0 < SSDisk.epsilonMu k L_disk M_BH eta x (toRg k r M_BH))
    (hg : ∀ g ∈ gamma, 0 < g ∧ g ≤ kappa k z * m) :
    energyFlux m
        (fun nu => ssDisk k trapz nu z d_L delta_D mu_s R_b M_BH L_disk eta R_in R_out r n_e gamma mu_size phi)
      = delta_D ^ 3 / (4 * Real.pi * d_L ^ 2)
        * Verif.over trapz phi fun φ =>
          Verif.over trapz (SSDisk.muFromRTilde (toRg k R_in M_BH) (toRg k R_out M_BH) (toRg k r M_BH) mu_size) fun μ =>
          fold trapz (boostedN n_e R_b delta_D gamma) gamma fun N g =>
            N * power k (3 * k.G * M_BH * (L_disk / (eta * k.c ^ 2)) / (16 * Real.pi ^ 2 * k.c * r ^ 3)
                * SSDisk.phiDiskMu μ (toRg k R_in M_BH) (toRg k r M_BH) / μ / (μ ^ (-2 : ℤ) - 1) ^ (3 / 2 : ℝ)
                / (SSDisk.epsilonMu k L_disk M_BH eta μ (toRg k r M_BH) * k.mec2))
              (SSDisk.epsilonMu k L_disk M_BH eta μ (toRg k r M_BH)) (cosPsi mu_s μ φ) g := by
  have hκ := kappa_pos hk hz
  have hc := hk.c
  have h1 := hk.h
  have hmec : 0 < k.mec2 := by
    have := hk.m_e
    unfold Consts.mec2; positivity
  set grid := SSDisk.muFromRTilde (toRg k R_in M_BH) (toRg k R_out M_BH) (toRg k r M_BH) mu_size with hgrid
  have hT := weighted_over (m := m) (grid := phi) fun φ _ => weighted_over (m := m) (grid := grid) fun μ hμ =>
    weighted_fold (m := m) (Ns := boostedN n_e R_b delta_D gamma) (gs := gamma)
    (G := fun N g nu => SSDisk.phiDiskMu μ (toRg k R_in M_BH) (toRg k r M_BH)
        / SSDisk.epsilonMu k L_disk M_BH eta μ (toRg k r M_BH) ^ 2 / μ / (μ ^ (-2 : ℤ) - 1) ^ (3 / 2 : ℝ) * N / g ^ 2
      * comptonKernel g (kappa k z * nu) (SSDisk.epsilonMu k L_disk M_BH eta μ (toRg k r M_BH)) mu_s μ φ)
    (fun N g h => weighted_kernel (φ := φ) (hg g h).1 (hmu μ hμ).2.2 hκ (hg g h).2 hs
      ⟨by linarith [(hmu μ hμ).1], (hmu μ hμ).2.1.le⟩ _)
  rw [energy_of (P := 9 * k.sigma_T * k.G * M_BH * (L_disk / (eta * k.c ^ 2)) * delta_D ^ 3
      / (2 ^ 9 * Real.pi ^ 3 * d_L ^ 2 * r ^ 3))
    (κ := kappa k z) hm hT (fun nu => by unfold ssDisk; simp only [nuToEps_kappa, ← hgrid]; ring)]
  rw [over_mul', over_mul']
  refine over_congr' fun φ _ => ?_
  rw [over_mul', over_mul']
  refine over_congr' fun μ hμ => ?_
  obtain ⟨hμ0, hμ1, heps⟩ := hmu μ hμ
  rw [← fold_mul, ← fold_mul]
  refine fold_congr fun N g hgm => ?_
  have hg0 := (hg g hgm).1
  have hz' : 0 < 1 + z := by linarith
  have hw : 0 < (μ ^ (-2 : ℤ) - 1 : ℝ) ^ (3 / 2 : ℝ) := by
    apply Real.rpow_pos_of_pos
    have : 1 < μ ^ (-2 : ℤ) := one_lt_zpow_of_neg₀ hμ0 hμ1 (by norm_num)
    linarith
  unfold power
  generalize (μ ^ (-2 : ℤ) - 1 : ℝ) ^ (3 / 2 : ℝ) = W at hw
  generalize cosPsi mu_s μ φ = c
  generalize SSDisk.phiDiskMu μ (toRg k R_in M_BH) (toRg k r M_BH) = Φ
  generalize SSDisk.epsilonMu k L_disk M_BH eta μ (toRg k r M_BH) = e at heps
  generalize loss (targetEnergy g e c) = K
  unfold targetEnergy kappa
  field_simp
  ring


/-- **C105** (power).  An electron loses at most what it would in the limit of Thomson, and at most its own energy in
every collision. -/
theorem C105_power (hk : k.Pos) {n ε c g : ℝ} (hn : 0 ≤ n) (he : 0 < ε) (hc : c < 1) (hg : 0 < g) :
    0 ≤ power k n ε c g ∧ power k n ε c g ≤ k.sigma_T * k.c * (n * ε * k.mec2) * g ^ 2 * (1 - c) ^ 2
      ∧ power k n ε c g ≤ rate k n ε c g * (g * k.mec2) := by
  have h1 : 0 < 1 - c := by linarith
  have ha : 0 < targetEnergy g ε c := by unfold targetEnergy; positivity
  obtain ⟨l, u⟩ := C105_thomson ha
  have e := C105_energy ha
  have hs := hk.sigma_T
  have hcc := hk.c
  have hm : 0 < k.mec2 := by
    have := hk.m_e
    unfold Consts.mec2; positivity
  have l0 : 0 < loss (targetEnergy g ε c) := lt_of_lt_of_le (by positivity) l
  have hK : 0 ≤ kleinNishina (targetEnergy g ε c) := le_trans (by positivity) (C102_thomson_bounds ha).1
  refine ⟨by unfold power; positivity, ?_, ?_⟩
  · have e1 : k.sigma_T * k.c * (n * ε * k.mec2) * g ^ 2 * (1 - c) ^ 2
        = k.sigma_T * k.c * n * (1 - c) * (g * targetEnergy g ε c * k.mec2) := by unfold targetEnergy; ring
    rw [e1]
    unfold power
    exact mul_le_of_le_one_right (by positivity) u
  · have h2 : 2 * targetEnergy g ε c / (1 + 2 * targetEnergy g ε c) ≤ 1 := by
      rw [div_le_one (by positivity)]; linarith
    have h3 : targetEnergy g ε c * loss (targetEnergy g ε c) ≤ kleinNishina (targetEnergy g ε c) :=
      e.trans (mul_le_of_le_one_left hK h2)
    have h4 := mul_le_mul_of_nonneg_left h3 (show 0 ≤ k.sigma_T * k.c * n * (1 - c) * (g * k.mec2) by positivity)
    unfold power rate
    calc _ = k.sigma_T * k.c * n * (1 - c) * (g * k.mec2) * (targetEnergy g ε c * loss (targetEnergy g ε c)) := by ring
      _ ≤ _ := h4
      _ = _ := by ring

/-- an electron and a photon to which `C105_power` applies, with a loss above 0 -/
example : (0 : ℝ) ≤ 1 ∧ (0 : ℝ) < 1 / 10 ∧ (-1 : ℝ) < 1 ∧ (0 : ℝ) < 100 ∧ 0 < loss (targetEnergy 100 (1 / 10) (-1)) := by
  refine ⟨by norm_num, by norm_num, by norm_num, by norm_num, ?_⟩
  have h : (0 : ℝ) < targetEnergy 100 (1 / 10) (-1) := by norm_num [targetEnergy]
  exact lt_of_lt_of_le (by positivity) (C105_thomson h).1

/-! ### photons from all directions: the cooling by SSC -/

theorem loss_zero : loss 0 = 1 := by
  rw [← integral_thomson]
  unfold loss
  refine intervalIntegral.integral_congr fun c _ => ?_
  simp only [shift, differential]
  norm_num
  ring

theorem loss_antitone : AntitoneOn loss (Set.Ici 0) := by
  intro a ha b _ hab
  rcases eq_or_lt_of_le (Set.mem_Ici.1 ha) with h | h
  · subst h
    rcases eq_or_lt_of_le hab with h' | h'
    · rw [h']
    · rw [loss_zero]; exact (C105_thomson h').2
  · exact C105_suppression h hab

/-- the losses among photons of energy `ε` coming from all directions, in units of Thomson's, by `b = 4 γ ε` -/
noncomputable def isoLoss (b : ℝ) : ℝ := 3 / 8 * ∫ c in (-1)..1, (1 - c) ^ 2 * loss (b * (1 - c) / 4)

theorem integrable_iso {b : ℝ} (hb : 0 ≤ b) :
    IntervalIntegrable (fun c => (1 - c) ^ 2 * loss (b * (1 - c) / 4)) volume (-1) 1 := by
  have h : MonotoneOn (fun c => loss (b * (1 - c) / 4)) (Set.uIcc (-1) 1) := by
    intro x hx y hy hxy
    rw [Set.uIcc_of_le (by norm_num)] at hx hy
    have h1 : 0 ≤ 1 - x := by linarith [hx.2]
    have h2 : 0 ≤ 1 - y := by linarith [hy.2]
    refine loss_antitone (Set.mem_Ici.2 (by positivity)) (Set.mem_Ici.2 (by positivity)) ?_
    nlinarith
  exact h.intervalIntegrable.continuousOn_mul (by fun_prop)

/-- **C105** (isotropic).  The mean of the power over the directions. -/
theorem C105_isotropic {n ε g : ℝ} :
    1 / 2 * ∫ c in (-1)..1, power k n ε c g = 4 / 3 * k.sigma_T * k.c * (n * ε * k.mec2) * g ^ 2 * isoLoss (4 * g * ε) := by
  unfold isoLoss
  rw [← mul_assoc, ← intervalIntegral.integral_const_mul, ← intervalIntegral.integral_const_mul]
  refine intervalIntegral.integral_congr fun c _ => ?_
  have e : 4 * g * ε * (1 - c) / 4 = targetEnergy g ε c := by unfold targetEnergy; ring
  simp only [power, e]
  unfold targetEnergy
  ring

theorem integral_square : ∫ c in (-1 : ℝ)..1, (1 - c) ^ 2 = 8 / 3 := by
  have := intervalIntegral.integral_comp_sub_left (fun x : ℝ => x ^ 2) (a := -1) (b := 1) 1
  rw [this, integral_pow]
  norm_num

/-- the suppression lies between that of Thomson and a power of `1 + b` -/
theorem C105_isotropic_bounds {b : ℝ} (hb : 0 < b) : 1 / (1 + b) ^ 3 ≤ isoLoss b ∧ isoLoss b ≤ 1 := by
  have key : ∀ c ∈ Set.Icc (-1 : ℝ) 1, (1 - c) ^ 2 * (1 / (1 + b) ^ 3) ≤ (1 - c) ^ 2 * loss (b * (1 - c) / 4)
      ∧ (1 - c) ^ 2 * loss (b * (1 - c) / 4) ≤ (1 - c) ^ 2 := by
    intro c hc
    have h1 : 0 ≤ 1 - c := by linarith [hc.2]
    have h2 : 1 - c ≤ 2 := by linarith [hc.1]
    have h0 : 0 ≤ b * (1 - c) / 4 := by positivity
    have hl : 1 / (1 + b) ^ 3 ≤ loss (b * (1 - c) / 4) ∧ loss (b * (1 - c) / 4) ≤ 1 := by
      rcases eq_or_lt_of_le h0 with h | h
      · rw [← h, loss_zero]
        refine ⟨?_, le_rfl⟩
        rw [div_le_one (by positivity)]
        exact one_le_pow₀ (by linarith)
      · obtain ⟨l, u⟩ := C105_thomson h
        refine ⟨le_trans ?_ l, u⟩
        apply one_div_le_one_div_of_le (by positivity)
        exact pow_le_pow_left₀ (by positivity) (by nlinarith) 3
    exact ⟨mul_le_mul_of_nonneg_left hl.1 (sq_nonneg _), mul_le_of_le_one_right (sq_nonneg _) hl.2⟩
  have hi := integrable_iso hb.le
  have hT : IntervalIntegrable (fun c : ℝ => (1 - c) ^ 2) volume (-1) 1 := by
    apply Continuous.intervalIntegrable; fun_prop
  have l := intervalIntegral.integral_mono_on (by norm_num) (hT.mul_const (1 / (1 + b) ^ 3)) hi fun c hc => (key c hc).1
  have u := intervalIntegral.integral_mono_on (by norm_num) hi hT fun c hc => (key c hc).2
  rw [intervalIntegral.integral_mul_const, integral_square] at l
  rw [integral_square] at u
  unfold isoLoss
  constructor <;> linarith

/-- **C105** (cooling by SSC).  The approximation `fKN` of the energy loss rate of SSC and the losses of Klein and Nishina
agree in the limit of Thomson. -/
theorem C105_cooling {b : ℝ} (hb : 0 < b) (h : b < 10 ^ 4) : |fKN b - isoLoss b| ≤ 3 * b := by
  obtain ⟨l, u⟩ := C105_isotropic_bounds hb
  have hf := C55_factor hb.le
  have e : 1 - 3 * b ≤ 1 / (1 + b) ^ 3 := by
    rw [le_div_iff₀ (by positivity)]
    nlinarith [sq_nonneg b, mul_pos hb hb, mul_pos (mul_pos hb hb) hb, mul_pos (mul_pos hb hb) (mul_pos hb hb)]
  have f : 1 / (1 + b) ^ 3 ≤ fKN b := by
    rw [fKN_low h]
    apply one_div_le_one_div_of_le (Real.rpow_pos_of_pos (by linarith) _)
    rw [← Real.rpow_natCast]
    exact Real.rpow_le_rpow_of_exponent_le (by linarith) (by norm_num)
  rw [abs_le]
  constructor <;> linarith [hf.2]

end Verif.Compton
