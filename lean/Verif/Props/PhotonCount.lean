import Verif.Props.KernelSums
import Verif.Model.Compton
import Verif.Props.Targets

/-
C102 on the level of the SEDs: the number of photons that external Compton sends to the observer is the number of
collisions between electrons and target photons.

Specification: `rate`, the collision rate of an electron with a beam of photons of density `n` (Klein-Nishina).  The
photon flux of an SED is the integral of ν F_ν / (h ν²).
-/

namespace Verif.Compton

open MathUtils Geometry Kernels Targets MeasureTheory

/-- collisions per unit time of one electron with a beam of `n` photons per unit volume of energy `ε`, the cosine
between the directions being `c` -/
noncomputable def rate (k : Consts) (n ε c g : ℝ) : ℝ :=
  k.sigma_T * k.c * n * (1 - c) * kleinNishina (targetEnergy g ε c)

/-- photons per unit area and time below the frequency `m` of an SED -/
noncomputable def photonFlux (k : Consts) (m : ℝ) (sed : ℝ → ℝ) : ℝ := ∫ nu in (0)..m, sed nu / (k.h * nu ^ 2)

/-- integrable with the given integral -/
def Counted (m : ℝ) (F : ℝ → ℝ) (v : ℝ) : Prop := IntervalIntegrable F volume 0 m ∧ ∫ nu in (0)..m, F nu = v

variable {m : ℝ} {F : ℝ → ℝ} {v : ℝ}

theorem Counted.const_mul (h : Counted m F v) (a : ℝ) : Counted m (fun nu => a * F nu) (a * v) :=
  ⟨h.1.const_mul a, by rw [intervalIntegral.integral_const_mul, h.2]⟩

theorem Counted.add {G : ℝ → ℝ} {w : ℝ} (h : Counted m F v) (h' : Counted m G w) :
    Counted m (fun nu => F nu + G nu) (v + w) :=
  ⟨h.1.add h'.1, by rw [intervalIntegral.integral_add h.1 h'.1, h.2, h'.2]⟩

theorem counted_zero : Counted m (fun _ => 0) 0 := ⟨intervalIntegrable_const, by simp⟩

theorem Counted.congr {G : ℝ → ℝ} (hm : 0 ≤ m) (h : Counted m F v) (e : ∀ nu, 0 < nu → nu ≤ m → F nu = G nu) :
    Counted m G v := by
  have a : ∀ᵐ s ∂volume, s ∈ Set.uIoc 0 m → F s = G s := by
    refine Filter.Eventually.of_forall fun s hs => ?_
    rw [Set.uIoc_of_le hm] at hs
    exact e s hs.1 hs.2
  refine ⟨h.1.congr_ae ?_, ?_⟩
  · rw [Filter.EventuallyEq, ae_restrict_iff' measurableSet_uIoc]; exact a
  · rw [← intervalIntegral.integral_congr_ae a, h.2]

theorem counted_trapz {Fs : List (ℝ → ℝ)} {vs : List ℝ} (h : List.Forall₂ (Counted m) Fs vs) (xs : List ℝ) :
    Counted m (fun nu => trapz (Fs.map (· nu)) xs) (trapz vs xs) := by
  induction h generalizing xs with
  | nil => simpa [trapz] using counted_zero
  | @cons F v Fs vs h1 t ih =>
    cases t with
    | nil => cases xs <;> simpa [trapz] using counted_zero
    | @cons G w Fs vs h2 t =>
      match xs with
      | [] => simpa [trapz] using counted_zero
      | [_] => simpa [trapz] using counted_zero
      | x :: y :: xs =>
        have := ((h1.add h2).const_mul ((y - x) / 2)).add (ih (y :: xs))
        simp only [List.map_cons, trapz] at this ⊢
        convert this using 2 <;> ring

theorem counted_over {grid : List ℝ} {G : ℝ → ℝ → ℝ} {w : ℝ → ℝ} (h : ∀ x ∈ grid, Counted m (G x) (w x)) :
    Counted m (fun nu => Verif.over trapz grid fun x => G x nu) (Verif.over trapz grid w) := by
  have : List.Forall₂ (Counted m) (grid.map G) (grid.map w) := by
    rw [List.forall₂_map_left_iff, List.forall₂_map_right_iff]
    exact List.forall₂_same.2 h
  have := counted_trapz this grid
  simpa [Verif.over, List.map_map, Function.comp_def] using this

theorem counted_fold {Ns gs : List ℝ} {G : ℝ → ℝ → ℝ → ℝ} {w : ℝ → ℝ → ℝ}
    (h : ∀ N, ∀ g ∈ gs, Counted m (G N g) (w N g)) :
    Counted m (fun nu => fold trapz Ns gs fun N g => G N g nu) (fold trapz Ns gs w) := by
  have : List.Forall₂ (Counted m) (List.zipWith G Ns gs) (List.zipWith w Ns gs) := by
    induction Ns generalizing gs with
    | nil => simp
    | cons N Ns ih =>
      cases gs with
      | nil => simp
      | cons g gs =>
        simp only [List.zipWith_cons_cons]
        exact .cons (h N g (by simp)) (ih fun N g' hg => h N g' (by simp [hg]))
  have := counted_trapz this gs
  simpa [fold, List.map_zipWith] using this

/-- the integral of the kernel over the frequencies -/
theorem counted_kernel {g ε mu_s mu φ κ : ℝ} (hg : 0 < g) (he : 0 < ε) (hκ : 0 < κ) (hm : g ≤ κ * m)
    (h1 : mu_s ∈ Set.Icc (-1) 1) (h2 : mu ∈ Set.Icc (-1) 1) :
    Counted m (fun nu => comptonKernel g (κ * nu) ε mu_s mu φ)
      (8 / (3 * κ) * g * targetEnergy g ε (cosPsi mu_s mu φ)
        * kleinNishina (targetEnergy g ε (cosPsi mu_s mu φ))) := by
  have hc := (C38_range h1 h2 φ).2
  rcases eq_or_lt_of_le hc with h | h
  · have hm0 : 0 ≤ m := by
      by_contra hneg
      push Not at hneg
      nlinarith
    rw [h]
    have e : 8 / (3 * κ) * g * targetEnergy g ε 1 * kleinNishina (targetEnergy g ε 1) = 0 := by
      simp [targetEnergy]
    rw [e]
    refine counted_zero.congr hm0 fun nu h0 _ => ?_
    rw [C39_zero hg (by positivity) he hc (Or.inl h)]
  · obtain ⟨i, e⟩ := count_aux hg he h hm
    refine ⟨?_, ?_⟩
    · have := i.comp_mul_left (c := κ)
      simpa [hκ.ne'] using this
    · rw [intervalIntegral.integral_comp_mul_left (fun s => comptonKernel g s ε mu_s mu φ) hκ.ne', mul_zero, e,
        smul_eq_mul]
      field_simp

/-- energy over frequency -/
noncomputable def kappa (k : Consts) (z : ℝ) : ℝ := (1 + z) * k.h / k.mec2

theorem nuToEps_kappa (k : Consts) (nu z : ℝ) : nuToEps k nu z 1 = kappa k z * nu := by
  unfold nuToEps kappa; ring

theorem kappa_pos {k : Consts} (hk : k.Pos) {z : ℝ} (hz : -1 < z) : 0 < kappa k z := by
  have h1 := hk.h
  have h2 : 0 < k.mec2 := by
    have := hk.m_e; have := hk.c
    unfold Consts.mec2; positivity
  have : 0 < 1 + z := by linarith
  unfold kappa; positivity

theorem flux_of {k : Consts} {κ P V : ℝ} {T sed : ℝ → ℝ} (hm : 0 ≤ m) (hT : Counted m T V)
    (h : ∀ nu, sed nu = P * (κ * nu) ^ 2 * T nu) : photonFlux k m sed = P * κ ^ 2 / k.h * V := by
  refine ((hT.const_mul (P * κ ^ 2 / k.h)).congr hm fun nu h0 _ => ?_).2
  rw [h]
  field_simp

theorem fold_mul {Ns gs : List ℝ} (a : ℝ) (f : ℝ → ℝ → ℝ) :
    fold trapz Ns gs (fun N g => a * f N g) = a * fold trapz Ns gs f := by
  unfold fold
  have key : ∀ ys xs : List ℝ, trapz (ys.map (a * ·)) xs = a * trapz ys xs := by
    intro ys
    induction ys with
    | nil => intro xs; simp [trapz]
    | cons y ys ih =>
      intro xs
      match ys, xs with
      | [], [] => simp [trapz]
      | [], _ :: _ => simp [trapz]
      | _ :: _, [] => simp [trapz]
      | _ :: _, [_] => simp [trapz]
      | y' :: ys, x :: x' :: xs =>
        have := ih (x' :: xs)
        simp only [List.map_cons, trapz] at this ⊢
        rw [this]; ring
  rw [← key, List.map_zipWith]

theorem fold_congr {Ns gs : List ℝ} {f f' : ℝ → ℝ → ℝ} (h : ∀ N, ∀ g ∈ gs, f N g = f' N g) :
    fold trapz Ns gs f = fold trapz Ns gs f' := by
  unfold fold
  congr 1
  induction Ns generalizing gs with
  | nil => simp
  | cons N Ns ih =>
    cases gs with
    | nil => simp
    | cons g gs =>
      simp only [List.zipWith_cons_cons]
      rw [h N g (by simp), ih fun N g' hg => h N g' (by simp [hg])]

variable {k : Consts} {z d_L delta_D mu_s R_b : ℝ} {n_e : Spectra.Dist} {gamma : List ℝ}

/-- C102, point source behind the jet: photons received are collisions.  The electrons move along the
line of sight (`comptonKernel` is the head-on approximation), the target photons along the jet. -/
theorem C102_ps {epsilon_0 L_0 r : ℝ} (hk : k.Pos) (hz : -1 < z) (he : 0 < epsilon_0)
    (hs : mu_s ∈ Set.Icc (-1) 1) (hm : 0 ≤ m) (hr : 0 < r) (hd : 0 < d_L) (hg : ∀ g ∈ gamma, 0 < g ∧ g ≤ kappa k z * m) :
    photonFlux k m (fun nu => psBehindJet k trapz nu z d_L delta_D mu_s R_b epsilon_0 L_0 r n_e gamma)
      = (1 + z) * delta_D ^ 3 / (4 * Real.pi * d_L ^ 2)
        * fold trapz (boostedN n_e R_b delta_D gamma) gamma fun N g =>
          N * rate k (L_0 / (4 * Real.pi * k.c * r ^ 2) / (epsilon_0 * k.mec2)) epsilon_0 (cosPsi mu_s 1 0) g := by
  have hκ := kappa_pos hk hz
  have hc := hk.c
  have h1 := hk.h
  have hmec : 0 < k.mec2 := by
    have := hk.m_e
    unfold Consts.mec2; positivity
  have hT := counted_fold (m := m) (Ns := boostedN n_e R_b delta_D gamma) (gs := gamma)
    (G := fun N g nu => N / g ^ 2 * comptonKernel g (kappa k z * nu) epsilon_0 mu_s 1 0)
    (fun N g h => (counted_kernel (φ := 0) (hg g h).1 he hκ (hg g h).2 hs (by norm_num)).const_mul (N / g ^ 2))
  rw [flux_of (P := 3 * k.sigma_T * L_0 * delta_D ^ 3 / (2 ^ 7 * Real.pi ^ 2 * d_L ^ 2 * r ^ 2 * epsilon_0 ^ 2))
    (κ := kappa k z) hm hT (fun nu => by unfold psBehindJet; simp only [nuToEps_kappa]; ring)]
  rw [← fold_mul, ← fold_mul]
  refine fold_congr fun N g hgm => ?_
  have hg0 := (hg g hgm).1
  have hz' : 0 < 1 + z := by linarith
  unfold rate
  generalize kleinNishina (targetEnergy g epsilon_0 (cosPsi mu_s 1 0)) = K
  unfold targetEnergy kappa
  field_simp
  ring

theorem over_mul' {grid : List ℝ} (a : ℝ) (f : ℝ → ℝ) :
    a * Verif.over trapz grid f = Verif.over trapz grid fun x => a * f x := by
  have := fold_mul (Ns := grid) (gs := grid) a fun x _ => f x
  unfold fold at this
  simpa [Verif.over, List.zipWith_self] using this.symm

theorem over_congr' {grid : List ℝ} {f f' : ℝ → ℝ} (h : ∀ x ∈ grid, f x = f' x) :
    Verif.over trapz grid f = Verif.over trapz grid f' := by
  unfold Verif.over
  rw [List.map_congr_left h]

/-- C102, isotropic monochromatic field: photons received are collisions, the photons of the field coming evenly from
all directions -/
theorem C102_iso {epsilon_0 u_0 : ℝ} {mu phi : List ℝ} (hk : k.Pos) (hz : -1 < z) (he : 0 < epsilon_0)
    (hs : mu_s ∈ Set.Icc (-1) 1) (hmu : ∀ x ∈ mu, x ∈ Set.Icc (-1) 1) (hm : 0 ≤ m) (hd : 0 < d_L)
    (hg : ∀ g ∈ gamma, 0 < g ∧ g ≤ kappa k z * m) :
    photonFlux k m (fun nu => isoMono k trapz nu z d_L delta_D mu_s R_b epsilon_0 u_0 n_e gamma mu phi)
      = (1 + z) * delta_D ^ 3 / (4 * Real.pi * d_L ^ 2)
        * Verif.over trapz phi fun φ => Verif.over trapz mu fun μ =>
          fold trapz (boostedN n_e R_b delta_D gamma) gamma fun N g =>
            N * rate k (u_0 / (4 * Real.pi) / (epsilon_0 * k.mec2)) epsilon_0 (cosPsi mu_s μ φ) g := by
  have hκ := kappa_pos hk hz
  have hc := hk.c
  have h1 := hk.h
  have hmec : 0 < k.mec2 := by
    have := hk.m_e
    unfold Consts.mec2; positivity
  have hT := counted_over (m := m) (grid := phi) fun φ _ => counted_over (m := m) (grid := mu) fun μ hμ =>
    counted_fold (m := m) (Ns := boostedN n_e R_b delta_D gamma) (gs := gamma)
    (G := fun N g nu => N / g ^ 2 * comptonKernel g (kappa k z * nu) epsilon_0 mu_s μ φ)
    (fun N g h => (counted_kernel (φ := φ) (hg g h).1 he hκ (hg g h).2 hs (hmu μ hμ)).const_mul (N / g ^ 2))
  rw [flux_of (P := 3 * k.c * k.sigma_T * u_0 * delta_D ^ 3 / (2 ^ 7 * Real.pi ^ 2 * d_L ^ 2 * epsilon_0 ^ 2))
    (κ := kappa k z) hm hT (fun nu => by unfold isoMono; simp only [nuToEps_kappa]; ring)]
  rw [over_mul', over_mul']
  refine over_congr' fun φ _ => ?_
  rw [over_mul', over_mul']
  refine over_congr' fun μ _ => ?_
  rw [← fold_mul, ← fold_mul]
  refine fold_congr fun N g hgm => ?_
  have hg0 := (hg g hgm).1
  have hz' : 0 < 1 + z := by linarith
  unfold rate
  generalize kleinNishina (targetEnergy g epsilon_0 (cosPsi mu_s μ φ)) = K
  unfold targetEnergy kappa
  field_simp
  ring

/-- C102, torus: photons received are collisions, the energy density of a piece of the ring being
`xi_dt L_disk / (8 π² c x²)` per azimuth -/
theorem C102_dt {L_disk xi_dt epsilon_dt R_dt r : ℝ} {phi : List ℝ} (hk : k.Pos) (hz : -1 < z) (he : 0 < epsilon_dt)
    (hs : mu_s ∈ Set.Icc (-1) 1) (hm : 0 ≤ m) (hd : 0 < d_L) (hR : 0 < R_dt)
    (hg : ∀ g ∈ gamma, 0 < g ∧ g ≤ kappa k z * m) :
    photonFlux k m (fun nu => dt k trapz nu z d_L delta_D mu_s R_b L_disk xi_dt epsilon_dt R_dt r n_e gamma phi)
      = (1 + z) * delta_D ^ 3 / (4 * Real.pi * d_L ^ 2)
        * Verif.over trapz phi fun φ =>
          fold trapz (boostedN n_e R_b delta_D gamma) gamma fun N g =>
            N * rate k (xi_dt * L_disk / (8 * Real.pi ^ 2 * k.c * (R_dt ^ 2 + r ^ 2)) / (epsilon_dt * k.mec2)) epsilon_dt
              (cosPsi mu_s (r / √(R_dt ^ 2 + r ^ 2)) φ) g := by
  have hκ := kappa_pos hk hz
  have hc := hk.c
  have h1 := hk.h
  have hmec : 0 < k.mec2 := by
    have := hk.m_e
    unfold Consts.mec2; positivity
  have hx : 0 < R_dt ^ 2 + r ^ 2 := by positivity
  have hmu : r / √(R_dt ^ 2 + r ^ 2) ∈ Set.Icc (-1) 1 := by
    have hr := Real.abs_le_sqrt (show r ^ 2 ≤ R_dt ^ 2 + r ^ 2 by nlinarith)
    rw [abs_le] at hr
    have hp : 0 < √(R_dt ^ 2 + r ^ 2) := Real.sqrt_pos.2 hx
    constructor
    · rw [le_div_iff₀ hp]; linarith
    · rw [div_le_one hp]; exact hr.2
  have hT := counted_over (m := m) (grid := phi) fun φ _ =>
    counted_fold (m := m) (Ns := boostedN n_e R_b delta_D gamma) (gs := gamma)
    (G := fun N g nu => N / g ^ 2 * comptonKernel g (kappa k z * nu) epsilon_dt mu_s (r / √(R_dt ^ 2 + r ^ 2)) φ)
    (fun N g h => (counted_kernel (φ := φ) (hg g h).1 he hκ (hg g h).2 hs hmu).const_mul (N / g ^ 2))
  rw [flux_of (P := 3 * k.sigma_T * xi_dt * L_disk * delta_D ^ 3
      / (2 ^ 8 * Real.pi ^ 3 * d_L ^ 2 * √(R_dt ^ 2 + r ^ 2) ^ 2 * epsilon_dt ^ 2))
    (κ := kappa k z) hm hT (fun nu => by unfold dt xReRing; simp only [nuToEps_kappa]; ring)]
  rw [Real.sq_sqrt hx.le, over_mul', over_mul']
  refine over_congr' fun φ _ => ?_
  rw [← fold_mul, ← fold_mul]
  refine fold_congr fun N g hgm => ?_
  have hg0 := (hg g hgm).1
  have hz' : 0 < 1 + z := by linarith
  unfold rate
  generalize cosPsi mu_s (r / √(R_dt ^ 2 + r ^ 2)) φ = c
  generalize kleinNishina (targetEnergy g epsilon_dt c) = K
  unfold targetEnergy kappa
  field_simp
  ring

/-- C102, broad line region: photons received are collisions, the energy density of a piece of the shell being
`xi_line L_disk / (16 π² c x²)` per solid angle seen from the black hole -/
theorem C102_blr {L_disk xi_line epsilon_line R_line r : ℝ} {mu phi : List ℝ} (hk : k.Pos) (hz : -1 < z)
    (he : 0 < epsilon_line) (hs : mu_s ∈ Set.Icc (-1) 1) (hmu : ∀ x ∈ mu, x ∈ Set.Icc (-1) 1) (hm : 0 ≤ m)
    (hd : 0 < d_L) (hx : ∀ x ∈ mu, xReShell x R_line r ≠ 0)
    (hg : ∀ g ∈ gamma, 0 < g ∧ g ≤ kappa k z * m) :
    photonFlux k m
        (fun nu => blr k trapz nu z d_L delta_D mu_s R_b L_disk xi_line epsilon_line R_line r n_e gamma mu phi)
      = (1 + z) * delta_D ^ 3 / (4 * Real.pi * d_L ^ 2)
        * Verif.over trapz phi fun φ => Verif.over trapz mu fun μ =>
          fold trapz (boostedN n_e R_b delta_D gamma) gamma fun N g =>
            N * rate k (xi_line * L_disk / (16 * Real.pi ^ 2 * k.c * xReShell μ R_line r ^ 2)
                / (epsilon_line * k.mec2)) epsilon_line (cosPsi mu_s (muStarShell μ R_line r) φ) g := by
  have hκ := kappa_pos hk hz
  have hc := hk.c
  have h1 := hk.h
  have hmec : 0 < k.mec2 := by
    have := hk.m_e
    unfold Consts.mec2; positivity
  have hT := counted_over (m := m) (grid := phi) fun φ _ => counted_over (m := m) (grid := mu) fun μ hμ =>
    counted_fold (m := m) (Ns := boostedN n_e R_b delta_D gamma) (gs := gamma)
    (G := fun N g nu => 1 / xReShell μ R_line r ^ 2 * N / g ^ 2
      * comptonKernel g (kappa k z * nu) epsilon_line mu_s (muStarShell μ R_line r) φ)
    (fun N g h => (counted_kernel (φ := φ) (hg g h).1 he hκ (hg g h).2 hs
      (C35_range (hmu μ hμ) (hx μ hμ))).const_mul (1 / xReShell μ R_line r ^ 2 * N / g ^ 2))
  rw [flux_of (P := 3 * k.sigma_T * xi_line * L_disk * delta_D ^ 3 / (2 ^ 9 * Real.pi ^ 3 * d_L ^ 2 * epsilon_line ^ 2))
    (κ := kappa k z) hm hT (fun nu => by unfold blr; simp only [nuToEps_kappa]; ring)]
  rw [over_mul', over_mul']
  refine over_congr' fun φ _ => ?_
  rw [over_mul', over_mul']
  refine over_congr' fun μ hμ => ?_
  have hxx := hx μ hμ
  rw [← fold_mul, ← fold_mul]
  refine fold_congr fun N g hgm => ?_
  have hg0 := (hg g hgm).1
  have hz' : 0 < 1 + z := by linarith
  unfold rate
  generalize cosPsi mu_s (muStarShell μ R_line r) φ = c
  generalize xReShell μ R_line r = x at hxx
  generalize kleinNishina (targetEnergy g epsilon_line c) = K
  unfold targetEnergy kappa
  field_simp
  ring

/-- C102, disk: photons received are collisions, the energy density of a ring of the disk being that of
`SSDisk.u` per azimuth -/
theorem C102_disk {M_BH L_disk eta R_in R_out r : ℝ} {mu_size : ℕ} {phi : List ℝ} (hk : k.Pos) (hz : -1 < z)
    (hs : mu_s ∈ Set.Icc (-1) 1) (hm : 0 ≤ m) (hd : 0 < d_L) (hr : 0 < r) (hη : 0 < eta)
    (hmu : ∀ x ∈ SSDisk.muFromRTilde (toRg k R_in M_BH) (toRg k R_out M_BH) (toRg k r M_BH) mu_size,
      0 < x ∧ x < 1 ∧ 0 < SSDisk.epsilonMu k L_disk M_BH eta x (toRg k r M_BH))
    (hg : ∀ g ∈ gamma, 0 < g ∧ g ≤ kappa k z * m) :
    photonFlux k m
        (fun nu => ssDisk k trapz nu z d_L delta_D mu_s R_b M_BH L_disk eta R_in R_out r n_e gamma mu_size phi)
      = (1 + z) * delta_D ^ 3 / (4 * Real.pi * d_L ^ 2)
        * Verif.over trapz phi fun φ =>
          Verif.over trapz (SSDisk.muFromRTilde (toRg k R_in M_BH) (toRg k R_out M_BH) (toRg k r M_BH) mu_size) fun μ =>
          fold trapz (boostedN n_e R_b delta_D gamma) gamma fun N g =>
            N * rate k (3 * k.G * M_BH * (L_disk / (eta * k.c ^ 2)) / (16 * Real.pi ^ 2 * k.c * r ^ 3)
                * SSDisk.phiDiskMu μ (toRg k R_in M_BH) (toRg k r M_BH) / μ / (μ ^ (-2 : ℤ) - 1) ^ (3 / 2 : ℝ)
                / (SSDisk.epsilonMu k L_disk M_BH eta μ (toRg k r M_BH) * k.mec2))
              (SSDisk.epsilonMu k L_disk M_BH eta μ (toRg k r M_BH)) (cosPsi mu_s μ φ) g := by
  have hκ := kappa_pos hk hz
  have hc := hk.c
  have h1 := hk.h
  have hmec : 0 < k.mec2 := by
    have := hk.m_e
    unfold Consts.mec2; positivity
  set grid := SSDisk.muFromRTilde (toRg k R_in M_BH) (toRg k R_out M_BH) (toRg k r M_BH) mu_size with hgrid
  have hT := counted_over (m := m) (grid := phi) fun φ _ => counted_over (m := m) (grid := grid) fun μ hμ =>
    counted_fold (m := m) (Ns := boostedN n_e R_b delta_D gamma) (gs := gamma)
    (G := fun N g nu => SSDisk.phiDiskMu μ (toRg k R_in M_BH) (toRg k r M_BH)
        / SSDisk.epsilonMu k L_disk M_BH eta μ (toRg k r M_BH) ^ 2 / μ / (μ ^ (-2 : ℤ) - 1) ^ (3 / 2 : ℝ) * N / g ^ 2
      * comptonKernel g (kappa k z * nu) (SSDisk.epsilonMu k L_disk M_BH eta μ (toRg k r M_BH)) mu_s μ φ)
    (fun N g h => (counted_kernel (φ := φ) (hg g h).1 (hmu μ hμ).2.2 hκ (hg g h).2 hs
      ⟨by linarith [(hmu μ hμ).1], (hmu μ hμ).2.1.le⟩).const_mul _)
  rw [flux_of (P := 9 * k.sigma_T * k.G * M_BH * (L_disk / (eta * k.c ^ 2)) * delta_D ^ 3
      / (2 ^ 9 * Real.pi ^ 3 * d_L ^ 2 * r ^ 3))
    (κ := kappa k z) hm hT (fun nu => by unfold ssDisk; simp only [nuToEps_kappa, ← hgrid]; ring)]
  rw [over_mul', over_mul']
  refine over_congr' fun φ _ => ?_
  rw [over_mul', over_mul']
  refine over_congr' fun μ hμ => ?_
  obtain ⟨hμ0, hμ1, heps⟩ := hmu μ hμ
  rw [← fold_mul, ← fold_mul]
  refine fold_congr fun N g hgm => ?_
  have hg0 := (hg g hgm).1
  have hz' : 0 < 1 + z := by linarith
  have hw : 0 < (μ ^ (-2 : ℤ) - 1 : ℝ) ^ (3 / 2 : ℝ) := by
    apply Real.rpow_pos_of_pos
    have : 1 < μ ^ (-2 : ℤ) := one_lt_zpow_of_neg₀ hμ0 hμ1 (by norm_num)
    linarith
  unfold rate
  generalize (μ ^ (-2 : ℤ) - 1 : ℝ) ^ (3 / 2 : ℝ) = W at hw
  generalize cosPsi mu_s μ φ = c
  generalize SSDisk.phiDiskMu μ (toRg k R_in M_BH) (toRg k r M_BH) = Φ
  generalize SSDisk.epsilonMu k L_disk M_BH eta μ (toRg k r M_BH) = e at heps
  generalize kleinNishina (targetEnergy g e c) = K
  unfold targetEnergy kappa
  field_simp
  ring

/-- the hypothesis on the nodes holds for every disk -/
theorem disk_nodes (hk : k.Pos) {d : SSDisk} {r : ℝ} (hd : Absorption.DiskOK d r) {n : ℕ} (hn : 2 ≤ n) :
    ∀ x ∈ SSDisk.muFromRTilde (toRg k d.R_in d.M_BH) (toRg k d.R_out d.M_BH) (toRg k r d.M_BH) n,
      0 < x ∧ x < 1 ∧ 0 < SSDisk.epsilonMu k d.L_disk d.M_BH d.eta x (toRg k r d.M_BH) := by
  intro x hx
  have h1 := Absorption.toRg_pos hk hd.R_in hd.M_BH
  have h2 := Absorption.toRg_pos hk (hd.R_in.trans hd.R_out) hd.M_BH
  have h3 := Absorption.toRg_pos hk hd.r hd.M_BH
  have hlt : toRg k d.R_in d.M_BH ≤ toRg k d.R_out d.M_BH := by
    unfold toRg
    have := hk.G; have := hk.c; have := hd.M_BH
    exact div_le_div_of_nonneg_right hd.R_out.le (by positivity)
  unfold SSDisk.muFromRTilde at hx
  generalize toRg k d.R_in d.M_BH = a at *
  generalize toRg k d.R_out d.M_BH = b at *
  generalize toRg k r d.M_BH = c at *
  have hle : 1 / √(1 + (b / c) ^ 2) ≤ 1 / √(1 + (a / c) ^ 2) := by
    apply one_div_le_one_div_of_le (by positivity)
    apply Real.sqrt_le_sqrt
    have : a / c ≤ b / c := div_le_div_of_nonneg_right hlt h3.le
    have : 0 < a / c := by positivity
    nlinarith
  obtain ⟨l, u⟩ := linspace_mem hle hn hx
  have hx0 : 0 < x := lt_of_lt_of_le (by positivity) l
  have hx1 : x < 1 := by
    refine lt_of_le_of_lt u ?_
    rw [div_lt_one (by positivity), Real.lt_sqrt (by norm_num)]
    have : 0 < a / c := by positivity
    nlinarith [sq_nonneg (a / c)]
  refine ⟨hx0, hx1, ?_⟩
  apply Absorption.disk_eps_pos hk hd.L_disk hd.M_BH hd.eta
  unfold SSDisk.radius
  have : 1 < x ^ (-2 : ℤ) := one_lt_zpow_of_neg₀ hx0 hx1 (by norm_num)
  have : 0 < √(x ^ (-2 : ℤ) - 1) := Real.sqrt_pos.2 (by linarith)
  positivity

/-- the hypotheses hold for a grid of Lorentz factors, a disk, and frequencies up to the largest energy -/
example : (⟨1, 1, 1, 1, 1, 1, 1, 1, 1, 1⟩ : Consts).Pos ∧ (-1 : ℝ) < 1 / 2
    ∧ Absorption.DiskOK ⟨1, 1, 1 / 12, 6, 200⟩ 1
    ∧ ∀ g ∈ ([1, 10, 100] : List ℝ), 0 < g ∧ g ≤ kappa ⟨1, 1, 1, 1, 1, 1, 1, 1, 1, 1⟩ (1 / 2) * 1000 := by
  refine ⟨by constructor <;> norm_num, by norm_num, by constructor <;> norm_num, ?_⟩
  intro g hg
  simp only [List.mem_cons, List.not_mem_nil, or_false] at hg
  rcases hg with rfl | rfl | rfl <;> norm_num [kappa, Consts.mec2]

end Verif.Compton
