import Verif.Props.Limits
import Verif.Props.Disk
import Verif.Props.Redshift

/-
C83: one radiation field per target.  The photons of a target at a point are described by one object, the energy
density per direction and photon energy.  The energy density that `u` reports is its integral, the external Compton SED
is one functional of it, with one constant for all targets, and the opacity another.
-/

noncomputable section

namespace Verif.TargetField

open MathUtils Spectra Geometry Kernels Region Targets Absorption Compton

variable {k : Consts}

/-! ### the specification -/

/-- a radiation field at a point: to a function of zenith cosine, azimuth and photon energy the sum of its values,
weighted with the energy density of the photons -/
abbrev Field := (ℝ → ℝ → ℝ → ℝ) → ℝ

/-- energy density at the distance `x` from a source of luminosity `L` -/
def diluted (k : Consts) (L x : ℝ) : ℝ := L / (4 * Real.pi * k.c * x ^ 2)

/-- photons of one energy, the same from everywhere -/
def isotropic (u eps : ℝ) (mu phi : List ℝ) : Field := fun f =>
  over trapz phi fun p => over trapz mu fun m => u / (4 * Real.pi) * f m p eps

/-- a point source behind -/
def behind (k : Consts) (L eps r : ℝ) : Field := fun f => diluted k L r * f 1 0 eps

/-- sources spread over a sphere of radius `R` around the origin, seen from the point `r` of the axis: `m` is the cosine
of the zenith angle of the source, `y` that of the direction of its photons -/
def shell (k : Consts) (L eps R r : ℝ) (mu phi : List ℝ) : Field := fun f =>
  over trapz phi fun p => over trapz mu fun m =>
    let x := √((r - R * m) ^ 2 + R ^ 2 * (1 - m ^ 2))
    diluted k (L / (4 * Real.pi)) x * f ((r - R * m) / x) p eps

/-- sources spread over a ring of radius `R` around the axis, seen from the point `r` of the axis -/
def ring (k : Consts) (L eps R r : ℝ) (phi : List ℝ) : Field := fun f =>
  over trapz phi fun p =>
    let x := √(R ^ 2 + r ^ 2)
    diluted k (L / (2 * Real.pi)) x * f (r / x) p eps

/-- luminosity of the two faces of the disk per unit of radius and azimuth, `2 R · 3 G M m_dot / (8 pi R^3)` with the
inner boundary term -/
def annulus (k : Consts) (t : SSDisk) (R : ℝ) : ℝ :=
  2 * R * (3 * k.G * t.M_BH * (t.L_disk / (t.eta * k.c ^ 2)) / (8 * Real.pi * R ^ 3)) * (1 - √(t.R_in / R))

/-- energy of the photons emitted at the radius `R` -/
def diskEnergy (k : Consts) (t : SSDisk) (R : ℝ) : ℝ :=
  SSDisk.epsilon k t.L_disk t.M_BH t.eta (R / (k.G * t.M_BH / k.c ^ 2))

/-- the disk, seen from the point `r` of the axis, integrated over the radius -/
def annuli (k : Consts) (t : SSDisk) (r : ℝ) (R phi : List ℝ) : Field := fun f =>
  over trapz phi fun p => over trapz R fun R =>
    let x := √(R ^ 2 + r ^ 2)
    diluted k (annulus k t R) x * f (r / x) p (diskEnergy k t R)

/-- the radius of the disk that is seen under a zenith angle -/
def seen (r m : ℝ) : ℝ := r * √(1 / m ^ 2 - 1)

/-- the disk, integrated over the zenith cosine: `dR = |R'(m)| dm` -/
def disk (k : Consts) (t : SSDisk) (r : ℝ) (mu phi : List ℝ) : Field := fun f =>
  over trapz phi fun p => over trapz mu fun m =>
    let R := seen r m
    diluted k (annulus k t R) √(R ^ 2 + r ^ 2) * |deriv (seen r) m| * f m p (diskEnergy k t R)

/-- the energy density of a field -/
def total (F : Field) : ℝ := F fun _ _ _ => 1

/-- flux of photons scattered by the electrons of a blob, in nu F_nu: the same for every field.  The electrons of the
blob have the number `V_b n_e(gamma / delta)` per Lorentz factor in the frame of the galaxy. -/
def scattered (k : Consts) (I : List ℝ → List ℝ → ℝ) (b : Blob) (nu : ℝ) (F : Field) : ℝ :=
  let eps_s := (1 + b.z) * (k.h * nu / (k.m_e * k.c ^ 2))
  3 * k.c * k.sigma_T * eps_s ^ 2 * b.delta_D ^ 3 / (32 * Real.pi * b.d_L ^ 2)
    * F fun mu phi eps => 1 / eps ^ 2 * over I b.gamma_e_external_frame fun g =>
      4 / 3 * Real.pi * b.R_b ^ 3 * b.n_e.call (g / b.delta_D) / g ^ 2 * comptonKernel g eps_s eps b.mu_s mu phi

/-- probability of absorption per unit length in a field -/
def absorbed (k : Consts) (nu z mu_s : ℝ) (F : Field) : ℝ :=
  F fun mu phi eps =>
    let c := cosPsi mu_s mu phi
    (1 - c) * sigma k ((1 + z) * (k.h * nu / (k.m_e * k.c ^ 2)) * eps * (1 - c) / 2) / (eps * (k.m_e * k.c ^ 2))

/-- opacity along a path -/
def opacity (k : Consts) (nu z mu_s : ℝ) (path : List ℝ) (F : ℝ → Field) : ℝ :=
  over trapz path fun l => absorbed k nu z mu_s (F l)

/-! ### helpers -/

/-- the correction of the ends of the Lorentz factors does not apply to the transformed grid -/
def Uncorrected (b : Blob) : Prop :=
  b.n_e.afterCall (b.gamma_e_external_frame.map (· / b.delta_D)) = b.gamma_e_external_frame.map (· / b.delta_D)

theorem fold_boosted {b : Blob} (h : Uncorrected b) (I : List ℝ → List ℝ → ℝ) (f : ℝ → ℝ → ℝ) :
    fold I (boostedN b.n_e b.R_b b.delta_D b.gamma_e_external_frame) b.gamma_e_external_frame f
      = over I b.gamma_e_external_frame fun g => f (4 / 3 * Real.pi * b.R_b ^ 3 * b.n_e.call (g / b.delta_D)) g := by
  unfold fold boostedN Dist.evaluate over Synchrotron.volume
  dsimp only
  rw [h]
  congr 1
  rw [List.map_map, List.map_map, List.zipWith_map_left, List.zipWith_self]
  rfl

theorem nuToEps_one (nu z : ℝ) : nuToEps k nu z 1 = (1 + z) * (k.h * nu / (k.m_e * k.c ^ 2)) := by
  unfold nuToEps Consts.mec2
  rw [div_one]

theorem over_mul (grid : List ℝ) (c : ℝ) (f : ℝ → ℝ) : c * over trapz grid f = over trapz grid fun x => c * f x :=
  (over_scale homogeneous_trapz grid f c).symm

theorem shell_distance (R r m : ℝ) : √((r - R * m) ^ 2 + R ^ 2 * (1 - m ^ 2)) = xReShell m R r := by
  unfold xReShell
  congr 1
  ring

theorem shell_direction {R r m : ℝ} (hm : m ∈ Set.Icc (-1 : ℝ) 1) (hx : 0 < xReShell m R r) :
    muStarShell m R r = (r - R * m) / xReShell m R r := by
  rw [muStarShell_eq hm (Real.sqrt_pos.1 hx), mul_comm]

/-- the disk in units of the gravitational radius -/
theorem seen_radius (r g m : ℝ) : SSDisk.radius m (r / g) = seen r m / g := by
  unfold SSDisk.radius seen
  rw [zpow_neg, show (m ^ (2 : ℤ) : ℝ) = m ^ 2 by norm_cast, one_div]
  ring

theorem inv_sq_sub_pos {m : ℝ} (h : m ∈ Set.Ioo (0 : ℝ) 1) : 0 < 1 / m ^ 2 - 1 := by
  have h2 : m ^ 2 < 1 := by nlinarith [h.1, h.2]
  have h3 : 0 < m ^ 2 := pow_pos h.1 2
  rw [sub_pos, lt_div_iff₀ h3]
  linarith

theorem seen_deriv (r : ℝ) {m : ℝ} (h : m ∈ Set.Ioo (0 : ℝ) 1) :
    deriv (seen r) m = -(r * (1 / m ^ 3) / √(1 / m ^ 2 - 1)) := by
  have hp := inv_sq_sub_pos h
  have h0 : m ≠ 0 := h.1.ne'
  have h1 : HasDerivAt (fun t : ℝ => 1 / t ^ 2 - 1) (-(2 / m ^ 3)) m := by
    have := ((hasDerivAt_pow 2 m).inv (pow_ne_zero 2 h0)).sub_const 1
    have e : (fun t : ℝ => 1 / t ^ 2 - 1) = fun t => (fun y : ℝ => y ^ 2)⁻¹ t - 1 := by
      funext t; simp
    rw [e]
    refine this.congr_deriv ?_
    simp only [Nat.cast_ofNat, Nat.add_one_sub_one, pow_one]
    field_simp
  have h2 := (h1.sqrt hp.ne').const_mul r
  have h3 : seen r = fun t => r * √(1 / t ^ 2 - 1) := rfl
  rw [h3, h2.deriv]
  have := Real.sqrt_pos.2 hp
  field_simp

/-- the energy density of the disk per zenith cosine, as the code writes it -/
theorem disk_density {t : SSDisk} {r : ℝ} (hk : k.Pos) (ht : DiskOK t r) {m : ℝ} (h : m ∈ Set.Ioo (0 : ℝ) 1) :
    diluted k (annulus k t (seen r m)) √(seen r m ^ 2 + r ^ 2) * |deriv (seen r) m|
      = 3 * k.G * t.M_BH * (t.L_disk / (t.eta * k.c ^ 2)) / (16 * Real.pi ^ 2 * k.c * r ^ 3)
        * (1 / m * (m ^ (-2 : ℤ) - 1) ^ (-3 / 2 : ℝ) * (1 - √(t.R_in / seen r m))) := by
  have hp := inv_sq_sub_pos h
  have hr := ht.r
  have hm := h.1
  have hc := hk.c
  have he := ht.eta
  have hpi := Real.pi_pos
  rw [seen_deriv r h, abs_neg, abs_of_nonneg (by positivity)]
  have hs : √(seen r m ^ 2 + r ^ 2) ^ 2 = r ^ 2 / m ^ 2 := by
    rw [Real.sq_sqrt (by positivity)]
    unfold seen
    rw [mul_pow, Real.sq_sqrt hp.le]
    ring
  have hz : (m ^ (-2 : ℤ) : ℝ) = 1 / m ^ 2 := by
    rw [zpow_neg, show (m ^ (2 : ℤ) : ℝ) = m ^ 2 by norm_cast, one_div]
  set q := √(1 / m ^ 2 - 1) with hq
  have hqp : 0 < q := Real.sqrt_pos.2 hp
  have hpow : (m ^ (-2 : ℤ) - 1 : ℝ) ^ (-3 / 2 : ℝ) = 1 / q ^ 3 := by
    rw [hz, show (1 / m ^ 2 - 1 : ℝ) = q ^ 2 by rw [hq, Real.sq_sqrt hp.le], ← Real.rpow_natCast q 2,
      ← Real.rpow_mul hqp.le, show ((2 : ℕ) : ℝ) * (-3 / 2) = -((3 : ℕ) : ℝ) by norm_num, Real.rpow_neg hqp.le,
      Real.rpow_natCast, one_div]
  unfold diluted annulus
  rw [hs, hpow]
  have : seen r m = r * q := rfl
  rw [this]
  generalize 1 - √(t.R_in / (r * q)) = w
  field_simp
  ring

/-! ### the energy density -/

/-- C83: the energy density of a target is the integral of its field -/
theorem C83_cmb_density (t : CMB) {mu phi : List ℝ} (hmu : FullSphere mu) (hphi : FullCircle phi) :
    t.u none = total (isotropic t.u_0 t.epsilon_0 mu phi) := by
  unfold total isotropic
  simp only [mul_one]
  rw [over_const_span hmu.1 hmu.2, over_const_span hphi.1 hphi.2]
  unfold CMB.u
  have := Real.pi_ne_zero
  field_simp
  ring

/-- C83: point source -/
theorem C83_ps_density (k : Consts) (t : PS) (r : ℝ) :
    t.u k r none = total (behind k t.L_0 t.epsilon_0 r) := by
  unfold total behind diluted PS.u
  simp

theorem disk_angles (hk : k.Pos) {t : SSDisk} {r : ℝ} (ht : DiskOK t r) {n : ℕ} (hn : 2 ≤ n) {m : ℝ}
    (hm : m ∈ SSDisk.muFromRTilde (t.R_in_tilde k) (t.R_out_tilde k) (r / t.R_g k) n) : m ∈ Set.Ioo (0 : ℝ) 1 := by
  have hg : 0 < t.R_g k := by
    have := hk.G; have := hk.c; have := ht.M_BH
    unfold SSDisk.R_g
    positivity
  exact ((SSDisk.C49_grid (div_pos ht.R_in hg) (div_lt_div_of_pos_right ht.R_out hg) (div_pos ht.r hg) hn).2.2.1 m hm).2

theorem disk_profile (hk : k.Pos) {t : SSDisk} {r : ℝ} (ht : DiskOK t r) (m : ℝ) :
    SSDisk.phiDiskMu m (t.R_in_tilde k) (r / t.R_g k) = 1 - √(t.R_in / seen r m) := by
  have hg : 0 < t.R_g k := by
    have := hk.G; have := hk.c; have := ht.M_BH
    unfold SSDisk.R_g
    positivity
  unfold SSDisk.phiDiskMu
  dsimp only
  rw [seen_radius, SSDisk.R_in_tilde, div_div_div_cancel_right₀ hg.ne']

/-- C83: disk -/
theorem C83_disk_density (hk : k.Pos) {t : SSDisk} {r : ℝ} (ht : DiskOK t r) {phi : List ℝ} (hphi : FullCircle phi) :
    t.u k r none
      = total (disk k t r (SSDisk.muFromRTilde (t.R_in_tilde k) (t.R_out_tilde k) (r / t.R_g k) 100) phi) := by
  unfold total disk SSDisk.u
  dsimp only
  rw [over_const_span hphi.1 hphi.2, sub_zero, over_mul, over_mul]
  apply over_congr
  intro m hm
  rw [mul_one, disk_density hk ht (disk_angles hk ht (by norm_num) hm), ← disk_profile hk ht m]
  unfold SSDisk.uIntegrand SSDisk.l_Edd
  generalize 1 / m * (m ^ (-2 : ℤ) - 1 : ℝ) ^ (-3 / 2 : ℝ) * SSDisk.phiDiskMu m (t.R_in_tilde k) (r / t.R_g k) = w
  have hE : 0 < SSDisk.L_Edd k t.M_BH := by
    have := hk.M_sun; have := ht.M_BH
    unfold SSDisk.L_Edd SSDisk.M_8
    positivity
  have := hk.c
  have := ht.r
  have := ht.eta
  have := Real.pi_pos
  unfold SSDisk.R_g
  field_simp
  ring

/-- C83: broad line region -/
theorem C83_blr_density (k : Consts) (t : BLR) (r : ℝ) {phi : List ℝ} (hphi : FullCircle phi)
    (hoff : ∀ m ∈ linspace (-1) 1 50, 0 < xReShell m t.R_line r) :
    t.u k r none = total (shell k (t.xi_line * t.L_disk) t.epsilon_line t.R_line r (linspace (-1) 1 50) phi) := by
  unfold total shell BLR.u
  dsimp only
  rw [over_const_span hphi.1 hphi.2, sub_zero, over_mul, over_mul]
  apply over_congr
  intro m hm
  have hx := hoff m hm
  rw [mul_one, shell_distance]
  unfold diluted
  have e : r ^ 2 + t.R_line ^ 2 - 2 * r * t.R_line * m = xReShell m t.R_line r ^ 2 := by
    unfold xReShell at hx ⊢
    rw [Real.sq_sqrt (Real.sqrt_pos.1 hx).le]
    ring
  rw [e]
  have := Real.pi_ne_zero
  field_simp
  ring

/-- C83: torus -/
theorem C83_dt_density (k : Consts) (t : DT) (r : ℝ) {phi : List ℝ} (hphi : FullCircle phi) :
    t.u k r none = total (ring k (t.xi_dt * t.L_disk) (t.epsilon_dt k) t.R_dt r phi) := by
  unfold total ring diluted DT.u
  simp only [mul_one]
  rw [over_const_span hphi.1 hphi.2]
  have := Real.pi_ne_zero
  rw [Real.sq_sqrt (by positivity)]
  field_simp
  ring

/-! ### the external Compton SED -/

/-- C83: the field of the target of an `ExternalCompton` object at the position of the blob -/
def fieldOf (k : Consts) (a : EC) : Field :=
  match a.target with
  | .cmb t => isotropic t.u_0 t.epsilon_0 a.mu a.phi
  | .ps t => behind k t.L_0 t.epsilon_0 a.r
  | .disk t =>
    disk k t a.r (SSDisk.muFromRTilde (t.R_in_tilde k) (t.R_out_tilde k) (a.r / t.R_g k) a.mu_size) a.phi
  | .blr t => shell k (t.xi_line * t.L_disk) t.epsilon_line t.R_line a.r a.mu a.phi
  | .dt t => ring k (t.xi_dt * t.L_disk) (t.epsilon_dt k) t.R_dt a.r a.phi
  | .other => fun _ => 0

theorem compton_disk (hk : k.Pos) {b : Blob} (hd : 0 < b.d_L) (hN : Uncorrected b) {I : List ℝ → List ℝ → ℝ}
    (hI : HomogeneousIntegrator I) {t : SSDisk} {r : ℝ} (ht : DiskOK t r) {n : ℕ} (hn : 2 ≤ n) (phi : List ℝ) (nu : ℝ) :
    ssDisk k I nu b.z b.d_L b.delta_D b.mu_s b.R_b t.M_BH t.L_disk t.eta t.R_in t.R_out r b.n_e
        b.gamma_e_external_frame n phi
      = scattered k I b nu (disk k t r (SSDisk.muFromRTilde (t.R_in_tilde k) (t.R_out_tilde k) (r / t.R_g k) n) phi) := by
  have hpi := Real.pi_pos
  have hc := hk.c
  unfold ssDisk scattered disk
  dsimp only
  rw [over_mul, over_mul]
  refine over_congr fun p _ => ?_
  rw [over_mul, over_mul]
  refine over_congr fun m hm => ?_
  have hm1 := disk_angles hk ht hn hm
  have hR : SSDisk.radius m (r / t.R_g k) = seen r m / t.R_g k := seen_radius _ _ _
  have hE : SSDisk.epsilonMu k t.L_disk t.M_BH t.eta m (toRg k r t.M_BH) = diskEnergy k t (seen r m) := by
    unfold SSDisk.epsilonMu diskEnergy
    exact congrArg _ hR
  have hP : SSDisk.phiDiskMu m (toRg k t.R_in t.M_BH) (toRg k r t.M_BH) = 1 - √(t.R_in / seen r m) :=
    disk_profile hk ht m
  rw [fold_boosted hN, nuToEps_one, hE, hP, disk_density hk ht hm1]
  have hr := ht.r
  have hm0 := hm1.1
  have he := ht.eta
  have hq : 0 < (m ^ (-2 : ℤ) - 1 : ℝ) := by
    have := inv_sq_sub_pos hm1
    rw [zpow_neg, show (m ^ (2 : ℤ) : ℝ) = m ^ 2 by norm_cast, ← one_div]
    exact this
  have hqq : (m ^ (-2 : ℤ) - 1 : ℝ) ^ (-3 / 2 : ℝ) = ((m ^ (-2 : ℤ) - 1 : ℝ) ^ (3 / 2 : ℝ))⁻¹ := by
    rw [← Real.rpow_neg hq.le]
    norm_num
  rw [hqq]
  have hq' : 0 < (m ^ (-2 : ℤ) - 1 : ℝ) ^ (3 / 2 : ℝ) := Real.rpow_pos_of_pos hq _
  generalize (m ^ (-2 : ℤ) - 1 : ℝ) ^ (3 / 2 : ℝ) = q at hq'
  generalize 1 - √(t.R_in / seen r m) = w
  generalize diskEnergy k t (seen r m) = E
  rw [over_congr (g := fun g => w / E ^ 2 / m / q * (4 / 3 * Real.pi * b.R_b ^ 3
      * b.n_e.call (g / b.delta_D) / g ^ 2 * comptonKernel g ((1 + b.z) * (k.h * nu / (k.m_e * k.c ^ 2)))
        E b.mu_s m p)) (by intro g _; ring), over_scale hI]
  generalize over I _ _ = J
  generalize (1 + b.z) * (k.h * nu / (k.m_e * k.c ^ 2)) = es
  by_cases h0 : E = 0
  · subst h0
    simp
  · field_simp
    ring

/-- C83: the external Compton SED is the same functional of the field of the target, whatever the target -/
theorem C83_compton {a : EC} (h : Scattering k a) (hI : HomogeneousIntegrator a.integrator) (hN : Uncorrected a.blob)
    (ht : TargetFine a) (hnone : a.target ≠ .other) (nu : ℝ) :
    a.sedFlux k nu = some (scattered k a.integrator a.blob nu (fieldOf k a)) := by
  have hpi := Real.pi_pos
  have hc := h.consts.c
  have hd := h.d_L
  unfold EC.sedFlux fieldOf scattered
  unfold TargetFine at ht
  dsimp only
  cases e : a.target with
  | cmb t =>
    simp only [e] at ht
    dsimp only
    congr 1
    unfold isoMono isotropic
    dsimp only
    rw [over_mul, over_mul]
    refine over_congr fun p _ => ?_
    rw [over_mul, over_mul]
    refine over_congr fun m _ => ?_
    rw [fold_boosted hN, nuToEps_one]
    generalize over a.integrator _ _ = J
    generalize (1 + a.blob.z) * (k.h * nu / (k.m_e * k.c ^ 2)) = es
    have := ht.2
    field_simp
    ring
  | ps t =>
    simp only [e] at ht
    dsimp only
    congr 1
    unfold psBehindJet behind diluted
    dsimp only
    rw [fold_boosted hN, nuToEps_one]
    generalize over a.integrator _ _ = J
    generalize (1 + a.blob.z) * (k.h * nu / (k.m_e * k.c ^ 2)) = es
    have := ht.2
    field_simp
    ring
  | disk t =>
    simp only [e] at ht
    dsimp only
    exact congrArg some (compton_disk h.consts hd hN hI ht h.mu_size a.phi nu)
  | blr t =>
    simp only [e] at ht
    dsimp only
    congr 1
    unfold blr shell
    dsimp only
    rw [over_mul, over_mul]
    refine over_congr fun p _ => ?_
    rw [over_mul, over_mul]
    refine over_congr fun m hm => ?_
    have hmr := h.mu_range m hm
    have hx := shell_pos (by linarith [ht.1.R_line] : 0 < t.R_line) ht.1.r ht.2 hmr.2
    rw [fold_boosted hN, nuToEps_one, shell_distance, ← shell_direction hmr hx]
    unfold diluted
    rw [over_congr (g := fun g => 1 / xReShell m t.R_line a.r ^ 2 * (4 / 3 * Real.pi * a.blob.R_b ^ 3
        * a.blob.n_e.call (g / a.blob.delta_D) / g ^ 2 * comptonKernel g ((1 + a.blob.z) * (k.h * nu / (k.m_e * k.c ^ 2)))
          t.epsilon_line a.blob.mu_s (muStarShell m t.R_line a.r) p)) (by intro g _; ring), over_scale hI]
    generalize over a.integrator _ _ = J
    generalize (1 + a.blob.z) * (k.h * nu / (k.m_e * k.c ^ 2)) = es
    have := ht.1.epsilon_line
    field_simp
    ring
  | dt t =>
    simp only [e] at ht
    dsimp only
    congr 1
    unfold dt ring
    dsimp only
    rw [over_mul, over_mul]
    refine over_congr fun p _ => ?_
    rw [fold_boosted hN, nuToEps_one]
    unfold diluted
    have hx := ring_pos (l := a.r) ht.R_dt
    have e2 : √(t.R_dt ^ 2 + a.r ^ 2) = xReRing t.R_dt a.r := rfl
    rw [e2]
    generalize over a.integrator _ _ = J
    generalize (1 + a.blob.z) * (k.h * nu / (k.m_e * k.c ^ 2)) = es
    have := dt_eps_pos h.consts ht
    field_simp
    ring
  | other => exact absurd e hnone

/-! ### the opacity -/

/-- photons of a source of luminosity `L` at the point `(sx, sy, sz)`, received at `(px, 0, pz)`: zenith cosine and azimuth
of the direction in which they move -/
def fromPoint (k : Consts) (L eps px pz sx sy sz : ℝ) : Field := fun f =>
  let x := √((px - sx) ^ 2 + (0 - sy) ^ 2 + (pz - sz) ^ 2)
  diluted k L x * f ((pz - sz) / x) (arctan2 (0 - sy) (px - sx)) eps

/-- the fields at the distance `u` from the point `r` of the axis, along a line of sight that makes the angle of cosine
`mu_s` with it -/
def obliqueField (k : Consts) (a : Abs) (r u : ℝ) : Field :=
  let px := u * √(1 - a.mu_s ^ 2)
  let pz := r + u * a.mu_s
  match a.target with
  | .ps t => fromPoint k t.L_0 t.epsilon_0 px pz 0 0 0
  | .blr t => fun f => over trapz a.phi fun p => over trapz a.mu fun m =>
    fromPoint k (t.xi_line * t.L_disk / (4 * Real.pi)) t.epsilon_line px pz (t.R_line * √(1 - m ^ 2) * Real.cos p)
      (t.R_line * √(1 - m ^ 2) * Real.sin p) (t.R_line * m) f
  | .dt t => fun f => over trapz a.phi fun p =>
    fromPoint k (t.xi_dt * t.L_disk / (2 * Real.pi)) (t.epsilon_dt k) px pz (t.R_dt * Real.cos p) (t.R_dt * Real.sin p) 0 f
  | _ => fun _ => 0

/-- the points of an oblique line of sight that are used -/
def obliquePath (a : Abs) (r : ℝ) : List ℝ :=
  match a.target with
  | .ps _ => (logspace (-5) 5 100).map (· * r)
  | .blr t => guardPathMuS ((logspace (-5) 5 (2 * a.l_size)).map (· * r)) t.R_line r a.mu_s
  | _ => (logspace (-5) 5 (2 * a.l_size)).map (· * r)

/-- C83: the opacity along an oblique line of sight is one functional of the field -/
theorem C83_opacity_oblique {a : Abs} {nu r : ℝ} (h : Setup k a nu) (hm : a.mu_s ≠ 1) (hr : a.r = some r)
    (ht : (∃ t, a.target = .ps t ∧ PSOK t r) ∨ (∃ t, a.target = .blr t) ∨ ∃ t, a.target = .dt t) :
    tau k a nu = some (opacity k nu a.z a.mu_s (obliquePath a r) (obliqueField k a r)) := by
  have hs : a.mu_s ^ 2 ≤ 1 := by
    obtain ⟨h1, h2⟩ := h.mu_s
    nlinarith
  have hsq : √(1 - a.mu_s ^ 2) ^ 2 = 1 - a.mu_s ^ 2 := Real.sq_sqrt (by linarith)
  have hcc : a.mu_s * a.mu_s = a.mu_s ^ 2 := by ring
  unfold tau opacity absorbed obliqueField obliquePath fromPoint diluted
  rcases ht with ⟨t, e, ht⟩ | ⟨t, e⟩ | ⟨t, e⟩
  · simp only [e, hr, Option.getD_some, if_neg hm]
    congr 1
    unfold tauPSMuS
    dsimp only
    rw [over_mul, nuToEps_one]
    refine over_congr fun u hu => ?_
    have hup : 0 < u := by
      obtain ⟨v, hv, rfl⟩ := List.mem_map.1 hu
      have := logspace_pos v hv
      have := ht.r
      positivity
    have hx : (u * √(1 - a.mu_s ^ 2) - 0) ^ 2 + (0 - 0) ^ 2 + (r + u * a.mu_s - 0) ^ 2
        = r * r + u * u + 2 * u * r * a.mu_s := by
      rw [sub_zero, sub_zero, sub_zero, mul_pow, hsq]
      ring
    have ha : arctan2 (0 - 0) (u * √(1 - a.mu_s ^ 2) - 0) = 0 := by
      unfold arctan2
      rw [sub_zero, sub_zero]
      exact Complex.arg_ofReal_of_nonneg (by positivity)
    rw [hx, ha, sub_zero]
    generalize cosPsi a.mu_s _ _ = c
    generalize (1 + a.z) * (k.h * nu / (k.m_e * k.c ^ 2)) = es
    generalize sigma k _ = S
    ring
  · simp only [e, hr, Option.getD_some, if_neg hm]
    congr 1
    unfold tauBLRMuS
    dsimp only
    rw [over_mul, nuToEps_one]
    refine over_congr fun u hu => ?_
    rw [over_mul]
    refine over_congr fun p hp => ?_
    rw [over_mul]
    refine over_congr fun m hmm => ?_
    have hmr := h.mu_range m hmm
    have hq : √(1 - m ^ 2) ^ 2 = 1 - m ^ 2 := Real.sq_sqrt (by nlinarith [hmr.1, hmr.2])
    have hx : √((u * √(1 - a.mu_s ^ 2) - t.R_line * √(1 - m ^ 2) * Real.cos p) ^ 2
        + (0 - t.R_line * √(1 - m ^ 2) * Real.sin p) ^ 2 + (r + u * a.mu_s - t.R_line * m) ^ 2)
        = xReShellMuS t.R_line r p m u a.mu_s := by
      unfold xReShellMuS
      dsimp only
      congr 1
      rw [hcc, show m * m = m ^ 2 by ring]
      have hcs := Real.cos_sq_add_sin_sq p
      have e1 : (u * √(1 - a.mu_s ^ 2) - t.R_line * √(1 - m ^ 2) * Real.cos p) ^ 2
          + (0 - t.R_line * √(1 - m ^ 2) * Real.sin p) ^ 2
          = u ^ 2 * √(1 - a.mu_s ^ 2) ^ 2 - 2 * u * t.R_line * √(1 - a.mu_s ^ 2) * √(1 - m ^ 2) * Real.cos p
            + t.R_line ^ 2 * √(1 - m ^ 2) ^ 2 * (Real.cos p ^ 2 + Real.sin p ^ 2) := by ring
      rw [e1, hcs, hq, hsq]
      ring
    have hphi : arctan2 (0 - t.R_line * √(1 - m ^ 2) * Real.sin p)
        (u * √(1 - a.mu_s ^ 2) - t.R_line * √(1 - m ^ 2) * Real.cos p) = (phiMuReShell t.R_line r p m u a.mu_s).1 := by
      unfold phiMuReShell
      dsimp only
      rw [hcc, show m * m = m ^ 2 by ring]
      congr 1
      ring
    have hmu : (r + u * a.mu_s - t.R_line * m) / xReShellMuS t.R_line r p m u a.mu_s
        = (phiMuReShell t.R_line r p m u a.mu_s).2 := rfl
    rw [hx, hphi, hmu]
    generalize cosPsi a.mu_s _ _ = c
    generalize (1 + a.z) * (k.h * nu / (k.m_e * k.c ^ 2)) = es
    generalize sigma k _ = S
    ring
  · simp only [e, hr, Option.getD_some, if_neg hm]
    congr 1
    unfold tauDTMuS
    dsimp only
    rw [over_mul, nuToEps_one]
    refine over_congr fun u hu => ?_
    rw [over_mul]
    refine over_congr fun p hp => ?_
    have hx : √((u * √(1 - a.mu_s ^ 2) - t.R_dt * Real.cos p) ^ 2
        + (0 - t.R_dt * Real.sin p) ^ 2 + (r + u * a.mu_s - 0) ^ 2)
        = xReRingMuS t.R_dt r p u a.mu_s := by
      unfold xReRingMuS
      dsimp only
      congr 1
      rw [hcc]
      have hcs := Real.cos_sq_add_sin_sq p
      have e1 : (u * √(1 - a.mu_s ^ 2) - t.R_dt * Real.cos p) ^ 2 + (0 - t.R_dt * Real.sin p) ^ 2
          = u ^ 2 * √(1 - a.mu_s ^ 2) ^ 2 - 2 * u * t.R_dt * √(1 - a.mu_s ^ 2) * Real.cos p
            + t.R_dt ^ 2 * (Real.cos p ^ 2 + Real.sin p ^ 2) := by ring
      rw [e1, hcs, hsq]
      ring
    have hphi : arctan2 (0 - t.R_dt * Real.sin p) (u * √(1 - a.mu_s ^ 2) - t.R_dt * Real.cos p)
        = (phiMuReRing t.R_dt r p u a.mu_s).1 := by
      unfold phiMuReRing
      dsimp only
      rw [hcc]
    have hmu : (r + u * a.mu_s - 0) / xReRingMuS t.R_dt r p u a.mu_s = (phiMuReRing t.R_dt r p u a.mu_s).2 := by
      rw [sub_zero]
      rfl
    rw [hx, hphi, hmu]
    generalize cosPsi a.mu_s _ _ = c
    generalize (1 + a.z) * (k.h * nu / (k.m_e * k.c ^ 2)) = es
    generalize sigma k _ = S
    ring

/-- the fields along the axis -/
def alignedField (k : Consts) (a : Abs) (l : ℝ) : Field :=
  match a.target with
  | .ps t => behind k t.L_0 t.epsilon_0 l
  | .blr t => shell k (t.xi_line * t.L_disk) t.epsilon_line t.R_line l a.mu a.phi
  | .dt t => ring k (t.xi_dt * t.L_disk) (t.epsilon_dt k) t.R_dt l a.phi
  | _ => fun _ => 0

/-- the points of the axis that are used -/
def alignedPath (a : Abs) (r : ℝ) : List ℝ :=
  match a.target with
  | .blr t => guardPath ((logspace 0 5 a.l_size).map (· * r)) t.R_line
  | _ => (logspace 0 5 a.l_size).map (· * r)

/-- C83: the opacity along the axis is the same functional of the field -/
theorem C83_opacity_aligned {a : Abs} {nu r : ℝ} (h : Setup k a nu) (hm : a.mu_s = 1) (hr : a.r = some r)
    (ht : (∃ t, a.target = .ps t) ∨ (∃ t, a.target = .blr t ∧ ∀ l ∈ alignedPath a r, ∀ m ∈ a.mu, 0 < xReShell m t.R_line l)
      ∨ ∃ t, a.target = .dt t) :
    tau k a nu = some (opacity k nu a.z a.mu_s (alignedPath a r) (alignedField k a)) := by
  unfold tau opacity absorbed alignedField
  rcases ht with ⟨t, e⟩ | ⟨t, e, hx⟩ | ⟨t, e⟩
  · simp only [e, hr, Option.getD_some, if_pos hm]
    rw [hm, C43_ps_aligned, over_zero]
    intro l _
    unfold behind cosPsi
    simp
  · unfold alignedPath at hx ⊢
    simp only [e, hr, Option.getD_some, if_pos hm] at hx ⊢
    congr 1
    unfold tauBLR shell diluted
    dsimp only
    rw [over_mul, nuToEps_one]
    refine over_congr fun l hl => ?_
    rw [over_mul]
    refine over_congr fun p hp => ?_
    rw [over_mul]
    refine over_congr fun m hmm => ?_
    rw [shell_distance, ← shell_direction (h.mu_range m hmm) (hx l hl m hmm)]
    generalize cosPsi a.mu_s _ _ = c
    generalize (1 + a.z) * (k.h * nu / (k.m_e * k.c ^ 2)) = es
    generalize sigma k _ = S
    ring
  · unfold alignedPath
    simp only [e, hr, Option.getD_some, if_pos hm]
    congr 1
    unfold tauDT TargetField.ring diluted
    dsimp only
    rw [over_mul, nuToEps_one]
    refine over_congr fun l hl => ?_
    rw [over_mul]
    refine over_congr fun p hp => ?_
    have e2 : √(t.R_dt ^ 2 + l ^ 2) = xReRing t.R_dt l := rfl
    rw [e2]
    generalize cosPsi a.mu_s _ _ = c
    generalize (1 + a.z) * (k.h * nu / (k.m_e * k.c ^ 2)) = es
    generalize sigma k _ = S
    ring

/-! ### the disk: opacity and energy density do not agree -/

/-- a disk whose surface obeys Lambert's law: less light is sent towards the plane than towards the axis -/
def lambert (F : Field) : Field := fun f => F fun mu phi eps => mu * f mu phi eps

theorem linspace_stretch (a b g : ℝ) (n : ℕ) : (linspace a b n).map (· * g) = linspace (a * g) (b * g) n := by
  unfold linspace
  rw [List.map_map]
  apply List.map_congr_left
  intro i _
  dsimp only [Function.comp]
  ring

theorem over_stretch (g : ℝ) (f : ℝ → ℝ) (grid : List ℝ) :
    over trapz (grid.map (· * g)) f = g * over trapz grid fun x => f (x * g) := trapz_stretch g f grid

theorem diskRg_pos (hk : k.Pos) {t : SSDisk} {r : ℝ} (ht : DiskOK t r) : 0 < k.G * t.M_BH / k.c ^ 2 := by
  have := hk.G; have := hk.c; have := ht.M_BH
  positivity

/-- C83 for the disk: its opacity is the functional of a field that differs from that of `u` and of external Compton by
a factor: the cosine of the zenith angle -/
theorem C83_disk_opacity_partial {a : Abs} {nu : ℝ} (h : Setup k a nu) {t : SSDisk} {r : ℝ} (ht : DiskOK t r) {n : ℕ}
    (hn : 2 ≤ n) :
    tauDisk k nu a.z a.mu_s t.M_BH t.L_disk t.eta t.R_in t.R_out r n a.l_size a.phi
      = opacity k nu a.z a.mu_s ((logspace 0 5 a.l_size).map (· * r))
          fun l => lambert (annuli k t l (linspace t.R_in t.R_out n) a.phi) := by
  have hk := h.consts
  have hg := diskRg_pos hk ht
  have hc := hk.c
  have hme := hk.m_e
  have hpi := Real.pi_pos
  have hM := ht.M_BH
  have hG := hk.G
  have hη := ht.eta
  unfold tauDisk opacity absorbed lambert annuli toRg
  dsimp only
  set g := k.G * t.M_BH / k.c ^ 2 with hgd
  have e1 : (logspace 0 5 a.l_size).map (· * r) = ((logspace 0 5 a.l_size).map (· * (r / g))).map (· * g) := by
    rw [List.map_map]
    apply List.map_congr_left
    intro x _
    dsimp only [Function.comp]
    field_simp
  have e2 : linspace t.R_in t.R_out n = (linspace (t.R_in / g) (t.R_out / g) n).map (· * g) := by
    rw [linspace_stretch, div_mul_cancel₀ _ hg.ne', div_mul_cancel₀ _ hg.ne']
  have hpos : ∀ l ∈ (logspace 0 5 a.l_size).map (· * (r / g)), 0 < l := by
    intro l hl
    obtain ⟨v, hv, rfl⟩ := List.mem_map.1 hl
    have := logspace_pos v hv
    have := ht.r
    positivity
  rw [e1, e2]
  generalize (logspace 0 5 a.l_size).map (· * (r / g)) = L at hpos
  rw [over_stretch, over_mul, over_mul]
  refine over_congr fun l hl => ?_
  have hlp := hpos l hl
  rw [over_mul, over_mul]
  refine over_congr fun p _ => ?_
  rw [over_stretch, over_mul, over_mul, over_mul]
  refine over_congr fun R hR => ?_
  have hRp : 0 < R :=
    lt_of_lt_of_le (div_pos ht.R_in hg)
      (linspace_mem (div_le_div_of_nonneg_right ht.R_out.le hg.le) hn hR).1
  have hq : 0 < 1 + R ^ 2 / l ^ 2 := by positivity
  have hmu : l * g / √((R * g) ^ 2 + (l * g) ^ 2) = (1 + R ^ 2 / l ^ 2) ^ (-1 / 2 : ℝ) := by
    rw [show (R * g) ^ 2 + (l * g) ^ 2 = (l * g) ^ 2 * (1 + R ^ 2 / l ^ 2) by field_simp; ring,
      Real.sqrt_mul (by positivity), Real.sqrt_sq (by positivity), div_mul_eq_div_div, div_self (by positivity),
      Real.sqrt_eq_rpow, one_div, ← Real.rpow_neg hq.le]
    norm_num
  have hx : √((R * g) ^ 2 + (l * g) ^ 2) ^ 2 = (l * g) ^ 2 * (1 + R ^ 2 / l ^ 2) := by
    rw [Real.sq_sqrt (by positivity)]
    field_simp
    ring
  have h32 : (1 + R ^ 2 / l ^ 2) ^ (3 / 2 : ℝ) = (1 + R ^ 2 / l ^ 2) * ((1 + R ^ 2 / l ^ 2) ^ (-1 / 2 : ℝ))⁻¹ := by
    rw [← Real.rpow_neg hq.le]
    nth_rewrite 2 [← Real.rpow_one (1 + R ^ 2 / l ^ 2)]
    rw [← Real.rpow_add hq]
    norm_num
  have hE : diskEnergy k t (R * g) = SSDisk.epsilon k t.L_disk t.M_BH t.eta R := by
    unfold diskEnergy
    rw [← hgd, mul_div_assoc, div_self hg.ne', mul_one]
  have hw : t.R_in / (R * g) = t.R_in / g / R := by rw [mul_comm, div_mul_eq_div_div]
  have hmp : 0 < (1 + R ^ 2 / l ^ 2) ^ (-1 / 2 : ℝ) := Real.rpow_pos_of_pos hq _
  have hEp := disk_eps_pos hk ht.L_disk ht.M_BH ht.eta hRp
  rw [hmu, h32, hE, nuToEps_one]
  unfold diluted annulus
  rw [hx, hw, Real.sqrt_eq_rpow]
  generalize (1 + R ^ 2 / l ^ 2) ^ (-1 / 2 : ℝ) = m at hmp
  generalize hE' : SSDisk.epsilon k t.L_disk t.M_BH t.eta R = E at hEp
  generalize cosPsi a.mu_s _ _ = c
  rw [show E * ((1 + a.z) * (k.h * nu / (k.m_e * k.c ^ 2))) = (1 + a.z) * (k.h * nu / (k.m_e * k.c ^ 2)) * E by ring]
  generalize sigma k _ = S
  generalize (1 - (t.R_in / g / R) ^ (1 / 2 : ℝ)) = w
  have hGM : k.G * t.M_BH = g * k.c ^ 2 := by rw [hgd]; field_simp
  rw [show 3 * k.G * t.M_BH = 3 * (k.G * t.M_BH) by ring, hGM]
  generalize 1 + R ^ 2 / l ^ 2 = q at hq
  clear_value g
  field_simp
  ring

theorem over_mono {grid : List ℝ} (hc : grid.IsChain (· < ·)) {f g : ℝ → ℝ} (h : ∀ x ∈ grid, f x ≤ g x) :
    over trapz grid f ≤ over trapz grid g := by
  have := trapz_mono grid f g id (by rw [List.map_id]; exact hc.imp fun _ _ h => h.le) h
  rwa [List.map_id] at this

/-- value of the inner integrand of the opacity of the disk -/
theorem disk_term_nonneg {a : Abs} {nu : ℝ} (h : Setup k a nu) {t : SSDisk} {r : ℝ} (ht : DiskOK t r) {R l p : ℝ}
    (hR : t.R_in ≤ R) (hl : 0 < l) :
    0 ≤ diluted k (annulus k t R) √(R ^ 2 + l ^ 2) *
      ((1 - cosPsi a.mu_s (l / √(R ^ 2 + l ^ 2)) p) * sigma k ((1 + a.z) * (k.h * nu / (k.m_e * k.c ^ 2)) * diskEnergy k t R
        * (1 - cosPsi a.mu_s (l / √(R ^ 2 + l ^ 2)) p) / 2) / (diskEnergy k t R * (k.m_e * k.c ^ 2))) := by
  have hk := h.consts
  have hR0 : 0 < R := lt_of_lt_of_le ht.R_in hR
  have hx : 0 < √(R ^ 2 + l ^ 2) := by positivity
  have hm1 : l / √(R ^ 2 + l ^ 2) ≤ 1 := by
    rw [div_le_one hx]
    exact Real.le_sqrt_of_sq_le (by nlinarith [sq_nonneg R])
  have hm0 : 0 ≤ l / √(R ^ 2 + l ^ 2) := by positivity
  have hc := (C38_range h.mu_s ⟨by linarith, hm1⟩ p).2
  have hE : 0 < diskEnergy k t R := disk_eps_pos hk ht.L_disk ht.M_BH ht.eta (div_pos hR0 (diskRg_pos hk ht))
  have hs := sigma_nonneg hk ((1 + a.z) * (k.h * nu / (k.m_e * k.c ^ 2)) * diskEnergy k t R
        * (1 - cosPsi a.mu_s (l / √(R ^ 2 + l ^ 2)) p) / 2)
  have hw : 0 ≤ 1 - √(t.R_in / R) := by
    have : √(t.R_in / R) ≤ 1 := Real.sqrt_le_one.2 ((div_le_one hR0).2 hR)
    linarith
  have hc' : 0 ≤ 1 - cosPsi a.mu_s (l / √(R ^ 2 + l ^ 2)) p := by linarith
  have := hk.G; have := hk.c; have := hk.m_e; have := ht.M_BH; have := ht.L_disk; have := ht.eta
  have := Real.pi_pos
  unfold diluted annulus
  apply mul_nonneg
  · apply div_nonneg _ (by positivity)
    apply mul_nonneg _ hw
    positivity
  · positivity

/-- C83 for the disk, how much is missing: between the cosines under which the photon sees the outer edge at the start of
its path and the inner edge at the end -/
theorem C83_disk_opacity_bounds {a : Abs} {nu : ℝ} (h : Setup k a nu) {t : SSDisk} {r : ℝ} (ht : DiskOK t r) {n : ℕ}
    (hn : 2 ≤ n) :
    let full := opacity k nu a.z a.mu_s ((logspace 0 5 a.l_size).map (· * r))
      fun l => annuli k t l (linspace t.R_in t.R_out n) a.phi
    r / √(t.R_out ^ 2 + r ^ 2) * full
        ≤ tauDisk k nu a.z a.mu_s t.M_BH t.L_disk t.eta t.R_in t.R_out r n a.l_size a.phi ∧
      tauDisk k nu a.z a.mu_s t.M_BH t.L_disk t.eta t.R_in t.R_out r n a.l_size a.phi
        ≤ (10 ^ 5 * r) / √(t.R_in ^ 2 + (10 ^ 5 * r) ^ 2) * full := by
  dsimp only
  rw [C83_disk_opacity_partial h ht hn]
  have hr := ht.r
  have hmono : ∀ {R R' l l' : ℝ}, 0 < l → 0 < R → R ≤ R' → l ≤ l' → l / √(R' ^ 2 + l ^ 2) ≤ l' / √(R ^ 2 + l' ^ 2) := by
    intro R R' l l' h0 hR h1 h2
    have hl' : 0 < l' := lt_of_lt_of_le h0 h2
    rw [div_le_div_iff₀ (by positivity) (by positivity)]
    refine (sq_le_sq₀ (by positivity) (by positivity)).1 ?_
    rw [mul_pow, mul_pow, Real.sq_sqrt (by positivity), Real.sq_sqrt (by positivity)]
    have : l ^ 2 * R ^ 2 ≤ l' ^ 2 * R' ^ 2 := by gcongr
    nlinarith
  have hpath : ∀ l ∈ (logspace 0 5 a.l_size).map (· * r), r ≤ l ∧ l ≤ 10 ^ 5 * r := by
    intro l hl
    obtain ⟨v, hv, rfl⟩ := List.mem_map.1 hl
    obtain ⟨e, he, rfl⟩ := List.mem_map.1 hv
    have hm := linspace_mem (by norm_num : (0 : ℝ) ≤ 5) h.l_size he
    have h1 : (1 : ℝ) ≤ 10 ^ e := Real.one_le_rpow (by norm_num) hm.1
    have h2 : (10 : ℝ) ^ e ≤ 10 ^ 5 := by
      have := Real.rpow_le_rpow_of_exponent_le (by norm_num : (1 : ℝ) ≤ 10) hm.2
      refine this.trans (le_of_eq ?_)
      norm_num
    exact ⟨by nlinarith, by nlinarith⟩
  have hchain := aligned_strict h.l_size (by norm_num : (0 : ℝ) < 5) hr
  have hRs := linspace_strict ht.R_out hn
  unfold opacity absorbed lambert annuli
  dsimp only
  constructor
  · rw [over_mul]
    refine over_mono hchain fun l hl => ?_
    rw [over_mul]
    refine over_mono h.phi fun p _ => ?_
    rw [over_mul]
    refine over_mono hRs fun R hR => ?_
    obtain ⟨hR1, hR2⟩ := linspace_mem ht.R_out.le hn hR
    obtain ⟨hl1, hl2⟩ := hpath l hl
    have hnn := disk_term_nonneg h ht (p := p) hR1 (hr.trans_le hl1)
    rw [mul_left_comm (diluted k _ _)]
    exact mul_le_mul_of_nonneg_right (hmono hr (ht.R_in.trans_le hR1) hR2 hl1) hnn
  · rw [over_mul]
    refine over_mono hchain fun l hl => ?_
    rw [over_mul]
    refine over_mono h.phi fun p _ => ?_
    rw [over_mul]
    refine over_mono hRs fun R hR => ?_
    obtain ⟨hR1, hR2⟩ := linspace_mem ht.R_out.le hn hR
    obtain ⟨hl1, hl2⟩ := hpath l hl
    have hnn := disk_term_nonneg h ht (p := p) hR1 (hr.trans_le hl1)
    rw [mul_left_comm (diluted k _ _)]
    exact mul_le_mul_of_nonneg_right (hmono (hr.trans_le hl1) ht.R_in hR1 hl2) hnn

/-- C83 does not hold for the opacity of the disk: whenever it is not zero it is smaller than that of the field whose
integral `u` is -/
theorem C83_disk_opacity_violated {a : Abs} {nu : ℝ} (h : Setup k a nu) {t : SSDisk} {r : ℝ} (ht : DiskOK t r) {n : ℕ}
    (hn : 2 ≤ n) (hne : tauDisk k nu a.z a.mu_s t.M_BH t.L_disk t.eta t.R_in t.R_out r n a.l_size a.phi ≠ 0) :
    tauDisk k nu a.z a.mu_s t.M_BH t.L_disk t.eta t.R_in t.R_out r n a.l_size a.phi
      < opacity k nu a.z a.mu_s ((logspace 0 5 a.l_size).map (· * r))
        fun l => annuli k t l (linspace t.R_in t.R_out n) a.phi := by
  have hpos := lt_of_le_of_ne (C66_disk h ht hn).1 hne.symm
  have hb := (C83_disk_opacity_bounds h ht hn).2
  have hr := ht.r
  have hR := ht.R_in
  have hlt : (10 ^ 5 * r) / √(t.R_in ^ 2 + (10 ^ 5 * r) ^ 2) < 1 := by
    rw [div_lt_one (by positivity)]
    exact Real.lt_sqrt_of_sq_lt (by nlinarith [pow_pos hR 2])
  have hp : 0 < (10 ^ 5 * r) / √(t.R_in ^ 2 + (10 ^ 5 * r) ^ 2) := by positivity
  revert hb hpos hlt hp
  generalize tauDisk k nu a.z a.mu_s t.M_BH t.L_disk t.eta t.R_in t.R_out r n a.l_size a.phi = T
  generalize (10 ^ 5 * r) / √(t.R_in ^ 2 + (10 ^ 5 * r) ^ 2) = q
  generalize opacity k nu a.z a.mu_s _ _ = P
  intro h1 h2 h3 h4
  have hP : 0 < P := by
    by_contra hc
    have : q * P ≤ 0 := mul_nonpos_of_nonneg_of_nonpos h4.le (not_lt.1 hc)
    linarith
  nlinarith

/-- and it is not zero for photons of sufficient energy -/
theorem C83_disk_opacity_nonzero (hk : k.Pos) {t : SSDisk} {r : ℝ} (ht : DiskOK t r) {z : ℝ} (hz : 0 ≤ z) :
    ∃ nu, 0 < nu ∧ ∃ a, new (.disk t) (some r) z 1 = some a ∧ Setup k a nu ∧ ∃ x, tau k a nu = some x ∧ 0 < x := by
  have hg := diskRg_pos hk ht
  have hr0 := toRg_pos hk ht.r ht.M_BH
  have hR0 := toRg_pos hk (ht.R_in.trans ht.R_out) ht.M_BH
  have hE := disk_eps_pos hk ht.L_disk ht.M_BH ht.eta hR0
  set l := toRg k r t.M_BH with hl
  set R := toRg k t.R_out t.M_BH with hR
  set E := SSDisk.epsilon k t.L_disk t.M_BH t.eta R with hEd
  have hq : 1 < 1 + R ^ 2 / l ^ 2 := by
    have : 0 < R ^ 2 / l ^ 2 := by positivity
    linarith
  set m := (1 + R ^ 2 / l ^ 2) ^ (-1 / 2 : ℝ) with hm
  have hm1 : m < 1 := Real.rpow_lt_one_of_one_lt_of_neg hq (by norm_num)
  have hh := hk.h; have hme := hk.m_e; have hcc := hk.c
  have h1m : 0 < 1 - m := by linarith
  have hz1 : 0 < 1 + z := by linarith
  refine ⟨4 * k.mec2 / (k.h * (1 + z) * E * (1 - m)), by unfold Consts.mec2; positivity, _, rfl, ?_⟩
  set nu := 4 * k.mec2 / (k.h * (1 + z) * E * (1 - m)) with hnu
  have hnup : 0 < nu := by rw [hnu]; unfold Consts.mec2; positivity
  have hset := setup_new (t := .disk t) (r := some r) (mu_s := 1) hk hz hnup (by norm_num) rfl
  refine ⟨hset, tauDisk k nu z 1 t.M_BH t.L_disk t.eta t.R_in t.R_out r 100 50 (linspace 0 (2 * Real.pi) 50), ?_, ?_⟩
  · unfold tau
    simp
  have key := C66_disk hset ht (n := 100) (by norm_num)
  refine lt_of_le_of_ne key.1 fun e => ?_
  have hall := key.2.1 e.symm
  have hlmem : l ∈ (logspace 0 5 50).map (· * toRg k r t.M_BH) := by
    refine List.mem_map.2 ⟨1, ?_, one_mul _⟩
    refine List.mem_map.2 ⟨0, ?_, by simp⟩
    exact List.mem_map.2 ⟨0, by simp, by simp⟩
  have hRmem : R ∈ linspace (toRg k t.R_in t.M_BH) (toRg k t.R_out t.M_BH) 100 :=
    List.mem_map.2 ⟨99, by simp, by rw [hR]; push_cast; ring⟩
  have hpmem : (0 : ℝ) ∈ linspace 0 (2 * Real.pi) 50 := List.mem_map.2 ⟨0, by simp, by simp⟩
  rcases hall l hlmem 0 hpmem R hRmem with h | h
  · have hlt : toRg k t.R_in t.M_BH < R := div_lt_div_of_pos_right ht.R_out hg
    exact absurd h hlt.ne'
  · have hc : cosPsi 1 m 0 = m := by unfold cosPsi; simp
    rw [← hm, hc] at h
    unfold collision nuToEps at h
    rw [← hEd] at h
    have h2 : E * ((1 + z) * (k.h * nu / k.mec2) / 1) * (1 - m) / 2 = 2 := by
      rw [hnu]
      have : 0 < k.mec2 := by unfold Consts.mec2; positivity
      field_simp
      norm_num
    rw [h2] at h
    norm_num at h

/-- C83: the two forms in which the disk is integrated, over the radius and over the zenith cosine, are the same field -/
theorem C83_disk_variables {r R0 R1 : ℝ} (hr : 0 < r) (h0 : 0 < R0) (h1 : R0 ≤ R1) {G : ℝ → ℝ} (hG : Continuous G) :
    ∫ m in (r / √(R1 ^ 2 + r ^ 2))..(r / √(R0 ^ 2 + r ^ 2)), G (seen r m) * |deriv (seen r) m| = ∫ R in R0..R1, G R := by
  have hz : ∀ {R : ℝ}, 0 < R → r / √(R ^ 2 + r ^ 2) ∈ Set.Ioo (0 : ℝ) 1 := by
    intro R hR
    have := SSDisk.zenith_mem hR hr
    unfold SSDisk.zenith at this
    rwa [add_comm] at this
  have hs : ∀ {R : ℝ}, 0 < R → seen r (r / √(R ^ 2 + r ^ 2)) = R := by
    intro R hR
    unfold seen
    rw [div_pow, Real.sq_sqrt (by positivity), show 1 / (r ^ 2 / (R ^ 2 + r ^ 2)) - 1 = (R / r) ^ 2 by field_simp; ring,
      Real.sqrt_sq (by positivity)]
    field_simp
  have hR1 : 0 < R1 := h0.trans_le h1
  have hle : r / √(R1 ^ 2 + r ^ 2) ≤ r / √(R0 ^ 2 + r ^ 2) := by
    apply div_le_div_of_nonneg_left hr.le (by positivity)
    apply Real.sqrt_le_sqrt
    gcongr
  have hmem : ∀ m ∈ Set.uIcc (r / √(R1 ^ 2 + r ^ 2)) (r / √(R0 ^ 2 + r ^ 2)), m ∈ Set.Ioo (0 : ℝ) 1 := by
    intro m hm
    rw [Set.uIcc_of_le hle] at hm
    exact ⟨(hz hR1).1.trans_le hm.1, hm.2.trans_lt (hz h0).2⟩
  have hd : ∀ m ∈ Set.uIcc (r / √(R1 ^ 2 + r ^ 2)) (r / √(R0 ^ 2 + r ^ 2)),
      HasDerivAt (seen r) (-(r * (1 / m ^ 3) / √(1 / m ^ 2 - 1))) m := by
    intro m hm
    rw [← seen_deriv r (hmem m hm)]
    apply DifferentiableAt.hasDerivAt
    have h2 := inv_sq_sub_pos (hmem m hm)
    have h3 := (hmem m hm).1.ne'
    unfold seen
    fun_prop (disch := first | positivity | exact h2.ne' | exact h3)
  have hcont : ContinuousOn (fun m : ℝ => -(r * (1 / m ^ 3) / √(1 / m ^ 2 - 1)))
      (Set.uIcc (r / √(R1 ^ 2 + r ^ 2)) (r / √(R0 ^ 2 + r ^ 2))) := by
    have h3 : ∀ m ∈ Set.uIcc (r / √(R1 ^ 2 + r ^ 2)) (r / √(R0 ^ 2 + r ^ 2)), m ≠ 0 := fun m hm => (hmem m hm).1.ne'
    have hp : ∀ n : ℕ, ContinuousOn (fun m : ℝ => 1 / m ^ n)
        (Set.uIcc (r / √(R1 ^ 2 + r ^ 2)) (r / √(R0 ^ 2 + r ^ 2))) := fun n =>
      continuousOn_const.div (continuousOn_id.pow n) fun m hm => pow_ne_zero n (h3 m hm)
    refine ((continuousOn_const.mul (hp 3)).div (((hp 2).sub continuousOn_const).sqrt) fun m hm => ?_).neg
    exact (Real.sqrt_pos.2 (inv_sq_sub_pos (hmem m hm))).ne'
  have key := intervalIntegral.integral_comp_mul_deriv' hd hcont (g := G) hG.continuousOn
  rw [hs h0, hs hR1] at key
  rw [intervalIntegral.integral_symm R1 R0, ← key, ← intervalIntegral.integral_neg]
  apply intervalIntegral.integral_congr
  intro m hm
  have h2 := hmem m hm
  have h3 := h2.1
  dsimp only [Function.comp]
  rw [seen_deriv r h2, abs_neg, abs_of_nonneg (by positivity)]
  ring

/-! ### cases -/

/-- when the ends are not corrected: they are inside the limits of the distribution or not just outside -/
theorem uncorrected_of {b : Blob} (hs : 2 ≤ b.gamma_e_size)
    (h1 : b.n_e.gmin ≤ 10 / b.delta_D ∨ 1 / 10 ^ 10 ≤ (b.n_e.gmin - 10 / b.delta_D) / (10 / b.delta_D))
    (h2 : 10 ^ 9 / b.delta_D ≤ b.n_e.gmax ∨ 1 / 10 ^ 10 ≤ (10 ^ 9 / b.delta_D - b.n_e.gmax) / b.n_e.gmax) :
    Uncorrected b := by
  unfold Uncorrected
  have hends := linspace_ends (a := 1) (b := 9) hs
  set L := b.gamma_e_external_frame.map (· / b.delta_D) with hL
  have hh : L.head? = some (10 / b.delta_D) := by
    rw [hL]
    unfold Blob.gamma_e_external_frame logspace
    rw [List.head?_map, List.head?_map, hends.1]
    simp
  have hl : L.getLast? = some (10 ^ 9 / b.delta_D) := by
    rw [hL]
    unfold Blob.gamma_e_external_frame logspace
    rw [List.getLast?_map, List.getLast?_map, hends.2]
    simp only [Option.map_some]
    norm_num
  clear_value L
  have hc : correctBoundary L b.n_e.gmin b.n_e.gmax = L := by
    cases L with
    | nil => simp at hh
    | cons g0 rest =>
      simp only [List.head?_cons, Option.some.injEq] at hh
      have e1 : correctFirst b.n_e.gmin (g0 :: rest) = g0 :: rest := by
        unfold correctFirst
        dsimp only
        rw [if_neg]
        rintro ⟨ha, hb⟩
        rw [hh] at ha hb
        rcases h1 with h1 | h1 <;> linarith
      unfold correctBoundary
      rw [e1]
      unfold correctLast
      dsimp only
      rw [List.getLast?_eq_some_getLast (by simp), Option.some.injEq] at hl
      rw [hl, if_neg]
      rintro ⟨ha, hb⟩
      rcases h2 with h2 | h2 <;> linarith
  unfold Dist.afterCall
  split
  · rfl
  · exact hc

/-- a blob and a disk to which the theorem on external Compton applies -/
example : ∃ k : Consts, ∃ a : EC, Scattering k a ∧ HomogeneousIntegrator a.integrator ∧ Uncorrected a.blob
    ∧ TargetFine a ∧ a.target ≠ .other ∧ FullCircle a.phi := by
  have hG : Synchrotron.demoBlob.Gamma = 10 := rfl
  have hd : Synchrotron.demoBlob.delta_D = 10 := rfl
  have hm : Synchrotron.demoBlob.mu_s ∈ Set.Icc (-1) 1 := by
    have hβ := (Blob.C46_beta (b := Synchrotron.demoBlob) (by rw [hG]; norm_num)).1.1
    refine (Blob.C46_allowed (by rw [hG]; norm_num) (by rw [hd]; norm_num)).2 ⟨?_, ?_⟩ <;> rw [hG, hd]
    · rw [div_le_iff₀ (by positivity)]
      linarith
    · linarith
  have hdisk : DiskOK { M_BH := 1, L_disk := 1, eta := 1, R_in := 6, R_out := 200 } 1 := by constructor <;> norm_num
  refine ⟨⟨1, 1, 1, 1, 1, 1, 1, 1, 1, 1⟩, EC.new _ Synchrotron.demoBlob
    (.disk { M_BH := 1, L_disk := 1, eta := 1, R_in := 6, R_out := 200 }) 1 trapz,
    scattering_new (by constructor <;> norm_num) ?_ ?_ ?_ hm ?_ ?_ ?_ ?_ nonneg_trapz, homogeneous_trapz,
    uncorrected_of ?_ (Or.inr ?_) (Or.inr ?_), hdisk, by simp [EC.new], linspace_ends (by norm_num)⟩
  any_goals norm_num [Synchrotron.demoBlob, Dist.Positive, EC.new, Dist.gmin, Dist.gmax]
  exact hdisk

/-- the opacity of that disk is smaller than that of its radiation field at some frequency -/
example : ∃ k : Consts, ∃ a : Abs, ∃ nu, ∃ t, a.target = .disk t ∧ ∃ x, tau k a nu = some x ∧
    x < opacity k nu a.z a.mu_s ((logspace 0 5 a.l_size).map (· * 1))
      fun l => annuli k t l (linspace t.R_in t.R_out 100) a.phi := by
  have hk : (⟨1, 1, 1, 1, 1, 1, 1, 1, 1, 1⟩ : Consts).Pos := by constructor <;> norm_num
  have hdisk : DiskOK { M_BH := 1, L_disk := 1, eta := 1, R_in := 6, R_out := 200 } 1 := by constructor <;> norm_num
  obtain ⟨nu, _, a, ha, hs, x, hx, hp⟩ := C83_disk_opacity_nonzero hk hdisk (le_refl 0)
  refine ⟨_, a, nu, { M_BH := 1, L_disk := 1, eta := 1, R_in := 6, R_out := 200 }, ?_, x, hx, ?_⟩
  · unfold new at ha
    cases ha
    rfl
  · have e : x = tauDisk ⟨1, 1, 1, 1, 1, 1, 1, 1, 1, 1⟩ nu a.z a.mu_s 1 1 1 6 200 1 100 a.l_size a.phi := by
      unfold new at ha
      cases ha
      unfold tau at hx
      simpa using hx.symm
    rw [e]
    exact C83_disk_opacity_violated hs hdisk (by norm_num) (by rw [← e]; exact hp.ne')

end Verif.TargetField

end
