import Verif.Model.Blob

/-
Model of agnpy/targets/targets.py over the reals.  The names, `__str__` and the unit checks of the `SSDisk`
constructor are not modelled (quantities are numbers in cgs units).
-/

noncomputable section

namespace Verif.Targets

open MathUtils Region Classical

/-! ### CMB -/

/-- targets.py:154-169 -/
structure CMB where
  u_0 : ℝ
  epsilon_0 : ℝ

/-- `CMB.__init__`, targets.py:164-169 -/
def CMB.new (k : Consts) (z : ℝ) : CMB :=
  let a := 75657 / 10000 * (1 / 10 ^ 15)
  let T := 272548 / 100000
  { u_0 := a * T ^ 4 * (1 + z) ^ 4
    epsilon_0 := 27 / 10 * k.k_B * T / k.mec2 * (1 + z) }

/-- `CMB.u`, targets.py:171-183; `none` is `blob=None` -/
def CMB.u (t : CMB) : Option Blob → ℝ
  | some b => t.u_0 * b.Gamma ^ 2 * (1 + b.Beta ^ 2 / 3)
  | none => t.u_0

/-! ### PointSourceBehindJet -/

/-- targets.py:186-200 -/
structure PS where
  L_0 : ℝ
  epsilon_0 : ℝ

/-- `PointSourceBehindJet.u`, targets.py:202-218 -/
def PS.u (k : Consts) (t : PS) (r : ℝ) (blob : Option Blob) : ℝ :=
  let u_0 := t.L_0 / (4 * Real.pi * k.c * r ^ 2)
  match blob with
  | some b => u_0 / (b.Gamma ^ 2 * (1 + b.Beta) ^ 2)
  | none => u_0

/-! ### SSDisk -/

/-- targets.py:240-275: the attributes that are given; the derived ones are functions below.  Radii in cm. -/
structure SSDisk where
  M_BH : ℝ
  L_disk : ℝ
  eta : ℝ
  R_in : ℝ
  R_out : ℝ

namespace SSDisk

/-- targets.py:244 and 311 -/
def M_8 (k : Consts) (M_BH : ℝ) : ℝ := M_BH / (10 ^ 8 * k.M_sun)

/-- targets.py:245 and 312 -/
def L_Edd (k : Consts) (M_BH : ℝ) : ℝ := 126 / 100 * 10 ^ 46 * M_8 k M_BH

/-- targets.py:248 and 313 -/
def l_Edd (k : Consts) (L_disk M_BH : ℝ) : ℝ := L_disk / L_Edd k M_BH

/-- targets.py:250 -/
def m_dot (k : Consts) (d : SSDisk) : ℝ := d.L_disk / (d.eta * k.c ^ 2)

/-- targets.py:252 -/
def R_g (k : Consts) (d : SSDisk) : ℝ := k.G * d.M_BH / k.c ^ 2

/-- targets.py:270; see `C49_tilde` for radii given in units of R_g (259-262) -/
def R_in_tilde (k : Consts) (d : SSDisk) : ℝ := d.R_in / d.R_g k

/-- targets.py:271 -/
def R_out_tilde (k : Consts) (d : SSDisk) : ℝ := d.R_out / d.R_g k

/-- `SSDisk.__init__`, targets.py:253-262, with radii in units of R_g -/
def ofTilde (k : Consts) (M_BH L_disk eta R_in R_out : ℝ) : SSDisk :=
  let R_g := k.G * M_BH / k.c ^ 2
  { M_BH, L_disk, eta, R_in := R_in * R_g, R_out := R_out * R_g }

/-- `evaluate_mu_from_r_tilde`, targets.py:290-296 -/
def muFromRTilde (R_in_tilde R_out_tilde r_tilde : ℝ) (size : ℕ) : List ℝ :=
  let mu_min := 1 / √(1 + (R_out_tilde / r_tilde) ^ 2)
  let mu_max := 1 / √(1 + (R_in_tilde / r_tilde) ^ 2)
  linspace mu_min mu_max size

/-- targets.py:304 and 322: disk radius seen under the zenith angle of cosine `mu` -/
def radius (mu r_tilde : ℝ) : ℝ := r_tilde * √(mu ^ (-2 : ℤ) - 1)

/-- `evaluate_phi_disk_mu`, targets.py:299-305 -/
def phiDiskMu (mu R_in_tilde r_tilde : ℝ) : ℝ :=
  let R_tilde := radius mu r_tilde
  1 - √(R_in_tilde / R_tilde)

/-- `phi_disk`, targets.py:342-343 -/
def phiDisk (R_in_tilde R_tilde : ℝ) : ℝ := 1 - √(R_in_tilde / R_tilde)

/-- `evaluate_epsilon`, targets.py:308-315 -/
def epsilon (k : Consts) (L_disk M_BH eta R_tilde : ℝ) : ℝ :=
  let xi := (l_Edd k L_disk M_BH / (M_8 k M_BH * eta)) ^ (1 / 4 : ℝ)
  27 / 10 * (1 / 10 ^ 4) * xi * R_tilde ^ (-3 / 4 : ℝ)

/-- `evaluate_epsilon_mu`, targets.py:318-323 -/
def epsilonMu (k : Consts) (L_disk M_BH eta mu r_tilde : ℝ) : ℝ :=
  epsilon k L_disk M_BH eta (radius mu r_tilde)

/-- `evaluate_T`, targets.py:326-330 -/
def T (k : Consts) (R M_BH m_dot R_in : ℝ) : ℝ :=
  let phi := 1 - √(R_in / R)
  let val := (3 * k.G * M_BH * m_dot * phi) / (8 * Real.pi * R ^ 3 * k.sigma_sb)
  val ^ (1 / 4 : ℝ)

end SSDisk

/-- `BlackBody().evaluate(nu, T, scale=1)` (astropy, not code of /repo): Planck's law per steradian; 0 at T = 0 -/
def planck (k : Consts) (nu T : ℝ) : ℝ :=
  2 * k.h * nu ^ 3 / (k.c ^ 2 * (Real.exp (k.h * nu / (k.k_B * T)) - 1))

namespace SSDisk

/-- `evaluate_multi_T_bb_sed`, targets.py:351-393, at one frequency -/
def multiTSed (k : Consts) (nu z M_BH m_dot R_in R_out d_L mu_s : ℝ) : ℝ :=
  let nu_prime := nu * (1 + z)
  let R := linspace R_in R_out 100
  let integral := over trapz R fun R => R / d_L ^ 2 * planck k nu_prime (T k R M_BH m_dot R_in)
  let F_nu := 2 * Real.pi * integral
  mu_s * (nu * F_nu)

/-- targets.py:151 the grid for the normalisation -/
def nuGrid : List ℝ := logspace 3 21 100

/-- targets.py:405-413: the luminosity of the unnormalised SED, both sides of the disk -/
def multiTLum (k : Consts) (z M_BH m_dot R_in R_out d_L mu_s : ℝ) : ℝ :=
  let F_nu_norm := nuGrid.map fun nu => multiTSed k nu z M_BH m_dot R_in R_out d_L mu_s / nu
  let A := 4 * Real.pi * d_L ^ 2
  2 * (trapz F_nu_norm nuGrid * A)

/-- `evaluate_multi_T_bb_norm_sed`, targets.py:396-417 -/
def multiTNormSed (k : Consts) (nu z L_disk M_BH m_dot R_in R_out d_L mu_s : ℝ) : ℝ :=
  let L := multiTLum k z M_BH m_dot R_in R_out d_L mu_s
  let norm := L_disk / L
  norm * multiTSed k nu z M_BH m_dot R_in R_out d_L mu_s

/-- `sed_flux`, targets.py:419-427; the luminosity distance is a parameter -/
def sedFlux (k : Consts) (d : SSDisk) (nu z d_L mu_s : ℝ) : ℝ :=
  multiTNormSed k nu z d.L_disk d.M_BH (d.m_dot k) d.R_in d.R_out d_L mu_s

/-- factor by which the code multiplies the integrand of `SSDisk.u` when a blob is given, targets.py:457-462 -/
def boost (b : Blob) (mu : ℝ) : ℝ :=
  let mu_prime := (mu - b.Beta) / (1 - b.Beta * mu)
  1 / (b.Gamma ^ 6 * (1 - b.Beta * mu) ^ 2 * (1 + b.Beta * mu_prime) ^ 4)

/-- the integrand of `SSDisk.u` without a blob, targets.py:450-455 -/
def uIntegrand (k : Consts) (d : SSDisk) (r_tilde mu : ℝ) : ℝ :=
  1 / mu * (mu ^ (-2 : ℤ) - 1) ^ (-3 / 2 : ℝ) * phiDiskMu mu (d.R_in_tilde k) r_tilde

/-- `SSDisk.u`, targets.py:429-466 -/
def u (k : Consts) (d : SSDisk) (r : ℝ) (blob : Option Blob) : ℝ :=
  let r_tilde := r / d.R_g k
  let mu := muFromRTilde (d.R_in_tilde k) (d.R_out_tilde k) r_tilde 100
  let prefactor := 3 * l_Edd k d.L_disk d.M_BH * L_Edd k d.M_BH * d.R_g k
    / (8 * Real.pi * k.c * d.eta * r ^ 3)
  let integrand := fun mu =>
    match blob with
    | some b => uIntegrand k d r_tilde mu * boost b mu
    | none => uIntegrand k d r_tilde mu
  prefactor * over trapz mu integrand

end SSDisk

/-! ### SphericalShellBLR -/

/-- attributes of `SphericalShellBLR`, targets.py:485-496 -/
structure BLR where
  L_disk : ℝ
  xi_line : ℝ
  epsilon_line : ℝ
  R_line : ℝ

namespace BLR

/-- `lines_dictionary`, targets.py:22-148: name and wavelength in Angstrom (the ratios are not used) -/
def linesDictionary : List (String × ℝ) :=
  [("Lyepsilon", 93780 / 100),
   ("Lydelta", 94974 / 100),
   ("CIII", 97702 / 100),
   ("NIII", 99069 / 100),
   ("Lybeta", 102572 / 100),
   ("OVI", 103383 / 100),
   ("ArI", 106666 / 100),
   ("Lyalpha", 121567 / 100),
   ("OI", 130435 / 100),
   ("SiII", 130682 / 100),
   ("SiIV", 139676 / 100),
   ("OIV]", 140206 / 100),
   ("CIV", 154906 / 100),
   ("NIV", 171855 / 100),
   ("AlII", 172189 / 100),
   ("CIII]", 190873 / 100),
   ("[NeIV]", 242383 / 100),
   ("MgII", 279875 / 100),
   ("Hdelta", 410289 / 100),
   ("Hgamma", 434168 / 100),
   ("HeII", 468702 / 100),
   ("Hbeta", 486268 / 100),
   ("[ClIII]", 553943 / 100),
   ("HeI", 587729 / 100),
   ("Halpha", 656461 / 100)]

/-- `SphericalShellBLR.__init__`, targets.py:485-496; `none` is the NameError -/
def new (k : Consts) (L_disk xi_line : ℝ) (line : String) (R_line : ℝ) : Option BLR :=
  (linesDictionary.lookup line).map fun wavelength =>
    { L_disk, xi_line, epsilon_line := k.h * k.c / (wavelength / 10 ^ 8) / k.mec2, R_line }

/-- `SphericalShellBLR.u`, targets.py:516-543, at one distance -/
def u (k : Consts) (t : BLR) (r : ℝ) (blob : Option Blob) : ℝ :=
  let mu := linspace (-1) 1 50
  let x2 := fun mu => r ^ 2 + t.R_line ^ 2 - 2 * r * t.R_line * mu
  let prefactor := t.xi_line * t.L_disk / (8 * Real.pi * k.c)
  let integrand := fun mu =>
    match blob with
    | some b =>
      let mu_star := √(1 - t.R_line ^ 2 / x2 mu * (1 - mu ^ 2))
      1 / x2 mu * (b.Gamma ^ 2 * (1 - b.Beta * mu_star) ^ 2)
    | none => 1 / x2 mu
  prefactor * over trapz mu integrand

end BLR

/-! ### RingDustTorus -/

/-- attributes of `RingDustTorus`, targets.py:564-582 -/
structure DT where
  L_disk : ℝ
  xi_dt : ℝ
  T_dt : ℝ
  R_dt : ℝ

namespace DT

/-- targets.py:574-582: the radius; the saturation radius when none is given -/
def radius (L_disk T_dt : ℝ) : Option ℝ → ℝ
  | none => 35 / 10 * 10 ^ 18 * √(L_disk / 10 ^ 45) * (T_dt / 10 ^ 3) ^ (-26 / 10 : ℝ)
  | some R => R

/-- `RingDustTorus.__init__`, targets.py:564-582 -/
def new (L_disk xi_dt T_dt : ℝ) (R_dt : Option ℝ) : DT :=
  { L_disk, xi_dt, T_dt, R_dt := radius L_disk T_dt R_dt }

/-- targets.py:570-571 -/
def epsilon_dt (k : Consts) (t : DT) : ℝ := 27 / 10 * (k.k_B * t.T_dt / k.mec2)

/-- `evaluate_bb_sed`, targets.py:594-600 -/
def bbSed (k : Consts) (nu z T_dt R_dt d_L : ℝ) : ℝ :=
  let nu_prime := nu * (1 + z)
  let prefactor := Real.pi * (R_dt / d_L) ^ 2
  prefactor * nu * planck k nu_prime T_dt

/-- `evaluate_bb_norm_sed`, targets.py:603-610 -/
def bbNormSed (k : Consts) (nu z L_dt T_dt R_dt d_L : ℝ) : ℝ :=
  let L_tot := 4 * Real.pi * R_dt ^ 2 * k.sigma_sb * T_dt ^ 4
  let norm := L_dt / L_tot
  norm * bbSed k nu z T_dt R_dt d_L

/-- `sed_flux`, targets.py:612-618; the luminosity distance is a parameter -/
def sedFlux (k : Consts) (t : DT) (nu z d_L : ℝ) : ℝ :=
  bbNormSed k nu z (t.xi_dt * t.L_disk) t.T_dt t.R_dt d_L

/-- `RingDustTorus.u`, targets.py:620-638 -/
def u (k : Consts) (t : DT) (r : ℝ) (blob : Option Blob) : ℝ :=
  let x2 := t.R_dt ^ 2 + r ^ 2
  let x := √x2
  let integral := t.xi_dt * t.L_disk / (4 * Real.pi * k.c * x2)
  match blob with
  | some b =>
    let mu := r / x
    integral * (b.Gamma * (1 - b.Beta * mu)) ^ 2
  | none => integral

end DT

end Verif.Targets

end
