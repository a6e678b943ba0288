import Verif.Model.Kernels
import Verif.Model.Targets

/-
Model of agnpy/compton/synchrotron_self_compton.py and external_compton.py over the reals, for one frequency at
a time.  Integrals over broadcast arrays are nested integrations over the grids.
-/

noncomputable section

namespace Verif.Compton

open MathUtils Spectra Geometry Kernels Region Targets Classical

/-- utils/math.py:6 -/
def gammaToIntegrate : List ℝ := logspace 1 9 200

/-- utils/math.py:7, in Hz -/
def nuToIntegrate : List ℝ := logspace 5 30 200

/-! ### SynchrotronSelfCompton -/

/-- synchrotron_self_compton.py:37-41 -/
def energyLossRateThomson (k : Consts) (b : Blob) (gamma : ℝ) : ℝ :=
  4 / 3 * k.sigma_T * k.c * b.u_ph_synch k * gamma ^ 2

/-- synchrotron_self_compton.py:63-65 the Klein-Nishina correction -/
def fKN (b : ℝ) : ℝ :=
  if b < 10 ^ 4 then 1 / (1 + b) ^ (3 / 2 : ℝ) else 9 / (2 * b ^ 2) * (MathUtils.log b - 11 / 6)

/-- synchrotron_self_compton.py:44-58: differential photon energy density at a target frequency `nu`; the SED is
without self-absorption, with `np.trapz` and the module's default Lorentz factors -/
def uEpsilon (k : Consts) (b : Blob) (nu : ℝ) : ℝ :=
  uPhSynchDiff k b.R_b b.d_L b.delta_D (nuToEps k nu b.z b.delta_D)
    (Synchrotron.sedFlux k trapz false nu b.z b.d_L b.delta_D b.B b.R_b b.n_e gammaToIntegrate)

/-- `electron_energy_loss_rate`, synchrotron_self_compton.py:43-71.  Left out: the call of the distribution inside
`evaluate_sed_flux` corrects the ends of the array `gamma_e_to_integrate`, which all modules share, in place
(spectra.py:211-225). -/
def energyLossRate (k : Consts) (b : Blob) (gamma : ℝ) : ℝ :=
  let epsilon := nuToIntegrate.map fun nu => nuToEps k nu b.z b.delta_D
  let F_KN := trapz (nuToIntegrate.map fun nu =>
    fKN (4 * gamma * nuToEps k nu b.z b.delta_D) * uEpsilon k b nu) epsilon
  4 / 3 * k.sigma_T * k.c * F_KN * gamma ^ 2

/-- `evaluate_sed_flux`, synchrotron_self_compton.py:73-158.  The synchrotron SED is computed first and may
overwrite the ends of `gamma`, then `n_e.evaluate` may do so again. -/
def sscSed (k : Consts) (integrator : List ℝ → List ℝ → ℝ) (ssa : Bool) (nu z d_L delta_D B R_b : ℝ) (n_e : Dist)
    (gamma : List ℝ) : ℝ :=
  let epsilon := fun nu => nuToEps k nu z delta_D
  let epsilon_s := nuToEps k nu z delta_D
  let u_synch := fun nu => uPhSynchDiff k R_b d_L delta_D (epsilon nu)
    (Synchrotron.sedFlux k integrator ssa nu z d_L delta_D B R_b n_e gamma)
  let gamma1 := n_e.afterCall gamma
  let gamma2 := if ssa then n_e.afterSSA gamma1 else gamma1
  let gamma3 := n_e.afterCall gamma2
  let V_b := Synchrotron.volume R_b
  let integral_gamma := fun nu => over integrator gamma3 fun g =>
    u_synch nu / epsilon nu ^ 2 * (V_b * n_e.call g) / g ^ 2 * isotropicKernel g (epsilon nu) epsilon_s
  let integral_epsilon := integrator (nuToIntegrate.map integral_gamma) (nuToIntegrate.map epsilon)
  let emissivity := 3 / 4 * k.c * k.sigma_T * epsilon_s ^ 2 * integral_epsilon
  let prefactor := delta_D ^ 4 / (4 * Real.pi * d_L ^ 2)
  prefactor * emissivity

/-! ### ExternalCompton -/

/-- `N_e = V_b * n_e.evaluate(_gamma / delta_D, *args)`, e.g. external_compton.py:120-121.  The array
`_gamma / delta_D` is a new one, so `gamma` itself is not touched. -/
def boostedN (n_e : Dist) (R_b delta_D : ℝ) (gamma : List ℝ) : List ℝ :=
  let V_b := Synchrotron.volume R_b
  (n_e.evaluate (gamma.map (· / delta_D))).2.map (V_b * ·)

/-- integration over the Lorentz factors of a function of density and Lorentz factor -/
def fold (integrator : List ℝ → List ℝ → ℝ) (N_e gamma : List ℝ) (f : ℝ → ℝ → ℝ) : ℝ :=
  integrator (List.zipWith f N_e gamma) gamma

/-- `evaluate_sed_flux_iso_mono`, external_compton.py:63-142 -/
def isoMono (k : Consts) (integrator : List ℝ → List ℝ → ℝ) (nu z d_L delta_D mu_s R_b epsilon_0 u_0 : ℝ)
    (n_e : Dist) (gamma mu phi : List ℝ) : ℝ :=
  let epsilon_s := nuToEps k nu z 1
  let N_e := boostedN n_e R_b delta_D gamma
  let integral := over trapz phi fun phi => over trapz mu fun mu => fold integrator N_e gamma fun N g =>
    N / g ^ 2 * comptonKernel g epsilon_s epsilon_0 mu_s mu phi
  let prefactor_num := 3 * k.c * k.sigma_T * u_0 * epsilon_s ^ 2 * delta_D ^ 3
  let prefactor_denom := 2 ^ 7 * Real.pi ^ 2 * d_L ^ 2 * epsilon_0 ^ 2
  prefactor_num / prefactor_denom * integral

/-- `evaluate_sed_flux_ps_behind_jet`, external_compton.py:163-240 -/
def psBehindJet (k : Consts) (integrator : List ℝ → List ℝ → ℝ) (nu z d_L delta_D mu_s R_b epsilon_0 L_0 r : ℝ)
    (n_e : Dist) (gamma : List ℝ) : ℝ :=
  let epsilon_s := nuToEps k nu z 1
  let N_e := boostedN n_e R_b delta_D gamma
  let integral := fold integrator N_e gamma fun N g => N / g ^ 2 * comptonKernel g epsilon_s epsilon_0 mu_s 1 0
  let prefactor_num := 3 * k.sigma_T * L_0 * epsilon_s ^ 2 * delta_D ^ 3
  let prefactor_denom := 2 ^ 7 * Real.pi ^ 2 * d_L ^ 2 * r ^ 2 * epsilon_0 ^ 2
  prefactor_num / prefactor_denom * integral

/-- `evaluate_sed_flux_ss_disk`, external_compton.py:261-373 -/
def ssDisk (k : Consts) (integrator : List ℝ → List ℝ → ℝ) (nu z d_L delta_D mu_s R_b M_BH L_disk eta R_in R_out r : ℝ)
    (n_e : Dist) (gamma : List ℝ) (mu_size : ℕ) (phi : List ℝ) : ℝ :=
  let epsilon_s := nuToEps k nu z 1
  let r_tilde := toRg k r M_BH
  let R_in_tilde := toRg k R_in M_BH
  let R_out_tilde := toRg k R_out M_BH
  let m_dot := L_disk / (eta * k.c ^ 2)
  let mu := SSDisk.muFromRTilde R_in_tilde R_out_tilde r_tilde mu_size
  let N_e := boostedN n_e R_b delta_D gamma
  let integral := over trapz phi fun phi => over trapz mu fun mu => fold integrator N_e gamma fun N g =>
    let epsilon := SSDisk.epsilonMu k L_disk M_BH eta mu r_tilde
    let phi_disk := SSDisk.phiDiskMu mu R_in_tilde r_tilde
    phi_disk / epsilon ^ 2 / mu / (mu ^ (-2 : ℤ) - 1) ^ (3 / 2 : ℝ) * N / g ^ 2
      * comptonKernel g epsilon_s epsilon mu_s mu phi
  let prefactor_num := 9 * k.sigma_T * k.G * M_BH * m_dot * epsilon_s ^ 2 * delta_D ^ 3
  let prefactor_denom := 2 ^ 9 * Real.pi ^ 3 * d_L ^ 2 * r ^ 3
  prefactor_num / prefactor_denom * integral

/-- `evaluate_sed_flux_blr`, external_compton.py:398-490 -/
def blr (k : Consts) (integrator : List ℝ → List ℝ → ℝ)
    (nu z d_L delta_D mu_s R_b L_disk xi_line epsilon_line R_line r : ℝ)
    (n_e : Dist) (gamma mu phi : List ℝ) : ℝ :=
  let epsilon_s := nuToEps k nu z 1
  let N_e := boostedN n_e R_b delta_D gamma
  let integral := over trapz phi fun phi => over trapz mu fun mu => fold integrator N_e gamma fun N g =>
    let x := xReShell mu R_line r
    let mu_star := muStarShell mu R_line r
    1 / x ^ 2 * N / g ^ 2 * comptonKernel g epsilon_s epsilon_line mu_s mu_star phi
  let prefactor_num := 3 * k.sigma_T * xi_line * L_disk * epsilon_s ^ 2 * delta_D ^ 3
  let prefactor_denom := 2 ^ 9 * Real.pi ^ 3 * d_L ^ 2 * epsilon_line ^ 2
  prefactor_num / prefactor_denom * integral

/-- `evaluate_sed_flux_dt`, external_compton.py:514-600 -/
def dt (k : Consts) (integrator : List ℝ → List ℝ → ℝ)
    (nu z d_L delta_D mu_s R_b L_disk xi_dt epsilon_dt R_dt r : ℝ)
    (n_e : Dist) (gamma phi : List ℝ) : ℝ :=
  let epsilon_s := nuToEps k nu z 1
  let N_e := boostedN n_e R_b delta_D gamma
  let x_re := xReRing R_dt r
  let mu := r / x_re
  let integral := over trapz phi fun phi => fold integrator N_e gamma fun N g =>
    N / g ^ 2 * comptonKernel g epsilon_s epsilon_dt mu_s mu phi
  let prefactor_num := 3 * k.sigma_T * xi_dt * L_disk * epsilon_s ^ 2 * delta_D ^ 3
  let prefactor_denom := 2 ^ 8 * Real.pi ^ 3 * d_L ^ 2 * x_re ^ 2 * epsilon_dt ^ 2
  prefactor_num / prefactor_denom * integral

/-- the argument `target` of `ExternalCompton` -/
inductive Target where
  | cmb (t : CMB)
  | ps (t : PS)
  | disk (t : SSDisk)
  | blr (t : BLR)
  | dt (t : DT)
  /-- any other object -/
  | other

/-- attributes of an `ExternalCompton` object; `r` is needed by every target except the CMB.  The attribute `mu` is
only used for the CMB and the BLR. -/
structure EC where
  blob : Blob
  target : Target
  r : ℝ
  mu : List ℝ
  mu_size : ℕ
  phi : List ℝ
  integrator : List ℝ → List ℝ → ℝ

/-- `ExternalCompton.__init__` with `set_mu` and `set_phi`, external_compton.py:40-61.  For an `SSDisk`, `set_mu` stores
the angles that disk subtends (evaluated with their default number, not `mu_size`). -/
def EC.new (k : Consts) (blob : Blob) (target : Target) (r : ℝ) (integrator : List ℝ → List ℝ → ℝ) : EC :=
  { blob, target, r, mu_size := 100, integrator
    mu := match target with
      | .disk t => SSDisk.muFromRTilde (t.R_in_tilde k) (t.R_out_tilde k) (r / t.R_g k) 100
      | _ => linspace (-1) 1 100
    phi := linspace 0 (2 * Real.pi) 50 }

/-- `sed_flux`, external_compton.py:623-634 with the wrappers 144-161, 242-259, 375-396, 492-512, 602-621;
`none` is Python's `None` -/
def EC.sedFlux (k : Consts) (a : EC) (nu : ℝ) : Option ℝ :=
  let b := a.blob
  let g := b.gamma_e_external_frame
  match a.target with
  | .cmb t =>
    some (isoMono k a.integrator nu b.z b.d_L b.delta_D b.mu_s b.R_b t.epsilon_0 t.u_0 b.n_e g a.mu a.phi)
  | .ps t => some (psBehindJet k a.integrator nu b.z b.d_L b.delta_D b.mu_s b.R_b t.epsilon_0 t.L_0 a.r b.n_e g)
  | .disk t =>
    some (ssDisk k a.integrator nu b.z b.d_L b.delta_D b.mu_s b.R_b t.M_BH t.L_disk t.eta t.R_in t.R_out a.r b.n_e g
      a.mu_size a.phi)
  | .blr t =>
    some (blr k a.integrator nu b.z b.d_L b.delta_D b.mu_s b.R_b t.L_disk t.xi_line t.epsilon_line t.R_line a.r b.n_e g
      a.mu a.phi)
  | .dt t =>
    some (dt k a.integrator nu b.z b.d_L b.delta_D b.mu_s b.R_b t.L_disk t.xi_dt (t.epsilon_dt k) t.R_dt a.r b.n_e g
      a.phi)
  | .other => none

end Verif.Compton

end
