import Verif.Model.Conversion
import Verif.Model.Spectra

/-
Model of agnpy/synchrotron/synchrotron.py and proton_synchrotron.py over the reals, for one
frequency at a time (the code broadcasts over an array of frequencies).

`evaluate` of a distribution may overwrite the ends of the Lorentz-factor array; `_gamma` is a view of
`gamma`, so everything computed afterwards uses the overwritten array.  The model does the same.
-/

noncomputable section

namespace Verif.Synchrotron

open MathUtils Spectra Classical

/-- synchrotron.py:13 critical magnetic field -/
def B_cr : ℝ := 4414 * 10 ^ 10

/-- `R`, synchrotron.py:16-24 -/
def R (x : ℝ) : ℝ :=
  let term_1_num := 1808 / 1000 * x ^ (1 / 3 : ℝ)
  let term_1_denom := √(1 + 34 / 10 * x ^ (2 / 3 : ℝ))
  let term_2_num := 1 + 221 / 100 * x ^ (2 / 3 : ℝ) + 347 / 1000 * x ^ (4 / 3 : ℝ)
  let term_2_denom := 1 + 1353 / 1000 * x ^ (2 / 3 : ℝ) + 217 / 1000 * x ^ (4 / 3 : ℝ)
  term_1_num / term_1_denom * term_2_num / term_2_denom * Real.exp (-x)

/-- `nu_synch_peak`, synchrotron.py:27-32 -/
def nuSynchPeak (k : Consts) (B gamma mass : ℝ) : ℝ :=
  k.e * B / (2 * Real.pi * mass * k.c) * gamma ^ 2

/-- `calc_x`, synchrotron.py:35-47 -/
def calcX (k : Consts) (B epsilon gamma mass : ℝ) : ℝ :=
  4 * Real.pi * epsilon * mass ^ 2 * k.c ^ 3 / (3 * k.e * B * k.h * gamma ^ 2)

/-- `epsilon_B`, synchrotron.py:50-52 -/
def epsilonB (B : ℝ) : ℝ := B / B_cr

/-- `single_particle_synch_power`, synchrotron.py:55-61 -/
def power (k : Consts) (B epsilon gamma mass : ℝ) : ℝ :=
  let x := calcX k B epsilon gamma mass
  let prefactor := √3 * k.e ^ 3 * B / k.h
  prefactor * R x

/-- `tau_to_attenuation`, synchrotron.py:64-68 -/
def tauToAttenuation (tau : ℝ) : ℝ :=
  let u := 1 / 2 + Real.exp (-tau) / tau - (1 - Real.exp (-tau)) / tau ^ 2
  if tau < 1 / 1000 then 1 else 3 * u / tau

/-- `Synchrotron.evaluate_tau_ssa`, synchrotron.py:101-129, for a distribution object called with its own
parameters (C30).  For an `EmptyDistribution`, which has no SSA integrand, the code raises an AttributeError; the
model gives 0. -/
def tauSSA (k : Consts) (integrator : List ℝ → List ℝ → ℝ) (nu z delta_D B R_b : ℝ) (n_e : Dist)
    (gamma : List ℝ) : ℝ :=
  let epsilon := nuToEps k nu z delta_D
  let (gamma', ssa) := n_e.ssaIntegrand gamma
  let integrand := List.zipWith (· * ·) ssa (gamma'.map fun g => power k B epsilon g k.m_e)
  let integral := integrator integrand gamma'
  let prefactor_k_epsilon :=
    -1 / (8 * Real.pi * k.m_e * epsilon ^ 2) * (k.lambda_c_e / k.c) ^ 3
  let k_epsilon := prefactor_k_epsilon * integral
  2 * k_epsilon * R_b

/-- volume of a sphere, synchrotron.py:187 -/
def volume (R_b : ℝ) : ℝ := 4 / 3 * Real.pi * R_b ^ 3

/-- synchrotron.py:182-193: the SED before self-absorption -/
def sedThin (k : Consts) (integrator : List ℝ → List ℝ → ℝ) (nu z d_L delta_D B R_b : ℝ) (n_e : Dist)
    (gamma : List ℝ) : ℝ :=
  let epsilon := nuToEps k nu z delta_D
  let V_b := volume R_b
  let (gamma', n) := n_e.evaluate gamma
  let N_e := n.map (V_b * ·)
  let integrand := List.zipWith (· * ·) N_e (gamma'.map fun g => power k B epsilon g k.m_e)
  let emissivity := integrator integrand gamma'
  let prefactor := delta_D ^ 4 / (4 * Real.pi * d_L ^ 2)
  prefactor * epsilon * emissivity

/-- `Synchrotron.evaluate_sed_flux`, synchrotron.py:131-211 -/
def sedFlux (k : Consts) (integrator : List ℝ → List ℝ → ℝ) (ssa : Bool) (nu z d_L delta_D B R_b : ℝ)
    (n_e : Dist) (gamma : List ℝ) : ℝ :=
  let sed := sedThin k integrator nu z d_L delta_D B R_b n_e gamma
  let gamma' := n_e.afterCall gamma
  if ssa then
    let tau := tauSSA k integrator nu z delta_D B R_b n_e gamma'
    let attenuation := tauToAttenuation tau
    sed * attenuation
  else sed

/-- `Synchrotron.evaluate_sed_flux_delta_approx`, synchrotron.py:213-227, for one frequency.  The density
is taken at `gamma_s` as it is: the correction of the two ends of the array `gamma_s` by the call of the distribution
(spectra.py:211-225) is left out here and modelled in `Verif.Batch.sedFluxDelta`. -/
def sedFluxDelta (k : Consts) (nu z d_L delta_D B R_b : ℝ) (n_e : Dist) : ℝ :=
  let epsilon_prime := nuToEps k nu z delta_D
  let gamma_s := √(epsilon_prime / epsilonB B)
  let U_B := B ^ 2 / (8 * Real.pi)
  let V_b := volume R_b
  let N_e := V_b * n_e.call gamma_s
  let prefactor := delta_D ^ 4 * k.c * k.sigma_T * U_B / (6 * Real.pi * d_L ^ 2)
  prefactor * gamma_s ^ 3 * N_e

/-- `_electron_energy_loss_formula_prefactor` and `electron_energy_loss_rate`, synchrotron.py:93-99 -/
def energyLossRate (k : Consts) (B gamma : ℝ) : ℝ :=
  let U_B := B ^ 2 / (8 * Real.pi)
  let fixed := 4 / 3 * k.sigma_T * k.c * U_B
  fixed * gamma ^ 2

/-- `sed_luminosity`, synchrotron.py:260-265 (the same in the other processes: proton_synchrotron.py:170-175,
synchrotron_self_compton.py:177-182, external_compton.py:636-640) -/
def luminosity (d_L flux : ℝ) : ℝ :=
  let sphere := 4 * Real.pi * d_L ^ 2
  sphere * flux

/-- `ProtonSynchrotron.evaluate_sed_flux`, proton_synchrotron.py:69-150 -/
def sedFluxProton (k : Consts) (integrator : List ℝ → List ℝ → ℝ) (nu z d_L delta_D B R_b : ℝ)
    (n_p : Dist) (gamma : List ℝ) : ℝ :=
  let epsilon := nuToEpsP k nu z delta_D
  let V_b := volume R_b
  let (gamma', n) := n_p.evaluate gamma
  let N_p := n.map (V_b * ·)
  let integrand := List.zipWith (· * ·) N_p (gamma'.map fun g => power k B epsilon g k.m_p)
  let emissivity := integrator integrand gamma'
  let prefactor := delta_D ^ 4 / (4 * Real.pi * d_L ^ 2)
  prefactor * epsilon * emissivity

end Verif.Synchrotron

end
