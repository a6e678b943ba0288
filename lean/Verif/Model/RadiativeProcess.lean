import Verif.Model.Conversion

/-
Model of agnpy/radiative_process/core.py and of the peak functions of the processes, over the reals.  A process enters
by its function `sed_flux` (frequency in Hz, SED in erg cm-2 s-1).
-/

noncomputable section

namespace Verif.RadiativeProcess

open MathUtils

/-- `_nu_logspace`, radiative_process/core.py:6-12 -/
def nuLogspace (nu_min nu_max : ℝ) (n : ℕ) : List ℝ := logspace (log10 nu_min) (log10 nu_max) n

/-- `diff_energy_flux`, radiative_process/core.py:21-26; the energy is h nu (astropy's spectral equivalency), in erg here
(the code converts to eV) -/
def diffEnergyFlux (k : Consts) (sed_flux : ℝ → ℝ) (nu : ℝ) : ℝ := sed_flux nu / (k.h * nu) ^ 2

/-- `energy_flux_integral`, radiative_process/core.py:28-42 -/
def energyFluxIntegral (sed_flux : ℝ → ℝ) (nu_min nu_max : ℝ) (n : ℕ) : ℝ :=
  let nu := nuLogspace nu_min nu_max n
  let Fnu := nu.map fun nu => sed_flux nu / nu
  trapz Fnu nu

/-- `flux_integral`, radiative_process/core.py:44-59 -/
def fluxIntegral (k : Consts) (sed_flux : ℝ → ℝ) (nu_min nu_max : ℝ) (n : ℕ) : ℝ :=
  let nu := nuLogspace nu_min nu_max n
  let energy := nu.map (k.h * ·)
  let dphidE := nu.map (diffEnergyFlux k sed_flux)
  trapz dphidE energy

/-- `ndarray.argmax()` (numpy, not code of /repo): the first index of the largest element, with that element -/
def argmaxFrom (i : ℕ) (best : ℝ) (idx : ℕ) : List ℝ → ℕ
  | [] => idx
  | x :: xs => open Classical in if best < x then argmaxFrom (i + 1) x i xs else argmaxFrom (i + 1) best idx xs

/-- `ndarray.argmax()`; ValueError on an empty array -/
def argmax : List ℝ → Option ℕ
  | [] => none
  | x :: xs => some (argmaxFrom 1 x 0 xs)

/-- `sed_peak_flux`, synchrotron.py:267-270, synchrotron_self_compton.py:184-187, proton_synchrotron.py:177-180 -/
def sedPeakFlux (sed_flux : ℝ → ℝ) (nu : List ℝ) : Option ℝ := (nu.map sed_flux).max?

/-- `sed_peak_nu`, synchrotron.py:272-277, synchrotron_self_compton.py:189-193, proton_synchrotron.py:182-187 -/
def sedPeakNu (sed_flux : ℝ → ℝ) (nu : List ℝ) : Option ℝ := do
  let idx_max ← argmax (nu.map sed_flux)
  nu[idx_max]?

end Verif.RadiativeProcess

end
