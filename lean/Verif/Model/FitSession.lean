import Verif.Model.Fit

/-! Several evaluations of fit models, one after the other.  The synchrotron and SSC parts integrate over the
array `gamma_e_to_integrate` of agnpy/utils/math.py:6, which all wrappers share and every call of a distribution
may overwrite (spectra.py:211-225). -/

noncomputable section

namespace Verif.Fit

open MathUtils Spectra

/-- utils/math.py:6 -/
def gammaEToIntegrate : List ℝ := logspace 1 9 200

/-- `gamma_e_to_integrate` after the synchrotron and the SSC SED of the distribution `n`: synchrotron.py:187-207
once for the SED itself (gammapy_wrapper.py:171, sherpa_wrapper.py:68), once for the target photons of SSC and then
`n_e.evaluate` in synchrotron_self_compton.py:124-141 -/
def afterModel (n : Dist) (ssa : Bool) (gamma : List ℝ) : List ℝ :=
  n.afterCall (afterSynch n ssa (afterSynch n ssa gamma))

/-- one evaluation of a fit model on an array of energies: `evaluate` of the gammapy models
(gammapy_wrapper.py:161-181, 284-357), `calc` of the sherpa models (sherpa_wrapper.py:376-378, 465-472) -/
inductive Call where
  | gammapySSC (n_e : Dist) (ssa : Bool) (energies : List ℝ) (kwargs : Pars)
  | gammapyEC (n_e : Dist) (targets : List String) (ssa : Bool) (energies : List ℝ) (kwargs : Pars)
  | sherpaSSC (n_e : Dist) (ssa : Bool) (energies : List ℝ) (pars : List ℝ)
  | sherpaEC (n_e : Dist) (targets : List String) (ssa : Bool) (energies : List ℝ) (pars : List ℝ)

/-- what the evaluation returns at each energy when the shared array is `gamma` -/
def Call.answers (k : Consts) (distance : ℝ → ℝ) (gamma : List ℝ) : Call → List (Result (Option ℝ))
  | .gammapySSC n_e ssa energies kwargs =>
    energies.map fun e => (Fit.gammapySSC k distance n_e ssa gamma e kwargs).map some
  | .gammapyEC n_e targets ssa energies kwargs =>
    energies.map fun e => (Fit.gammapyEC k distance n_e targets ssa gamma e kwargs).map some
  | .sherpaSSC n_e ssa energies pars => energies.map fun e => (Fit.sherpaSSC k distance n_e ssa gamma e pars).map some
  | .sherpaEC n_e targets ssa energies pars => energies.map fun e => Fit.sherpaEC k distance n_e targets ssa gamma e pars

/-- the spectrum (with the parameters of the call) that the synchrotron and SSC parts are evaluated with, and whether
with self-absorption; `none` if the evaluation ends before -/
def Call.spectrum (k : Consts) (distance : ℝ → ℝ) : Call → Option (Dist × Bool)
  | .gammapySSC n_e ssa _ kwargs => do
    let args ← sortSpectral (spectralNames n_e) kwargs
    let _ ← sortEmission k distance kwargs
    let n ← withParameters n_e args
    some (n, ssa)
  | .gammapyEC n_e _ ssa _ kwargs => do
    let args ← sortSpectral (spectralNames n_e) kwargs
    let _ ← sortEmission k distance kwargs
    let _ ← sortJet kwargs
    let n ← withParameters n_e args
    some (n, ssa)
  | .sherpaSSC n_e ssa _ pars => do
    let (args, _) ← unpack 4 pars
    let args ← scaleSpectral n_e args
    let n ← withParameters n_e args
    some (n, ssa)
  | .sherpaEC n_e targets ssa _ pars => do
    let m ← if targets = ["blr"] ∨ targets = ["dt"] then some 14
      else if targets = ["blr", "dt"] then some 17 else none
    let (args, _) ← unpack m pars
    let args ← scaleSpectral n_e args
    let n ← withParameters n_e args
    some (n, ssa)

/-- the shared array after the evaluation -/
def Call.after (k : Consts) (distance : ℝ → ℝ) (gamma : List ℝ) (c : Call) : List ℝ :=
  match c.spectrum k distance with
  | some (n, ssa) => afterModel n ssa gamma
  | none => gamma

/-- the answers of a sequence of evaluations -/
def session (k : Consts) (distance : ℝ → ℝ) : List ℝ → List Call → List (List (Result (Option ℝ)))
  | _, [] => []
  | gamma, c :: cs => c.answers k distance gamma :: session k distance (c.after k distance gamma) cs

end Verif.Fit

end
