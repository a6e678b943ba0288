import Verif.Model.Compton

/-
Model of agnpy/fit over the reals, for one energy at a time.  `distance` is astropy's `Distance(z=z)` for the default
cosmology.  Quantities are numbers in cgs units, energies in erg, wavelengths in Angstrom.  The limits of the
parameters and the flags `frozen`, which only the fitting libraries use, are not modelled.  Parameter names are
modelled by `Name`: an attribute with or without the prefix "log10_".
-/

noncomputable section

namespace Verif.Fit

open MathUtils Spectra Region Targets Classical

/-- the names of the parameters without the prefix "log10_"; `scale` is "norm" of the gammapy models, distinct
from the `norm` of the interpolated distribution, whose parameter is called "log10_norm" -/
inductive Attr where
  | k | norm | p | p1 | p2 | q | gamma_c | gamma_b | gamma_0 | gamma_min | gamma_max
  | z | delta_D | B | t_var | mu_s | r
  | L_disk | M_BH | m_dot | R_in | R_out
  | xi_line | lambda_line | R_line
  | xi_dt | T_dt | R_dt
  | scale
  deriving DecidableEq

/-- a parameter name; `log` says that it starts with "log10_" -/
structure Name where
  log : Bool
  base : Attr
  deriving DecidableEq

/-- a name without the prefix -/
def plain (a : Attr) : Name := ⟨false, a⟩

/-- a name with the prefix -/
def log10_ (a : Attr) : Name := ⟨true, a⟩

/-- keyword arguments, or the parameters of a model: names and values -/
abbrev Pars := List (Name × ℝ)

/-- the failures: KeyError or IndexError of a lookup, ValueError of unpacking, TypeError of a wrong number of
arguments -/
abbrev Result := Option

/-! ### core.py -/

/-- `vars(n_e)` without the attributes removed in core.py:75-85, in the order in which the constructors set them:
`ParticleDistribution.__init__` (spectra.py:36-38) sets the limits, then spectra.py:265-266, 350-353, 461-464, 561-563,
655-659, 769 the rest -/
def attributes : Dist → List (Attr × ℝ)
  | .powerLaw k p a b => [(.gamma_min, a), (.gamma_max, b), (.k, k), (.p, p)]
  | .broken k p1 p2 gb a b =>
    [(.gamma_min, a), (.gamma_max, b), (.k, k), (.p1, p1), (.p2, p2), (.gamma_b, gb)]
  | .logParabola k p q g0 a b =>
    [(.gamma_min, a), (.gamma_max, b), (.k, k), (.p, p), (.q, q), (.gamma_0, g0)]
  | .ecpl k p gc a b => [(.gamma_min, a), (.gamma_max, b), (.k, k), (.p, p), (.gamma_c, gc)]
  | .ecbpl k p1 p2 gc gb a b =>
    [(.gamma_min, a), (.gamma_max, b), (.k, k), (.p1, p1), (.p2, p2), (.gamma_c, gc), (.gamma_b, gb)]
  | .interp _ _ norm a b => [(.gamma_min, a), (.gamma_max, b), (.norm, norm)]
  | .empty a b => [(.gamma_min, a), (.gamma_max, b)]

/-- core.py:89 -/
def keyOrder : List Attr :=
  [.k, .norm, .p, .p1, .p2, .q, .gamma_c, .gamma_b, .gamma_0, .gamma_min, .gamma_max]

/-- core.py:93-113: name and value of the parameter made from an attribute.  The last branch is not reached:
`keyOrder` has no other names. -/
def toParameter : Attr × ℝ → Name × ℝ
  | (.k, v) => (log10_ .k, log10 v)
  | (.gamma_min, v) => (log10_ .gamma_min, log10 v)
  | (.gamma_max, v) => (log10_ .gamma_max, log10 v)
  | (.gamma_b, v) => (log10_ .gamma_b, log10 v)
  | (.gamma_0, v) => (log10_ .gamma_0, log10 v)
  | (.gamma_c, v) => (log10_ .gamma_c, log10 v)
  | (.p, v) => (plain .p, v)
  | (.p1, v) => (plain .p1, v)
  | (.p2, v) => (plain .p2, v)
  | (.q, v) => (plain .q, v)
  | (.norm, v) => (log10_ .norm, log10 v)
  | (a, v) => (plain a, v)

/-- `get_spectral_parameters_from_n_e`, core.py:55-125: names and initial values -/
def spectralParameters (n_e : Dist) : Pars :=
  (keyOrder.filterMap fun key => ((attributes n_e).lookup key).map fun v => (key, v)).map toParameter

/-- `self._spectral_pars_names`, gammapy_wrapper.py:128 -/
def spectralNames (n_e : Dist) : List Name := (spectralParameters n_e).map Prod.fst

/-- the two scenarios of core.py:159-171 -/
inductive Scenario where
  | ssc
  | ec

/-- `make_emission_region_parameters_dict`, core.py:128-180: names and initial values -/
def emissionParameters : Scenario → Pars
  | .ssc => [(plain .z, 1 / 10), (plain .delta_D, 10), (log10_ .B, -2), (plain .t_var, 600)]
  | .ec => [(plain .z, 1 / 10), (plain .delta_D, 10), (log10_ .B, -2), (plain .t_var, 600), (plain .mu_s, 0),
      (log10_ .r, 18)]

/-- `make_targets_parameters_dict`, core.py:183-236: names and initial values -/
def targetsParameters (targets : List String) : Pars :=
  [(log10_ .L_disk, 45), (plain .M_BH, 10 ^ 42), (plain .m_dot, 10 ^ 26), (plain .R_in, 10 ^ 14),
    (plain .R_out, 10 ^ 17)]
  ++ (if "blr" ∈ targets then
      [(plain .xi_line, 6 / 10), (plain .lambda_line, 121567 / 100), (plain .R_line, 10 ^ 17)] else [])
  ++ (if "dt" ∈ targets then
      [(plain .xi_dt, 6 / 10), (plain .T_dt, 10 ^ 3), (plain .R_dt, 3 * 10 ^ 18)] else [])

/-! ### the distribution with the parameters of the fit -/

/-- the object whose attributes are the arguments `*args` of `n_e.evaluate(gamma, *args)`: the wrappers never
change `n_e`, they pass the values of the parameters to its static methods, which is the same as calling an object of
the same family that has these values (`withParameters_evaluate`) -/
def withParameters : Dist → List ℝ → Result Dist
  | .powerLaw .., [k, p, a, b] => some (.powerLaw k p a b)
  | .broken .., [k, p1, p2, gb, a, b] => some (.broken k p1 p2 gb a b)
  | .logParabola .., [k, p, q, g0, a, b] => some (.logParabola k p q g0 a b)
  | .ecpl .., [k, p, gc, a, b] => some (.ecpl k p gc a b)
  | .ecbpl .., [k, p1, p2, gc, gb, a, b] => some (.ecbpl k p1 p2 gc gb a b)
  | .interp f df .., [norm, a, b] => some (.interp f df norm a b)
  | .empty .., [a, b] => some (.empty a b)
  | _, _ => none

/-- gammapy_wrapper.py:20-21 and sherpa_wrapper.py:25-26 -/
def gammaToIntegrate : List ℝ := logspace 1 9 300

/-- utils/math.py:8, the default of `evaluate_sed_flux_blr` (external_compton.py:415) -/
def muToIntegrate : List ℝ := linspace (-1) 1 100

/-- utils/math.py:9, the default of `evaluate_sed_flux_blr` and `_dt` (external_compton.py:416, 531) -/
def phiToIntegrate : List ℝ := linspace 0 (2 * Real.pi) 50

/-- the array of Lorentz factors after `Synchrotron.evaluate_sed_flux` -/
def afterSynch (n_e : Dist) (ssa : Bool) (gamma : List ℝ) : List ℝ :=
  let gamma1 := n_e.afterCall gamma
  if ssa then n_e.afterSSA gamma1 else gamma1

/-- `lambda_line.to("erg", equivalencies=u.spectral()) / mec2` for a wavelength in Angstrom -/
def lineEnergy (k : Consts) (wavelength : ℝ) : ℝ := k.h * k.c / (wavelength / 10 ^ 8) / k.mec2

/-- `2.7 * (k_B * T_dt / mec2)` -/
def dustEnergy (k : Consts) (T : ℝ) : ℝ := 27 / 10 * (k.k_B * T / k.mec2)

/-! ### gammapy_wrapper.py -/

/-- `_sort_spectral_parameters`, gammapy_wrapper.py:24-37 (the unit of `k` is implicit) -/
def sortSpectral (names : List Name) (kwargs : Pars) : Result (List ℝ) :=
  names.mapM fun key => (kwargs.lookup key).map fun v => if key.log then (10 : ℝ) ^ v else v

/-- what `_sort_emission_region_parameters` returns -/
structure Emission where
  z : ℝ
  d_L : ℝ
  delta_D : ℝ
  B : ℝ
  R_b : ℝ

/-- `_sort_emission_region_parameters`, gammapy_wrapper.py:40-55 -/
def sortEmission (k : Consts) (distance : ℝ → ℝ) (kwargs : Pars) : Result Emission := do
  let z ← kwargs.lookup (plain .z)
  let delta_D ← kwargs.lookup (plain .delta_D)
  let log10_B ← kwargs.lookup (log10_ .B)
  let t_var ← kwargs.lookup (plain .t_var)
  some { z, d_L := distance z, delta_D, B := (10 : ℝ) ^ log10_B, R_b := k.c * t_var * delta_D / (1 + z) }

/-- `_sort_emission_region_parameters`, gammapy_wrapper.py:57-62: `mu_s` and `r` -/
def sortJet (kwargs : Pars) : Result (ℝ × ℝ) := do
  let mu_s ← kwargs.lookup (plain .mu_s)
  let log10_r ← kwargs.lookup (log10_ .r)
  some (mu_s, (10 : ℝ) ^ log10_r)

/-- `_sort_disk_parameters`, gammapy_wrapper.py:65-73: `L_disk, M_BH, m_dot, R_in, R_out` -/
def sortDisk (kwargs : Pars) : Result (ℝ × ℝ × ℝ × ℝ × ℝ) := do
  let log10_L_disk ← kwargs.lookup (log10_ .L_disk)
  let M_BH ← kwargs.lookup (plain .M_BH)
  let m_dot ← kwargs.lookup (plain .m_dot)
  let R_in ← kwargs.lookup (plain .R_in)
  let R_out ← kwargs.lookup (plain .R_out)
  some ((10 : ℝ) ^ log10_L_disk, M_BH, m_dot, R_in, R_out)

/-- `_sort_blr_parameters`, gammapy_wrapper.py:86-93: `xi_line, epsilon_line, R_line`.  (The function is defined twice,
on lines 76-83 and 86-93; the second definition, modelled here, replaces the first and looks up the names in another order.) -/
def sortBLR (k : Consts) (kwargs : Pars) : Result (ℝ × ℝ × ℝ) := do
  let xi_line ← kwargs.lookup (plain .xi_line)
  let lambda_line ← kwargs.lookup (plain .lambda_line)
  let R_line ← kwargs.lookup (plain .R_line)
  some (xi_line, lineEnergy k lambda_line, R_line)

/-- `_sort_dt_parameters`, gammapy_wrapper.py:96-102: `xi_dt, epsilon_dt, T_dt, R_dt` -/
def sortDT (k : Consts) (kwargs : Pars) : Result (ℝ × ℝ × ℝ × ℝ) := do
  let xi_dt ← kwargs.lookup (plain .xi_dt)
  let T_dt ← kwargs.lookup (plain .T_dt)
  let R_dt ← kwargs.lookup (plain .R_dt)
  some (xi_dt, dustEnergy k T_dt, T_dt, R_dt)

/-- initial parameters of `SynchrotronSelfComptonSpectralModel`, gammapy_wrapper.py:123-142 -/
def gammapySSCParameters (n_e : Dist) : Pars :=
  spectralParameters n_e ++ (emissionParameters .ssc ++ [(plain .scale, 1)])

/-- initial parameters of `ExternalComptonSpectralModel`, gammapy_wrapper.py:208-237 -/
def gammapyECParameters (n_e : Dist) (targets : List String) : Pars :=
  spectralParameters n_e ++ (emissionParameters .ec ++ (targetsParameters targets ++ [(plain .scale, 1)]))

/-- gammapy_wrapper.py:171-178: synchrotron plus SSC; both use the module's array `gamma_e_to_integrate`, which the
first may overwrite -/
def synchPlusSSC (k : Consts) (ssa : Bool) (nu : ℝ) (e : Emission) (n_e : Dist) (gamma : List ℝ) : ℝ :=
  let sed_synch := Synchrotron.sedFlux k trapz ssa nu e.z e.d_L e.delta_D e.B e.R_b n_e gamma
  let sed_ssc := Compton.sscSed k trapz ssa nu e.z e.d_L e.delta_D e.B e.R_b n_e (afterSynch n_e ssa gamma)
  sed_synch + sed_ssc

/-- `SynchrotronSelfComptonSpectralModel.evaluate`, gammapy_wrapper.py:161-181; `gamma` is the state of the module's
array of Lorentz factors -/
def gammapySSC (k : Consts) (distance : ℝ → ℝ) (n_e : Dist) (ssa : Bool) (gamma : List ℝ) (energy : ℝ)
    (kwargs : Pars) : Result ℝ := do
  let nu := energy / k.h
  let args ← sortSpectral (spectralNames n_e) kwargs
  let e ← sortEmission k distance kwargs
  let n ← withParameters n_e args
  let sed := synchPlusSSC k ssa nu e n gamma
  some (sed / energy ^ 2)

/-- gammapy_wrapper.py:312-330 -/
def gammapyBLR (k : Consts) (targets : List String) (nu : ℝ) (e : Emission) (mu_s r L_disk : ℝ) (n : Dist)
    (kwargs : Pars) : Result ℝ :=
  if "blr" ∈ targets then do
    let (xi_line, epsilon_line, R_line) ← sortBLR k kwargs
    some (Compton.blr k trapz nu e.z e.d_L e.delta_D mu_s e.R_b L_disk xi_line epsilon_line R_line r n
      gammaToIntegrate muToIntegrate phiToIntegrate)
  else some 0

/-- gammapy_wrapper.py:332-355 -/
def gammapyDT (k : Consts) (targets : List String) (nu : ℝ) (e : Emission) (mu_s r L_disk : ℝ) (n : Dist)
    (kwargs : Pars) : Result ℝ :=
  if "dt" ∈ targets then do
    let (xi_dt, epsilon_dt, T_dt, R_dt) ← sortDT k kwargs
    let sed_ec_dt := Compton.dt k trapz nu e.z e.d_L e.delta_D mu_s e.R_b L_disk xi_dt epsilon_dt R_dt r n
      gammaToIntegrate phiToIntegrate
    let sed_bb_dt := DT.bbNormSed k nu e.z (xi_dt * L_disk) T_dt R_dt e.d_L
    some (sed_ec_dt + sed_bb_dt)
  else some 0

/-- `ExternalComptonSpectralModel.evaluate`, gammapy_wrapper.py:284-357.  The disk's SED is evaluated with the default
`mu_s=1` (targets.py:397). -/
def gammapyEC (k : Consts) (distance : ℝ → ℝ) (n_e : Dist) (targets : List String) (ssa : Bool) (gamma : List ℝ)
    (energy : ℝ) (kwargs : Pars) : Result ℝ := do
  let nu := energy / k.h
  let args ← sortSpectral (spectralNames n_e) kwargs
  let e ← sortEmission k distance kwargs
  let (mu_s, r) ← sortJet kwargs
  let n ← withParameters n_e args
  let sed := synchPlusSSC k ssa nu e n gamma
  let (L_disk, M_BH, m_dot, R_in, R_out) ← sortDisk kwargs
  let sed := sed + SSDisk.multiTNormSed k nu e.z L_disk M_BH m_dot R_in R_out e.d_L 1
  let sed_blr ← gammapyBLR k targets nu e mu_s r L_disk n kwargs
  let sed := sed + sed_blr
  let sed_dt ← gammapyDT k targets nu e mu_s r L_disk n kwargs
  let sed := sed + sed_dt
  some (sed / energy ^ 2)

/-- `self.parameters[name].value = v`: fails if there is no parameter of this name -/
def setPar (name : Name) (v : ℝ) (pars : Pars) : Result Pars :=
  if name ∈ pars.map Prod.fst then some (pars.map fun q => if q.1 = name then (q.1, v) else q) else none

/-- `set_emission_region_parameters_from_blob` of the SSC models, gammapy_wrapper.py:154-159 and
sherpa_wrapper.py:369-374 -/
def setFromBlobSSC (k : Consts) (b : Blob) (pars : Pars) : Result Pars := do
  let pars ← setPar (plain .z) b.z pars
  let pars ← setPar (plain .delta_D) b.delta_D pars
  let pars ← setPar (log10_ .B) (log10 b.B) pars
  setPar (plain .t_var) (b.t_var k) pars

/-- `set_emission_region_parameters_from_blob` of the EC models, gammapy_wrapper.py:239-247 and
sherpa_wrapper.py:437-445 -/
def setFromBlobEC (k : Consts) (b : Blob) (r : ℝ) (pars : Pars) : Result Pars := do
  let pars ← setPar (plain .z) b.z pars
  let pars ← setPar (plain .delta_D) b.delta_D pars
  let pars ← setPar (log10_ .B) (log10 b.B) pars
  let pars ← setPar (plain .t_var) (b.t_var k) pars
  let pars ← setPar (plain .mu_s) b.mu_s pars
  setPar (log10_ .r) (log10 r) pars

/-- the argument `blr` of `set_targets_parameters_from_targets`: the target and its attribute `lambda_line`
(targets.py:492), which `BLR` does not keep -/
structure Line where
  blr : BLR
  lambda_line : ℝ

/-- `set_targets_parameters_from_targets`, gammapy_wrapper.py:249-267 and sherpa_wrapper.py:447-463: the disk -/
def setDisk (k : Consts) (disk : SSDisk) (pars : Pars) : Result Pars := do
  let pars ← setPar (log10_ .L_disk) (log10 disk.L_disk) pars
  let pars ← setPar (plain .M_BH) disk.M_BH pars
  let pars ← setPar (plain .m_dot) (disk.m_dot k) pars
  let pars ← setPar (plain .R_in) disk.R_in pars
  setPar (plain .R_out) disk.R_out pars

/-- the same, the BLR -/
def setBLR (blr : Option Line) (pars : Pars) : Result Pars :=
  match blr with
  | some t => do
    let pars ← setPar (plain .xi_line) t.blr.xi_line pars
    let pars ← setPar (plain .lambda_line) t.lambda_line pars
    setPar (plain .R_line) t.blr.R_line pars
  | none => some pars

/-- the same, the torus -/
def setDT (dt : Option DT) (pars : Pars) : Result Pars :=
  match dt with
  | some t => do
    let pars ← setPar (plain .xi_dt) t.xi_dt pars
    let pars ← setPar (plain .T_dt) t.T_dt pars
    setPar (plain .R_dt) t.R_dt pars
  | none => some pars

/-- `set_targets_parameters_from_targets`, gammapy_wrapper.py:249-267 and sherpa_wrapper.py:447-463 -/
def setFromTargets (k : Consts) (disk : SSDisk) (blr : Option Line) (dt : Option DT) (pars : Pars) : Result Pars := do
  let pars ← setDisk k disk pars
  let pars ← setBLR blr pars
  setDT dt pars

/-! ### sherpa_wrapper.py -/

/-- `args[i] = 10 ** args[i]`, `i` from the front -/
def scaleAt (i : ℕ) (args : List ℝ) : Result (List ℝ) :=
  if i < args.length then some (args.modify i fun x => (10 : ℝ) ^ x) else none

/-- `args[-i] = 10 ** args[-i]` -/
def scaleEnd (i : ℕ) (args : List ℝ) : Result (List ℝ) :=
  if i ≤ args.length then some (args.modify (args.length - i) fun x => (10 : ℝ) ^ x) else none

/-- `_scale_spectral_parameters`, sherpa_wrapper.py:29-48.  An `EmptyDistribution` has two parameters, so `args[-2]` is
`args[0]`, which has become a density: 10 to the power of it is a UnitTypeError. -/
def scaleSpectral (n_e : Dist) (args : List ℝ) : Result (List ℝ) :=
  match n_e with
  | .interp .. => do
    let args ← scaleAt 0 args
    let args ← scaleAt 1 args
    scaleAt 2 args
  | .empty .. => none
  | .powerLaw .. => do
    let args ← scaleAt 0 args
    let args ← scaleEnd 2 args
    scaleEnd 1 args
  | .ecbpl .. => do
    let args ← scaleAt 0 args
    let args ← scaleEnd 2 args
    let args ← scaleEnd 1 args
    let args ← scaleEnd 3 args
    scaleEnd 4 args
  | _ => do
    let args ← scaleAt 0 args
    let args ← scaleEnd 2 args
    let args ← scaleEnd 1 args
    scaleEnd 3 args

/-- `(*args, a_1, ..., a_n) = pars` -/
def unpack (n : ℕ) (pars : List ℝ) : Result (List ℝ × List ℝ) :=
  if pars.length < n then none else some (pars.take (pars.length - n), pars.drop (pars.length - n))

/-- `_evaluate_sed_ssc_scenario`, sherpa_wrapper.py:51-75 -/
def sherpaSSC (k : Consts) (distance : ℝ → ℝ) (n_e : Dist) (ssa : Bool) (gamma : List ℝ) (x : ℝ) (pars : List ℝ) :
    Result ℝ := do
  let (args, rest) ← unpack 4 pars
  match rest with
  | [z, delta_D, log10_B, t_var] => do
    let args ← scaleSpectral n_e args
    let B := (10 : ℝ) ^ log10_B
    let d_L := distance z
    let R_b := k.c * t_var * delta_D / (1 + z)
    let nu := x / k.h
    let n ← withParameters n_e args
    let sed_synch := Synchrotron.sedFlux k trapz ssa nu z d_L delta_D B R_b n gamma
    let sed_ssc := Compton.sscSed k trapz ssa nu z d_L delta_D B R_b n (afterSynch n ssa gamma)
    some (sed_synch + sed_ssc)
  | _ => none

/-- `_evaluate_sed_ec_blr_scenario`, sherpa_wrapper.py:78-150 -/
def sherpaBLR (k : Consts) (distance : ℝ → ℝ) (n_e : Dist) (ssa : Bool) (gamma : List ℝ) (x : ℝ) (pars : List ℝ) :
    Result ℝ := do
  let (args, rest) ← unpack 14 pars
  match rest with
  | [z, delta_D, log10_B, t_var, mu_s, log10_r, log10_L_disk, M_BH, m_dot, R_in, R_out, xi_line, lambda_line,
      R_line] => do
    let args ← scaleSpectral n_e args
    let B := (10 : ℝ) ^ log10_B
    let d_L := distance z
    let R_b := k.c * t_var * delta_D / (1 + z)
    let r := (10 : ℝ) ^ log10_r
    let L_disk := (10 : ℝ) ^ log10_L_disk
    let epsilon_line := lineEnergy k lambda_line
    let nu := x / k.h
    let n ← withParameters n_e args
    let sed_synch := Synchrotron.sedFlux k trapz ssa nu z d_L delta_D B R_b n gamma
    let sed_ssc := Compton.sscSed k trapz ssa nu z d_L delta_D B R_b n (afterSynch n ssa gamma)
    let sed_bb_disk := SSDisk.multiTNormSed k nu z L_disk M_BH m_dot R_in R_out d_L 1
    let sed_ec_blr := Compton.blr k trapz nu z d_L delta_D mu_s R_b L_disk xi_line epsilon_line R_line r n
      gammaToIntegrate muToIntegrate phiToIntegrate
    some (sed_synch + sed_ssc + sed_bb_disk + sed_ec_blr)
  | _ => none

/-- `_evaluate_sed_ec_dt_scenario`, sherpa_wrapper.py:153-225 -/
def sherpaDT (k : Consts) (distance : ℝ → ℝ) (n_e : Dist) (ssa : Bool) (gamma : List ℝ) (x : ℝ) (pars : List ℝ) :
    Result ℝ := do
  let (args, rest) ← unpack 14 pars
  match rest with
  | [z, delta_D, log10_B, t_var, mu_s, log10_r, log10_L_disk, M_BH, m_dot, R_in, R_out, xi_dt, T_dt, R_dt] => do
    let args ← scaleSpectral n_e args
    let B := (10 : ℝ) ^ log10_B
    let d_L := distance z
    let R_b := k.c * t_var * delta_D / (1 + z)
    let r := (10 : ℝ) ^ log10_r
    let L_disk := (10 : ℝ) ^ log10_L_disk
    let epsilon_dt := dustEnergy k T_dt
    let nu := x / k.h
    let n ← withParameters n_e args
    let sed_synch := Synchrotron.sedFlux k trapz ssa nu z d_L delta_D B R_b n gamma
    let sed_ssc := Compton.sscSed k trapz ssa nu z d_L delta_D B R_b n (afterSynch n ssa gamma)
    let sed_bb_disk := SSDisk.multiTNormSed k nu z L_disk M_BH m_dot R_in R_out d_L 1
    let sed_bb_dt := DT.bbNormSed k nu z (xi_dt * L_disk) T_dt R_dt d_L
    let sed_ec_dt := Compton.dt k trapz nu z d_L delta_D mu_s R_b L_disk xi_dt epsilon_dt R_dt r n
      gammaToIntegrate phiToIntegrate
    some (sed_synch + sed_ssc + sed_bb_disk + sed_bb_dt + sed_ec_dt)
  | _ => none

/-- `_evaluate_sed_ec_blr_dt_scenario`, sherpa_wrapper.py:228-325 -/
def sherpaBLRDT (k : Consts) (distance : ℝ → ℝ) (n_e : Dist) (ssa : Bool) (gamma : List ℝ) (x : ℝ)
    (pars : List ℝ) : Result ℝ := do
  let (args, rest) ← unpack 17 pars
  match rest with
  | [z, delta_D, log10_B, t_var, mu_s, log10_r, log10_L_disk, M_BH, m_dot, R_in, R_out, xi_line, lambda_line,
      R_line, xi_dt, T_dt, R_dt] => do
    let args ← scaleSpectral n_e args
    let B := (10 : ℝ) ^ log10_B
    let d_L := distance z
    let R_b := k.c * t_var * delta_D / (1 + z)
    let r := (10 : ℝ) ^ log10_r
    let L_disk := (10 : ℝ) ^ log10_L_disk
    let epsilon_line := lineEnergy k lambda_line
    let epsilon_dt := dustEnergy k T_dt
    let nu := x / k.h
    let n ← withParameters n_e args
    let sed_synch := Synchrotron.sedFlux k trapz ssa nu z d_L delta_D B R_b n gamma
    let sed_ssc := Compton.sscSed k trapz ssa nu z d_L delta_D B R_b n (afterSynch n ssa gamma)
    let sed_bb_disk := SSDisk.multiTNormSed k nu z L_disk M_BH m_dot R_in R_out d_L 1
    let sed_bb_dt := DT.bbNormSed k nu z (xi_dt * L_disk) T_dt R_dt d_L
    let sed_ec_blr := Compton.blr k trapz nu z d_L delta_D mu_s R_b L_disk xi_line epsilon_line R_line r n
      gammaToIntegrate muToIntegrate phiToIntegrate
    let sed_ec_dt := Compton.dt k trapz nu z d_L delta_D mu_s R_b L_disk xi_dt epsilon_dt R_dt r n
      gammaToIntegrate phiToIntegrate
    some (sed_synch + sed_ssc + sed_bb_disk + sed_bb_dt + sed_ec_blr + sed_ec_dt)
  | _ => none

/-- `ExternalComptonRegriddableModel1D.calc`, sherpa_wrapper.py:465-472; `some none` is Python's `None` -/
def sherpaEC (k : Consts) (distance : ℝ → ℝ) (n_e : Dist) (targets : List String) (ssa : Bool) (gamma : List ℝ)
    (x : ℝ) (pars : List ℝ) : Result (Option ℝ) :=
  if targets = ["blr"] then (sherpaBLR k distance n_e ssa gamma x pars).map some
  else if targets = ["dt"] then (sherpaDT k distance n_e ssa gamma x pars).map some
  else if targets = ["blr", "dt"] then (sherpaBLRDT k distance n_e ssa gamma x pars).map some
  else some none

/-- initial parameters of `SynchrotronSelfComptonRegriddableModel1D`, sherpa_wrapper.py:343-367 -/
def sherpaSSCParameters (n_e : Dist) : Pars := spectralParameters n_e ++ emissionParameters .ssc

/-- initial parameters of `ExternalComptonRegriddableModel1D`, sherpa_wrapper.py:401-435 -/
def sherpaECParameters (n_e : Dist) (targets : List String) : Pars :=
  spectralParameters n_e ++ (emissionParameters .ec ++ targetsParameters targets)

/-! ### models.py -/

/-- the classes that models.py can return -/
inductive Backend where
  | gammapy
  | sherpa
  deriving DecidableEq

/-- `SynchrotronSelfComptonModel.__new__` and `ExternalComptonModel.__new__`, models.py:14-22, 28-36: which wrapper is
built; `none` is the ValueError -/
def selectBackend (backend : String) : Result Backend :=
  if backend = "sherpa" then some .sherpa
  else if backend = "gammapy" then some .gammapy
  else none

/-! ### data.py -/

/-- a row of the table of flux points -/
structure Row where
  instrument : String
  e_ref : ℝ
  e2dnde : ℝ
  errn : ℝ
  errp : ℝ

/-- `table.group_by("instrument")` (astropy, not code of /repo): one group for each name, in the order of the
names, the rows of a group in the order of the table -/
def groupBy (table : List Row) : List (String × List Row) :=
  ((table.map (·.instrument)).dedup.mergeSort fun a b => decide (a ≤ b)).map fun name =>
    (name, table.filter fun row => row.instrument = name)

/-- `Data1D`: the arrays x, y, staterror and syserror -/
structure Data1D where
  x : List ℝ
  y : List ℝ
  stat : List ℝ
  syst : List ℝ

/-- data.py:50-56: the value of the variable `e2dnde_err_syst` after the statement, given its value before; `none`
means that the variable has not been assigned yet.  A dictionary is the list of its items. -/
def systOf (dict : Option (List (String × ℝ))) (name : String) (rows : List Row) (before : Option (List ℝ)) :
    Option (List ℝ) :=
  match dict with
  | some items => items.foldl (fun v item =>
      if name = item.1 then some (rows.map fun row => item.2 * row.e2dnde) else v) before
  | none => some (rows.map fun _ => 0)

/-- data.py:41-61: the loop over the groups, with the arrays filled so far and the value of the variable
`e2dnde_err_syst`, which survives from one group to the next; `none` is the UnboundLocalError -/
def sherpaLoop (dict : Option (List (String × ℝ))) :
    List (String × List Row) → Option (List ℝ) → Data1D → Result Data1D
  | [], _, acc => some acc
  | (name, rows) :: rest, before, acc =>
    match systOf dict name rows before with
    | none => none
    | some syst =>
      sherpaLoop dict rest (some syst)
        { x := acc.x ++ rows.map (·.e_ref)
          y := acc.y ++ rows.map (·.e2dnde)
          stat := acc.stat ++ rows.map fun row => (row.errn + row.errp) / 2
          syst := acc.syst ++ syst }

/-- `load_sherpa_flux_points`, data.py:9-68, before the energy selection (`notice`, which sherpa does) and before the
checks of sherpa's `Data1D` -/
def loadSherpa (table : List Row) (dict : Option (List (String × ℝ))) : Result Data1D :=
  sherpaLoop dict (groupBy table) none ⟨[], [], [], []⟩

/-- gammapy's `FluxPoints` at one energy: the reference flux and the norm with its errors; `dnde` is `norm * ref` -/
structure FluxPoint where
  e_ref : ℝ
  ref : ℝ
  norm : ℝ
  norm_errn : ℝ
  norm_errp : ℝ

namespace FluxPoint

/-- `flux_points.dnde` -/
def dnde (p : FluxPoint) : ℝ := p.norm * p.ref

/-- `flux_points.dnde_errn` -/
def dnde_errn (p : FluxPoint) : ℝ := p.norm_errn * p.ref

/-- `flux_points.dnde_errp` -/
def dnde_errp (p : FluxPoint) : ℝ := p.norm_errp * p.ref

/-- `FluxPoints.from_table(group, sed_type="e2dnde")` (gammapy, not code of /repo) for one row; `ref` is the reference
model -/
def ofRow (ref : ℝ → ℝ) (row : Row) : FluxPoint :=
  { e_ref := row.e_ref
    ref := ref row.e_ref
    norm := row.e2dnde / (row.e_ref ^ 2 * ref row.e_ref)
    norm_errn := row.errn / (row.e_ref ^ 2 * ref row.e_ref)
    norm_errp := row.errp / (row.e_ref ^ 2 * ref row.e_ref) }

end FluxPoint

/-- `add_systematic_errors_gammapy_flux_points`, data.py:71-89, at one energy -/
def addSystematics (rel : ℝ) (p : FluxPoint) : FluxPoint :=
  let dnde_err_syst := rel * p.dnde
  let dnde_errn_tot := √(p.dnde_errn ^ 2 + dnde_err_syst ^ 2)
  let dnde_errp_tot := √(p.dnde_errp ^ 2 + dnde_err_syst ^ 2)
  { p with norm_errn := dnde_errn_tot / p.ref, norm_errp := dnde_errp_tot / p.ref }

/-- `load_gammapy_flux_points`, data.py:92-137: name and points of each dataset, before the energy selection -/
def loadGammapy (ref : ℝ → ℝ) (table : List Row) (dict : Option (List (String × ℝ))) :
    List (String × List FluxPoint) :=
  (groupBy table).map fun (name, rows) =>
    let data := rows.map (FluxPoint.ofRow ref)
    (name, match dict with
      | some items => items.foldl (fun data item =>
          if name = item.1 then data.map (addSystematics item.2) else data) data
      | none => data)

end Verif.Fit

end
