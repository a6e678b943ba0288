# Formal model of agnpy (Lean 4 + Mathlib)

## 1. Layout

* `lean/Verif/Model/*.lean` - definitions that mirror `/repo/agnpy` function by function, each with a
  comment citing file and lines.
* `lean/Verif/Lemmas/*.lean` - helper lemmas about the model.
* `lean/Verif/Props/*.lean` - the property theorems. A theorem `Cnn_...` belongs to property `Cnn` of
  `properties.jsonl`; `_partial` marks a weaker statement, `_violated` a proof that the full statement is false
  of the code. Beside the theorems stand `example`s with concrete cases that meet the hypotheses.
  Specifications (vectors in R^3, Mathlib's interval integrals and derivatives, cooling laws) are written there, not
  in terms of the helper functions of the model.
* `MANIFEST.json` is generated from `manifest.tsv` by `mkmanifest.py`.
* `seeded/LOG.jsonl` - edits of the model that imitate realistic bugs, and the theorems that stopped proving.
  How far to trust it: the build stops at the first helper lemma that no longer compiles, and everything that imports it is
  then listed as `blocked`, not tested. Of 513 distinct edits (none builds at the end), in 401 something in a property module
  failed, but in only 253 a theorem of the claim named in the entry. In the other 112 only a helper (111) or the model
  itself (1) failed (`evidence: helper only`). Such a
  failure may come from the proof script alone: `timeDensity_pos`, for example, stays true of several edits that break its
  proof. These 112 are therefore no evidence that the property theorem rejects the edit; a few describe edits that break no
  claim. Nine were looked at again with the failing helpers stubbed in the scratch copy (`second_look`). In three only
  `withinLimits_of_le` was left, which carries the content of C10 and is false of the edited program. In one a theorem of C11
  failed. In five only an `example` or its module failed, which settles nothing. The remaining 103 were not looked at again.

## 2. Modelling decisions

* **Numbers.** Floating point is not modelled. The time-evolution core is generic over a linearly
  ordered field `K` (so it can be instantiated with `Rat` and evaluated, and with `Real`); the
  numpy/scipy functions it needs (`log10`, the geometric mean `exp(mean(log x))`, `argsort`, the pchip
  interpolator) are fields of a structure `Numerics K` and the theorems assume only the
  contract `Numerics.Lawful` (monotone - possibly *not* strictly - `log10`; mean between min and max;
  `argsort` returns some sorting permutation; the interpolator is non-negative and goes through its nodes
  and rejects fewer than two or non-increasing abscissae). C84 alone also assumes `Numerics.Homogeneous`: multiplying the ordinates by a positive
  factor multiplies the interpolant (it interpolates `log10` of them). `Lemmas/RealNumerics.lean` shows that the contract can be
  met. All other modules work over `Real`.
* **NaN / inf.** Where the code relies on NaN or inf (placeholders for new bins, "no limit" times) the model
  uses `Option` / `WithTop` explicitly. Elsewhere Lean's `x/0 = 0` is never relied on for a claim about the
  code: theorems carry the guard under which the code does not divide by zero, and the degenerate branch is stated
  separately where it is reachable (e.g. `C42_homogeneous_zero`).
* **Exceptions** are values: `Except Err a`, one constructor of `Err` per exception raised by the code.
* **Units** (astropy) are not modelled: quantities are numbers in the unit the code converts to. Constants
  (`m_e`, `c`, `sigma_T`, ...) are positive parameters (`Consts`, `Consts.Pos`).
* **Arrays** are lists; multi-dimensional broadcasting is modelled per element, and the broadcasting
  contract itself is C34. Radiative processes are modelled at one frequency; the array programs over
  frequencies (`Model/Batch.lean`) are proved to agree with these (C100).
* **Mutation** is modelled by returning the new value (the blob's `n_e`, the caller's gamma array in C29).
* **Loops** are fuel-indexed iterations; theorems quantify over the fuel, reachable states are an inductive
  predicate (`Reach`), and statements about "every callback" and "the result" go through it.

## 3. Which code is modelled

| /repo/agnpy | Lean module | not modelled |
|---|---|---|
| time_evolution/time_evolution.py (class, loop, grouping, limits, merging) | Model/TimeEvolution | logging, wall-clock reporting |
| time_evolution/time_evolution.py (constructor) | Model/Constructor | unit checks, conversion of `total_time` |
| time_evolution/time_evolution.py (ready-made rate functions) | Model/RateFunctions | - |
| time_evolution/_time_evolution_utils.py, types.py | Model/TimeEvolution, Model/Np | - |
| spectra/spectra.py | Model/Spectra, Model/Particles (mass), Model/ArrayType (integer arrays, Python numbers) | unit checks, `__str__`, plotting; scipy's interpolators are parameters |
| utils/math.py | Model/MathUtils, Model/Kernels | floating-point round-off |
| utils/geometry.py | Model/Geometry | - |
| utils/conversion.py | Model/Conversion | `B_to_cgs` (unit conversion) |
| emission_regions/blob.py | Model/Blob, Model/Particles (n_e, n_p setters, N_p) | `Distance(z=z)` (d_L is an attribute), setters as such, `__str__`, plots |
| synchrotron/*.py | Model/Synchrotron | - |
| compton/*.py | Model/Compton, Model/Kernels | - |
| targets/targets.py | Model/Targets | `Distance`, astropy's constants; `BlackBody` is Planck's law |
| absorption/targets_absorption.py | Model/Absorption | - |
| absorption/ebl.py | Model/EBL | reading of the FITS files (tables are parameters); scipy's `interp2d` is bilinear interpolation |
| constraints/spectral_constraints.py | Model/Constraints | - |
| attributes, constructors and assignments of blobs, targets, radiative processes | Model/Objects | EBL and the fit wrappers; attributes that are not parameters of the constructor cannot be assigned in the model |
| radiative_process/core.py | Model/RadiativeProcess | - |
| fit/*.py | Model/Fit | limits and frozen flags, covariance, sherpa/gammapy optimisers, file reading (tables are parameters) |
| utils/validation_utils.py | Model/Validation (`check_deviation`, `clean_and_make_dir`; also `to_total_energy_gev_sqr` of time_evolution/_time_evolution_utils.py) | reading of tables, plots, links and permissions of the file system |
| utils/plot.py, every `plot_*` and `__str__` | - | presentation only |

`photo_meson` contains no code at this commit. In total 250 of 310 functions are cited by line in the model; the rest are
presentation, unit handling, or object wrappers cited with the function they wrap.

## 4. Plan per property

| id | what is modelled | how it is proved |
|---|---|---|
| C01, C02 | main loop | induction on steps; exact number of steps; infinite loop for non-positive step shown |
| C03-C08, C20, C63 | `step` with all its stages | one inductive invariant (sorted positive bins, aligned lengths, non-negative densities, partitioned fractions, bounds, no NaN rates, agreement with the blob) lifted to every reachable state. C63 refuted for empty distributions + partial |
| C09 | stage 1 (energy change) | algebra per bin and group |
| C10, C11 | automatic step | inequalities for each limit; optimised mode with the time since recalculation |
| C12 | everything | fixed point of the step, induction; a step with zero rates never fails |
| C13 | callback record | refuted (two fields swapped) + partial |
| C14 | Heun and Euler step | simulation; refuted for subgroups + partial |
| C15-C18 | mappings, merging, interpolation input, grouping | list induction |
| C19 | constructor | decision procedure equal to the documented condition; default grid |
| C21 | restart | simulation of the second run |
| C22 | remove_empty_densities | list lemmas |
| C23-C30 | spectra | `HasDerivAt`, homogeneity of the quadrature; C29 refuted + partial |
| C31-C34, C65 | utils/math | induction over the grid against interval integrals; C65 refuted + partial |
| C35-C38 | geometry | vectors in R^3 |
| C39-C43, C66, C67 | kernels, opacities | real inequalities; support of the cross section |
| C44 | shell guard | refuted, exact failure set proved |
| C45-C50 | blob, targets | algebra with `Beta = sqrt(1-1/Gamma^2)`; C48 refuted for the BLR + partial |
| C51-C55, C64, C68, C69 | SEDs, losses, fluxes | quadratures as positive homogeneous functionals |
| C56 | constraints | balance equations |
| C57-C60 | fit package | association lists keyed by names; C58, C59 refuted + partial |
| C61 | EBL | bilinear interpolation |
| C62 | peak functions | list argmax |
| C70 | run with local rates | simulation of the vectorised, sorting, merging step by Euler steps per bin |
| C71-C73 | same | closed forms and bounds for the Euler iterates, limits in `Real` |
| C74 | all modes | invariant on the largest (smallest) energy |
| C75, C77 | SEDs and opacities | rewriting of the photon energy; C77 refuted for the torus + partial |
| C78 | everything of the time evolution | each stage either succeeds or ends with one of the listed errors; the grid stays nonempty and the groups keep their number, by induction |
| C79 | synchrotron SED of a blob, trapezoidal rule | bound of the kernel `R(x) <= 2 exp(-x)` and its limit `R(x)/x^(1/3)`, passed through the sum over the grid |
| C80 | time evolution, fixed Euler steps, rates of gamma only | C70 reduces a run to one sequence per bin; local error along the solution (mean value inequality) and accumulation (discrete Gronwall) with explicit constants; positivity, order and separation of the bins follow from the closeness |
| C81 | time evolution, fixed Heun steps, rates of gamma only | as C70: predictor, re-evaluation and corrector collapse to one map per bin; the averaged rate of an edge is a function of the edge alone |
| C82 | as C81 | local error of the trapezoidal rule and of the predictor; the averaged rates are Lipschitz with a uniform constant; accumulation as in C80 |
| C83 | Targets, Compton, Absorption | a field is a positive sum over directions and energies, built in Props/TargetField.lean from diluted point sources; `u`, `sed_flux` and `tau` are compared with total, scattered and absorbed energy of it; for the disk the zenith cosine is substituted by the radius. The opacity of the disk contradicts `u` (extra cosine), proved |
| C84 | TimeEvolution | simulation: a change of units (Lemmas/Units.lean) commutes with every function from the rate evaluation to the loop, exceptions included; tempo and amount are the two instances within fixed units |
| C85 | TimeEvolution | simulation between two configurations whose functions have equal sums per subgroup: the states agree but for the split of the rates, whose sums per subgroup agree after every evaluation, remapping and partial recalculation (Lemmas/Totals.lean); order, splitting and the single subgroup are instances |
| C86 | all SED functions, RadiativeProcess | `Boosted` relates the fluxes at δ and at rest; each function is rewritten through ε'(ν, δ) = ε'(ν/δ, 1); external Compton through `Dist.stretched`, the distribution with all Lorentz factors δ times larger, whose `call` and boundary correction are proved to be those of the original at γ/δ |
| C87 | Spectra, Synchrotron, Blob, Compton | `Fewer` orders distributions, `Mixture` relates three of them on an array; every SED is an integral with non-negative weights of the density; monotone for any `MonotoneIntegrator` (np.trapz), linear for np.trapz; the two exceptions are proved with witnesses |
| C88 | SSDisk | `thermalPower` is the integral of 2·2πR·σT(R)⁴ stated apart from the model; evaluated exactly with an explicit antiderivative of (1 − √(R_in/R))/R²; limit R_out → ∞ and the iff for agreement with L_disk |
| C89 | Model/Objects: blobs, distributions, targets and processes as objects in a heap, stored attributes apart from computed ones; programs of constructions and assignments | specification `Rebuilt` (every object built anew from its current attributes) and `Tame`; invariant over all programs; equality of all answers up to the squared ratio of distances; the excluded assignments refuted; `C89_values` links to the value models |
| C90 | same heap | `Touches` says which assignments concern a process; induction over programs; shared distribution by linearity of the radiation; assignments against dictionaries of attributes (only the named attribute of the named object is written); the default distribution by induction over programs |
| C91 | `Model/BoundaryCorrection.lean`: the evolution again with the in-place correction of every array call (initial densities, regridding of groups) | refinement: equal runs (results and exceptions) while nothing lies in the 1e-10 window, by following the loop; groups with equal energy changes are never regridded; two concrete runs refute the rest |
| C92 | utils/math.py:6 and the wrappers: sequences of evaluations with the shared array threaded through (Model/FitSession) | induction over the calls; witness with two narrow power laws, one of which moves the first point of the array into the range of the other |
| C93 | the loop of `TimeEvolution.evaluate` as for C70 | one bin at a time: the update of a bin is affine in its density with a slope that depends on the Lorentz factor only; induction over the steps, then the characterisation of whole runs (C70) |
| C94 | the integrands and grids of `sedFlux`, `sedFluxProton`, `tauSSA` and the blob, as functions of a point of a topological space | grid points as convex combinations of the logarithms of the limits, always inside; every family is continuous inside (a moving break included); trapezia of continuous ordinates and abscissae |
| C95 | `gammapySSC`, `gammapyEC` on the fixed array, `EC.sedFlux` on `gamma_e_external_frame` | two spectra that agree on the points give equal SEDs, whatever happens between; a point lost lowers the trapezium strictly; witness of a jump |
| C96 | `bbSed`, `bbNormSed`, `multiTSed`, Planck's law | Lebesgue integral over all frequencies: geometric series of Planck's law, Gamma(4) and zeta(4) = pi^4/90, substitution; exchange with the trapezium over radii. Hypothesis: sigma = 2 pi^5 k^4 / (15 h^3 c^2), true of astropy's constants |
| C97 | `gammapySSC`, `gammapyEC` as functions of the keyword arguments | a raised normalisation is the scaled distribution (all families); linearity of synchrotron and EC, quadratic SSC, linearity in the luminosity |
| C98 | `n_e_tot`, `u_e`, `u_ph_synch`, the normalising constructors, `BLR.u` | cells of a geometric grid are similar, so each misses the integral of a power by the same factor; chord above a convex function; half a step times the rise for monotone ones |
| C99 | `DT.u`, `BLR.u`, `SSDisk.u`, `PS.u`, `dt`, `blr`, `psBehindJet` | limits of the directions (cosine to 1) and dilution; kernel continuous off its threshold; for the disk the grid of directions becomes equally spaced in the square of the radius, and the sum is bounded by an integral |
| C100 | `Batch.*`: the array programs of the SEDs and opacities (`axes_reshaper`, broadcasting, integration along axis 0, reshape) | an array seen through broadcasting to the full shape is a function of the index; elementwise operations and integrations act on these functions; the result is the model for one frequency |
| C101 | `Batch.uPS`, `uDisk`, `uBLR`, `uDT`: the array programs of the energy densities | as C100, with limits of integration that depend on the index |
| C102 | `Kernels.*`, `Compton.isoMono`, `psBehindJet`, `ssDisk`, `blr`, `dt` | antiderivatives of the kernels in the scattered energy and in the cosine; change of variables and dominated convergence for the limit of Thomson; trapezoidal sums commute with the integral over the frequency |
| C103 | all radiation models | `Units` gives a factor to every constant and parameter; grids, geometry and integrands are followed through the change |
| C104 | `Particles.*`, `Region.Blob.*`, `Spectra.from*` | the grid of the region is the grid of the class methods; the boundary correction is the identity on it |
| C105 | `Kernels.comptonKernel`, `Compton.*`, `Compton.fKN` | specification: angles distributed as Klein and Nishina, energies by Compton's formula; change of variables from the energy to the angle, pointwise bounds of the integrand, then the sums of the SEDs as for C102 |
| C106 | `Synchrotron.R`, `power`, `sedFlux`, `sedFluxDelta`, `sedFluxProton`, `energyLossRate` | substitution in improper integrals, exchanged with the sums of the trapezoid rule; the integral of `R` is enclosed by step functions on 16 cells and an exponential tail, with rational bounds for the exponentials |
| C107 | `isotropicKernel`, `sscSed`, `uPhSynchDiff`, `Compton.energyLossRate`, `Blob.u_ph_synch` | Jones' kernel as the mean over directions of Klein and Nishina's cross-section (C102) by Fubini on a region with curved boundary; the energies left out are bounded; exchange of the two sums of the trapezoid rule; substitution in the improper integral for the photon density |
| C108 | `sigma`, `tau`, `absorption`, `tauSynch`, target fields of C83 | elementary bounds of the logarithm for the largest cross-section and its fall; fields as positive linear functionals, so a bound of the integrand is a bound of the opacity; dominated limit term by term of the finite sums |
| C109 | `TimeEvolution.evaluate` with `fermiAcceleration`, `synchrotronLoss` | closed forms of C71 and C80; the distance of neighbours shrinks as the product of their cooling factors, the density grows as the power 2.0001 of one; trapezoid sums are Lipschitz in both arrays |
| C110 | `sscSed`, `sedFlux`, `U_B`, `uPhSynchDiff` | C106 and C107 divided: both losses are proportional to the square of the Lorentz factor, so the sums over electrons cancel; monotone bounds of the Klein-Nishina factor over the grid |
| C111 | `Verif.ArrayType`: `evaluate`, `ssaIntegrand` with the type of `gamma` and of `p` | case analysis over families and types; refuted three ways (`C111_index_violated`, `C111_interpolated_violated`, `C111_caller_violated`) and for the absorption (`C111_ssa_violated`); partial: what remains true |
| C112 | `checkDeviation` with NaN, masks and broadcasting | induction over the arrays: the boolean answer against the relative deviation at every point |
| C113 | `cleanAndMakeDir` over file systems as maps from locations to files and directories, `pathlib`'s parsing and joining | `C113_result`, `C113_elsewhere` for all names; `C113_inside_partial`; refuted by `C113_absolute_violated`, `C113_empty_violated` |
| C114 | `toTotalEnergyGevSqr` | scaling of the trapezoidal rule |
| C115 | `sedFlux` with `tauSSA` and `tauToAttenuation`, trapezoidal rule | limits as nu goes to 0: `R(x) / x^(1/3)` termwise in the sums, `attenuation * tau` to 3/2; the temperature by comparison of the sums |
| C116 | the whole evolution with one injection and one escape function | from the closed form of C73 and `1 + x <= exp x` by induction over the steps |
| C117 | the whole evolution with `fermiAcceleration` and `synchrotronLoss` | invariant of the Euler steps of a bin (`BalanceInv`), by induction; through `C70_euler_run` to the run |
| C118 | the whole evolution with automatic steps, injection and escape | the step chosen in every state is the least limit (`choose_auto`), so the states are those of a fixed step (`reach_withStep`, by induction); then C116 |
| C119 | the whole evolution with automatic steps and `fermiAcceleration` | every bin has the same limit in every state (`maxTimeBin_fermi`), so the states are those of a fixed step (`reach_equal_steps`, by induction); bounds of the product of the steps by `log(1+u) >= 2u/(2+u)` |
| C120 | the whole evolution with automatic steps and `synchrotronLoss` | invariant of all reachable states (`CoolState`): each step is the least limit of the bins (`choose_general`), keeps the invariant of every bin (`CoolInv.next`) and has a length bounded from below, so the loop ends (`cool_loop`) |
| C121 | the whole evolution with automatic steps, `fermiAcceleration` and `synchrotronLoss` | invariant of all reachable states (`BalanceState`): the energy and density limits together keep a step from crossing the balance (`maxTimeBin_balance`), each bin keeps `BalanceInv` (`BalanceInv.next`), steps have a least length so the loop ends (`loop_ends`) |
| C76 | quadratures | trapezoidal and log-log rules converge for continuous functions, for decreasing ones, and across one jump |

## 5. Findings

Facts about the code that came up while modelling. Those with a theorem are proved of the model.

Time evolution
* The callback receives relative and absolute injection rates swapped (`C13_callback_violated`).
* Heun's second stage re-uses the subgroup fractions already updated by the first (`C14_subgroups_violated`).
* A non-positive `step_duration` is accepted and `evaluate()` never returns (`C02_nonpositive_step`).
* When no particles are left the blob gets an `EmptyDistribution` whose limits are arrays (`C63_empty_violated`).
* With exactly one bin of positive density among several the interpolator raises ValueError instead of the
  dedicated exception (`C17_decision`).
* In automatic mode a negative absolute injection can raise (`C11_negative_injection_fails`).
* When a step takes every bin out of the bounds, `evaluate()` ends with a bare IndexError (`C78_no_bin_left`).
* `_remove_too_close_bins` with a single bin, or with all bins removed, fails with IndexError (`C16_total` gives the condition).
* `energy_change_functions=None` is stored as `{"None": None}` and fails on evaluation.

Spectra, math
* Evaluating a distribution may overwrite the ends of the caller's array, module-level default arrays
  included (`C29_overwrites_violated`, `C29_history_violated`).
* `from_density_at_gamma_1` divides by zero for `gamma_min > 1`, the default (`C27_succeeds_iff`).
* `from_total_density` and relatives without explicit limits raise UnboundLocalError (`C26_missing_limit`).
* Interior zeros of an interpolated spectrum are bridged, not reproduced (`C28_interior_zero`).
* `trapz_loglog` on negative samples is a left Riemann sum (`C65_violated`).

Opacities, emission
* The guard against points on the shell can move them onto it (`C44_violated`, `C44_mu_s_violated`).
* `absorption_homogeneous` is 0/0 at zero opacity (`C42_homogeneous_zero`).
* `tau` is None for an SSDisk seen off axis and for the CMB (`C43_none`).
* The opacity to self-absorption is negative for spectra rising faster than gamma^2, and the attenuation is then 1
  (`C52_inverted`).
* `SphericalShellBLR.u(r, blob)` uses an unsigned angle inside the shell (`C48_blr_violated`).
* The normalised disk SED does not depend on the viewing angle (`C50_viewing_angle`).
* The torus SED is too small by 1+z (`C77_torus_violated`); integrated over all frequencies it misses the luminosity
  `xi_dt L_disk` by that factor (`C96_torus_violated`).
* The opacity of the disk is that of a radiation field with an extra factor cos(zenith) with respect to the one of
  `SSDisk.u` and of external Compton; it is too small whenever it is not zero (`C83_disk_opacity_violated`).
* The Klein-Nishina factor of the SSC loss is discontinuous at 1e4 (`C55_factor_jump`).
* The attenuation of the self-absorbed SED jumps at an opacity of 0.001 (hypothesis of `C76_synchrotron_ssa`), so more
  electrons can give less flux (`C87_self_absorption_violated`).
* `trapz_loglog` is not monotone in the samples (`C87_loglog_violated`).

Fit
* The sherpa external Compton model returns None for all target lists but three (`C58_violated`, `C58_sherpa_none`).
* `load_sherpa_flux_points` applies a stale systematic error to unlisted instruments, or fails
  (`C59_violated`, `C59_violated_order`, `C59_unbound`).
* `EmptyDistribution` cannot be scaled by the sherpa wrapper (`C57_empty`).
* All fit models share one array of Lorentz factors, which a spectrum beginning within 1e-10 of its first point overwrites:
  a later model's SED depends on what was evaluated before (`C92_violated`).
* The parameter `norm` of the gammapy models has no effect (`C97_norm_violated`).
* Close to the shell `SphericalShellBLR.u` grows like the inverse square of the distance to it instead of the logarithm:
  the excess over the exact density has no bound (`C98_blr_violated`).
* Far from the disk the grid of directions of `SSDisk.u` is equally spaced in the square of the radius and does not resolve
  the inner disk: with the default radii the density is less than 2/3 of that of the luminosity (`C99_disk_violated`;
  numerically 0.58).
* A single number as frequency is refused by `Synchrotron` with self-absorption (the optical depth has one axis and
  multiplies the SED in place) and accepted without (`C100_scalar_violated`).  External Compton does not reshape its
  result: a column of n frequencies gives an n by n array, with the SED on the diagonal (`C100_column_violated`).  In the
  delta approximation the flux of a frequency just outside the limits depends on its place in the array
  (`C100_delta_violated`).
* `SphericalShellBLR.u` flattens the distances: a table, or a single number, gives an array with one axis
  (`C101_blr_shape_violated`), while the other targets keep the shape.
* `Blob` does not look at the species of a population: electrons given as `n_p` are accepted, and a population normalised
  to an energy density then counts `m_p/m_e` times that much (`C104_wrong_species`).
* `absorption.sigma` falls to zero at high energies (C108), but in floating point it is NaN once `1 - 1/s` rounds to one
  (s above about 1e16): the prefactor is zero and the logarithm infinite. The model has exact arithmetic; this is read
  from the code, not proved.
* Cooling does not quite conserve particles: the divergence of the flow is taken over bins of relative width 0.0001, so
  the number grows as the power 0.0001 of the factor of cooling, without limit (C109_created); 0.14 % for a factor 1e6.
* Integer Lorentz factors (C111): `PowerLaw(p=2)(np.array([10, 100]))` raises `ValueError` (NumPy refuses negative
  integer powers of integers; `p=2.0` works), an `InterpolatedDistribution` truncates its densities to whole numbers
  (`np.zeros_like(gamma)` is an integer array) and raises `TypeError` on a Python number.
* `clean_and_make_dir(Path("plots"), "/data")` removes `/data`, and `clean_and_make_dir("", "out")` removes `/out` (C113).
* `check_deviation` passes when the range contains none of the frequencies (C112).
* The fit models are step functions of the limits of the electron spectrum, and ignore electrons below 10 and above 1e9
  (external Compton: above 1e9/delta_D): a minimiser sees zero gradients in `log10_gamma_min` (`C95_violated`, `C95_range`).

Evolution and the boundary correction
* `evaluate` overwrites the caller's `initial_gamma_array` if its first element lies less than 1e-10 below `gamma_min`
  (`C91_array_violated`).
* With groups that move differently, the grid of a group without energy changes creeps along (`C91_groups_violated`).

Objects
* A redshift assigned to a `Blob` leaves `d_L` as it was: fluxes are wrong by the squared ratio of the distances,
  luminosities and opacities are right (`C89_redshift`, `C89_redshift_violated`).
* `RingDustTorus.T_dt` and `SphericalShellBLR.line` assigned later do not change the photon energy
  (`C89_torus_violated`, `C89_line_violated`).
* `SSDisk.T` and `sed_flux` do not follow an assigned `L_disk` or `eta` (`C89_disk_temperature`), external Compton and
  opacities do (`C89_rebuild`).
* An `ExternalCompton` whose target is changed from a disk to another one keeps the directions of the disk
  (`C89_directions_violated`).
* `delta_D <= 0` is refused by the constructor and accepted by assignment (`C89_doppler_violated`).
* All blobs built without `n_e` share one distribution object (`C90_shared`).

Read, not proved: `Gamma = 1` makes `mu_s` 0/0; `ExternalCompton.set_mu` ignores `mu_size` for the disk; `np.allclose`
tolerances in the constructor.

## 6. Trusted base

* The Lean 4.33.0 kernel and Mathlib as installed.
* Axioms: every theorem named in `MANIFEST.json` depends on a subset of `propext`, `Classical.choice`,
  `Quot.sound` and on nothing else (`#print axioms`, listed below). No `sorry`, `native_decide`, `bv_decide` or own axioms.
* The reading of `/repo` recorded in the comments of the model, and section 3 for what is left out.
* The contracts of numpy and scipy listed in section 2.

Theorems that do not use all three axioms:
* `Verif.TE.C01_nonpositive_time`: propext, Quot.sound
* `Verif.TE.C18_edges`: propext, Quot.sound
* `Verif.TE.C91_quiet`: propext, Quot.sound
* `Verif.TE.C91_correction`: propext, Quot.sound
* `Verif.TE.C91_one_motion`: propext, Quot.sound
All other theorems of `MANIFEST.json` use exactly `propext`, `Classical.choice`, `Quot.sound`.
