{"id": "C01", "title": "Evolution stops exactly at the requested time", "statement": "Whenever TimeEvolution(...).evaluate() returns, the total_time in the result equals the requested total_time (never more, never less); a non-positive total_time returns immediately with elapsed time 0 and no change to the blob.", "quantifier": "every blob, set of rate functions, step_duration (fixed or auto), threshold setting, method, subgroup layout, number of steps taken", "why_tests_cant": "step lengths are chosen from data at run time; the last step must be truncated correctly for every sequence of step lengths", "anchors": ["agnpy/time_evolution/time_evolution.py:TimeEvolution.evaluate"]}
{"id": "C02", "title": "Fixed-step evolution terminates", "statement": "With a positive step_duration, evaluate() either raises or returns after exactly ceil(total_time/step_duration) steps. (A zero or negative step_duration is accepted by the constructor and then evaluate() never returns.)", "quantifier": "every positive total time and step duration, every set of rate functions", "why_tests_cant": "termination and step count are statements about unbounded loops", "anchors": ["agnpy/time_evolution/time_evolution.py:TimeEvolution.__init__", "agnpy/time_evolution/time_evolution.py:TimeEvolution.evaluate"]}
{"id": "C03", "title": "Energies stay sorted and positive", "statement": "After every step (every callback, and the final result) the gamma array is strictly increasing and strictly positive, no matter how bins overtake each other or collide during the step.", "quantifier": "every reachable state of the evolution, every rate function, method, step mode, merge threshold, bounds", "why_tests_cant": "bins can cross, coincide or be merged in arbitrarily many patterns over arbitrarily many steps", "anchors": ["agnpy/time_evolution/time_evolution.py:TimeEvolution._apply_time_changes", "agnpy/time_evolution/time_evolution.py:TimeEvolution._sort_and_merge_bins", "agnpy/time_evolution/_time_evolution_utils.py:sort_and_merge_duplicates", "agnpy/time_evolution/_time_evolution_utils.py:merge_points"]}
{"id": "C04", "title": "gamma_bounds are respected", "statement": "If gamma_bounds=(lo,hi) is given, after every step every gamma lies in [lo, hi], including merged bins and bins freshly added at the boundary.", "quantifier": "every reachable state with bounds set, every drift of bins in or out of the bounds", "why_tests_cant": "requires reasoning about every history of bins leaving and being re-added", "anchors": ["agnpy/time_evolution/time_evolution.py:TimeEvolution._remove_gamma_beyond_bounds", "agnpy/time_evolution/time_evolution.py:TimeEvolution._add_boundary_bins"]}
{"id": "C05", "title": "Densities never become negative", "statement": "After every step every reported density is >= 0 (evaluate() raises instead of returning a negative density).", "quantifier": "every reachable state, every injection / escape / energy-change function", "why_tests_cant": "an arbitrary user function can remove particles; the guarantee is about all of them and all histories", "anchors": ["agnpy/time_evolution/time_evolution.py:TimeEvolution._apply_time_eval", "agnpy/time_evolution/_time_evolution_utils.py:recalc_energy_bins_and_density_increase"]}
{"id": "C06", "title": "Subgroup fractions always partition the density", "statement": "After every step the density_subgroups column of every bin consists of numbers >= 0 summing to exactly 1 (given initial fractions that do), also for bins that were merged, re-ordered or newly created, and for empty bins.", "quantifier": "every reachable state, any number of subgroups, any functions", "why_tests_cant": "sum-to-one has to survive every composition of step, interpolation, merge, removal and insertion", "anchors": ["agnpy/time_evolution/time_evolution.py:TimeEvolution._apply_time_eval", "agnpy/time_evolution/_time_evolution_utils.py:remap_subgroups_density"]}
{"id": "C07", "title": "All reported arrays stay aligned", "statement": "In every callback and in the final result gamma, density, every row of density_subgroups and every rate array have the same length, and internally every per-bin array is re-indexed by the same mapping.", "quantifier": "every reachable state, every pattern of sorts, merges, removals and insertions", "why_tests_cant": "alignment is an invariant of all histories; a misalignment gives plausible but wrong numbers, not a crash", "anchors": ["agnpy/time_evolution/time_evolution.py:TimeEvolution.evaluate", "agnpy/time_evolution/_time_evolution_utils.py:remap", "agnpy/time_evolution/_time_evolution_utils.py:combine_mapping"]}
{"id": "C08", "title": "Reported rates are never NaN and are fresh where the bin changed", "statement": "After every step each reported rate is a value returned by the user's function (never the NaN placeholder put on re-mapped bins); for fixed steps every reported rate is the function applied to the reported gamma.", "quantifier": "every reachable state in fixed, auto and optimised (slow-rate) mode", "why_tests_cant": "the placeholder survives only if some history leaves a new bin out of the recalculation mask", "anchors": ["agnpy/time_evolution/time_evolution.py:TimeEvolution.evaluate", "agnpy/time_evolution/_time_evolution_utils.py:recalc_new_rates", "agnpy/time_evolution/_time_evolution_utils.py:remap"]}
{"id": "C09", "title": "Particle number is conserved by energy changes", "statement": "In a step without injection, density times energy-bin width of every bin is unchanged by the energy change; with injection it changes exactly by injection times new width.", "quantifier": "every bin, every energy change that does not raise", "why_tests_cant": "universally quantified over bin widths and rates", "anchors": ["agnpy/time_evolution/_time_evolution_utils.py:recalc_energy_bins_and_density_increase", "agnpy/time_evolution/_time_evolution_utils.py:recalc_gamma_bins_and_density", "agnpy/time_evolution/time_evolution.py:TimeEvolution._apply_time_eval"]}
{"id": "C10", "title": "Automatic steps respect all the user's limits", "statement": "In auto mode the chosen step changes the energy of both edges of every bin in every subgroup by at most max_energy_change_per_interval (relative), changes the density through bin stretching by a factor within [1/(1+thr), 1+thr], lets at most half of the particles escape through relative injection, and injects/removes at most max_injection_per_interval; the step is strictly positive.", "quantifier": "every state with positive energies and widths, every sign and size of the rates, every number of subgroups, every positive threshold", "why_tests_cant": "limits must hold for every combination of signs, zeros and magnitudes of the four competing constraints", "anchors": ["agnpy/time_evolution/time_evolution.py:TimeEvolution._calc_max_time_per_bin"]}
{"id": "C11", "title": "Automatic stepping does not fail on sensible inputs", "statement": "In auto mode (optimised or not, Euler) with energy threshold < 1, density threshold in (0,1], and no negative absolute injection, evaluate() never raises 'Negative gamma' or 'Negative density'. (With negative absolute injection it can: the limit max_injection_per_interval is not compared with the density.)", "quantifier": "every reachable state, any number of bins and subgroups", "why_tests_cant": "absence of an exception over all runs", "anchors": ["agnpy/time_evolution/time_evolution.py:TimeEvolution._calc_max_time_per_bin", "agnpy/time_evolution/time_evolution.py:TimeEvolution._apply_time_eval"]}
{"id": "C12", "title": "No process, no change", "statement": "If all rates are zero (and no bins are closer than the merge threshold or outside the bounds) evaluate() returns the initial gamma, density and subgroup fractions unchanged, after any number of steps and for both methods.", "quantifier": "every initial array, number of steps, method, step mode", "why_tests_cant": "fixpoint over all lengths of run", "anchors": ["agnpy/time_evolution/time_evolution.py:TimeEvolution.evaluate", "agnpy/time_evolution/time_evolution.py:TimeEvolution._apply_time_changes"]}
{"id": "C13", "title": "Callback and return value agree", "statement": "The record passed to distribution_change_callback after the last step equals the record returned by evaluate(), field by field. (Violated: the callback receives rel_inj_rates and abs_inj_rates swapped.)", "quantifier": "every run that takes at least one step", "why_tests_cant": "tests do not inspect the callback's injection fields; the claim is over all runs", "anchors": ["agnpy/time_evolution/time_evolution.py:TimeEvolution.evaluate", "agnpy/time_evolution/types.py:TimeEvaluationResult"]}
{"id": "C14", "title": "Heun equals Euler for state-independent rates", "statement": "When the energy-change rates do not depend on the state, method='heun' and method='euler' give the same step, including the subgroup fractions. (Violated with subgroups: the corrector re-uses fractions already updated by the predictor.)", "quantifier": "every state, every constant rate, every number of subgroups", "why_tests_cant": "an identity of two algorithms over all states", "anchors": ["agnpy/time_evolution/time_evolution.py:TimeEvolution._apply_time_changes"]}
{"id": "C15", "title": "Index mappings compose", "statement": "Re-indexing any array with a combined mapping equals re-indexing with the first and then with the second mapping, newly created bins (-1) staying new and receiving the default value.", "quantifier": "all arrays, all pairs of valid mappings", "why_tests_cant": "algebraic law over all mappings", "anchors": ["agnpy/time_evolution/_time_evolution_utils.py:remap", "agnpy/time_evolution/_time_evolution_utils.py:combine_mapping", "agnpy/time_evolution/_time_evolution_utils.py:remap_subgroups_density"]}
{"id": "C16", "title": "Merging close bins is local", "statement": "Merging bins removes exactly the non-leading members of each group of bins closer than the threshold, keeps first and last bin untouched, replaces each group by a gamma between its smallest and largest member, and leaves every other (gamma, density) pair unchanged and in order.", "quantifier": "every sorted gamma array, threshold and pattern of close bins", "why_tests_cant": "unbounded number and size of groups", "anchors": ["agnpy/time_evolution/_time_evolution_utils.py:group_duplicates", "agnpy/time_evolution/_time_evolution_utils.py:merge_points", "agnpy/time_evolution/time_evolution.py:TimeEvolution._remove_too_close_bins"]}
{"id": "C17", "title": "Interpolation abscissae are strictly increasing", "statement": "The distribution installed on the blob after each step is built from strictly increasing log10(gamma), even if two different gammas have the same log10 in floating point; evaluate() signals a collapsed (single-point) distribution by the dedicated exception.", "quantifier": "every gamma array, any weakly monotone log10 implementation", "why_tests_cant": "the collapse happens only for special inputs that a test has to hit exactly", "anchors": ["agnpy/time_evolution/_time_evolution_utils.py:sort_and_merge_duplicates", "agnpy/time_evolution/_time_evolution_utils.py:update_distribution"]}
{"id": "C18", "title": "Grouped rates account for all functions", "statement": "If every function name appears in exactly one subgroup, the sum over subgroups of the grouped rates equals the ungrouped sum; a function mentioned in no subgroup contributes nothing; without subgroups all functions contribute.", "quantifier": "every set of functions and every partition into subgroups", "why_tests_cant": "all partitions of all function sets", "anchors": ["agnpy/time_evolution/_time_evolution_utils.py:sum_change_rates", "agnpy/time_evolution/time_evolution.py:TimeEvolution._group_change_rates"]}
{"id": "C19", "title": "Constructor rejects exactly the documented bad configurations", "statement": "TimeEvolution(...) raises ValueError exactly when: step_duration is neither a Quantity nor 'auto'; a name is used in two function dicts; an initial gamma is outside gamma_bounds or not strictly increasing; optimisation is requested with a fixed step or (explicitly or by default) with Heun; the method is unknown; a subgroup names an unknown function; initial fractions do not sum to 1, come without subgroups or gamma array, or have the wrong number of columns.", "quantifier": "every combination of constructor arguments", "why_tests_cant": "the combination space of options is infinite", "anchors": ["agnpy/time_evolution/time_evolution.py:TimeEvolution.__init__"]}
{"id": "C20", "title": "The blob's distribution agrees with the returned arrays", "statement": "After evaluate(), blob.n_e evaluated at every returned gamma with positive density gives exactly the returned density (also for merged bins).", "quantifier": "every run", "why_tests_cant": "relation between two outputs over all histories", "anchors": ["agnpy/time_evolution/time_evolution.py:TimeEvolution._apply_time_changes", "agnpy/time_evolution/_time_evolution_utils.py:update_distribution"]}
{"id": "C21", "title": "Evolving in two halves equals evolving in one go", "statement": "With a fixed step dividing the first interval, evolving for T1 and then for T2 starting from the returned gamma array (and fractions) gives the same result as evolving for T1+T2.", "quantifier": "every T1 a multiple of the step, every T2, every set of rate functions, as long as the returned densities are positive", "why_tests_cant": "equality over all run lengths", "anchors": ["agnpy/time_evolution/time_evolution.py:TimeEvolution.evaluate", "agnpy/time_evolution/time_evolution.py:TimeEvolution._calculate_initial_values"]}
{"id": "C22", "title": "remove_empty_densities filters consistently", "statement": "remove_empty_densities keeps exactly the bins of positive density, in order, with their gamma, fractions and rates, and is idempotent.", "quantifier": "every evaluation result", "why_tests_cant": "all arrays", "anchors": ["agnpy/time_evolution/_time_evolution_utils.py:remove_empty_densities"]}
{"id": "C23", "title": "Spectra vanish outside their range and are non-negative", "statement": "Every particle distribution evaluates to 0 outside [gamma_min, gamma_max] and to a value >= 0 (> 0 inside for positive normalisation) everywhere.", "quantifier": "all parameters with positive normalisation and positive scales, all gamma > 0, all families", "why_tests_cant": "real-valued domain", "anchors": ["agnpy/spectra/spectra.py:PowerLaw.evaluate", "agnpy/spectra/spectra.py:BrokenPowerLaw.evaluate", "agnpy/spectra/spectra.py:LogParabola.evaluate", "agnpy/spectra/spectra.py:ExpCutoffPowerLaw.evaluate", "agnpy/spectra/spectra.py:ExpCutoffBrokenPowerLaw.evaluate", "agnpy/spectra/spectra.py:InterpolatedDistribution.evaluate", "agnpy/spectra/spectra.py:EmptyDistribution.evaluate"]}
{"id": "C24", "title": "SSA integrand is the documented derivative", "statement": "For every analytic family, SSA_integrand(gamma) = gamma^2 d/dgamma (n(gamma)/gamma^2) at every gamma strictly inside the range (and off the break); for an interpolated spectrum the same holds wherever the interpolant is differentiable.", "quantifier": "all parameters, all interior gamma, all families", "why_tests_cant": "a derivative identity on a continuum; tests compare a few numerical derivatives with tolerance", "anchors": ["agnpy/spectra/spectra.py:PowerLaw.evaluate_SSA_integrand", "agnpy/spectra/spectra.py:BrokenPowerLaw.evaluate_SSA_integrand", "agnpy/spectra/spectra.py:LogParabola.evaluate_SSA_integrand", "agnpy/spectra/spectra.py:ExpCutoffPowerLaw.evaluate_SSA_integrand", "agnpy/spectra/spectra.py:ExpCutoffBrokenPowerLaw.evaluate_SSA_integrand", "agnpy/spectra/spectra.py:InterpolatedDistribution.evaluate_SSA_integrand"]}
{"id": "C25", "title": "Broken spectra are continuous at the break", "statement": "BrokenPowerLaw and ExpCutoffBrokenPowerLaw are continuous at gamma_b inside the range, and the break value is k (times the cutoff); LogParabola at gamma_0 is k.", "quantifier": "all parameters", "why_tests_cant": "limit statement", "anchors": ["agnpy/spectra/spectra.py:BrokenPowerLaw.evaluate", "agnpy/spectra/spectra.py:ExpCutoffBrokenPowerLaw.evaluate", "agnpy/spectra/spectra.py:LogParabola.evaluate"]}
{"id": "C26", "title": "Normalisation constructors round-trip", "statement": "from_total_density(n_tot).integrate() = n_tot; from_total_energy_density(u).integrate(gamma_power=1)*mc2 = u; from_total_energy(W,V) gives energy density W/V; for every family, with the trapezoidal integrator these constructors use, given a non-zero unit-normalisation integral; integrate() is the integrator applied to gamma^power n(gamma) on 200 log-spaced points.", "quantifier": "all parameters, families, targets", "why_tests_cant": "exact identity for all inputs", "anchors": ["agnpy/spectra/spectra.py:ParticleDistribution.from_total_density", "agnpy/spectra/spectra.py:ParticleDistribution.from_total_energy_density", "agnpy/spectra/spectra.py:ParticleDistribution.from_total_energy", "agnpy/spectra/spectra.py:ParticleDistribution.integral", "agnpy/spectra/spectra.py:ParticleDistribution.integrate"]}
{"id": "C27", "title": "from_density_at_gamma_1", "statement": "from_density_at_gamma_1(n1)(1) = n1 whenever gamma_min <= 1 <= gamma_max. (For gamma_min > 1, which includes every family's default, the constructor divides by zero.)", "quantifier": "all families and parameters", "why_tests_cant": "all inputs", "anchors": ["agnpy/spectra/spectra.py:ParticleDistribution.from_density_at_gamma_1"]}
{"id": "C28", "title": "Interpolated spectra reproduce their input", "statement": "InterpolatedDistribution(gamma, n)(gamma_i) = norm*n_i at every input point with n_i > 0; gamma_min/gamma_max are the first/last such points; it is 0 outside them.", "quantifier": "all strictly increasing gamma arrays and non-negative densities, any interpolating interpolator", "why_tests_cant": "arbitrary data", "anchors": ["agnpy/spectra/spectra.py:InterpolatedDistribution.log10_interpolation", "agnpy/spectra/spectra.py:InterpolatedDistribution.evaluate"]}
{"id": "C29", "title": "Evaluating a spectrum does not change the caller's array", "statement": "Evaluating a distribution leaves the gamma array passed by the caller unchanged, so results do not depend on earlier evaluations. (Violated: first/last element are overwritten in place when within 1e-10 of the range; and the library passes module-level default arrays.)", "quantifier": "all arrays, parameters, sequences of evaluations", "why_tests_cant": "history dependence", "anchors": ["agnpy/spectra/spectra.py:ParticleDistribution._correct_array_boundary_values"]}
{"id": "C30", "title": "parameters matches evaluate's signature", "statement": "For every distribution, calling it equals evaluate(gamma, *parameters), and likewise for the SSA integrand.", "quantifier": "all families, parameters, gamma", "why_tests_cant": "all inputs", "anchors": ["agnpy/spectra/spectra.py:PowerLaw.parameters", "agnpy/spectra/spectra.py:BrokenPowerLaw.parameters", "agnpy/spectra/spectra.py:LogParabola.parameters", "agnpy/spectra/spectra.py:ExpCutoffPowerLaw.parameters", "agnpy/spectra/spectra.py:ExpCutoffBrokenPowerLaw.parameters"]}
{"id": "C31", "title": "trapz_loglog is exact on power laws", "statement": "trapz_loglog of y = a*x^m over any strictly increasing positive grid (two or more points) equals the exact integral of a*x^m between the ends.", "quantifier": "all grids, amplitudes, indices outside the numerical switch band around -1, and exactly -1", "why_tests_cant": "unbounded grids, real exponents", "anchors": ["agnpy/utils/math.py:trapz_loglog"]}
{"id": "C32", "title": "power_law_integral is the true integral", "statement": "power_law_integral(k, p, g1, g2) equals the integral of k*gamma^-p from g1 to g2 for p = 1 and for every p outside the isclose band around 1; it is additive over adjacent intervals.", "quantifier": "all k, p, 0 < g1 <= g2", "why_tests_cant": "real-valued", "anchors": ["agnpy/utils/math.py:power_law_integral"]}
{"id": "C33", "title": "Quadrature rules are positive and homogeneous", "statement": "np.trapz-style and log-log quadrature return values >= 0 for non-negative samples on increasing grids, scale linearly with the samples, and splitting the grid at a node adds up.", "quantifier": "all grids and samples", "why_tests_cant": "unbounded sizes", "anchors": ["agnpy/utils/math.py:trapz_loglog", "agnpy/spectra/spectra.py:ParticleDistribution.integral"]}
{"id": "C34", "title": "axes_reshaper builds the outer product", "statement": "axes_reshaper(a_1,...,a_n) returns arrays whose shapes have length n with len(a_i) at axis i and 1 elsewhere, so that their broadcast has shape (len a_1,...,len a_n) and element (i_1,...,i_n) of array k is a_k[i_k].", "quantifier": "any number and lengths of arrays", "why_tests_cant": "any rank", "anchors": ["agnpy/utils/math.py:axes_reshaper"]}
{"id": "C35", "title": "Angle seen from the jet for a shell", "statement": "mu_star_shell(mu, R, r) is the cosine of the angle between the jet axis and the direction from the shell element to the blob, i.e. (r - R mu)/x, and lies in [-1,1].", "quantifier": "all mu in [-1,1], R>0, r>0 with non-zero distance", "why_tests_cant": "continuum of geometries incl. both branches", "anchors": ["agnpy/utils/geometry.py:mu_star_shell", "agnpy/utils/geometry.py:x_re_shell"]}
{"id": "C36", "title": "Reprocessing distances are Euclidean distances", "statement": "x_re_shell, x_re_ring, x_re_ring_mu_s and x_re_shell_mu_s equal the Euclidean distance between the emitting element and the photon position; the returned (mu, phi) are the direction of that vector.", "quantifier": "all radii, distances, angles", "why_tests_cant": "continuum", "anchors": ["agnpy/utils/geometry.py:x_re_ring", "agnpy/utils/geometry.py:x_re_ring_mu_s", "agnpy/utils/geometry.py:x_re_shell_mu_s", "agnpy/utils/geometry.py:phi_mu_re_ring", "agnpy/utils/geometry.py:phi_mu_re_shell"]}
{"id": "C37", "title": "Off-axis geometry reduces to the aligned one", "statement": "For mu_s = 1 the general (viewing angle) geometry functions coincide with the aligned ones evaluated at r + uu.", "quantifier": "all radii and angles", "why_tests_cant": "continuum", "anchors": ["agnpy/utils/geometry.py:x_re_ring_mu_s", "agnpy/utils/geometry.py:x_re_shell_mu_s", "agnpy/utils/geometry.py:phi_mu_re_shell"]}
{"id": "C38", "title": "Collision angle is a cosine", "statement": "cos_psi(mu_s, mu, phi) is the inner product of the two unit vectors and lies in [-1,1]; it is symmetric in mu_s and mu.", "quantifier": "all mu_s, mu in [-1,1], phi", "why_tests_cant": "continuum", "anchors": ["agnpy/utils/geometry.py:cos_psi"]}
{"id": "C39", "title": "Compton kernel: support and sign", "statement": "The Compton kernel is zero exactly where the kinematics forbid scattering (gamma below the documented minimum) and at least 1 elsewhere.", "quantifier": "all positive gamma, energies, angles", "why_tests_cant": "continuum with cancellation", "anchors": ["agnpy/compton/kernels.py:compton_kernel", "agnpy/compton/kernels.py:get_gamma_min"]}
{"id": "C40", "title": "Isotropic (Jones) kernel: support and sign", "statement": "The isotropic Compton kernel is >= 0, and zero outside q in [1/(4 gamma^2), 1].", "quantifier": "all positive gamma, energies", "why_tests_cant": "continuum", "anchors": ["agnpy/compton/kernels.py:isotropic_kernel", "agnpy/compton/kernels.py:F_c"]}
{"id": "C41", "title": "Pair-production cross-section: threshold and sign", "statement": "sigma(s) = 0 for s <= 1 and > 0 for s > 1.", "quantifier": "all s >= 0", "why_tests_cant": "cancellation near threshold over a continuum", "anchors": ["agnpy/absorption/targets_absorption.py:sigma"]}
{"id": "C42", "title": "Attenuation factors are attenuations", "statement": "The synchrotron self-absorption factor, exp(-tau) and (1-exp(-tau))/tau lie in (0,1] and decrease with tau > 0. (At tau = 0 absorption_homogeneous is 0/0.)", "quantifier": "all tau", "why_tests_cant": "continuum, removable singularity", "anchors": ["agnpy/synchrotron/synchrotron.py:tau_to_attenuation", "agnpy/absorption/targets_absorption.py:Absorption.absorption", "agnpy/absorption/targets_absorption.py:Absorption.absorption_homogeneous"]}
{"id": "C43", "title": "Opacities are non-negative, absorption is in (0,1]", "statement": "For every target tau(nu) >= 0 so absorption(nu) is in (0,1]; for a point source behind the jet seen at mu_s = 1, tau = 0 for every nu. (For an SSDisk at mu_s != 1 and for a CMB target tau() returns None and absorption raises.)", "quantifier": "all targets, frequencies, positive integrand grids", "why_tests_cant": "all geometries", "anchors": ["agnpy/absorption/targets_absorption.py:Absorption.tau", "agnpy/absorption/targets_absorption.py:Absorption.absorption"]}
{"id": "C44", "title": "Shell-crossing guard keeps a distance", "statement": "When integrating along the path the points are kept at least a relative 1e-4 away from the shell radius. (Violated: points slightly below the radius are pushed onto or nearer to it.)", "quantifier": "all paths and radii", "why_tests_cant": "a measure-zero input triggers the failure", "anchors": ["agnpy/absorption/targets_absorption.py:Absorption.evaluate_tau_blr", "agnpy/absorption/targets_absorption.py:Absorption.evaluate_tau_blr_mu_s"]}
{"id": "C45", "title": "set_delta_D and the viewing angle round-trip", "statement": "After set_delta_D(Gamma, theta_s) with Gamma > 1, blob.mu_s = cos(theta_s), blob.theta_s = theta_s for 0 <= theta_s <= 180 deg and delta_D > 0. The constructor of Blob accepts exactly the positive Doppler factors, so it accepts those set_delta_D computes.", "quantifier": "all Gamma > 1, theta_s", "why_tests_cant": "continuum", "anchors": ["agnpy/emission_regions/blob.py:Blob.set_delta_D", "agnpy/emission_regions/blob.py:Blob.mu_s", "agnpy/emission_regions/blob.py:Blob.theta_s"]}
{"id": "C46", "title": "The viewing angle exists exactly for kinematically allowed Doppler factors", "statement": "blob.mu_s is in [-1,1] iff 1/(Gamma(1+Beta)) <= delta_D <= Gamma(1+Beta); Beta is in [0,1).", "quantifier": "all Gamma > 1, delta_D > 0", "why_tests_cant": "continuum", "anchors": ["agnpy/emission_regions/blob.py:Blob.mu_s", "agnpy/emission_regions/blob.py:Blob.Beta"]}
{"id": "C47", "title": "Blob energetics are consistent", "statement": "u_e, u_p, W_e, k_eq, P_jet_ke, P_jet_B satisfy: k_eq*U_B = u_e (+ u_p iff protons present); P_jet_ke = 2 pi R^2 Beta Gamma^2 c (u_e + u_p); W_e = V_b u_e; accessing proton quantities without protons raises.", "quantifier": "all blobs with/without protons", "why_tests_cant": "all parameter values", "anchors": ["agnpy/emission_regions/blob.py:Blob.k_eq", "agnpy/emission_regions/blob.py:Blob.P_jet_ke", "agnpy/emission_regions/blob.py:Blob.n_p"]}
{"id": "C48", "title": "Energy densities transform correctly to the blob frame", "statement": "The comoving energy density of every target is the stationary-frame one weighted by Gamma^2(1-Beta mu)^2: for the point source (mu=1), ring torus, disk (whose code uses a different expression) and, averaged over angles, the CMB (Gamma^2(1+Beta^2/3)).", "quantifier": "all Gamma >= 1, r, geometries", "why_tests_cant": "identity over a continuum", "anchors": ["agnpy/targets/targets.py:CMB.u", "agnpy/targets/targets.py:PointSourceBehindJet.u", "agnpy/targets/targets.py:SSDisk.u", "agnpy/targets/targets.py:RingDustTorus.u", "agnpy/targets/targets.py:SphericalShellBLR.u"]}
{"id": "C49", "title": "Disk coordinates are consistent", "statement": "evaluate_mu_from_r_tilde maps inner/outer radius to mu in (0,1) decreasing in radius; photon energy as a function of mu equals photon energy as a function of the radius it corresponds to. The conversion of lengths to gravitational radii used by external Compton and absorption agrees with the one the disk was built with.", "quantifier": "all disks and heights", "why_tests_cant": "continuum", "anchors": ["agnpy/targets/targets.py:SSDisk.evaluate_mu_from_r_tilde", "agnpy/targets/targets.py:SSDisk.evaluate_epsilon_mu", "agnpy/targets/targets.py:SSDisk.evaluate_phi_disk_mu"]}
{"id": "C50", "title": "Disk SED is normalised to L_disk", "statement": "The normalised multi-temperature black body SED integrates (on the grid used) to L_disk.", "quantifier": "all disks, distances", "why_tests_cant": "all inputs", "anchors": ["agnpy/targets/targets.py:SSDisk.evaluate_multi_T_bb_norm_sed"]}
{"id": "C51", "title": "Synchrotron SED: sign and scaling", "statement": "Synchrotron sed_flux >= 0; without self-absorption it is linear in the electron density, scales as 1/d_L^2 and beams as delta_D^4 at frequency scaled by delta_D; sed_luminosity does not depend on d_L.", "quantifier": "all spectra, blobs, frequencies, grids", "why_tests_cant": "functional identity", "anchors": ["agnpy/synchrotron/synchrotron.py:Synchrotron.evaluate_sed_flux", "agnpy/synchrotron/synchrotron.py:Synchrotron.sed_luminosity", "agnpy/synchrotron/synchrotron.py:R"]}
{"id": "C52", "title": "Self-absorption only removes flux", "statement": "sed_flux with ssa=True is between 0 and sed_flux with ssa=False whenever the opacity is >= 0 ... and the code's opacity is >= 0 for spectra falling faster than gamma^2.", "quantifier": "all spectra, blobs, frequencies", "why_tests_cant": "continuum", "anchors": ["agnpy/synchrotron/synchrotron.py:Synchrotron.evaluate_sed_flux", "agnpy/synchrotron/synchrotron.py:Synchrotron.evaluate_tau_ssa", "agnpy/synchrotron/synchrotron.py:tau_to_attenuation"]}
{"id": "C53", "title": "SSC SED: sign and scaling", "statement": "SSC sed_flux >= 0, is quadratic in the electron density (no self-absorption), scales as 1/d_L^2.", "quantifier": "all spectra, blobs, frequencies, grids", "why_tests_cant": "functional identity", "anchors": ["agnpy/compton/synchrotron_self_compton.py:SynchrotronSelfCompton.evaluate_sed_flux"]}
{"id": "C54", "title": "External Compton SED: sign and scaling", "statement": "EC sed_flux on every target is >= 0, linear in the electron density and in the target luminosity / energy density, scales as 1/d_L^2; an unsupported target yields no result.", "quantifier": "all targets, spectra, blobs", "why_tests_cant": "functional identity", "anchors": ["agnpy/compton/external_compton.py:ExternalCompton.evaluate_sed_flux_iso_mono", "agnpy/compton/external_compton.py:ExternalCompton.evaluate_sed_flux_dt", "agnpy/compton/external_compton.py:ExternalCompton.sed_flux"]}
{"id": "C55", "title": "Energy-loss rates are losses", "statement": "Synchrotron loss is 4/3 sigma_T c U_B gamma^2 >= 0; SSC loss is >= 0, its Klein-Nishina factor lies in (0,1], so the suppressed loss never exceeds the unsuppressed one.", "quantifier": "all gamma, spectra", "why_tests_cant": "continuum incl. branch at b=1e4", "anchors": ["agnpy/synchrotron/synchrotron.py:Synchrotron.electron_energy_loss_rate", "agnpy/compton/synchrotron_self_compton.py:SynchrotronSelfCompton.electron_energy_loss_rate"]}
{"id": "C56", "title": "Spectral constraints solve their balance equations", "statement": "gamma_max_larmor/ballistic/synch/SSC/EC_DT and gamma_break_* are the Lorentz factors at which acceleration equals the respective loss / escape / cooling equals dynamical time.", "quantifier": "all blobs", "why_tests_cant": "identity", "anchors": ["agnpy/constraints/spectral_constraints.py:SpectralConstraints"]}
{"id": "C57", "title": "Fit parameters round-trip to the spectrum", "statement": "For every distribution, extracting the fit parameters (log10-scaled) and scaling them back yields exactly the distribution's parameters in evaluate order, in both back-ends.", "quantifier": "all distributions with positive scale parameters", "why_tests_cant": "all values", "anchors": ["agnpy/fit/core.py:get_spectral_parameters_from_n_e", "agnpy/fit/gammapy_wrapper.py", "agnpy/fit/sherpa_wrapper.py:_scale_spectral_parameters"]}
{"id": "C58", "title": "Both fit back-ends treat target lists alike", "statement": "For every list of target names both back-ends accept/reject it and sum the same components. (Violated: the sherpa wrapper returns None for ['dt','blr'].)", "quantifier": "all target lists", "why_tests_cant": "all permutations", "anchors": ["agnpy/fit/sherpa_wrapper.py", "agnpy/fit/gammapy_wrapper.py"]}
{"id": "C59", "title": "Systematic errors go to the right instrument", "statement": "Loading flux points with a systematics dictionary adds to each point the systematic error of its own instrument (none if not listed). (Violated by the sherpa loader for unlisted instruments.)", "quantifier": "all tables, instrument groupings, dictionaries", "why_tests_cant": "all histories of the loop", "anchors": ["agnpy/fit/data.py:load_sherpa_flux_points", "agnpy/fit/data.py:load_gammapy_flux_points"]}
{"id": "C60", "title": "Emission-region size and variability time round-trip", "statement": "Extracting (delta_D, log10_B, t_var) from a blob and computing R_b = c t_var delta_D/(1+z) in the models gives back the blob's B, delta_D and R_b.", "quantifier": "all blobs", "why_tests_cant": "identity", "anchors": ["agnpy/emission_regions/blob.py:Blob.t_var", "agnpy/fit/core.py:make_emission_region_parameters_dict", "agnpy/fit/gammapy_wrapper.py"]}
{"id": "C61", "title": "EBL interpolation is bounded and exact at nodes", "statement": "Inside the table, EBL.absorption lies between the smallest and largest of the surrounding tabulated values (hence in [0,1] for tables in [0,1]) and reproduces tabulated values at nodes; outside the table it is NaN.", "quantifier": "all tables, redshifts, frequencies", "why_tests_cant": "continuum", "anchors": ["agnpy/absorption/ebl_absorption.py:EBL"]}
{"id": "C62", "title": "Peak flux is attained at the peak frequency", "statement": "sed_peak_flux(nu) is the maximum of sed_flux over nu and sed_flux(sed_peak_nu(nu)) = sed_peak_flux(nu).", "quantifier": "all frequency arrays", "why_tests_cant": "all arrays", "anchors": ["agnpy/synchrotron/synchrotron.py:Synchrotron.sed_peak_nu", "agnpy/synchrotron/synchrotron.py:Synchrotron.sed_peak_flux"]}
{"id": "C63", "title": "The evolved spectrum has scalar limits", "statement": "After every step blob.n_e.gamma_min and blob.n_e.gamma_max are numbers, gamma_min <= gamma_max, and blob.n_e vanishes outside them. (Violated when no particles are left: both attributes are then whole arrays.)", "quantifier": "every reachable state after at least one step", "why_tests_cant": "The defect only shows in runs that end with zero density in every bin, and only when the attributes are used afterwards; sampling ordinary runs never reaches it.", "anchors": ["agnpy/time_evolution/_time_evolution_utils.py:234-244", "agnpy/spectra/spectra.py:850-869"]}
{"id": "C64", "title": "Proton synchrotron follows electron synchrotron by mass scaling", "statement": "For the same particle distribution, blob and observer, the proton synchrotron SED at frequency nu equals (m_e/m_p)^2 times the electron synchrotron SED (no self-absorption) at frequency nu*m_p/m_e.", "quantifier": "all frequencies, blobs, distributions, Lorentz-factor grids and integrators", "why_tests_cant": "an identity over a continuum of parameters; the code paths are separate and a test can only compare sampled values within a tolerance", "anchors": ["agnpy/synchrotron/proton_synchrotron.py:69-150", "agnpy/synchrotron/synchrotron.py:167-236"]}
{"id": "C65", "title": "trapz_loglog treats negative samples like positive ones", "statement": "trapz_loglog(-y, x) = -trapz_loglog(y, x) for positive samples y on an increasing positive grid. (Violated: the clipped logarithms of negative samples coincide, so on the negative self-absorption integrand the function degenerates to a left Riemann sum.)", "quantifier": "all increasing positive grids and sample arrays", "why_tests_cant": "the result has the right sign and order of magnitude, only the interpolation is lost; tests on positive samples cannot see it", "anchors": ["agnpy/utils/math.py:49-119", "agnpy/synchrotron/synchrotron.py:140-165"]}
{"id": "C66", "title": "No absorption below the pair-production threshold, some above it", "statement": "If the dimensionless energy of the gamma ray times that of the target photons is at most 1, then Absorption.tau is 0 and Absorption.absorption is 1 for a point source, a broad line region and a torus; more precisely tau is 0 exactly when no collision on the integration grid exceeds the threshold s = 1 (for disk, blob, torus, point source and aligned shell).", "quantifier": "all frequencies, targets, distances, viewing angles and grids off the shell", "why_tests_cant": "an equivalence over a continuum of energies and geometries; sampled values only show that tau is small", "anchors": ["agnpy/absorption/targets_absorption.py:34-42", "agnpy/absorption/targets_absorption.py:696-736"]}
{"id": "C67", "title": "The opacity is proportional to the target's luminosity", "statement": "Multiplying the luminosity of a point source, or the disk luminosity reprocessed by a broad line region or torus of fixed radius, by c multiplies Absorption.tau by c.", "quantifier": "all frequencies, targets, geometries, factors", "why_tests_cant": "an identity over a continuum of factors and geometries", "anchors": ["agnpy/absorption/targets_absorption.py:87-597"]}
{"id": "C68", "title": "Limiting geometries of the external Compton targets agree", "statement": "A dust torus or a broad line region of radius zero gives the external Compton SED of a point source of the reprocessed luminosity xi*L_disk; a blob at the centre of a broad line region (r = 0) gets the SED of an isotropic field of energy density xi*L_disk/(4 pi R^2 c), the one computed for the CMB.", "quantifier": "all blobs, luminosities, frequencies, viewing angles, azimuth grids going once around", "why_tests_cant": "an identity between four independently written integrals over a continuum of inputs", "anchors": ["agnpy/compton/external_compton.py:ExternalCompton.evaluate_sed_flux_ps_behind_jet", "agnpy/compton/external_compton.py:ExternalCompton.evaluate_sed_flux_blr", "agnpy/compton/external_compton.py:ExternalCompton.evaluate_sed_flux_dt", "agnpy/compton/external_compton.py:ExternalCompton.evaluate_sed_flux_iso_mono"]}
{"id": "C69", "title": "Integrated fluxes are consistent", "statement": "For a non-negative SED energy_flux_integral and flux_integral are non-negative; both are linear in the SED, exact for flux densities constant in the band, and the energy flux lies between the photon flux times the energies of the two edges of the band.", "quantifier": "all SEDs, bands and numbers of points", "why_tests_cant": "all functions and bands", "anchors": ["agnpy/radiative_process/core.py:RadiativeProcess.energy_flux_integral", "agnpy/radiative_process/core.py:RadiativeProcess.flux_integral"]}
{"id": "C70", "title": "For local rates the evolution is the explicit Euler scheme bin by bin", "statement": "With fixed steps, the Euler method, no bounds and no subgroups, and rate functions that depend on the Lorentz factor only, evaluate() returns exactly the result of applying to each bin separately ceil(T/dt) explicit Euler steps (the last one cut to T), as long as the bins stay in order, apart and of positive width; the k-th callback sees the k-th iterate.", "quantifier": "all rate functions, initial grids, distributions, total times and step lengths meeting the hypotheses", "why_tests_cant": "all functions and any number of steps; tests compare a few runs with reference values", "anchors": ["agnpy/time_evolution/time_evolution.py:TimeEvolution.evaluate", "agnpy/time_evolution/_time_evolution_utils.py:recalc_gamma_bins_and_density"]}
{"id": "C71", "title": "Acceleration proportional to energy shifts the spectrum as a whole", "statement": "With the rate a*gamma (fermi_acceleration: a = 1/t_acc) every Lorentz factor is multiplied by the same factor Q and every density divided by it; Q = (1+a*dt)^N for N full steps, Q never exceeds exp(a*T), and Q tends to exp(a*T) as the steps are refined.", "quantifier": "all grids, distributions, times, steps and numbers of bins", "why_tests_cant": "convergence and all grids; tests check one configuration at a tolerance", "anchors": ["agnpy/time_evolution/time_evolution.py:fermi_acceleration", "agnpy/time_evolution/time_evolution.py:TimeEvolution.evaluate"]}
{"id": "C72", "title": "Synchrotron cooling follows gamma/(1+B gamma T)", "statement": "With quadratic losses (synchrotron_loss) each Lorentz factor ends between the analytic cooling solution with B and with B/(1-B gamma0 dt), never above the former; densities are at least n0 (gamma0/gamma)^2; as the steps are refined the Lorentz factors converge to the analytic solution.", "quantifier": "all magnetic fields, grids, distributions, times, and steps resolving the cooling time", "why_tests_cant": "convergence and all grids; tests check one configuration at a tolerance", "anchors": ["agnpy/time_evolution/time_evolution.py:synchrotron_loss", "agnpy/time_evolution/time_evolution.py:TimeEvolution.evaluate"]}
{"id": "C73", "title": "Injection and escape have the closed-form solution", "statement": "Without energy changes no bin moves; with absolute injection a(gamma) and relative injection r(gamma) the density after the time t is n0 + a t for r = 0 and (n0 + a/r) g - a/r otherwise, where g is the product of 1 + r*(step) over the steps.", "quantifier": "all rate functions, grids, distributions, times and steps with 1 + r dt > 0", "why_tests_cant": "all functions and numbers of steps", "anchors": ["agnpy/time_evolution/time_evolution.py:TimeEvolution.evaluate", "agnpy/time_evolution/_time_evolution_utils.py:recalc_gamma_bins_and_density"]}
{"id": "C74", "title": "Losses alone never push particles to higher energies", "statement": "If all energy-change functions return non-positive values (synchrotron_loss, ssc_loss, ssc_thomson_limit_loss), no Lorentz factor reported to the callback or returned exceeds the largest initial one, and the largest never grows between callbacks; symmetrically for gains (fermi_acceleration). Holds for any step mode, method, subgroups and bin merging.", "quantifier": "all configurations without bounds, distributions and executions", "why_tests_cant": "all executions", "anchors": ["agnpy/time_evolution/time_evolution.py:TimeEvolution.evaluate", "agnpy/time_evolution/time_evolution.py:synchrotron_loss", "agnpy/time_evolution/time_evolution.py:ssc_loss", "agnpy/time_evolution/time_evolution.py:ssc_thomson_limit_loss", "agnpy/time_evolution/time_evolution.py:fermi_acceleration"]}
{"id": "C75", "title": "Redshift only shifts frequencies of the jet emission and opacities", "statement": "At a fixed luminosity distance, the synchrotron, proton synchrotron, self-Compton and external-Compton SEDs and all gamma-gamma opacities of a source at redshift z, at the observed frequency nu, equal those of the same source at redshift 0 at the frequency nu(1+z) (for the self-Compton SED the internal grid of target frequencies is stretched by 1+z as well).", "quantifier": "all frequencies, redshifts, blobs, targets, viewing angles and integrators", "why_tests_cant": "all redshifts and parameters; tests compare with reference SEDs at one redshift", "anchors": ["agnpy/synchrotron/synchrotron.py:Synchrotron.evaluate_sed_flux", "agnpy/synchrotron/proton_synchrotron.py:ProtonSynchrotron.evaluate_sed_flux", "agnpy/compton/synchrotron_self_compton.py:SynchrotronSelfCompton.evaluate_sed_flux", "agnpy/compton/external_compton.py:ExternalCompton.sed_flux", "agnpy/absorption/targets_absorption.py:Absorption.tau"]}
{"id": "C76", "title": "Refining the grids converges to the physical integrals", "statement": "As gamma_e_size (gamma_p_size) grows, n_e_tot, N_e_tot, u_e, W_e, n_p_tot, u_p, u_ph_synch, the synchrotron and proton synchrotron SEDs and the self-absorption opacity tend to the integrals over the continuous distribution between gamma_min and gamma_max; so do energy_flux_integral and flux_integral as their number of frequencies grows; trapz_loglog converges too for samples that are normal doubles. The self-absorbed SED converges unless the opacity tends to the threshold 0.001.", "quantifier": "all distributions (including broken and interpolated ones), frequencies and parameters; the limit of the number of points", "why_tests_cant": "a limit; tests check finitely many grid sizes", "anchors": ["agnpy/emission_regions/blob.py:Blob.n_e_tot", "agnpy/emission_regions/blob.py:Blob.u_e", "agnpy/emission_regions/blob.py:Blob.u_ph_synch", "agnpy/synchrotron/synchrotron.py:Synchrotron.evaluate_sed_flux", "agnpy/synchrotron/synchrotron.py:Synchrotron.evaluate_tau_ssa", "agnpy/radiative_process/core.py:RadiativeProcess.energy_flux_integral", "agnpy/utils/math.py:trapz_loglog"]}
{"id": "C77", "title": "Redshift only shifts frequencies of the thermal emission", "statement": "At a fixed luminosity distance, the SEDs of the disk and of the dust torus at redshift z and observed frequency nu equal those at redshift 0 and frequency nu(1+z), so that the luminosity is conserved.", "quantifier": "all disks, tori, frequencies, redshifts", "why_tests_cant": "all redshifts; tests use one redshift and compare shapes", "anchors": ["agnpy/targets/targets.py:RingDustTorus.sed_flux", "agnpy/targets/targets.py:SSDisk.sed_flux"]}
{"id": "C78", "title": "A run fails only for physical reasons", "statement": "With a well-formed configuration (strictly increasing positive energies inside the bounds, at least one group, one row of initial fractions per group) and rate functions that return one value per energy, evaluate() can only end with an exception saying that a bin reached a non-positive energy, was turned inside out or shrunk to zero width, that a density became negative, that particles escape from an empty bin, or that the particles occupy too few energies to interpolate; with bounds or a merging threshold also with an IndexError when no bin is left. It never fails because of a missing rate, an array of the wrong shape, a NaN rate or a missing default value, however bins are sorted, merged, dropped and added.", "quantifier": "every well-formed configuration, initial distribution, number of steps, step mode, method", "why_tests_cant": "the bookkeeping passes through arbitrarily many re-orderings, merges and insertions of bins; a test exercises one sequence of them", "anchors": ["agnpy/time_evolution/time_evolution.py:TimeEvolution.evaluate", "agnpy/time_evolution/_time_evolution_utils.py:recalc_new_rates", "agnpy/time_evolution/_time_evolution_utils.py:remap"]}
{"id": "C79", "title": "Shape of the synchrotron spectrum", "statement": "For a homogeneous blob with the trapezoidal integrator, Synchrotron.sed_flux, with or without self-absorption, is bounded by the number of electrons times an explicit factor times nu * exp(-x), where x is the photon energy over the critical energy of electrons of gamma_max; without self-absorption sed_flux / nu^(4/3) tends to a positive constant as nu -> 0 (flux density rising like the cubic root of the frequency).", "quantifier": "all blobs with a positive distribution and all frequencies; limit nu -> 0", "why_tests_cant": "asymptotic statement and a bound over a continuum of frequencies and parameters", "anchors": ["agnpy/synchrotron/synchrotron.py:Synchrotron.evaluate_sed_flux", "agnpy/synchrotron/synchrotron.py:R", "agnpy/synchrotron/synchrotron.py:single_particle_synch_power"]}
{"id": "C80", "title": "Refining the time step converges to the kinetic equations", "statement": "For rate functions of the Lorentz factor that are Lipschitz along the solutions of dgamma/dt = rate/mec2 and of the continuity equation (with the divergence taken as the code's difference quotient over a bin), every evaluate() with small enough fixed Euler steps returns, and at every callback and at the end all Lorentz factors and densities differ from the solutions at the elapsed time by at most a constant times the step. In particular fermi_acceleration together with synchrotron_loss converges to the logistic curve, and the densities under synchrotron_loss to n0 (1+b gamma0 T)^2.0001.", "quantifier": "all Lipschitz rates, grids, distributions, total times, all steps below a threshold; merging threshold allowed as long as the solutions stay apart", "why_tests_cant": "an order of convergence is a statement about all small steps at once; tests compare one step size at a tolerance", "anchors": ["agnpy/time_evolution/time_evolution.py:TimeEvolution.evaluate", "agnpy/time_evolution/_time_evolution_utils.py:recalc_gamma_bins_and_density", "agnpy/time_evolution/time_evolution.py:synchrotron_loss", "agnpy/time_evolution/time_evolution.py:fermi_acceleration"]}
{"id": "C81", "title": "Heun runs are Heun's method, bin by bin", "statement": "With rate functions of the Lorentz factor only, fixed steps, one group, no bounds and method=\"heun\", and as long as no bin turns inside out, reaches zero, or comes too close to another, evaluate() does not raise and its k-th callback and its result are the pairs (Lorentz factor, density) after k steps of: move both edges of the bin [g, 1.0001 g] with the mean of the rate there and the rate where a full step with that rate leads; multiply the density by old width over new width; add the injection at the old position. Nothing is merged after the trial step, and the injected amount is not corrected.", "quantifier": "all such rate functions, grids, distributions, steps and total times", "why_tests_cant": "the exact outcome of arbitrarily many steps for every rate function; tests compare to tolerances on a few runs", "anchors": ["agnpy/time_evolution/time_evolution.py:TimeEvolution._apply_time_changes", "agnpy/time_evolution/time_evolution.py:TimeEvolution.evaluate"]}
{"id": "C82", "title": "Heun's method is of second order in the energies", "statement": "For rates as in C80 whose energy change has a Lipschitz derivative, every evaluate() with method=\"heun\" and small enough fixed steps returns; at every callback and at the end the Lorentz factors differ from the solution of dgamma/dt = rate/mec2 by at most a constant times the square of the step, and the densities from the solution of the continuity equation by at most a constant times the step. In particular for fermi_acceleration together with synchrotron_loss.", "quantifier": "all such rates, grids, distributions, total times, all steps below a threshold", "why_tests_cant": "an order of convergence is a statement about all small steps at once", "anchors": ["agnpy/time_evolution/time_evolution.py:TimeEvolution._apply_time_changes", "agnpy/time_evolution/time_evolution.py:TimeEvolution.evaluate", "agnpy/time_evolution/_time_evolution_utils.py:recalc_gamma_bins_and_density"]}
{"id": "C83", "title": "One radiation field per target", "statement": "At a given point the photons of a target form one radiation field: sources of the stated luminosity, diluted with 1/(4 pi c x^2), arriving from the directions in which the target is seen. target.u(r) is the energy density of that field, ExternalCompton(blob, target, r).sed_flux is one functional of it (the same constants for every target; the electrons enter as V_b n_e(gamma/delta_D)), and Absorption(target, r).tau is the path integral of another.", "quantifier": "all five targets, all blobs, distances, viewing angles, frequencies", "why_tests_cant": "tests compare each target with its own reference curve; that the three modules mean the same radiation by the same target is a relation between them, for all parameters", "anchors": ["agnpy/compton/external_compton.py:ExternalCompton", "agnpy/targets/targets.py:SSDisk.u", "agnpy/targets/targets.py:SphericalShellBLR.u", "agnpy/targets/targets.py:RingDustTorus.u", "agnpy/absorption/targets_absorption.py:Absorption"]}
{"id": "C84", "title": "Tempo and amount of a time evolution", "statement": "evaluate() has no scale of its own for time, energy or density. With every rate function c times larger and total_time and a fixed step c times shorter it gives the same Lorentz factors, densities, subgroup fractions and distribution (rates c times larger, times c times shorter), or raises the same exception after as many steps. With rates that depend on the Lorentz factor only, a times the initial density, a times the absolute injection and a times max_injection_per_interval give the same Lorentz factors and fractions and a times the densities. In general a problem and its restatement in other units of time, energy and density have the same outcome and the same callbacks up to the units.", "quantifier": "all configurations (any subgroups, bounds, merging, fixed, automatic or optimised steps, euler or heun), distributions, rate functions, positive factors, number of steps", "why_tests_cant": "equality of two whole runs for every factor and every configuration; a comparison with a literal inside any of the two dozen helpers would break it only for some scales", "anchors": ["agnpy/time_evolution/time_evolution.py:TimeEvolution.evaluate", "agnpy/time_evolution/time_evolution.py:TimeEvolution._calc_max_time_per_bin", "agnpy/time_evolution/_time_evolution_utils.py:recalc_new_rates"]}
{"id": "C85", "title": "Only the sum of the processes of a subgroup matters", "statement": "evaluate() depends on the dictionaries of energy change and injection functions only through their sums per subgroup. The order of the entries does not matter; a process may be entered as one function or as two that add up to it (named in the same subgroups); running without subgroups is running with one subgroup that lists every process. In each case times, Lorentz factors, densities, subgroup fractions and the distribution left in the blob are the same, at every callback and at the end, or the same exception is raised.", "quantifier": "all configurations (bounds, merging, fixed, automatic or optimised steps, euler or heun), all rate functions returning arrays of the right length, all non-negative distributions, any number of steps", "why_tests_cant": "equality of two whole runs for every way of splitting the rates; per-process state is carried, remapped and partly recalculated over steps, so a slip in one branch would show only for some masks and merges", "anchors": ["agnpy/time_evolution/_time_evolution_utils.py:sum_change_rates", "agnpy/time_evolution/_time_evolution_utils.py:recalc_new_rates", "agnpy/time_evolution/_time_evolution_utils.py:remap", "agnpy/time_evolution/time_evolution.py:TimeEvolution.evaluate"]}
{"id": "C86", "title": "Doppler boosting laws", "statement": "The radiation of a blob obeys the relativistic beaming laws. What is emitted isotropically in the blob frame (Synchrotron with and without self-absorption, its delta approximation, ProtonSynchrotron) is seen as nu F(nu; delta_D) = delta_D^4 nu F(nu / delta_D; 1); so the peak is delta_D^4 higher at delta_D times the frequency, and over a band moved by delta_D energy_flux_integral grows by delta_D^4 and flux_integral (photons) by delta_D^3. SynchrotronSelfCompton obeys the same law up to its grid of seed frequencies, which is fixed in the observer frame and thus moves by 1/delta_D in the blob. External Compton for fixed viewing angle grows instead by delta_D^3 times the emission of the electrons with Lorentz factors delta_D times larger: delta_D^(3+p) for a power law, against delta_D^((5+p)/2) for the synchrotron delta approximation.", "quantifier": "all Doppler factors, frequencies, redshifts, particle distributions, integrators (power laws of index p: homogeneous ones), all five external targets", "why_tests_cant": "tests compute SEDs for a handful of Doppler factors; the scaling law relates all pairs of Doppler factors and frequencies, and its exponent differs between the processes", "anchors": ["agnpy/synchrotron/synchrotron.py:Synchrotron.evaluate_sed_flux", "agnpy/synchrotron/proton_synchrotron.py:ProtonSynchrotron.evaluate_sed_flux", "agnpy/compton/synchrotron_self_compton.py:SynchrotronSelfCompton.evaluate_sed_flux", "agnpy/compton/external_compton.py:ExternalCompton", "agnpy/radiative_process.py:RadiativeProcess"]}
{"id": "C87", "title": "Radiation adds up, and more particles do not shine less", "statement": "Without self-absorption and with np.trapz the radiation of a mixture of particle populations is the same mixture of their radiations (Synchrotron, ProtonSynchrotron, external Compton on every target, densities and energies of the blob); e.g. a BrokenPowerLaw radiates what the two PowerLaws that make it up radiate together. Adding particles at any energies (same limits) never lowers the synchrotron, proton synchrotron, synchrotron self-Compton or external Compton SED at any frequency, nor n_e_tot, u_e, u_ph_synch or the SSC energy loss rate; so removing an exponential cut-off or raising the normalisation never dims the source. The claim does not extend to ssa=True (the attenuation jumps at tau = 1e-3) nor to trapz_loglog (its formula for index -1 takes over in a band of indices).", "quantifier": "all distributions, grids, frequencies, blobs, targets", "why_tests_cant": "an order relation and a superposition law between pairs and triples of distributions, quantified over functions; the two exceptions are invisible jumps of 4e-4 and 1e-10", "anchors": ["agnpy/synchrotron/synchrotron.py:Synchrotron.evaluate_sed_flux", "agnpy/synchrotron/synchrotron.py:tau_to_attenuation", "agnpy/synchrotron/proton_synchrotron.py:ProtonSynchrotron.evaluate_sed_flux", "agnpy/compton/synchrotron_self_compton.py:SynchrotronSelfCompton", "agnpy/compton/external_compton.py:ExternalCompton", "agnpy/utils/math.py:trapz_loglog"]}
{"id": "C88", "title": "Energy balance of the accretion disk", "statement": "The temperatures that SSDisk.T reports determine the power the disk radiates: integrating sigma T^4 over both faces from R_in to R_out gives L_disk * R_g / (2 eta R_in) * (1 - 3x + 2 x^(3/2)) with x = R_in / R_out. Extended outwards the disk approaches L_disk * R_g / (2 eta R_in), always staying below it, and this limit is the luminosity L_disk the user gave exactly if R_in = R_g / (2 eta) (6 R_g for eta = 1/12): the constructor accepts other combinations, and then thermal emission and L_disk disagree by the factor R_g / (2 eta R_in).", "quantifier": "all masses, luminosities, efficiencies, radii R_in <= R_out", "why_tests_cant": "an integral over all radii and a limit for all parameters; tests evaluate the temperature at single radii", "anchors": ["agnpy/targets/targets.py:SSDisk.__init__", "agnpy/targets/targets.py:SSDisk.evaluate_T"]}
{"id": "C89", "title": "Assigning attributes acts like building anew", "statement": "After any sequence of constructions and assignments to attributes of distributions, blobs, targets and processes (including set_delta_D, set_mu, set_phi, set_l), sed_flux and sed_luminosity of Synchrotron, ProtonSynchrotron, SynchrotronSelfCompton and ExternalCompton and tau of Absorption are what they would be if all objects were now built anew from their current attributes. Exceptions, and only these: assigning Blob.z leaves d_L, so fluxes are off by the squared ratio of the distances while luminosities and opacities stay right; assigning SphericalShellBLR.line or RingDustTorus.T_dt leaves the photon energy; moving an ExternalCompton from an SSDisk to another kind of target leaves its integration directions; a delta_D <= 0 can be assigned though the constructor refuses it. On SSDisk itself the photon energy follows every assignment, T and sed_flux follow M_BH, R_in and R_out, and T stays behind an assigned L_disk or eta by the fourth root of the ratio.", "quantifier": "all programs of constructions and assignments, all parameters, frequencies, integrators", "why_tests_cant": "fits reassign attributes in any order on shared objects; tests assign one or two attributes and look at one property", "anchors": ["agnpy/emission_regions/blob.py:Blob", "agnpy/targets/targets.py:SSDisk.__init__", "agnpy/targets/targets.py:SphericalShellBLR.__init__", "agnpy/targets/targets.py:RingDustTorus.__init__", "agnpy/compton/external_compton.py:ExternalCompton.set_mu", "agnpy/absorption/targets_absorption.py:Absorption.__init__"]}
{"id": "C90", "title": "Independence of unrelated objects", "statement": "An answer (sed_flux, tau) of a process does not change through any sequence of statements none of which assigns to the process, its blob, its photon target or the distribution it uses (electrons, or protons for ProtonSynchrotron); building further objects never changes it. Blobs that refer to the same distribution object - all blobs built without n_e do - are not independent: multiplying the density through one multiplies the synchrotron flux of the others. An assignment writes the named attribute of the named object and nothing else (derived attributes are not refreshed). A blob built without n_e has the default power law (1e-13, 2.1, 10, 1e5) whatever was done before, unless an attribute of a distribution obtained this way was assigned: then later blobs get the assigned values. Absorption on a photon target is refused without a distance.", "quantifier": "all programs, all heaps of objects, all parameters and frequencies", "why_tests_cant": "non-interference over arbitrary programs on shared mutable objects", "anchors": ["agnpy/emission_regions/blob.py:Blob.__init__", "agnpy/emission_regions/blob.py:Blob.n_e", "agnpy/synchrotron/synchrotron.py:Synchrotron.__init__", "agnpy/compton/external_compton.py:ExternalCompton.__init__"]}
{"id": "C91", "title": "The boundary correction of distributions and the evolution", "statement": "Every call of a distribution on an array moves an end of that array that lies less than 1e-10 (relative) outside [gamma_min, gamma_max] onto the limit, in place. TimeEvolution.evaluate calls distributions on the caller's initial_gamma_array and on the current grid. It nevertheless leaves the caller's array as it was and gives the result (or exception) of a run without any correction, for every configuration in which all groups contain the same energy changes (in particular without subgroups), both methods, every step mode, provided no end of the initial array is that close outside the limits of the blob's distribution; the default initial array (None) never is. Otherwise it does not: an initial array starting 1e-11 below gamma_min is overwritten, and with groups that move differently the grid of a group without any energy change creeps along with the other.", "quantifier": "all configurations, distributions, rate functions, numbers of steps", "why_tests_cant": "the window is 1e-10 wide; a test run never has an end in it except by construction, and agreement of two whole runs for all rate functions is no finite check", "anchors": ["agnpy/spectra/spectra.py:211-225", "agnpy/time_evolution/time_evolution.py:193-211", "agnpy/time_evolution/time_evolution.py:379-387"]}
{"id": "C92", "title": "Fit models have no memory", "statement": "Evaluating fit models (gammapy or sherpa wrappers of SSC and EC scenarios) one after the other, in any order and with any parameters, returns for each call what that call returns on its own. This holds when no evaluated spectrum has gamma_min in (10, 10+1e-9) or gamma_max in (1e9-0.1, 1e9); otherwise it fails: the spectrum overwrites an end of the module-level array gamma_e_to_integrate that all synchrotron and SSC evaluations share, and a model that returns zero in a fresh session returns a positive SED after another one was evaluated.", "quantifier": "all sequences of calls, all spectral families, parameters, energies, with and without self-absorption", "why_tests_cant": "histories of arbitrary length over shared mutable module state; tests evaluate one model per process or do not compare orders", "anchors": ["agnpy/utils/math.py:gamma_e_to_integrate", "agnpy/fit/gammapy_wrapper.py:SynchrotronSelfComptonSpectralModel.evaluate", "agnpy/fit/sherpa_wrapper.py:_evaluate_sed_ssc_scenario", "agnpy/spectra/spectra.py:ParticleDistribution._correct_array_boundary_values"]}
{"id": "C93", "title": "Superposition of evolving populations", "statement": "Two electron populations that evolve with energy-change rates and relative injection rates depending on the Lorentz factor alone, each fed by its own absolute injection, can be evolved together: starting from the sum of the two initial densities and fed by both injections, TimeEvolution.evaluate (Euler, fixed step, no subgroups, no bounds) runs through the same Lorentz factors as either alone, and the densities handed to every callback and returned at the end are the sums of the two. Claimed for runs in which no bins are merged, reordered or turned inside out (afterwards densities are interpolated on a log-log scale, which is not additive).", "quantifier": "all grids, initial distributions, numbers of energy-change, relative and absolute functions, steps", "why_tests_cant": "universal over rate functions and run lengths; a test adds two fixed runs", "anchors": ["agnpy/time_evolution/time_evolution.py:evaluate", "agnpy/time_evolution/_time_evolution_utils.py:recalc_new_rates"]}
{"id": "C94", "title": "The SED and the energetics vary continuously with the parameters", "statement": "Synchrotron.sed_flux, ProtonSynchrotron.sed_flux and the electron content of a blob (n_e_tot, u_e, W_e, u_ph_synch) depend continuously, jointly, on all their parameters: frequency, redshift, distance, Doppler factor, magnetic field, blob radius and every parameter of the electron or proton distribution, including its limits gamma_min and gamma_max and the position of a break, although the integration grid moves with the limits and the spectrum is zero outside them. With synchrotron self-absorption the same holds for distributions without a break, away from opacity 1e-3 (where the code switches to a different formula).", "quantifier": "all parametrised families of blobs over any topological space, all grid sizes of at least 2", "why_tests_cant": "continuity at every parameter point is a statement about all sequences approaching it; the masked spectrum is discontinuous at its own limits, which lie on the grid", "anchors": ["agnpy/synchrotron/synchrotron.py:sed_flux", "agnpy/synchrotron/proton_synchrotron.py:sed_flux", "agnpy/emission_regions/blob.py:gamma_e", "agnpy/spectra/spectra.py:evaluate"]}
{"id": "C95", "title": "Fit models respond to the limits of the electron spectrum", "statement": "The gammapy and sherpa models (SynchrotronSelfComptonModel, ExternalComptonModel) should vary continuously with log10_gamma_min and log10_gamma_max, as the SED classes do (C94), and should count all electrons between the limits. They integrate over a fixed array of 200 Lorentz factors from 10 to 1e9, so instead: the value does not change at all while the limits move between the same points of the array; it does not change while gamma_min moves below 10 or gamma_max above 1e9 (for ExternalCompton, above 1e9/delta_D); and when gamma_min passes a point of the array inside the spectrum the SED drops by a finite amount.", "quantifier": "all parameter sets, all electron distributions, all energies", "why_tests_cant": "tests evaluate the models at a few parameter sets; flatness between the points and the jump at each point are statements about all pairs of parameter sets", "anchors": ["agnpy/fit/gammapy_wrapper.py:evaluate", "agnpy/fit/sherpa_wrapper.py:calc", "agnpy/utils/math.py:gamma_e_to_integrate", "agnpy/compton/external_compton.py:sed_flux"]}
{"id": "C96", "title": "Thermal SEDs carry the luminosity", "statement": "Integrated over all frequencies, RingDustTorus.sed_flux gives the flux xi_dt L_disk / (4 pi d_L^2) of the luminosity the torus reprocesses, independently of its radius and temperature, and SSDisk.evaluate_multi_T_bb_sed gives the flux of a Lambert radiator, mu_s / (2 pi d_L^2) times the power radiated by the two faces at the temperatures evaluate_T. With the luminosity distance this should hold at every redshift; the code's fluxes are smaller by the factor 1+z.", "quantifier": "all tori, disks, distances, redshifts; integral over all frequencies", "why_tests_cant": "an improper integral of Planck's law for all parameters (Stefan-Boltzmann law); tests integrate numerically one torus on a finite grid", "anchors": ["agnpy/targets/targets.py:RingDustTorus.evaluate_bb_sed", "agnpy/targets/targets.py:RingDustTorus.evaluate_bb_norm_sed", "agnpy/targets/targets.py:SSDisk.evaluate_multi_T_bb_sed"]}
{"id": "C97", "title": "Amplitude parameters of the fit models act as amplitudes", "statement": "Adding s to log10_k (log10_norm for interpolated distributions) and t to log10_L_disk changes the value of the external Compton fit model, without self-absorption, from synch + ssc + thermal + ec to 10^s synch + 10^(2s) ssc + 10^t thermal + 10^(s+t) ec, with four numbers that do not depend on s and t; the SSC model goes from synch + ssc to 10^s synch + 10^(2s) ssc. The parameter norm of the gammapy models multiplies the flux.", "quantifier": "all distributions, parameter sets, energies, target lists, shifts s and t", "why_tests_cant": "an identity in two real shifts for all parameter sets; tests compare single evaluations with stored values", "anchors": ["agnpy/fit/gammapy_wrapper.py:SynchrotronSelfComptonSpectralModel.evaluate", "agnpy/fit/gammapy_wrapper.py:ExternalComptonSpectralModel.evaluate", "agnpy/fit/core.py:get_spectral_parameters_from_n_e"]}
{"id": "C98", "title": "Sums replace integrals with known error", "statement": "For a power-law distribution n_e_tot, u_e and u_ph_synch of a blob are the exact integrals times a factor that depends only on the index and on the ratio of neighbouring points of the grid (at least 1 for indices >= 0, at most (1+q^p)/2); for convex distributions n_e_tot is never too small. A distribution normalised by from_total_density, from_total_energy_density or from_total_energy gives back exactly the requested value on a blob with the default 200 points, and for a power law the ratio of the two factors on other grids. SphericalShellBLR.u is never below the exact density of the shell and approximates it.", "quantifier": "all power laws, shapes, limits, grid sizes, distances", "why_tests_cant": "an identity between a sum of any number of terms and an integral, and bounds for all distances; tests use loose relative tolerances on single cases", "anchors": ["agnpy/emission_regions/blob.py:Blob.n_e_tot", "agnpy/emission_regions/blob.py:Blob.u_e", "agnpy/emission_regions/blob.py:Blob.u_ph_synch", "agnpy/spectra/spectra.py:ParticleDistribution.from_total_density", "agnpy/targets/targets.py:SphericalShellBLR.u"]}
{"id": "C99", "title": "Far away every target is a point source behind the jet", "statement": "As r grows, r^2 u(r) of RingDustTorus and SphericalShellBLR, at rest and in the frame of any blob, tends to that of PointSourceBehindJet with the luminosity xi L_disk, and r^2 times the ExternalCompton SED on them to that on the point source; at r = 0 both densities are xi L_disk / (4 pi c R^2), and that of the torus falls with r. The same should hold of SSDisk.u with L_disk.", "quantifier": "all targets, blobs, frequencies and electron distributions; limit of infinite distance", "why_tests_cant": "a limit for all parameters; tests compare the SEDs at one very large distance within a tolerance and do not cover SSDisk.u", "anchors": ["agnpy/targets/targets.py:RingDustTorus.u", "agnpy/targets/targets.py:SphericalShellBLR.u", "agnpy/targets/targets.py:SSDisk.u", "agnpy/targets/targets.py:PointSourceBehindJet.u", "agnpy/compton/external_compton.py:ExternalCompton.sed_flux"]}
{"id": "C100", "title": "A batch of frequencies gives what each frequency gives alone", "statement": "The SEDs (synchrotron, proton synchrotron, SSC, external Compton on every target, disk) and the opacities of an array of frequencies have the shape of that array, and the element at an index is the SED (opacity) of the frequency at that index alone; the SSC energy loss rate of an array of Lorentz factors likewise. Synchrotron without self-absorption and SSC accept arrays of any shape.", "quantifier": "all arrays of frequencies, parameters, electron distributions and integrators", "why_tests_cant": "reshaping, broadcasting and integration axes must be right for all lengths, also when two axes happen to have the same length; tests use a few arrays of one axis", "anchors": ["agnpy/synchrotron/synchrotron.py:Synchrotron.evaluate_sed_flux", "agnpy/synchrotron/synchrotron.py:Synchrotron.evaluate_sed_flux_delta_approx", "agnpy/synchrotron/proton_synchrotron.py:ProtonSynchrotron.evaluate_sed_flux", "agnpy/compton/synchrotron_self_compton.py:SynchrotronSelfCompton.evaluate_sed_flux", "agnpy/compton/external_compton.py:ExternalCompton.evaluate_sed_flux_blr", "agnpy/absorption/targets_absorption.py:Absorption.evaluate_tau_blr", "agnpy/utils/math.py:axes_reshaper"]}
{"id": "C101", "title": "A batch of distances gives what each distance gives alone", "statement": "The energy density u(r, blob) of every target, at rest or in the frame of a blob, of an array of distances has the shape of that array and at each index the density of the distance at that index alone.", "quantifier": "all arrays of distances, targets, blobs", "why_tests_cant": "the integrals use per-distance limits and axes; tests compare single distances or loops over one array", "anchors": ["agnpy/targets/targets.py:PointSourceBehindJet.u", "agnpy/targets/targets.py:SSDisk.u", "agnpy/targets/targets.py:SphericalShellBLR.u", "agnpy/targets/targets.py:RingDustTorus.u"]}
{"id": "C102", "title": "Every collision gives one scattered photon", "statement": "The photon flux of the ExternalCompton SED (the integral of nu F_nu / (h nu^2) over all frequencies) on every target equals (1+z) delta_D^3 / (4 pi d_L^2) times the collision rate of the electrons with the photons of the target, with the Klein-Nishina cross-section. The isotropic kernel of SSC is the mean of the kernel of external Compton over the directions of the target photon; in the limit of Thomson it gives one photon per collision, with 4/3 gamma^2 times the energy of the target photon, up to a cut of order 1/gamma^2. The photon flux of the SSC SED is, in the same way, the collision rate of the electrons with the synchrotron photons of the blob, less a part of at most about 3/(4 gamma^2) of Thomson's rate, the collisions in which the photon loses energy.", "quantifier": "all targets, electron distributions, blobs, grids and energies", "why_tests_cant": "an identity between integrals over all frequencies and a cross-section for all parameters; tests compare SEDs at sampled frequencies with figures of papers within a few ten percent", "anchors": ["agnpy/compton/kernels.py:compton_kernel", "agnpy/compton/kernels.py:isotropic_kernel", "agnpy/compton/external_compton.py:ExternalCompton.evaluate_sed_flux_iso_mono", "agnpy/compton/external_compton.py:ExternalCompton.evaluate_sed_flux_ps_behind_jet", "agnpy/compton/external_compton.py:ExternalCompton.evaluate_sed_flux_ss_disk", "agnpy/compton/external_compton.py:ExternalCompton.evaluate_sed_flux_blr", "agnpy/compton/external_compton.py:ExternalCompton.evaluate_sed_flux_dt", "agnpy/compton/synchrotron_self_compton.py:73-158"]}
{"id": "C103", "title": "Results do not depend on the system of units", "statement": "A change of the units of length, mass, time and temperature of all parameters and constants changes every SED by the factor of a flux, every energy density by the factor of an energy density, every power by the factor of a luminosity, and leaves opacities and Lorentz factors alone. Exceptions are the numbers that the code holds in CGS units: the Eddington luminosity (the energies of disk photons are unchanged exactly by the changes that keep the unit of luminosity), the frequency grids in Hz of SSC and of the disk SED, and the 1e-8 cm of np.isclose on the path through the broad line region.", "quantifier": "all systems of units, objects, targets, distributions, frequencies", "why_tests_cant": "an identity for all parameters under a four-parameter group; tests fix one system of units and the code strips the units (to_value, .cgs.value) in the time evolution and in the fit wrappers", "anchors": ["agnpy/synchrotron/synchrotron.py", "agnpy/compton/external_compton.py", "agnpy/compton/synchrotron_self_compton.py", "agnpy/absorption/targets_absorption.py", "agnpy/targets/targets.py", "agnpy/emission_regions/blob.py", "agnpy/constraints/constraints.py"]}
{"id": "C104", "title": "The region holds what its populations were normalised to", "statement": "A population made with from_total_density, from_total_energy_density, from_total_energy or from_density_at_gamma_1 and given to a Blob with the default grids makes the Blob report exactly the density, number, energy density or total energy asked for, as electrons if it was made with m_e and as protons if with m_p. Any other object as mass, a copy of the constants included, is a ValueError. The Blob does not look at the species: electrons given as protons are accepted and their energy density is off by m_p/m_e. The population is proportional to what was asked for.", "quantifier": "all families, parameters, masses, blobs", "why_tests_cant": "exact identities across two modules for all parameters; tests compare single cases with a relative tolerance", "anchors": ["agnpy/spectra/spectra.py:ParticleDistribution.__init__", "agnpy/spectra/spectra.py:ParticleDistribution.from_total_density", "agnpy/spectra/spectra.py:ParticleDistribution.from_total_energy_density", "agnpy/spectra/spectra.py:ParticleDistribution.from_total_energy", "agnpy/emission_regions/blob.py:Blob.n_e_tot", "agnpy/emission_regions/blob.py:Blob.u_e", "agnpy/emission_regions/blob.py:Blob.u_p", "agnpy/emission_regions/blob.py:Blob.N_p"]}
{"id": "C105", "title": "Scattered photons carry away what the electrons lose", "statement": "The kernel of external Compton gives the scattered photons the energies of the differential Klein-Nishina cross-section: any sum over the scattered photons equals the sum over the collisions. The energy received through ExternalCompton.sed_flux, integrated over frequency, is the energy lost by the electrons per unit time, for every target. An electron loses no more than in the Thomson limit, which is approached at low energies, the losses fall behind it the more the harder the target photons are, and no more than its own energy per collision. The Klein-Nishina factor used for the cooling by SSC agrees with this in the Thomson limit.", "quantifier": "all Lorentz factors, photon energies, angles, particle distributions, targets, redshifts", "why_tests_cant": "identities between integrals over all energies; tests compare single SEDs with published figures within tens of percent", "anchors": ["agnpy/compton/kernels.py:compton_kernel", "agnpy/compton/external_compton.py:ExternalCompton.evaluate_sed_flux_ps_behind_jet", "agnpy/compton/external_compton.py:ExternalCompton.evaluate_sed_flux_iso_mono", "agnpy/compton/external_compton.py:ExternalCompton.evaluate_sed_flux_ss_disk", "agnpy/compton/external_compton.py:ExternalCompton.evaluate_sed_flux_blr", "agnpy/compton/external_compton.py:ExternalCompton.evaluate_sed_flux_dt", "agnpy/compton/synchrotron_self_compton.py:SynchrotronSelfCompton.electron_energy_loss_rate"]}
{"id": "C106", "title": "Synchrotron light carries what the electrons lose", "statement": "The energy received through Synchrotron.sed_flux, integrated over all frequencies, is the energy lost by the electrons of the blob per unit time at the rate electron_energy_loss_rate given to the time evolution: exactly so for the delta approximation, and for the full SED up to one number, the same for all electrons, fields and redshifts, which is within 5 per cent of one. The same number holds for ProtonSynchrotron with the losses of a proton. Self-absorption takes energy away and adds none.", "quantifier": "all particle distributions, Lorentz factor grids, magnetic fields, radii, Doppler factors, distances, redshifts, proton and electron masses", "why_tests_cant": "an identity between integrals over all frequencies and the cooling rate of another method, for every distribution; tests compare SEDs at a few hundred frequencies with stored tables", "anchors": ["agnpy/synchrotron/synchrotron.py:16-61", "agnpy/synchrotron/synchrotron.py:93-99", "agnpy/synchrotron/synchrotron.py:131-227", "agnpy/synchrotron/proton_synchrotron.py:69-150"]}
{"id": "C107", "title": "Self-Compton light carries what the electrons lose", "statement": "The energy received through SynchrotronSelfCompton.sed_flux, integrated over frequency, is the energy the electrons of the blob lose per unit time by scattering the synchrotron photons; the loss of one electron follows from the exact mean over directions of the Klein-Nishina losses, less the part of the photons scattered to energies below those the kernel admits, which is at most 9/(32 gamma^4) of Thomson's. It never exceeds Thomson's losses, and differs from electron_energy_loss_rate, given to the time evolution, by no more than the approximation of Moderski et al. for each photon energy (three times the parameter 4 gamma epsilon, and never more than one). The spectrum of photons used adds up, but for the number of C106, to Blob.u_ph_synch.", "quantifier": "all electron distributions with Lorentz factors of at least one, grids, magnetic fields, radii, Doppler factors, distances, redshifts, with and without self-absorption", "why_tests_cant": "an identity between an integral over all scattered frequencies of a triple sum and the cooling rate of another method; tests compare SEDs at a few frequencies with stored tables", "anchors": ["agnpy/compton/synchrotron_self_compton.py:43-71", "agnpy/compton/synchrotron_self_compton.py:73-158", "agnpy/compton/kernels.py:9-33", "agnpy/emission_regions/blob.py:355-401"]}
{"id": "C108", "title": "Opacities are bounded by the column of photons and vanish at the highest energies", "statement": "The pair-production cross-section absorption.sigma never exceeds 0.26 sigma_T and reaches at least 0.25 sigma_T at s = 2; above threshold s sigma(s) <= 9/16 sigma_T log(4 s). So for every target and every viewing angle Absorption.tau is at most 0.52 sigma_T times the number of target photons per unit area on the path, counted from the photon densities the targets report through u (torus and source behind the jet: the integral of u(l) / (epsilon m_e c^2) along the jet); far above threshold it falls as log(4 E)/E with the product E of the photon energies; and for every target, the synchrotron photons of the blob included, tau tends to zero and absorption to one as the frequency of the gamma ray grows. The opacity of the synchrotron photons is at most 0.26 sigma_T times two radii of the blob times their number density.", "quantifier": "all targets, viewing angles, distances, redshifts, frequencies and integration grids", "why_tests_cant": "a bound on a function over all energies, a bound for all geometries, and a limit; tests compare tables at a few frequencies", "anchors": ["agnpy/absorption/targets_absorption.py:34-42", "agnpy/absorption/targets_absorption.py:696-736", "agnpy/targets/targets.py:202-219", "agnpy/targets/targets.py:620-641"]}
{"id": "C109", "title": "The evolution keeps the particles, and their energy, up to known errors", "statement": "np.trapz(density, gamma) of the arrays that TimeEvolution.evaluate returns: Fermi acceleration alone keeps it exactly, for any fixed step, and multiplies the energy np.trapz(gamma density, gamma) by the factor of the Lorentz factors. With synchrotron losses, or both, and steps tending to zero, number and energy tend to those of the particles moved along the analytic solution, within the ratio q of neighbouring Lorentz factors of the grid and the power 0.0001 of the factor by which the particles cooled (bins have a relative width of 0.0001, and the divergence of the flow is taken over that width). The excess is real: given enough time cooling multiplies the number of particles by any factor.", "quantifier": "all grids, initial densities, magnetic fields, acceleration times, durations, and fixed Euler steps", "why_tests_cant": "exact statement about every step size for acceleration and a limit with error term for losses; tests compare a few runs with tolerances of a percent", "anchors": ["agnpy/time_evolution/time_evolution.py:TimeEvolution.evaluate", "agnpy/time_evolution/_time_evolution_utils.py:recalc_gamma_bins_and_density", "agnpy/time_evolution/time_evolution.py:synchrotron_loss", "agnpy/time_evolution/time_evolution.py:fermi_acceleration"]}
{"id": "C110", "title": "The Compton dominance is the ratio of the energy densities", "statement": "For a blob, the energy received as self-Compton light (SynchrotronSelfCompton.sed_flux integrated over ln nu) divided by the energy received as synchrotron light (Synchrotron.sed_flux) is at most U_ph / U_B, the ratio of the energy density of the synchrotron photons that SynchrotronSelfCompton integrates over and of Blob.U_B, up to the error of the approximate synchrotron spectrum (below 6 %), and at least the same ratio with every photon weighted by 1/(1 + 4 gamma_max epsilon)^3 less 9/(32 gamma_min^4) (1 + epsilon/(2 gamma_min)). So in Thomson's regime the two radiative processes together give the dominance users read off fitted models, whatever the electron spectrum.", "quantifier": "all electron distributions with Lorentz factors of at least one, sizes, magnetic fields, Doppler factors, distances and redshifts", "why_tests_cant": "a relation between the integrals of two different emission processes and two energy densities, for all parameters; the tests compare single SEDs with stored tables", "anchors": ["agnpy/compton/synchrotron_self_compton.py:73-158", "agnpy/synchrotron/synchrotron.py:132-211", "agnpy/emission_regions/blob.py:310-317"]}
{"id": "C111", "title": "The numeric type of the Lorentz factors makes no difference", "statement": "Calling a particle distribution, or its SSA_integrand, on an integer array, on a float array with the same numbers, or on one number at a time gives the same densities, and leaves the caller's array as it is up to the documented relative correction of 1e-10. FALSE of the code: PowerLaw and ExpCutoffPowerLaw with a Python integer as index (p=2) raise ValueError on every integer array, InterpolatedDistribution drops the fraction of every density on an integer array (zero wherever the density is below 1 cm-3) and raises TypeError on a Python number, and the correction of the ends can lower the caller's integer by one.", "quantifier": "all families of distributions and parameters, all arrays of Lorentz factors, all Python numbers", "why_tests_cant": "the tests call distributions on float arrays from np.logspace only; the claim is about every array and every family", "anchors": ["agnpy/spectra/spectra.py:211-225", "agnpy/spectra/spectra.py:273-290", "agnpy/spectra/spectra.py:570-576", "agnpy/spectra/spectra.py:800-834"]}
{"id": "C112", "title": "A comparison with reference data means what it says", "statement": "check_deviation(x, y_comp, y_ref, rtol, x_range) on arrays of one length returns True exactly if at every x inside the range both values are numbers and |y_comp / y_ref - 1| <= rtol (a reference of zero must be met exactly); being more tolerant or looking at a smaller range never turns a pass into a failure. A range without any of the x is passed by everything, NaN included.", "quantifier": "all arrays, tolerances and ranges", "why_tests_cant": "this is the function the tests themselves use to judge results; that it cannot pass wrong results is a statement about all arrays", "anchors": ["agnpy/utils/validation_utils.py:59-72"]}
{"id": "C113", "title": "Preparing a directory empties that directory only", "statement": "clean_and_make_dir(main_dir, sub_dir) leaves the directory it returns existing and empty, every directory above it existing, and everything else on disk as it was; what it empties lies inside main_dir. The last part is FALSE of the code: with a Path as main_dir and a sub_dir that begins with a slash main_dir is ignored and the absolute directory is removed (the same names as strings stay inside main_dir), and with the empty string as main_dir the directory is made, and emptied, in the root of the file system.", "quantifier": "all file systems without links, working directories, names of directories without ..", "why_tests_cant": "a statement about everything that is not touched, for all names; it deletes files, so tests only run it on temporary directories", "anchors": ["agnpy/utils/validation_utils.py:19-48"]}
{"id": "C114", "title": "The energy distribution of an evolved population carries its energy", "statement": "to_total_energy_gev_sqr gives E^2 dN/dE in GeV: integrated with the trapezoidal rule over dE/E it is the energy of all particles in GeV, V mec2 int gamma n(gamma) dgamma, and over dE/E^2 their number, V int n(gamma) dgamma.", "quantifier": "all densities, Lorentz factors, volumes and rest energies", "why_tests_cant": "an identity between integrals for all densities and grids; tests plot single cases", "anchors": ["agnpy/time_evolution/_time_evolution_utils.py:251-256"]}
{"id": "C115", "title": "The self-absorbed spectrum is that of a black sphere at low frequencies", "statement": "Synchrotron(blob, ssa=True).sed_flux(nu) / nu^3 tends, as nu goes to zero, to delta_D^4 (pi R_b^2 / d_L^2) ((1+z)/delta_D)^3 2 kT / c^2: a sphere of the size of the blob shining with Planck's function in the Rayleigh-Jeans limit. The temperature is gamma m_e c^2, gamma the ratio of the trapezoidal sums of n_e gamma^(-2/3) and of -SSA_integrand gamma^(-2/3) over gamma_e, whenever the latter is positive. If the index of the distribution is between p > -2 and p' on the grid, gamma lies between gamma_min/(p'+2) and gamma_max/(p+2). If the latter sum is negative (a power law with p < -2) the code applies no absorption at all at low frequencies. At every frequency the self-absorbed SED is at most that of the black sphere of temperature gamma_max/(p+2) rest energies, and above some frequency it is equal to the SED without absorption.", "quantifier": "all blobs with a proper grid of Lorentz factors, all distributions, all positive values of the constants", "why_tests_cant": "a limit of vanishing frequency, for all distributions; tests compare a single spectrum with a figure", "anchors": ["agnpy/synchrotron/synchrotron.py:64-68", "agnpy/synchrotron/synchrotron.py:101-129", "agnpy/synchrotron/synchrotron.py:131-211"]}
{"id": "C116", "title": "Injection against escape approaches the steady state", "statement": "TimeEvolution with an absolute injection rate Q(gamma) > 0 and a relative injection rate -1/t_esc(gamma) (no energy changes, a fixed step shorter than every t_esc, Euler) returns, moves no bin, and in each bin the density at the end and at every callback is on the same side of Q t_esc as the initial density and nearer to it at least by the factor exp(-t/t_esc); it never overshoots, and ever longer runs converge to Q t_esc whatever their steps and initial densities.", "quantifier": "all rates, escape times, initial densities, grids, steps below the escape time, total times", "why_tests_cant": "a limit of infinite time and a bound at every callback for all rates; tests run a handful of steps", "anchors": ["agnpy/time_evolution/time_evolution.py:TimeEvolution.evaluate", "agnpy/time_evolution/_time_evolution_utils.py:recalc_gamma_bins_and_density"]}
{"id": "C117", "title": "Acceleration against cooling gathers the particles at the balance", "statement": "TimeEvolution with fermi_acceleration(t_acc) and synchrotron_loss (no merging of bins, Euler, a fixed step that resolves both times) returns and keeps every bin; at the end and at every callback each bin is between its initial Lorentz factor and the balance 1/(b t_acc), b = 4 sigma_T c U_B/(3 m_e c^2), where the rates cancel: it never crosses the balance, and its distance to it has shrunk at least by exp(-b min(gamma_0, balance) t). Ever longer runs bring all particles to the balance.", "quantifier": "all fields, acceleration times, initial Lorentz factors on both sides of the balance, densities, steps below the bound, total times", "why_tests_cant": "a bound at every callback and a limit of infinite time for all fields and acceleration times; tests run single configurations", "anchors": ["agnpy/time_evolution/time_evolution.py:TimeEvolution.evaluate", "agnpy/time_evolution/time_evolution.py:fermi_acceleration", "agnpy/time_evolution/time_evolution.py:synchrotron_loss"]}
{"id": "C118", "title": "Automatic steps: injection against escape runs with one step length and never overshoots", "statement": "TimeEvolution with step_duration='auto' (not optimised, Euler, no subgroups, no bounds), one absolute injection inj(gamma) > 0, one relative escape -1/esc(gamma) and no energy change, reports the same results and callbacks as the run whose fixed step is the smallest of esc/2 and max_injection_per_interval/inj over the bins; callback k comes at min(k dt, total_time). So it always returns, no bin moves, and at the end and at every callback each density is on the same side of the steady state inj*esc as at the start, nearer at least by exp(-t/esc).", "quantifier": "all injection rates and escape times as functions of gamma, grids, initial densities, thresholds, total times", "why_tests_cant": "the equality of the two runs and the absence of overshoot are for every injection, escape time, grid and number of steps; tests run single configurations", "anchors": ["agnpy/time_evolution/time_evolution.py:TimeEvolution.evaluate", "agnpy/time_evolution/time_evolution.py:TimeEvolution._calc_max_time_per_bin"]}
{"id": "C119", "title": "Automatic steps: the error of Fermi acceleration is set by the thresholds alone", "statement": "TimeEvolution with fermi_acceleration(t_acc) alone and step_duration='auto' (not optimised, Euler, no subgroups, no bounds) returns, multiplies every Lorentz factor by one factor Q and divides every density by it. With delta the smaller of max_energy_change_per_interval and max_density_change_per_interval, every step but the last lasts delta t_acc, so callback k comes at min(k delta t_acc, total_time) and Q = (1 + delta)^k there; at the end and at every callback exp(t/t_acc/(1 + delta/2)) <= Q <= exp(t/t_acc), the exact factor. Lower thresholds make it converge to the exact solution.", "quantifier": "all acceleration times, thresholds, grids, initial densities, total times", "why_tests_cant": "an error bound for all acceleration times, thresholds and durations, and a limit; tests run single configurations with a tolerance", "anchors": ["agnpy/time_evolution/time_evolution.py:TimeEvolution.evaluate", "agnpy/time_evolution/time_evolution.py:TimeEvolution._calc_max_time_per_bin", "agnpy/time_evolution/time_evolution.py:fermi_acceleration"]}
{"id": "C120", "title": "Automatic steps: synchrotron cooling always returns and its error is set by the thresholds alone", "statement": "TimeEvolution with synchrotron_loss alone and step_duration='auto' (not optimised, Euler, no subgroups, no bounds, no merging) never raises and returns, for every field, grid, initial density and total time, without any condition on how fast the particles cool; it keeps every bin. With tau = min(max_energy_change_per_interval/1.0001, d/(1+d)/2.0001), d = max_density_change_per_interval, at the end and at every callback the bin that started at g0 lies between the exact solutions g0/(1 + b g0 s) at the times s = t/(1 - tau) and s = t, b = 4 sigma_T c U_B/(3 m_e c^2), and its density is at least that of n gamma^2 = const. Lower thresholds make it converge to the exact cooling law.", "quantifier": "all magnetic fields, thresholds, grids, initial densities, total times", "why_tests_cant": "absence of errors, termination with steps that change from one to the next, and an error bound at every callback for all fields and thresholds; tests run single configurations with a tolerance", "anchors": ["agnpy/time_evolution/time_evolution.py:TimeEvolution.evaluate", "agnpy/time_evolution/time_evolution.py:TimeEvolution._calc_max_time_per_bin", "agnpy/time_evolution/time_evolution.py:synchrotron_loss"]}
{"id": "C121", "title": "Automatic steps: acceleration against synchrotron losses never crosses the balance", "statement": "TimeEvolution with fermi_acceleration and synchrotron_loss and step_duration='auto' (not optimised, Euler, no subgroups, no bounds, no merging), with thresholds such that max_energy_change_per_interval + d/(1+d) <= 1, d = max_density_change_per_interval (the defaults meet this), never raises and returns, for every field, acceleration time, grid, initial density and total time; it keeps every bin. At the end and at every callback each bin is on the same side of the balance 1/(b t_acc) as at the start and between its start g0 and the balance, its distance from the balance is at most exp(-b min(g0, balance) t) times the initial one, and positive densities stay positive. In ever longer runs all bins gather at the balance.", "quantifier": "all magnetic fields, acceleration times, thresholds meeting the condition, grids, initial densities, total times", "why_tests_cant": "absence of errors, termination with steps that change from one to the next although the energy limit is infinite at the balance itself, and no overshoot at any callback for all parameters; tests run single configurations", "anchors": ["agnpy/time_evolution/time_evolution.py:TimeEvolution.evaluate", "agnpy/time_evolution/time_evolution.py:TimeEvolution._calc_max_time_per_bin", "agnpy/time_evolution/time_evolution.py:fermi_acceleration", "agnpy/time_evolution/time_evolution.py:synchrotron_loss"]}
