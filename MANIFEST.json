{
 "claims": [
  {
   "property": "C01",
   "status": "proved",
   "theorems": [
    "Verif.TE.C01_stops_at_total_time",
    "Verif.TE.C01_callback_time",
    "Verif.TE.C01_nonpositive_time"
   ],
   "note": ""
  },
  {
   "property": "C02",
   "status": "proved",
   "theorems": [
    "Verif.TE.C02_terminates",
    "Verif.TE.C02_not_earlier",
    "Verif.TE.C02_callback_times",
    "Verif.TE.C02_nonpositive_step"
   ],
   "note": ""
  },
  {
   "property": "C03",
   "status": "proved",
   "theorems": [
    "Verif.TE.C03_gamma_sorted_positive"
   ],
   "note": ""
  },
  {
   "property": "C04",
   "status": "proved",
   "theorems": [
    "Verif.TE.C04_gamma_in_bounds"
   ],
   "note": ""
  },
  {
   "property": "C05",
   "status": "proved",
   "theorems": [
    "Verif.TE.C05_density_nonneg"
   ],
   "note": ""
  },
  {
   "property": "C06",
   "status": "proved",
   "theorems": [
    "Verif.TE.C06_fractions_partition"
   ],
   "note": ""
  },
  {
   "property": "C07",
   "status": "proved",
   "theorems": [
    "Verif.TE.C07_aligned"
   ],
   "note": ""
  },
  {
   "property": "C08",
   "status": "proved",
   "theorems": [
    "Verif.TE.C08_no_nan",
    "Verif.TE.C08_fresh_rates"
   ],
   "note": ""
  },
  {
   "property": "C09",
   "status": "proved",
   "theorems": [
    "Verif.TE.C09_group_conserves",
    "Verif.TE.C09_step_conserves"
   ],
   "note": "Stated per group for every energy change, and for whole steps when the groups share their energy changes (always true without subgroups). Groups with different energy changes are put on one grid by interpolation in the code, which does not conserve number; that part is outside the claim."
  },
  {
   "property": "C10",
   "status": "proved",
   "theorems": [
    "Verif.TE.C10_step_within_limits",
    "Verif.TE.C10_optimised_within_limits"
   ],
   "note": "Without optimisation for both methods; with optimised recalculation for Euler, where the limits hold over the whole time since the rates of the bin were calculated."
  },
  {
   "property": "C100",
   "status": "partial",
   "theorems": [
    "Verif.Batch.C100_synchrotron",
    "Verif.Batch.C100_synchrotron_ssa",
    "Verif.Batch.C100_ps",
    "Verif.Batch.C100_iso",
    "Verif.Batch.C100_blr",
    "Verif.Batch.C100_disk",
    "Verif.Batch.C100_dt",
    "Verif.Batch.C100_ssc",
    "Verif.Batch.C100_energy_loss",
    "Verif.Batch.C100_disk_sed",
    "Verif.Batch.C100_proton",
    "Verif.Batch.C100_tau_ps",
    "Verif.Batch.C100_tau_disk",
    "Verif.Batch.C100_tau_blr",
    "Verif.Batch.C100_tau_blr_off",
    "Verif.Batch.C100_tau_dt",
    "Verif.Batch.C100_tau_dt_off",
    "Verif.Batch.C100_tau_synch",
    "Verif.Batch.C100_delta_partial",
    "Verif.Batch.C100_delta_violated",
    "Verif.Batch.C100_scalar_violated",
    "Verif.Batch.C100_column_violated"
   ],
   "note": "proved for arrays with one axis (any shape for synchrotron without self-absorption and SSC); refuted for a single number with self-absorption (an error), a column of frequencies in external Compton (a square comes back) and the delta approximation (the ends of the array are special)"
  },
  {
   "property": "C101",
   "status": "partial",
   "theorems": [
    "Verif.Batch.C101_ps",
    "Verif.Batch.C101_dt",
    "Verif.Batch.C101_disk",
    "Verif.Batch.C101_blr",
    "Verif.Batch.C101_blr_flat",
    "Verif.Batch.C101_blr_shape_violated"
   ],
   "note": "proved for every shape (point source, disk, torus) and for arrays with one axis (BLR); refuted for the BLR and other shapes, including a single number, which come back as a flat array"
  },
  {
   "property": "C102",
   "status": "proved",
   "theorems": [
    "Verif.Kernels.C102_count",
    "Verif.Kernels.C102_mean",
    "Verif.Kernels.C102_cross_section",
    "Verif.Kernels.C102_thomson_bounds",
    "Verif.Kernels.C102_thomson_count",
    "Verif.Kernels.C102_thomson_energy",
    "Verif.Compton.C102_ps",
    "Verif.Compton.C102_iso",
    "Verif.Compton.C102_dt",
    "Verif.Compton.C102_blr",
    "Verif.Compton.C102_disk",
    "Verif.Kernels.C102_isotropic",
    "Verif.Kernels.C102_isotropic_bounds",
    "Verif.Compton.C102_ssc"
   ],
   "note": "the default integrator (trapz) for the sums over electrons and directions; the integral over the frequencies is exact"
  },
  {
   "property": "C103",
   "status": "proved",
   "theorems": [
    "Verif.UnitSystem.C103_synchrotron",
    "Verif.UnitSystem.C103_proton",
    "Verif.UnitSystem.C103_ssc",
    "Verif.UnitSystem.C103_iso",
    "Verif.UnitSystem.C103_ps",
    "Verif.UnitSystem.C103_blr",
    "Verif.UnitSystem.C103_dt",
    "Verif.UnitSystem.C103_tau_ps",
    "Verif.UnitSystem.C103_tau_ps_mu_s",
    "Verif.UnitSystem.C103_tau_dt",
    "Verif.UnitSystem.C103_tau_dt_mu_s",
    "Verif.UnitSystem.C103_tau_blr",
    "Verif.UnitSystem.C103_tau_blr_mu_s",
    "Verif.UnitSystem.C103_disk",
    "Verif.UnitSystem.C103_tau_disk",
    "Verif.UnitSystem.C103_u_ps",
    "Verif.UnitSystem.C103_u_dt",
    "Verif.UnitSystem.C103_u_blr",
    "Verif.UnitSystem.C103_u_disk",
    "Verif.UnitSystem.C103_region",
    "Verif.UnitSystem.C103_protons",
    "Verif.UnitSystem.C103_limits",
    "Verif.UnitSystem.C103_dt_sed",
    "Verif.UnitSystem.C103_rings",
    "Verif.UnitSystem.C103_disk_sed",
    "Verif.UnitSystem.C103_tau_synch",
    "Verif.UnitSystem.C103_tau",
    "Verif.UnitSystem.C103_ec",
    "Verif.UnitSystem.C103_eddington"
   ],
   "note": "disk: for changes that keep the unit of luminosity; SSC and disk SED: for changes that keep the second; broad line region: with the default integrator, opacity for changes that np.isclose does not notice on the path"
  },
  {
   "property": "C104",
   "status": "proved",
   "theorems": [
    "Verif.Particles.C104_species",
    "Verif.Particles.C104_density",
    "Verif.Particles.C104_energy_density",
    "Verif.Particles.C104_right_species",
    "Verif.Particles.C104_wrong_species",
    "Verif.Particles.C104_at_one",
    "Verif.Particles.C104_energy",
    "Verif.Particles.C104_proportional",
    "Verif.Particles.C104_N_p"
   ],
   "note": "exact for grids of 200 points, the default, which is also the size used by the class methods; other sizes converge by C76"
  },
  {
   "property": "C105",
   "status": "proved",
   "theorems": [
    "Verif.Kernels.C105_distribution",
    "Verif.Kernels.C105_thomson",
    "Verif.Kernels.C105_suppression",
    "Verif.Kernels.C105_energy",
    "Verif.Compton.C105_ps",
    "Verif.Compton.C105_iso",
    "Verif.Compton.C105_dt",
    "Verif.Compton.C105_blr",
    "Verif.Compton.C105_disk",
    "Verif.Compton.C105_power",
    "Verif.Compton.C105_isotropic",
    "Verif.Compton.C105_isotropic_bounds",
    "Verif.Compton.C105_cooling"
   ],
   "note": "continuous in frequency, the sums over Lorentz factors and directions are those of the code; frequencies up to the largest electron energy; C105_cooling: to 3 b, b = 4 gamma epsilon"
  },
  {
   "property": "C106",
   "status": "proved",
   "theorems": [
    "Verif.Synchrotron.C106_delta",
    "Verif.Synchrotron.C106_particle",
    "Verif.Synchrotron.C106_quality",
    "Verif.Synchrotron.C106_electrons",
    "Verif.Synchrotron.C106_protons",
    "Verif.Synchrotron.C106_cooling",
    "Verif.Synchrotron.C106_absorbed",
    "Verif.Synchrotron.C106_blob"
   ],
   "note": "continuous in frequency, the sums over Lorentz factors are those of the code with trapz; the Thomson cross-section is the classical one of the charge and mass used (hypothesis on the constants); delta approximation without the correction of the ends"
  },
  {
   "property": "C107",
   "status": "proved",
   "theorems": [
    "Verif.Kernels.C107_mean",
    "Verif.Kernels.C107_kernel",
    "Verif.Compton.C107_ssc",
    "Verif.Compton.C107_thomson",
    "Verif.Compton.C107_blob",
    "Verif.Compton.C107_cooling",
    "Verif.Compton.C107_density"
   ],
   "note": "continuous in the scattered frequency, the sums over Lorentz factors and synchrotron frequencies are those of the code with trapz; Lorentz factors are at least one and below 10^150"
  },
  {
   "property": "C108",
   "status": "proved",
   "theorems": [
    "Verif.Absorption.C108_largest",
    "Verif.Absorption.C108_peak",
    "Verif.Absorption.C108_fall",
    "Verif.Absorption.C108_column",
    "Verif.Absorption.C108_high",
    "Verif.Absorption.C108_blob",
    "Verif.Absorption.C108_transparent",
    "Verif.Absorption.C108_density"
   ],
   "note": "real arithmetic: at energies where 1 - 1/s rounds to one the code divides by zero, see the findings; the sums over the path and the angles are those of the code with trapz"
  },
  {
   "property": "C109",
   "status": "proved",
   "theorems": [
    "Verif.TE.C109_synchrotron",
    "Verif.TE.C109_fermi_synchrotron",
    "Verif.TE.C109_fermi",
    "Verif.TE.C109_created"
   ],
   "note": "Euler steps of fixed length, no bounds, merging or subgroups; C109_created shows that the power 0.0001 in the bounds cannot be left out"
  },
  {
   "property": "C11",
   "status": "proved",
   "theorems": [
    "Verif.TE.C11_auto_never_too_long",
    "Verif.TE.C11_negative_injection_fails"
   ],
   "note": "The second theorem shows the restriction on negative absolute injection is needed."
  },
  {
   "property": "C110",
   "status": "proved",
   "theorems": [
    "Verif.Compton.C110_upper",
    "Verif.Compton.C110_lower",
    "Verif.Compton.C110_ratio"
   ],
   "note": "no self-absorption; continuous in the received frequencies, the sums over Lorentz factors and photon energies are those of the code with trapz"
  },
  {
   "property": "C111",
   "status": "partial",
   "theorems": [
    "Verif.ArrayType.C111_integers_partial",
    "Verif.ArrayType.C111_index_violated",
    "Verif.ArrayType.C111_refused_iff",
    "Verif.ArrayType.C111_scalars",
    "Verif.ArrayType.C111_truncated",
    "Verif.ArrayType.C111_interpolated_violated",
    "Verif.ArrayType.C111_caller_violated",
    "Verif.ArrayType.C111_ssa_partial",
    "Verif.ArrayType.C111_ssa_violated",
    "Verif.ArrayType.C111_ssa_refused_iff",
    "Verif.ArrayType.C111_ssa_truncated",
    "Verif.ArrayType.C111_first_violated",
    "Verif.ArrayType.C111_array",
    "Verif.ArrayType.C111_ssa_array"
   ],
   "note": "holds for float indices and for the families other than InterpolatedDistribution inside the limits; refuted for integer indices, interpolated distributions and the correction of integer arrays; int64 overflow and NumPy scalars not modelled"
  },
  {
   "property": "C112",
   "status": "proved",
   "theorems": [
    "Verif.Validation.C112_accepts_iff",
    "Verif.Validation.C112_mono",
    "Verif.Validation.C112_empty_range"
   ],
   "note": "infinite values left out"
  },
  {
   "property": "C113",
   "status": "partial",
   "theorems": [
    "Verif.Validation.C113_result",
    "Verif.Validation.C113_elsewhere",
    "Verif.Validation.C113_inside_partial",
    "Verif.Validation.C113_absolute_violated",
    "Verif.Validation.C113_empty_violated",
    "Verif.Validation.C113_type_iff"
   ],
   "note": "the part about staying inside main_dir is refuted for absolute sub_dir and for an empty main_dir and proved for the rest; links, permissions and .. not modelled"
  },
  {
   "property": "C114",
   "status": "proved",
   "theorems": [
    "Verif.Validation.C114_totals"
   ],
   "note": ""
  },
  {
   "property": "C115",
   "status": "proved",
   "theorems": [
    "Verif.Synchrotron.C115_rayleigh_jeans",
    "Verif.Synchrotron.C115_temperature",
    "Verif.Synchrotron.C115_power_law",
    "Verif.Synchrotron.C115_absorbers_iff",
    "Verif.Synchrotron.C115_inverted",
    "Verif.Synchrotron.C115_brightness",
    "Verif.Synchrotron.C115_transparent"
   ],
   "note": "over the reals; the trapezoidal rule (the default integrator)"
  },
  {
   "property": "C116",
   "status": "proved",
   "theorems": [
    "Verif.TE.C116_steady_state",
    "Verif.TE.C116_limit"
   ],
   "note": "over the reals"
  },
  {
   "property": "C117",
   "status": "proved",
   "theorems": [
    "Verif.TE.C117_balance",
    "Verif.TE.C117_fermi_synchrotron",
    "Verif.TE.C117_limit"
   ],
   "note": "over the reals"
  },
  {
   "property": "C118",
   "status": "proved",
   "theorems": [
    "Verif.TE.C118_auto_is_fixed",
    "Verif.TE.C118_auto_steady_state",
    "Verif.TE.C118_callback_times"
   ],
   "note": "over the reals"
  },
  {
   "property": "C119",
   "status": "proved",
   "theorems": [
    "Verif.TE.C119_auto_fermi",
    "Verif.TE.C119_limit"
   ],
   "note": "over the reals"
  },
  {
   "property": "C12",
   "status": "proved",
   "theorems": [
    "Verif.TE.C12_no_process_no_change",
    "Verif.TE.C12_returns"
   ],
   "note": "C12_returns: the run ends without an exception"
  },
  {
   "property": "C120",
   "status": "proved",
   "theorems": [
    "Verif.TE.C120_auto_cooling",
    "Verif.TE.C120_limit"
   ],
   "note": "over the reals"
  },
  {
   "property": "C121",
   "status": "proved",
   "theorems": [
    "Verif.TE.C121_auto_balance",
    "Verif.TE.C121_limit"
   ],
   "note": "over the reals"
  },
  {
   "property": "C13",
   "status": "partial",
   "theorems": [
    "Verif.TE.C13_last_callback_partial",
    "Verif.TE.C13_callback_violated"
   ],
   "note": "The full statement is false of the code: relative and absolute injection rates are swapped in the callback record. All other fields are proved equal."
  },
  {
   "property": "C14",
   "status": "partial",
   "theorems": [
    "Verif.TE.C14_heun_eq_euler_partial",
    "Verif.TE.C14_subgroups_violated"
   ],
   "note": "The full statement is false of the code with several subgroups (second theorem). Proved for whole runs without subgroups, with arbitrary injection."
  },
  {
   "property": "C15",
   "status": "proved",
   "theorems": [
    "Verif.TE.C15_remap",
    "Verif.TE.C15_remap_no_default",
    "Verif.TE.C15_mappings_compose"
   ],
   "note": ""
  },
  {
   "property": "C16",
   "status": "proved",
   "theorems": [
    "Verif.TE.C16_total",
    "Verif.TE.C16_merging_is_local"
   ],
   "note": ""
  },
  {
   "property": "C17",
   "status": "proved",
   "theorems": [
    "Verif.TE.C17_abscissae",
    "Verif.TE.C17_decision"
   ],
   "note": "The dedicated exception is raised exactly when all bins share one log10(gamma). When only the bins of positive density share one, the interpolator's ValueError is raised instead; C17_decision states this."
  },
  {
   "property": "C18",
   "status": "proved",
   "theorems": [
    "Verif.TE.C18_grouped",
    "Verif.TE.C18_ungrouped",
    "Verif.TE.C18_partition",
    "Verif.TE.C18_edges"
   ],
   "note": ""
  },
  {
   "property": "C19",
   "status": "proved",
   "theorems": [
    "Verif.TE.C19_accepts_iff",
    "Verif.TE.C19_stored",
    "Verif.TE.C19_sufficient",
    "Verif.TE.C19_default_grid",
    "Verif.TE.C19_sufficient_default"
   ],
   "note": "Units and the conversion of total_time are not modelled."
  },
  {
   "property": "C20",
   "status": "proved",
   "theorems": [
    "Verif.TE.C20_blob_agrees"
   ],
   "note": ""
  },
  {
   "property": "C21",
   "status": "proved",
   "theorems": [
    "Verif.TE.C21_two_halves",
    "Verif.TE.C21_two_halves_returns"
   ],
   "note": ""
  },
  {
   "property": "C22",
   "status": "proved",
   "theorems": [
    "Verif.TE.C22_keeps_positive",
    "Verif.TE.C22_idempotent",
    "Verif.TE.C22_accepts_results"
   ],
   "note": ""
  },
  {
   "property": "C23",
   "status": "proved",
   "theorems": [
    "Verif.Spectra.C23_outside",
    "Verif.Spectra.C23_inside",
    "Verif.Spectra.C23_nonneg",
    "Verif.Spectra.C23_array_nonneg",
    "Verif.Spectra.C23_array"
   ],
   "note": "all families, scalar and array arguments"
  },
  {
   "property": "C24",
   "status": "proved",
   "theorems": [
    "Verif.Spectra.C24_ssa",
    "Verif.Spectra.C24_outside"
   ],
   "note": "HasDerivAt of the spectrum as called, all families"
  },
  {
   "property": "C25",
   "status": "proved",
   "theorems": [
    "Verif.Spectra.C25_broken",
    "Verif.Spectra.C25_ecbpl",
    "Verif.Spectra.C25_logParabola"
   ],
   "note": ""
  },
  {
   "property": "C26",
   "status": "proved",
   "theorems": [
    "Verif.Spectra.C26_density",
    "Verif.Spectra.C26_energy_density",
    "Verif.Spectra.C26_energy",
    "Verif.Spectra.C26_succeeds",
    "Verif.Spectra.C26_missing_limit",
    "Verif.Spectra.C26_integrate"
   ],
   "note": "np.trapz, the only integrator these constructors can use"
  },
  {
   "property": "C27",
   "status": "proved",
   "theorems": [
    "Verif.Spectra.C27_value",
    "Verif.Spectra.C27_succeeds_iff"
   ],
   "note": "succeeds exactly when gamma_min <= 1 <= gamma_max"
  },
  {
   "property": "C28",
   "status": "proved",
   "theorems": [
    "Verif.Spectra.C28_nodes",
    "Verif.Spectra.C28_range",
    "Verif.Spectra.C28_no_negative",
    "Verif.Spectra.C28_interior_zero",
    "Verif.Spectra.C23_outside"
   ],
   "note": "for every interpolator through its data; interior zeros of the input are not reproduced (C28_interior_zero)"
  },
  {
   "property": "C29",
   "status": "partial",
   "theorems": [
    "Verif.Spectra.C29_unchanged_partial",
    "Verif.Spectra.C29_repeat_partial",
    "Verif.Spectra.C29_overwrites_violated",
    "Verif.Spectra.C29_history_violated"
   ],
   "note": "the statement is false of the code: witnesses in the _violated theorems; proved: unchanged unless an end is within 1e-10 outside, and repeating is harmless"
  },
  {
   "property": "C30",
   "status": "proved",
   "theorems": [
    "Verif.Spectra.C30_call",
    "Verif.Spectra.C30_ssa"
   ],
   "note": ""
  },
  {
   "property": "C31",
   "status": "proved",
   "theorems": [
    "Verif.MathUtils.C31_exact",
    "Verif.MathUtils.C31_band"
   ],
   "note": "samples and grid within the double range; error bound inside the switch band"
  },
  {
   "property": "C32",
   "status": "proved",
   "theorems": [
    "Verif.MathUtils.C32_exact",
    "Verif.MathUtils.C32_additive",
    "Verif.MathUtils.C32_band"
   ],
   "note": "error bound inside the isclose band"
  },
  {
   "property": "C33",
   "status": "proved",
   "theorems": [
    "Verif.MathUtils.C33_trapz_nonneg",
    "Verif.MathUtils.C33_loglog_nonneg",
    "Verif.MathUtils.C33_trapz_mono",
    "Verif.MathUtils.C33_trapz_scale",
    "Verif.MathUtils.C33_trapz_add",
    "Verif.MathUtils.C33_loglog_scale",
    "Verif.MathUtils.C33_trapz_split",
    "Verif.MathUtils.C33_loglog_split",
    "Verif.MathUtils.C33_trapz_affine"
   ],
   "note": ""
  },
  {
   "property": "C34",
   "status": "proved",
   "theorems": [
    "Verif.MathUtils.C34_shapes",
    "Verif.MathUtils.C34_broadcast",
    "Verif.MathUtils.C34_element"
   ],
   "note": ""
  },
  {
   "property": "C35",
   "status": "proved",
   "theorems": [
    "Verif.Geometry.C35_angle",
    "Verif.Geometry.C35_range"
   ],
   "note": ""
  },
  {
   "property": "C36",
   "status": "proved",
   "theorems": [
    "Verif.Geometry.C36_shell",
    "Verif.Geometry.C36_ring",
    "Verif.Geometry.C36_shell_mu_s",
    "Verif.Geometry.C36_ring_mu_s",
    "Verif.Geometry.C36_shell_direction",
    "Verif.Geometry.C36_ring_direction"
   ],
   "note": ""
  },
  {
   "property": "C37",
   "status": "proved",
   "theorems": [
    "Verif.Geometry.C37_ring",
    "Verif.Geometry.C37_ring_mu",
    "Verif.Geometry.C37_shell",
    "Verif.Geometry.C37_shell_mu"
   ],
   "note": ""
  },
  {
   "property": "C38",
   "status": "proved",
   "theorems": [
    "Verif.Geometry.C38_inner",
    "Verif.Geometry.C38_range",
    "Verif.Geometry.C38_symmetric",
    "Verif.Geometry.C38_aligned"
   ],
   "note": ""
  },
  {
   "property": "C39",
   "status": "proved",
   "theorems": [
    "Verif.Kernels.C39_threshold",
    "Verif.Kernels.C39_zero",
    "Verif.Kernels.C39_ge_one",
    "Verif.Kernels.C39_zero_iff"
   ],
   "note": ""
  },
  {
   "property": "C40",
   "status": "proved",
   "theorems": [
    "Verif.Kernels.C40_nonneg",
    "Verif.Kernels.C40_support",
    "Verif.Kernels.C40_energy",
    "Verif.Kernels.C40_inside"
   ],
   "note": ""
  },
  {
   "property": "C41",
   "status": "proved",
   "theorems": [
    "Verif.Absorption.C41_below",
    "Verif.Absorption.C41_above",
    "Verif.Absorption.C41_zero_iff",
    "Verif.Absorption.C41_upper"
   ],
   "note": ""
  },
  {
   "property": "C42",
   "status": "proved",
   "theorems": [
    "Verif.Synchrotron.C42_ssa_mean",
    "Verif.Synchrotron.C42_ssa_range",
    "Verif.Synchrotron.C42_ssa_antitone",
    "Verif.Absorption.C42_exp",
    "Verif.Absorption.C42_homogeneous",
    "Verif.Absorption.C42_homogeneous_zero"
   ],
   "note": ""
  },
  {
   "property": "C43",
   "status": "proved",
   "theorems": [
    "Verif.Absorption.C43_nonneg",
    "Verif.Absorption.C43_absorption",
    "Verif.Absorption.C43_none",
    "Verif.Absorption.C43_distance",
    "Verif.Absorption.C43_ps_aligned"
   ],
   "note": "For a shell or ring the photon path must have no point on it (the code divides by zero there)."
  },
  {
   "property": "C44",
   "status": "partial",
   "theorems": [
    "Verif.Absorption.C44_iff",
    "Verif.Absorption.C44_violated",
    "Verif.Absorption.C44_outside_partial",
    "Verif.Absorption.C44_mu_s_violated"
   ],
   "note": "The full statement is false of the code; the exact set of starting points for which the guard fails is proved."
  },
  {
   "property": "C45",
   "status": "proved",
   "theorems": [
    "Verif.Region.Blob.C45_roundtrip",
    "Verif.Region.Blob.C45_rest",
    "Verif.Region.Blob.C45_monotone",
    "Verif.Region.Blob.C45_accepted"
   ],
   "note": "set_delta_D then mu_s and theta_s gives the angle back for 0..180 degrees and Gamma > 1; nothing else changes; the Doppler factor decreases with the angle"
  },
  {
   "property": "C46",
   "status": "proved",
   "theorems": [
    "Verif.Region.Blob.C46_beta",
    "Verif.Region.Blob.C46_allowed",
    "Verif.Region.Blob.C46_doppler"
   ],
   "note": "Beta in [0,1) with the relativistic relation to Gamma; mu_s in [-1,1] iff the Doppler factor is kinematically allowed; delta_D recovered from Gamma and mu_s"
  },
  {
   "property": "C47",
   "status": "proved",
   "theorems": [
    "Verif.Region.Blob.C47_protons",
    "Verif.Region.Blob.C47_equipartition",
    "Verif.Region.Blob.C47_power",
    "Verif.Region.Blob.C47_ratio",
    "Verif.Region.Blob.C47_total",
    "Verif.Region.Blob.C47_total_protons",
    "Verif.Region.Blob.C47_mean_energy"
   ],
   "note": "energetics with and without protons; mean electron energy between the limits of the distribution"
  },
  {
   "property": "C48",
   "status": "partial",
   "theorems": [
    "Verif.Targets.C48_ps",
    "Verif.Targets.C48_dt",
    "Verif.Targets.C48_cmb",
    "Verif.Targets.C48_cmb_temperature",
    "Verif.Targets.C48_disk",
    "Verif.Targets.C48_disk_bounds",
    "Verif.Targets.C48_blr_partial",
    "Verif.Targets.C48_blr_violated"
   ],
   "note": "holds for point source, torus, CMB, disk, and for the BLR outside the shell; refuted inside the shell for every BLR (the code drops the sign of the angle, the density is too small)"
  },
  {
   "property": "C49",
   "status": "proved",
   "theorems": [
    "Verif.Targets.SSDisk.C49_radius",
    "Verif.Targets.SSDisk.C49_decreasing",
    "Verif.Targets.SSDisk.C49_angle",
    "Verif.Targets.SSDisk.C49_grid",
    "Verif.Targets.SSDisk.C49_in_disk",
    "Verif.Targets.SSDisk.C49_energy",
    "Verif.Targets.SSDisk.C49_profile",
    "Verif.Targets.SSDisk.C49_softer",
    "Verif.Targets.SSDisk.C49_tilde",
    "Verif.Targets.SSDisk.C49_units",
    "Verif.Targets.SSDisk.C49_accretion",
    "Verif.Targets.SSDisk.C49_energy_formula",
    "Verif.Targets.SSDisk.C49_temperature"
   ],
   "note": "angle and radius determine each other, grid within the disk, energies and profile agree in both coordinates"
  },
  {
   "property": "C50",
   "status": "proved",
   "theorems": [
    "Verif.Targets.SSDisk.C50_positive",
    "Verif.Targets.SSDisk.C50_luminosity",
    "Verif.Targets.SSDisk.C50_viewing_angle"
   ],
   "note": "normalised SED integrates to L_disk on the code's grid (both sides); it does not depend on the viewing angle"
  },
  {
   "property": "C51",
   "status": "proved",
   "theorems": [
    "Verif.Synchrotron.C51_nonneg",
    "Verif.Synchrotron.C51_linear",
    "Verif.Synchrotron.C51_distance",
    "Verif.Synchrotron.C51_beaming",
    "Verif.Synchrotron.C51_luminosity",
    "Verif.Synchrotron.C51_blob_nonneg",
    "Verif.Synchrotron.C51_blob_pos"
   ],
   "note": ""
  },
  {
   "property": "C52",
   "status": "proved",
   "theorems": [
    "Verif.Synchrotron.C52_between",
    "Verif.Synchrotron.C52_opacity",
    "Verif.Synchrotron.C52_inverted",
    "Verif.Synchrotron.C52_blob"
   ],
   "note": ""
  },
  {
   "property": "C53",
   "status": "proved",
   "theorems": [
    "Verif.Compton.C53_nonneg",
    "Verif.Compton.C53_quadratic",
    "Verif.Compton.C53_distance",
    "Verif.Compton.C53_ssa"
   ],
   "note": "Non-negativity for the blob's own Lorentz-factor grid; also: self-absorption of the target photons adds no flux (linear integrator)."
  },
  {
   "property": "C54",
   "status": "proved",
   "theorems": [
    "Verif.Compton.C54_nonneg",
    "Verif.Compton.C54_linear",
    "Verif.Compton.C54_target",
    "Verif.Compton.C54_distance",
    "Verif.Compton.C54_none"
   ],
   "note": "For the disk, whose photon energies depend on its luminosity, the SED is shown to depend on luminosity and efficiency through the accretion rate only."
  },
  {
   "property": "C55",
   "status": "proved",
   "theorems": [
    "Verif.Compton.C55_synch",
    "Verif.Compton.C55_thomson",
    "Verif.Compton.C55_factor",
    "Verif.Compton.C55_factor_antitone",
    "Verif.Compton.C55_factor_jump",
    "Verif.Compton.C55_ssc",
    "Verif.Compton.C55_ssc_suppression"
   ],
   "note": "C55_factor_jump records that the suppression factor is discontinuous at 4 gamma epsilon = 1e4."
  },
  {
   "property": "C56",
   "status": "proved",
   "theorems": [
    "Verif.Constraints.C56_larmor",
    "Verif.Constraints.C56_ballistic",
    "Verif.Constraints.C56_synch",
    "Verif.Constraints.C56_ssc",
    "Verif.Constraints.C56_torus",
    "Verif.Constraints.C56_break_synch",
    "Verif.Constraints.C56_break_ssc",
    "Verif.Constraints.C56_break_torus",
    "Verif.Constraints.C56_loss"
   ],
   "note": "Each constraint is shown to be the exact threshold of its inequality."
  },
  {
   "property": "C57",
   "status": "proved",
   "theorems": [
    "Verif.Fit.C57_gammapy",
    "Verif.Fit.C57_sherpa",
    "Verif.Fit.C57_agree",
    "Verif.Fit.C57_spectrum",
    "Verif.Fit.withParameters_evaluate",
    "Verif.Fit.withParameters_ssa",
    "Verif.Fit.C57_empty"
   ],
   "note": "The sherpa wrapper cannot scale the parameters of an EmptyDistribution."
  },
  {
   "property": "C58",
   "status": "partial",
   "theorems": [
    "Verif.Fit.C58_ssc",
    "Verif.Fit.C58_ec_partial",
    "Verif.Fit.C58_violated",
    "Verif.Fit.C58_sherpa_none",
    "Verif.Fit.C58_gammapy_members",
    "Verif.Fit.C58_backend"
   ],
   "note": "The full statement is false of the code: the sherpa model returns None for all target lists but three. Agreement is proved for these three and for the SSC models."
  },
  {
   "property": "C59",
   "status": "partial",
   "theorems": [
    "Verif.Fit.C59_gammapy",
    "Verif.Fit.C59_rows",
    "Verif.Fit.C59_sherpa_partial",
    "Verif.Fit.C59_violated",
    "Verif.Fit.C59_violated_order",
    "Verif.Fit.C59_unbound"
   ],
   "note": "Proved in full for the gammapy loader. False of the sherpa loader for instruments that are not listed; proved for it when all are listed or no dictionary is given."
  },
  {
   "property": "C60",
   "status": "proved",
   "theorems": [
    "Verif.Fit.C60_radius",
    "Verif.Fit.C60_gammapy_ssc",
    "Verif.Fit.C60_sherpa_ssc",
    "Verif.Fit.C60_gammapy_ec",
    "Verif.Fit.C60_sherpa_ec",
    "Verif.Fit.C60_line"
   ],
   "note": ""
  },
  {
   "property": "C61",
   "status": "proved",
   "theorems": [
    "Verif.EBL.C61_between",
    "Verif.EBL.C61_unit",
    "Verif.EBL.C61_nan",
    "Verif.EBL.C61_node",
    "Verif.EBL.C61_file",
    "Verif.EBL.C61_repeated",
    "Verif.EBL.C61_energies",
    "Verif.EBL.C61_new",
    "Verif.EBL.C61_redshift",
    "Verif.EBL.C61_absorption"
   ],
   "note": ""
  },
  {
   "property": "C62",
   "status": "proved",
   "theorems": [
    "Verif.RadiativeProcess.C62_peak",
    "Verif.RadiativeProcess.C62_empty"
   ],
   "note": ""
  },
  {
   "property": "C63",
   "status": "partial",
   "theorems": [
    "Verif.TE.C63_range_partial",
    "Verif.TE.C63_empty_violated"
   ],
   "note": "The full statement is false of the code when no particles are left."
  },
  {
   "property": "C64",
   "status": "proved",
   "theorems": [
    "Verif.Synchrotron.C64_proton"
   ],
   "note": ""
  },
  {
   "property": "C65",
   "status": "partial",
   "theorems": [
    "Verif.MathUtils.C65_left_sum",
    "Verif.MathUtils.C65_violated",
    "Verif.MathUtils.C65_sign_partial"
   ],
   "note": "The full statement is false of the code: negative samples are integrated as a left Riemann sum."
  },
  {
   "property": "C66",
   "status": "proved",
   "theorems": [
    "Verif.Absorption.C66_below",
    "Verif.Absorption.C66_ps",
    "Verif.Absorption.C66_dt",
    "Verif.Absorption.C66_dt_mu_s",
    "Verif.Absorption.C66_blr",
    "Verif.Absorption.C66_blr_mu_s",
    "Verif.Absorption.C66_disk",
    "Verif.Absorption.C66_blob"
   ],
   "note": "For the shell on oblique paths only one direction of the equivalence is proved."
  },
  {
   "property": "C67",
   "status": "proved",
   "theorems": [
    "Verif.Absorption.C67_opacity"
   ],
   "note": ""
  },
  {
   "property": "C68",
   "status": "proved",
   "theorems": [
    "Verif.Compton.C68_torus",
    "Verif.Compton.C68_shell",
    "Verif.Compton.C68_centre",
    "Verif.Compton.C68_centre_symmetric"
   ],
   "note": ""
  },
  {
   "property": "C69",
   "status": "proved",
   "theorems": [
    "Verif.RadiativeProcess.C69_energy_nonneg",
    "Verif.RadiativeProcess.C69_flux_nonneg",
    "Verif.RadiativeProcess.C69_energy_linear",
    "Verif.RadiativeProcess.C69_flux_linear",
    "Verif.RadiativeProcess.C69_band",
    "Verif.RadiativeProcess.C69_energy_exact",
    "Verif.RadiativeProcess.C69_flux_exact"
   ],
   "note": ""
  },
  {
   "property": "C70",
   "status": "proved",
   "theorems": [
    "Verif.TE.C70_euler_run"
   ],
   "note": ""
  },
  {
   "property": "C71",
   "status": "proved",
   "theorems": [
    "Verif.TE.C71_linear_rate",
    "Verif.TE.C71_fermi",
    "Verif.TE.C71_fermi_limit"
   ],
   "note": ""
  },
  {
   "property": "C72",
   "status": "proved",
   "theorems": [
    "Verif.TE.C72_quadratic_losses",
    "Verif.TE.C72_synchrotron",
    "Verif.TE.C72_synchrotron_limit"
   ],
   "note": ""
  },
  {
   "property": "C73",
   "status": "proved",
   "theorems": [
    "Verif.TE.C73_injection_escape"
   ],
   "note": ""
  },
  {
   "property": "C74",
   "status": "proved",
   "theorems": [
    "Verif.TE.C74_losses_only",
    "Verif.TE.C74_gains_only",
    "Verif.TE.C74_loss_functions",
    "Verif.TE.C74_gain_functions"
   ],
   "note": ""
  },
  {
   "property": "C75",
   "status": "proved",
   "theorems": [
    "Verif.Synchrotron.C75_synchrotron",
    "Verif.Synchrotron.C75_synchrotron_delta",
    "Verif.Synchrotron.C75_proton",
    "Verif.Compton.C75_external",
    "Verif.Compton.C75_self_compton",
    "Verif.Absorption.C75_opacity",
    "Verif.Absorption.C75_opacity_synchrotron"
   ],
   "note": "self-Compton up to the grid of target frequencies, which the code fixes in the observer frame"
  },
  {
   "property": "C76",
   "status": "proved",
   "theorems": [
    "Verif.Region.Blob.C76_n_e_tot",
    "Verif.Region.Blob.C76_u_e",
    "Verif.Region.Blob.C76_u_ph_synch",
    "Verif.Region.Blob.C76_totals",
    "Verif.Region.Blob.C76_protons",
    "Verif.Region.Blob.C76_power_law",
    "Verif.Synchrotron.C76_synchrotron",
    "Verif.Synchrotron.C76_synchrotron_loglog",
    "Verif.Synchrotron.C76_opacity",
    "Verif.Synchrotron.C76_synchrotron_ssa",
    "Verif.Synchrotron.C76_proton",
    "Verif.RadiativeProcess.C76_energy_flux",
    "Verif.RadiativeProcess.C76_flux",
    "Verif.RadiativeProcess.C76_synchrotron_energy_flux"
   ],
   "note": "over the reals: rounding is not modelled"
  },
  {
   "property": "C77",
   "status": "partial",
   "theorems": [
    "Verif.Targets.C77_disk_partial",
    "Verif.Targets.C77_disk_normalised",
    "Verif.Targets.C77_torus_partial",
    "Verif.Targets.C77_torus_violated"
   ],
   "note": "The full statement is false of the code for the torus (and the unnormalised disk): the SED is a factor 1+z too small."
  },
  {
   "property": "C78",
   "status": "proved",
   "theorems": [
    "Verif.TE.C78_errors",
    "Verif.TE.C78_starts",
    "Verif.TE.C78_no_bin_left"
   ],
   "note": "C78_no_bin_left shows that the IndexError does occur"
  },
  {
   "property": "C79",
   "status": "proved",
   "theorems": [
    "Verif.Synchrotron.C79_cutoff",
    "Verif.Synchrotron.C79_low"
   ],
   "note": "explicit exponential bound for every frequency; limit of the SED over nu^(4/3) exists and is positive, trapezoidal rule"
  },
  {
   "property": "C80",
   "status": "proved",
   "theorems": [
    "Verif.TE.C80_first_order",
    "Verif.TE.C80_logistic",
    "Verif.TE.C80_fermi_synchrotron",
    "Verif.TE.C80_synchrotron"
   ],
   "note": "global error bound by a discrete Gronwall argument on top of C70; closed forms for acceleration and synchrotron losses"
  },
  {
   "property": "C81",
   "status": "proved",
   "theorems": [
    "Verif.TE.C81_heun_run"
   ],
   "note": "the step with method=\"heun\" is the Euler step with the averaged rates of both edges"
  },
  {
   "property": "C82",
   "status": "proved",
   "theorems": [
    "Verif.TE.C82_second_order",
    "Verif.TE.C82_logistic",
    "Verif.TE.C82_fermi_synchrotron"
   ],
   "note": "trapezoidal local error, discrete Gronwall on top of C81; densities only first order, as the injection and the reset of the bin width are"
  },
  {
   "property": "C83",
   "status": "partial",
   "theorems": [
    "Verif.TargetField.C83_cmb_density",
    "Verif.TargetField.C83_ps_density",
    "Verif.TargetField.C83_disk_density",
    "Verif.TargetField.C83_blr_density",
    "Verif.TargetField.C83_dt_density",
    "Verif.TargetField.C83_compton",
    "Verif.TargetField.C83_opacity_oblique",
    "Verif.TargetField.C83_opacity_aligned",
    "Verif.TargetField.C83_disk_variables",
    "Verif.TargetField.C83_disk_opacity_partial",
    "Verif.TargetField.C83_disk_opacity_bounds",
    "Verif.TargetField.C83_disk_opacity_violated",
    "Verif.TargetField.C83_disk_opacity_nonzero"
   ],
   "note": "holds for u and external Compton of all five targets and for the opacity of point source, BLR and torus; refuted for the opacity of the disk, which carries an extra factor cos(zenith) and is smaller than that of the field of u whenever it is not zero"
  },
  {
   "property": "C84",
   "status": "proved",
   "theorems": [
    "Verif.TE.C84_units",
    "Verif.TE.C84_callbacks",
    "Verif.TE.C84_tempo",
    "Verif.TE.C84_amount"
   ],
   "note": "every helper of evaluate commutes with the change of units, for any rate functions; the interpolator is only assumed to commute with multiplying the densities by the factor (true of interpolation in the logarithm), for C84_tempo not even that"
  },
  {
   "property": "C85",
   "status": "proved",
   "theorems": [
    "Verif.TE.C85_totals",
    "Verif.TE.C85_callbacks",
    "Verif.TE.C85_order",
    "Verif.TE.C85_one_group",
    "Verif.TE.C85_split"
   ],
   "note": "rates are exact sums in the model (floating-point addition in another order rounds differently); functions return arrays of the length of the energies, as the code requires"
  },
  {
   "property": "C86",
   "status": "proved",
   "theorems": [
    "Verif.Synchrotron.C86_synchrotron",
    "Verif.Synchrotron.C86_synchrotron_delta",
    "Verif.Synchrotron.C86_proton",
    "Verif.Synchrotron.C86_self_absorption",
    "Verif.Synchrotron.C86_synchrotron_power_law",
    "Verif.Compton.C86_self_compton",
    "Verif.Compton.C86_external",
    "Verif.Compton.C86_external_power_law",
    "Verif.RadiativeProcess.C86_energy_flux",
    "Verif.RadiativeProcess.C86_photon_flux",
    "Verif.RadiativeProcess.C86_peak_flux",
    "Verif.RadiativeProcess.C86_peak_nu"
   ],
   "note": "for the external targets the viewing angle is held fixed (Blob derives mu_s from delta_D and Gamma); the SSC law names the shift of the seed grid explicitly"
  },
  {
   "property": "C87",
   "status": "proved",
   "theorems": [
    "Verif.Synchrotron.C87_synchrotron_sum",
    "Verif.Synchrotron.C87_proton_sum",
    "Verif.Synchrotron.C87_synchrotron",
    "Verif.Synchrotron.C87_proton",
    "Verif.Synchrotron.C87_synchrotron_delta",
    "Verif.Synchrotron.C87_self_absorption_violated",
    "Verif.C87_loglog_violated",
    "Verif.Region.Blob.C87_energetics_sum",
    "Verif.Region.Blob.C87_energetics",
    "Verif.Compton.C87_self_compton",
    "Verif.Compton.C87_external",
    "Verif.Compton.C87_external_sum",
    "Verif.Compton.C87_cooling",
    "Verif.Spectra.Dist.C87_cutoff",
    "Verif.Spectra.Dist.C87_normalisation",
    "Verif.Spectra.Dist.C87_pieces"
   ],
   "note": "the two _violated theorems show that the restriction of the statement to no self-absorption and to np.trapz is needed"
  },
  {
   "property": "C88",
   "status": "proved",
   "theorems": [
    "Verif.Targets.SSDisk.C88_power",
    "Verif.Targets.SSDisk.C88_balance"
   ],
   "note": "power of the temperature profile by exact integration of sigma T^4 over both faces; the sampled black-body SED (100 radii) is C50"
  },
  {
   "property": "C89",
   "status": "proved",
   "theorems": [
    "Verif.Objects.C89_rebuild",
    "Verif.Objects.C89_redshift",
    "Verif.Objects.C89_rebuildable",
    "Verif.Objects.C89_values",
    "Verif.Objects.C89_absorption_values",
    "Verif.Objects.C89_disk",
    "Verif.Objects.C89_disk_follows",
    "Verif.Objects.C89_disk_temperature",
    "Verif.Objects.C89_redshift_violated",
    "Verif.Objects.C89_doppler_violated",
    "Verif.Objects.C89_torus_violated",
    "Verif.Objects.C89_line_violated",
    "Verif.Objects.C89_directions_violated"
   ],
   "note": "the _violated theorems show that every exception named in the statement is needed"
  },
  {
   "property": "C90",
   "status": "proved",
   "theorems": [
    "Verif.Objects.C90_untouched",
    "Verif.Objects.C90_shared",
    "Verif.Objects.C90_assign_blob",
    "Verif.Objects.C90_assign_target",
    "Verif.Objects.C90_assign_process",
    "Verif.Objects.C90_default",
    "Verif.Objects.C90_absorption_refused"
   ],
   "note": "stated for answers that exist (no exception); construction of objects never changes an answer"
  },
  {
   "property": "C91",
   "status": "partial",
   "theorems": [
    "Verif.TE.C91_quiet",
    "Verif.TE.C91_correction",
    "Verif.TE.C91_untouched_iff",
    "Verif.TE.C91_regrid",
    "Verif.TE.C91_initial_view",
    "Verif.TE.C91_one_motion",
    "Verif.TE.C91_default_grid",
    "Verif.TE.C91_array_violated",
    "Verif.TE.C91_groups_violated"
   ],
   "note": "proved for one group / groups with the same energy changes, and in general while no end of a grid lies in the window; refuted otherwise: the caller's array is overwritten, and the grid of an inert group creeps"
  },
  {
   "property": "C92",
   "status": "partial",
   "theorems": [
    "Verif.Fit.C92_history",
    "Verif.Fit.C92_wrappers",
    "Verif.Fit.C92_violated"
   ],
   "note": "holds for all sequences unless a spectrum begins or ends within 1e-10 inside the shared integration range; refuted with a witness there"
  },
  {
   "property": "C93",
   "status": "proved",
   "theorems": [
    "Verif.TE.C93_superposition"
   ],
   "note": "Euler with a fixed step, one group, no merging of bins: the statement names these conditions"
  },
  {
   "property": "C94",
   "status": "proved",
   "theorems": [
    "Verif.Synchrotron.C94_synchrotron",
    "Verif.Synchrotron.C94_proton",
    "Verif.Synchrotron.C94_synchrotron_ssa",
    "Verif.Region.C94_blob"
   ],
   "note": "with self-absorption: distributions without break, away from tau = 1e-3, as stated"
  },
  {
   "property": "C95",
   "status": "partial",
   "theorems": [
    "Verif.Fit.C95_ssc_flat",
    "Verif.Fit.C95_ec_flat",
    "Verif.Fit.C95_steps",
    "Verif.Fit.C95_range",
    "Verif.Fit.C95_jump",
    "Verif.Fit.C95_violated",
    "Verif.Fit.C95_external_flat",
    "Verif.Fit.C95_external_range"
   ],
   "note": "continuity in the limits is false of the fit models (they are step functions of gamma_min and ignore electrons outside the fixed array); the steps are proved for all parameters, the continuity refuted with a witness"
  },
  {
   "property": "C96",
   "status": "partial",
   "theorems": [
    "Verif.Targets.DT.C96_blackbody",
    "Verif.Targets.DT.C96_torus",
    "Verif.Targets.DT.C96_torus_partial",
    "Verif.Targets.DT.C96_torus_violated",
    "Verif.Targets.SSDisk.C96_disk_partial"
   ],
   "note": "true at redshift 0, refuted at every other redshift (exact missing factor 1+z); assumes the value of the Stefan-Boltzmann constant in terms of h, c, k_B"
  },
  {
   "property": "C97",
   "status": "partial",
   "theorems": [
    "Verif.Fit.C97_ssc",
    "Verif.Fit.C97_ec",
    "Verif.Fit.C97_norm_violated"
   ],
   "note": "proved for density and disk luminosity; false of the parameter norm, which changes nothing (refuted for all models)"
  },
  {
   "property": "C98",
   "status": "partial",
   "theorems": [
    "Verif.C98_excess",
    "Verif.C98_excess_concave",
    "Verif.C98_excess_le",
    "Verif.Region.Blob.C98_power_law",
    "Verif.Region.Blob.C98_convex",
    "Verif.Region.Blob.C98_roundtrip",
    "Verif.Region.Blob.C98_resized",
    "Verif.Targets.BLR.C98_blr_partial",
    "Verif.Targets.BLR.C98_blr_violated"
   ],
   "note": "proved for the blob; the BLR density has a one-sided and an absolute bound, but close to the shell it exceeds the exact one by more than any factor (refuted)"
  },
  {
   "property": "C99",
   "status": "partial",
   "theorems": [
    "Verif.Targets.C99_dt",
    "Verif.Targets.C99_dt_centre",
    "Verif.Targets.C99_dt_falls",
    "Verif.Targets.C99_blr",
    "Verif.Targets.C99_blr_centre",
    "Verif.Targets.C99_disk",
    "Verif.Targets.C99_disk_violated",
    "Verif.Compton.C99_ec_dt",
    "Verif.Compton.C99_ec_blr",
    "Verif.Compton.C99_ec"
   ],
   "note": "proved for torus and BLR (scattering: grids with no point exactly at threshold, trapezium rule); the disk's far field is a point source of less than 2/3 of its luminosity for the default radii (refuted)"
  }
 ]
}