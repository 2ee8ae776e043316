{
 "claims": [
  {
   "property": "C01",
   "status": "proved",
   "theorems": [
    "PKM.C01_volume_marginal",
    "PKM.C01_volume_conditional"
   ],
   "note": ""
  },
  {
   "property": "C02",
   "status": "proved",
   "theorems": [
    "PKM.C02_shapes",
    "PKM.C02_distribution_shape",
    "PKM.C02_distribution_shape_rejects"
   ],
   "note": ""
  },
  {
   "property": "C03",
   "status": "proved",
   "theorems": [
    "PKM.C03_constructor",
    "PKM.C03_constructor_rejects",
    "PKM.C03_proper",
    "PKM.C03_values_edges",
    "PKM.C03_extent",
    "PKM.C03_unknown_variable"
   ],
   "note": ""
  },
  {
   "property": "C04",
   "status": "proved",
   "theorems": [
    "PKM.C04_constructor_shape"
   ],
   "note": ""
  },
  {
   "property": "C05",
   "status": "proved",
   "theorems": [
    "PKM.C05_marginals"
   ],
   "note": ""
  },
  {
   "property": "C06",
   "status": "proved",
   "theorems": [
    "PKM.C06_conditionals"
   ],
   "note": ""
  },
  {
   "property": "C07",
   "status": "proved",
   "theorems": [
    "PKM.C07_density_marginal",
    "PKM.C07_density_conditional"
   ],
   "note": ""
  },
  {
   "property": "C08",
   "status": "proved",
   "theorems": [
    "PKM.C08_marginals_normalised",
    "PKM.C08_light_normalised",
    "PKM.C08_conditionals_normalised"
   ],
   "note": ""
  },
  {
   "property": "C09",
   "status": "proved",
   "theorems": [
    "PKM.C09_tower",
    "PKM.C09_chain"
   ],
   "note": ""
  },
  {
   "property": "C10",
   "status": "proved",
   "theorems": [
    "PKM.C10_light_weighted",
    "PKM.C10_dark",
    "PKM.C10_scaling",
    "PKM.C10_total"
   ],
   "note": ""
  },
  {
   "property": "C11",
   "status": "proved",
   "theorems": [
    "PKM.C11_exp_log",
    "PKM.C11_probabilities"
   ],
   "note": ""
  },
  {
   "property": "C12",
   "status": "proved",
   "theorems": [
    "PKM.C12_marginal_exists",
    "PKM.C12_no_underscore",
    "PKM.C12_one_underscore",
    "PKM.C12_many_underscores",
    "PKM.C12_unsorted_accepted",
    "PKM.C12_cases",
    "PKM.C12_accepted",
    "PKM.C12_unsorted_density_rejected"
   ],
   "note": ""
  },
  {
   "property": "C13",
   "status": "proved",
   "theorems": [
    "PKM.C13_means",
    "PKM.C13_count",
    "PKM.C13_rejects"
   ],
   "note": ""
  },
  {
   "property": "C14",
   "status": "proved",
   "theorems": [
    "PKM.C14_mean_in_grid"
   ],
   "note": ""
  },
  {
   "property": "C15",
   "status": "proved",
   "theorems": [
    "PKM.C15_total_expectation"
   ],
   "note": ""
  },
  {
   "property": "C16",
   "status": "proved",
   "theorems": [
    "PKM.C16_central_moments",
    "PKM.C16_noncentral_moments",
    "PKM.C16_variance"
   ],
   "note": ""
  },
  {
   "property": "C17",
   "status": "proved",
   "theorems": [
    "PKM.C17_normal_moments",
    "PKM.C17_excess",
    "PKM.C17_excess_error",
    "PKM.C17_skewness_kurtosis"
   ],
   "note": ""
  },
  {
   "property": "C18",
   "status": "proved",
   "theorems": [
    "PKM.C18_covariance",
    "PKM.C18_count",
    "PKM.C18_formula",
    "PKM.C18_rejects"
   ],
   "note": ""
  },
  {
   "property": "C19",
   "status": "proved",
   "theorems": [
    "PKM.C19_correlation"
   ],
   "note": ""
  },
  {
   "property": "C20",
   "status": "proved",
   "theorems": [
    "PKM.C20_l_moments",
    "PKM.C20_l_mean_is_mean"
   ],
   "note": ""
  },
  {
   "property": "C21",
   "status": "partial",
   "theorems": [
    "PKM.C21_dispersion_nonneg",
    "PKM.C21_affine",
    "PKM.C21_scaling",
    "PKM.C21_translation_partial",
    "PKM.C21_translation_fails"
   ],
   "note": "Non-negativity and scaling are proved for all orders. Translation invariance is proved for order 2 (C21_translation_partial); the code violates it at order 3 (C21_translation_fails); C21_affine states the exact shift law for every order."
  },
  {
   "property": "C22",
   "status": "proved",
   "theorems": [
    "PKM.C22_position_rejected",
    "PKM.C22_one_variable",
    "PKM.C22_order_positive",
    "PKM.C22_normal_odd",
    "PKM.C22_normal_dispersion",
    "PKM.C22_excess_odd"
   ],
   "note": ""
  },
  {
   "property": "C23",
   "status": "proved",
   "theorems": [
    "PKM.C23_padding",
    "PKM.C23_padded_batches",
    "PKM.C23_spectra",
    "PKM.C23_batches",
    "PKM.C23_failures"
   ],
   "note": ""
  },
  {
   "property": "C24",
   "status": "proved",
   "theorems": [
    "PKM.C24_flux_dv",
    "PKM.C24_flux",
    "PKM.C24_flux_error"
   ],
   "note": ""
  },
  {
   "property": "C25",
   "status": "proved",
   "theorems": [
    "PKM.C25_validation",
    "PKM.C25_symmetric",
    "PKM.C25_even"
   ],
   "note": ""
  },
  {
   "property": "C26",
   "status": "proved",
   "theorems": [
    "PKM.C26_linear",
    "PKM.C26_convolution",
    "PKM.C26_at_rest"
   ],
   "note": ""
  },
  {
   "property": "C27",
   "status": "proved",
   "theorems": [
    "PKM.C27_marginals",
    "PKM.C27_weighted_sum",
    "PKM.C27_conditionals",
    "PKM.C27_light_weighted",
    "PKM.C27_uncollapsed",
    "PKM.C27_rejects",
    "PKM.C27_light_unsorted",
    "PKM.C27_nested"
   ],
   "note": ""
  },
  {
   "property": "C28",
   "status": "proved",
   "theorems": [
    "PKM.C28_constructor",
    "PKM.C28_normalised",
    "PKM.C28_constructed"
   ],
   "note": ""
  },
  {
   "property": "C29",
   "status": "partial",
   "theorems": [
    "PKM.C29_mean_partial",
    "PKM.C29_central_moment_partial",
    "PKM.C29_unconditional",
    "PKM.C29_covariance",
    "PKM.C29_l_moments",
    "PKM.C29_fails_at_empty_members"
   ],
   "note": "Proved wherever every member has probability at the conditioner, and always for unconditional moments. Where one member has none, the code returns nan although the mixture is well defined there: C29_fails_at_empty_members refutes the full claim."
  },
  {
   "property": "C30",
   "status": "proved",
   "theorems": [
    "PKM.C30_weighted_sum",
    "PKM.C30_empty",
    "PKM.C30_missing",
    "PKM.C30_shapes"
   ],
   "note": ""
  },
  {
   "property": "C31",
   "status": "proved",
   "theorems": [
    "PKM.C31_bins",
    "PKM.C31_rejects",
    "PKM.C31_invalid_accepted"
   ],
   "note": ""
  },
  {
   "property": "C32",
   "status": "proved",
   "theorems": [
    "PKM.C32_marginals",
    "PKM.C32_conditionals",
    "PKM.C32_ingredients",
    "PKM.C32_light_ingredients",
    "PKM.C32_truncated"
   ],
   "note": ""
  },
  {
   "property": "C33",
   "status": "proved",
   "theorems": [
    "PKM.C33_velocity_bins",
    "PKM.C33_density"
   ],
   "note": ""
  },
  {
   "property": "C34",
   "status": "proved",
   "theorems": [
    "PKM.C34_mean",
    "PKM.C34_central",
    "PKM.C34_noncentral",
    "PKM.C34_closed_form",
    "PKM.C34_empty",
    "PKM.C34_ignores_z",
    "PKM.C34_ignores_z_wrong",
    "PKM.C34_factorial2",
    "PKM.C34_factorial2_wrong",
    "PKM.C34_methods",
    "PKM.C34_methods_mu"
   ],
   "note": "For scipy releases in which factorial2(-1) is 1. C34_factorial2 and C34_factorial2_wrong state what happens otherwise; C34_ignores_z shows that get_noncentral_moment('v_txz') uses the centres at the first metallicity only."
  },
  {
   "property": "C35",
   "status": "proved",
   "theorems": [
    "PKM.C35_normalised",
    "PKM.C35_interpolated",
    "PKM.C35_table_increasing",
    "PKM.C35_evaluate"
   ],
   "note": ""
  },
  {
   "property": "C36",
   "status": "proved",
   "theorems": [
    "PKM.C36_between_limits"
   ],
   "note": ""
  },
  {
   "property": "C37",
   "status": "proved",
   "theorems": [
    "PKM.C37_spatial",
    "PKM.C37_depletion",
    "PKM.C37_dispersion",
    "PKM.C37_rotation",
    "PKM.C37_rejects",
    "PKM.C37_zero_rmax",
    "PKM.C37_on_minor_axis"
   ],
   "note": ""
  },
  {
   "property": "C38",
   "status": "proved",
   "theorems": [
    "PKM.C38_spatial",
    "PKM.C38_track",
    "PKM.C38_rejects",
    "PKM.C38_velocity",
    "PKM.C38_order",
    "PKM.C38_constants",
    "PKM.C38_equal_angles"
   ],
   "note": ""
  },
  {
   "property": "C39",
   "status": "proved",
   "theorems": [
    "PKM.C39_component",
    "PKM.C39_histogram",
    "PKM.C39_partition",
    "PKM.C39_order",
    "PKM.C39_mass_scale",
    "PKM.C39_ignored",
    "PKM.C39_equal_masses",
    "PKM.C39_counts",
    "PKM.C39_nothing_in_range",
    "PKM.C39_lengths"
   ],
   "note": ""
  },
  {
   "property": "C40",
   "status": "proved",
   "theorems": [
    "PKM.C40_constant",
    "PKM.C40_shot",
    "PKM.C40_empty",
    "PKM.C40_never_negative",
    "PKM.C40_negative_flux"
   ],
   "note": ""
  },
  {
   "property": "C41",
   "status": "proved",
   "theorems": [
    "PKM.C41_no_datacube",
    "PKM.C41_data",
    "PKM.C41_history",
    "PKM.C41_after_history"
   ],
   "note": ""
  },
  {
   "property": "C42",
   "status": "proved",
   "theorems": [
    "PKM.C42_rebin",
    "PKM.C42_partition",
    "PKM.C42_flux",
    "PKM.C42_identity",
    "PKM.C42_zero"
   ],
   "note": ""
  },
  {
   "property": "C43",
   "status": "partial",
   "theorems": [
    "PKM.C43_edges_iff",
    "PKM.C43_edges_partial",
    "PKM.C43_snapped",
    "PKM.C43_too_few"
   ],
   "note": "C43_edges_iff states exactly for which increasing values the property holds; it holds for all positive values (C43_edges_partial). It is false when the lowest edge is within 0.011 of zero and the lowest value is not positive (C43_snapped), because the code then moves the edge to zero."
  },
  {
   "property": "C44",
   "status": "partial",
   "theorems": [
    "PKM.C44_get_ssp_partial",
    "PKM.C44_rebinned_error",
    "PKM.C44_rebinned_wrong",
    "PKM.C44_spacing"
   ],
   "note": "Proved for every object whose ages are not rebinned. With age_rebin > 1 the code keeps the old index table: C44_rebinned_error (IndexError for an existing column) and C44_rebinned_wrong (age and metallicity of another bin) refute the full claim."
  },
  {
   "property": "C45",
   "status": "proved",
   "theorems": [
    "PKM.C45_split",
    "PKM.C45_join",
    "PKM.C45_join_error",
    "PKM.C45_bad_sign",
    "PKM.C45_no_Z"
   ],
   "note": ""
  },
  {
   "property": "C46",
   "status": "proved",
   "theorems": [
    "PKM.C46_filter",
    "PKM.C46_complete",
    "PKM.C46_columns",
    "PKM.C46_succeeds",
    "PKM.C46_wrong_length",
    "PKM.C46_no_cache",
    "PKM.C46_duplicates"
   ],
   "note": "C46_complete states the check for files without repeated pairs; C46_duplicates shows that with repeated pairs the check alone can pass on an incomplete grid, but C46_columns shows that the constructor with limits or thinning still succeeds only on a full grid."
  },
  {
   "property": "C47",
   "status": "proved",
   "theorems": [
    "PKM.C47_truncate",
    "PKM.C47_outside"
   ],
   "note": ""
  },
  {
   "property": "C48",
   "status": "proved",
   "theorems": [
    "PKM.C48_unchanged",
    "PKM.C48_answers",
    "PKM.C48_answers_kept",
    "PKM.C48_values_shared",
    "PKM.C48_values_new",
    "PKM.C48_density_shared"
   ],
   "note": ""
  },
  {
   "property": "C49",
   "status": "proved",
   "theorems": [
    "PKM.C49_before",
    "PKM.C49_disk",
    "PKM.C49_disk_documented",
    "PKM.C49_frame",
    "PKM.C49_stream",
    "PKM.C49_stream_frame"
   ],
   "note": ""
  },
  {
   "property": "C50",
   "status": "proved",
   "theorems": [
    "PKM.C50_unchanged",
    "PKM.C50_last",
    "PKM.C50_raises",
    "PKM.C50_second",
    "PKM.C50_sound",
    "PKM.C50_failed"
   ],
   "note": ""
  },
  {
   "property": "C51",
   "status": "proved",
   "theorems": [
    "PKM.C51_saved",
    "PKM.C51_frame",
    "PKM.C51_crash",
    "PKM.C51_kept",
    "PKM.C51_not_atomic",
    "PKM.C51_unpicklable",
    "PKM.C51_nested",
    "PKM.C51_blocked",
    "PKM.C51_is_directory",
    "PKM.C51_default",
    "PKM.C51_no_slash"
   ],
   "note": "Saving is not atomic (C51_not_atomic, C51_unpicklable); without a final slash in direc the file is written beside the directory (C51_no_slash); leaving out direc always raises TypeError (C51_default)."
  },
  {
   "property": "C52",
   "status": "proved",
   "theorems": [
    "PKM.C52_frame",
    "PKM.C52_compose",
    "PKM.C52_axis"
   ],
   "note": ""
  },
  {
   "property": "C53",
   "status": "partial",
   "theorems": [
    "PKM.C53_image",
    "PKM.C53_refused",
    "PKM.C53_unchanged_partial",
    "PKM.C53_list_grows",
    "PKM.C53_stale_extent",
    "PKM.C53_mixed",
    "PKM.C53_unknown"
   ],
   "note": "C53_image and C53_unchanged_partial hold for cubes whose ranges are tuples (the default and documented type). With ranges given as lists the claim is false: C53_list_grows, C53_stale_extent and C53_mixed refute it."
  },
  {
   "property": "C54",
   "status": "proved",
   "theorems": [
    "PKM.C54_ssps"
   ],
   "note": ""
  },
  {
   "property": "C55",
   "status": "proved",
   "theorems": [
    "PKM.C55_thin",
    "PKM.C55_identity",
    "PKM.C55_full",
    "PKM.C55_zero"
   ],
   "note": ""
  },
  {
   "property": "C56",
   "status": "proved",
   "theorems": [
    "PKM.C56_data",
    "PKM.C56_ssps"
   ],
   "note": ""
  },
  {
   "property": "C57",
   "status": "partial",
   "theorems": [
    "PKM.C57_adjacent_partial",
    "PKM.C57_one",
    "PKM.C57_strided",
    "PKM.C57_divisible",
    "PKM.C57_not_adjacent",
    "PKM.C57_zero"
   ],
   "note": "The claim is false of the code: C57_not_adjacent refutes it for every increasing wavelength array with at least two bins (the code sums pixels that are n//k apart), and C57_divisible shows that all pixels are lost when k divides n. C57_strided says what is computed; C57_adjacent_partial is the case in which the claim holds."
  },
  {
   "property": "C58",
   "status": "proved",
   "theorems": [
    "PKM.C58_reset",
    "PKM.C58_lost_cache"
   ],
   "note": "C58_lost_cache shows what happens when the cache file was removed meanwhile: the truncated spectra are kept and written as the new cache."
  },
  {
   "property": "C59",
   "status": "proved",
   "theorems": [
    "PKM.C59_constructed",
    "PKM.C59_pixels",
    "PKM.C59_doppler",
    "PKM.C59_tabulated",
    "PKM.C59_ready",
    "PKM.C59_no_range"
   ],
   "note": ""
  },
  {
   "property": "C60",
   "status": "partial",
   "theorems": [
    "PKM.C60_ticks",
    "PKM.C60_rebin_partial",
    "PKM.C60_object",
    "PKM.C60_new_partial",
    "PKM.C60_rebin_wrong"
   ],
   "note": "C60_ticks and C60_object prove the claim for set_tick_positions on every SSP object. The constructor places ticks before rebinning: right if the factors divide the numbers of bins (C60_new_partial), wrong otherwise (C60_rebin_wrong)."
  },
  {
   "property": "C61",
   "status": "proved",
   "theorems": [
    "PKM.C61_physical",
    "PKM.C61_discrete",
    "PKM.C61_spacing",
    "PKM.C61_spectrum",
    "PKM.C61_ambiguous"
   ],
   "note": "C61_ambiguous: if there are as many wavelengths as resampled wavelengths, plot_spectrum draws resampled spectra against the tabulated wavelengths."
  },
  {
   "property": "C62",
   "status": "proved",
   "theorems": [
    "PKM.C62_archive",
    "PKM.C62_other",
    "PKM.C62_unevaluated"
   ],
   "note": ""
  },
  {
   "property": "C63",
   "status": "partial",
   "theorems": [
    "PKM.C63_batches",
    "PKM.C63_convolution_partial",
    "PKM.C63_odd",
    "PKM.C63_flux",
    "PKM.C63_shift_partial",
    "PKM.C63_odd_wrong"
   ],
   "note": "The convolution and shift are proved for even transform lengths, which FFT grids of even length have; for odd lengths n the code's frequencies are too large by n/(n-1): C63_odd states the exact datacube and C63_odd_wrong refutes the claim for every odd n >= 3. Batching and flux hold for all lengths."
  },
  {
   "property": "C64",
   "status": "proved",
   "theorems": [
    "PKM.C64_answers",
    "PKM.C64_parameters",
    "PKM.C64_history_irrelevant",
    "PKM.C64_cube",
    "PKM.C64_answers_kept",
    "PKM.C64_answers_new",
    "PKM.C64_mean_shared"
   ],
   "note": "Proved in the memory model. The two queries that hand out the component's own array (get_mean('v_tx'), get_mean('v_txz')) are part of the statement; C64_mean_shared shows the effect of overwriting such an answer."
  },
  {
   "property": "C65",
   "status": "proved",
   "theorems": [
    "PKM.C65_marginals",
    "PKM.C65_conditionals",
    "PKM.C65_weighted_sum",
    "PKM.C65_uncollapsed",
    "PKM.C65_constructed"
   ],
   "note": ""
  },
  {
   "property": "C66",
   "status": "partial",
   "theorems": [
    "PKM.C66_mean_partial",
    "PKM.C66_mean_given_velocity",
    "PKM.C66_central_about_mean",
    "PKM.C66_central_partial",
    "PKM.C66_normalised",
    "PKM.C66_mean_given_velocity_wrong",
    "PKM.C66_velocity_given_all_wrong"
   ],
   "note": "Means: proved except light-weighted means given the velocity, where C66_mean_given_velocity proves what is returned and C66_mean_given_velocity_wrong shows that it is not the mean. Central moments: proved about the mean which the mixture returns, except for the velocity given age, pixel and metallicity, where C66_velocity_given_all_wrong refutes the claim. Central moments with parametric members take for granted that scipy.special.factorial2(-1) is 1 (see C44)."
  },
  {
   "property": "C67",
   "status": "proved",
   "theorems": [
    "PKM.C67_answers",
    "PKM.C67_answers_any",
    "PKM.C67_ybar",
    "PKM.C67_arrays_kept",
    "PKM.C67_answers_new",
    "PKM.C67_ybar_new",
    "PKM.C67_weights_copied",
    "PKM.C67_list_shared"
   ],
   "note": "Proved in the memory model. Histories that overwrite a data cube, or an answer of get_mean('v_tx') or get_mean('v_txz') of a parametric component, can change just these data cubes and mean velocities (C67_answers_any). The constructor copies the weights but keeps the user's list (C67_list_shared)."
  },
  {
   "property": "C68",
   "status": "partial",
   "theorems": [
    "PKM.C68_spread",
    "PKM.C68_shape",
    "PKM.C68_velocity_spread_pos",
    "PKM.C68_covariance_partial",
    "PKM.C68_covariance_velocity",
    "PKM.C68_correlation_partial",
    "PKM.C68_correlation_velocity",
    "PKM.C68_l_moments_partial",
    "PKM.C68_l_moments_of_distribution",
    "PKM.C68_correlation_wrong",
    "PKM.C68_l_mean_wrong"
   ],
   "note": "Spread and shape: proved for all quantities and strings (the moments of velocities take for granted that scipy.special.factorial2(-1) is 1, see C44). Covariances, correlations and L-moments: proved without the velocity. With the velocity, C68_covariance_velocity and C68_correlation_velocity prove what is returned (bin centres, stars in the velocity range, means of all stars), C68_correlation_wrong shows a correlation above 40 and C68_l_mean_wrong an L-mean far from the mean."
  },
  {
   "property": "C69",
   "status": "partial",
   "theorems": [
    "PKM.C69_spread_partial",
    "PKM.C69_shape_partial",
    "PKM.C69_covariance_partial",
    "PKM.C69_covariance_velocity",
    "PKM.C69_correlation_partial",
    "PKM.C69_correlation_velocity",
    "PKM.C69_l_moments_partial",
    "PKM.C69_l_moments_of_distribution",
    "PKM.C69_correlation_wrong"
   ],
   "note": "As C68, with the restrictions of C66: not for light-weighted answers given the velocity, and not for moments of the velocity given age, pixel and metallicity. C69_correlation_wrong shows a correlation above 40 of a mixture."
  },
  {
   "property": "C70",
   "status": "partial",
   "theorems": [
    "PKM.C70_loads_partial",
    "PKM.C70_too_few",
    "PKM.C70_default_fails",
    "PKM.C70_component",
    "PKM.C70_whole_chain_partial"
   ],
   "note": "Proved for all limits except the default: without limits the constructor needs a cached file that the repository does not contain, and raises AttributeError (C70_default_fails). The names, number and length of the shipped files are assumptions of LibraryDir, checked against /repo/data by hand; that spectra are positive is the assumption Bright."
  },
  {
   "property": "C71",
   "status": "partial",
   "theorems": [
    "PKM.C71_grid_partial",
    "PKM.C71_columns",
    "PKM.C71_miles",
    "PKM.C71_rejects",
    "PKM.C71_probe",
    "PKM.C71_base_class",
    "PKM.C71_spacing_wrong",
    "PKM.C71_mod_dir"
   ],
   "note": "Proved except for delta_lmd, which is never the spacing of the wavelengths (C71_spacing_wrong), and except for the base class itself, which cannot be constructed because it lacks par_mask_function (C71_base_class)."
  },
  {
   "property": "C72",
   "status": "partial",
   "theorems": [
    "PKM.C72_plain_partial",
    "PKM.C72_units",
    "PKM.C72_symmetric",
    "PKM.C72_parametric",
    "PKM.C72_mixture",
    "PKM.C72_excess",
    "PKM.C72_skewness_kurtosis",
    "PKM.C72_bound_fails",
    "PKM.C72_dispersion_negative"
   ],
   "note": "Everything but the bounds is proved. The bounds fail because the L-moments of order three and higher are not translation invariant (C21): C72_bound_fails gives every real number as an L-skewness. The L-dispersion of the velocity of a parametric component can be negative (C72_dispersion_negative), because its distribution over the velocity bins need not sum to one."
  },
  {
   "property": "C73",
   "status": "partial",
   "theorems": [
    "PKM.C73_plain_distributions",
    "PKM.C73_plain_moments",
    "PKM.C73_plain_datacube",
    "PKM.C73_mixture_partial",
    "PKM.C73_parametric_partial",
    "PKM.C73_parametric_lost"
   ],
   "note": "Proved for mixtures of plain components. For mixtures with parametric members: the marginals over variables including the velocity and the conditionals given the velocity (C73_mixture_partial), all strings if no stars lie outside the velocity range. The rest fails (C73_parametric_lost): the table of a parametric component misses the stars outside the velocity range, so all marginals without the velocity come out too small."
  },
  {
   "property": "C74",
   "status": "proved",
   "theorems": [
    "PKM.C74_distributions",
    "PKM.C74_means",
    "PKM.C74_central",
    "PKM.C74_total_weights",
    "PKM.C74_datacube"
   ],
   "note": ""
  },
  {
   "property": "C75",
   "status": "proved",
   "theorems": [
    "PKM.C75_marginals",
    "PKM.C75_fallback",
    "PKM.C75_conditionals",
    "PKM.C75_moments",
    "PKM.C75_own_mean",
    "PKM.C75_stored_unused",
    "PKM.C75_datacube"
   ],
   "note": ""
  },
  {
   "property": "C76",
   "status": "proved",
   "theorems": [
    "PKM.C76_distributions",
    "PKM.C76_means",
    "PKM.C76_dispersions"
   ],
   "note": ""
  },
  {
   "property": "C77",
   "status": "proved",
   "theorems": [
    "PKM.C77_accepted",
    "PKM.C77_distributions",
    "PKM.C77_moments",
    "PKM.C77_datacube"
   ],
   "note": ""
  },
  {
   "property": "C78",
   "status": "proved",
   "theorems": [
    "PKM.C78_law",
    "PKM.C78_moments"
   ],
   "note": ""
  },
  {
   "property": "C79",
   "status": "proved",
   "theorems": [
    "PKM.C79_sums",
    "PKM.C79_datacube",
    "PKM.C79_constructor"
   ],
   "note": ""
  },
  {
   "property": "C80",
   "status": "proved",
   "theorems": [
    "PKM.C80_given",
    "PKM.C80_total",
    "PKM.C80_marginals",
    "PKM.C80_tabulated",
    "PKM.C80_enough"
   ],
   "note": ""
  },
  {
   "property": "C81",
   "status": "proved",
   "theorems": [
    "PKM.C81_full_turn",
    "PKM.C81_full_turn_stream",
    "PKM.C81_half_turn"
   ],
   "note": ""
  },
  {
   "property": "C82",
   "status": "proved",
   "theorems": [
    "PKM.C82_point_symmetry"
   ],
   "note": ""
  },
  {
   "property": "C83",
   "status": "proved",
   "theorems": [
    "PKM.C83_disk_units",
    "PKM.C83_stream_units",
    "PKM.C83_cube"
   ],
   "note": ""
  },
  {
   "property": "C84",
   "status": "proved",
   "theorems": [
    "PKM.C84_disk",
    "PKM.C84_stream",
    "PKM.C84_order",
    "PKM.C84_stale",
    "PKM.C84_matters"
   ],
   "note": ""
  },
  {
   "property": "C85",
   "status": "proved",
   "theorems": [
    "PKM.C85_richer",
    "PKM.C85_disk",
    "PKM.C85_stream",
    "PKM.C85_light",
    "PKM.C85_disk_light"
   ],
   "note": ""
  },
  {
   "property": "C86",
   "status": "proved",
   "theorems": [
    "PKM.C86_older",
    "PKM.C86_phi",
    "PKM.C86_light",
    "PKM.C86_recall"
   ],
   "note": ""
  },
  {
   "property": "C87",
   "status": "proved",
   "theorems": [
    "PKM.C87_profile",
    "PKM.C87_concentration",
    "PKM.C87_inside_out",
    "PKM.C87_age_gradient",
    "PKM.C87_grown"
   ],
   "note": ""
  },
  {
   "property": "C88",
   "status": "proved",
   "theorems": [
    "PKM.C88_curve",
    "PKM.C88_profile",
    "PKM.C88_scale",
    "PKM.C88_hotter"
   ],
   "note": ""
  },
  {
   "property": "C89",
   "status": "proved",
   "theorems": [
    "PKM.C89_disk",
    "PKM.C89_disk_older",
    "PKM.C89_stream",
    "PKM.C89_stream_older",
    "PKM.C89_strict"
   ],
   "note": ""
  },
  {
   "property": "C90",
   "status": "proved",
   "theorems": [
    "PKM.C90_plain",
    "PKM.C90_plain_covariance",
    "PKM.C90_parametric",
    "PKM.C90_parametric_covariance",
    "PKM.C90_velocity_bins",
    "PKM.C90_mixture",
    "PKM.C90_mixture_covariance",
    "PKM.C90_narrower"
   ],
   "note": ""
  },
  {
   "property": "C91",
   "status": "proved",
   "theorems": [
    "PKM.C91_plain",
    "PKM.C91_parametric",
    "PKM.C91_mixture",
    "PKM.C91_evenly_bright"
   ],
   "note": ""
  },
  {
   "property": "C92",
   "status": "proved",
   "theorems": [
    "PKM.C92_faster",
    "PKM.C92_stream",
    "PKM.C92_disk"
   ],
   "note": ""
  },
  {
   "property": "C93",
   "status": "partial",
   "theorems": [
    "PKM.C93_moments_partial",
    "PKM.C93_velocity",
    "PKM.C93_plain",
    "PKM.C93_about_mean",
    "PKM.C93_velocity_wrong"
   ],
   "note": ""
  },
  {
   "property": "C94",
   "status": "proved",
   "theorems": [
    "PKM.C94_other_end",
    "PKM.C94_one_point"
   ],
   "note": ""
  },
  {
   "property": "C95",
   "status": "partial",
   "theorems": [
    "PKM.C95_mean_partial",
    "PKM.C95_central_partial",
    "PKM.C95_distributions_raise",
    "PKM.C95_means_raise",
    "PKM.C95_deeper_raise",
    "PKM.C95_datacube",
    "PKM.C95_velocity_wrong"
   ],
   "note": ""
  },
  {
   "property": "C96",
   "status": "proved",
   "theorems": [
    "PKM.C96_plain_distributions",
    "PKM.C96_plain_moments",
    "PKM.C96_parametric_distributions",
    "PKM.C96_parametric_moments",
    "PKM.C96_mixture_distributions",
    "PKM.C96_mixture_moments",
    "PKM.C96_mixture_velocity_given_all",
    "PKM.C96_mixture_datacube",
    "PKM.C96_plain_datacube",
    "PKM.C96_parametric_datacube",
    "PKM.C96_library"
   ],
   "note": ""
  },
  {
   "property": "C97",
   "status": "partial",
   "theorems": [
    "PKM.C97_plain_distributions",
    "PKM.C97_plain_moments",
    "PKM.C97_parametric_distributions_partial",
    "PKM.C97_parametric_moments_partial",
    "PKM.C97_mixture_distributions_partial",
    "PKM.C97_mixture_moments_partial",
    "PKM.C97_plain_datacube",
    "PKM.C97_parametric_datacube",
    "PKM.C97_mixture_datacube",
    "PKM.C97_velocity_wrong"
   ],
   "note": ""
  },
  {
   "property": "C98",
   "status": "partial",
   "theorems": [
    "PKM.C98_plain_distributions",
    "PKM.C98_plain_moments",
    "PKM.C98_plain_marginals",
    "PKM.C98_parametric_distributions_partial",
    "PKM.C98_parametric_moments_partial",
    "PKM.C98_parametric_marginals_partial",
    "PKM.C98_mixture_distributions_partial",
    "PKM.C98_mixture_moments_partial",
    "PKM.C98_mixture_marginals_partial",
    "PKM.C98_velocity_wrong"
   ],
   "note": ""
  },
  {
   "property": "C99",
   "status": "proved",
   "theorems": [
    "PKM.C99_metallicity",
    "PKM.C99_velocity",
    "PKM.C99_joint",
    "PKM.C99_mass",
    "PKM.C99_metallicity_moments",
    "PKM.C99_velocity_moments",
    "PKM.C99_covariance",
    "PKM.C99_metallicity_lmoments",
    "PKM.C99_light_wrong"
   ],
   "note": ""
  },
  {
   "property": "C100",
   "status": "proved",
   "theorems": [
    "PKM.C100_plain_linear",
    "PKM.C100_parametric_linear",
    "PKM.C100_plain_absent",
    "PKM.C100_parametric_absent",
    "PKM.C100_plain_featureless",
    "PKM.C100_parametric_featureless",
    "PKM.C100_plain_equal",
    "PKM.C100_parametric_equal",
    "PKM.C100_mixture_linear"
   ],
   "note": ""
  },
  {
   "property": "C101",
   "status": "proved",
   "theorems": [
    "PKM.C101_disk",
    "PKM.C101_aligned_disk",
    "PKM.C101_stream",
    "PKM.C101_on_the_cut"
   ],
   "note": ""
  },
  {
   "property": "C102",
   "status": "partial",
   "theorems": [
    "PKM.C102_plain_partial",
    "PKM.C102_parametric_partial",
    "PKM.C102_mixture_partial",
    "PKM.C102_grey",
    "PKM.C102_wrong"
   ],
   "note": ""
  },
  {
   "property": "C103",
   "status": "partial",
   "theorems": [
    "PKM.C103_noise",
    "PKM.C103_plain_partial",
    "PKM.C103_parametric_partial",
    "PKM.C103_weak_lines_partial",
    "PKM.C103_mixture",
    "PKM.C103_negative"
   ],
   "note": ""
  },
  {
   "property": "C104",
   "status": "proved",
   "theorems": [
    "PKM.C104_disk_velocity_bins",
    "PKM.C104_stream_velocity_bins",
    "PKM.C104_cube"
   ],
   "note": ""
  },
  {
   "property": "C105",
   "status": "partial",
   "theorems": [
    "PKM.C105_stream_partial",
    "PKM.C105_disk_partial",
    "PKM.C105_cube",
    "PKM.C105_disk_wrong"
   ],
   "note": ""
  },
  {
   "property": "C106",
   "status": "partial",
   "theorems": [
    "PKM.C106_disk",
    "PKM.C106_stream_partial",
    "PKM.C106_stream_wrong"
   ],
   "note": ""
  },
  {
   "property": "C107",
   "status": "proved",
   "theorems": [
    "PKM.C107_distributions",
    "PKM.C107_distributions_plain",
    "PKM.C107_means",
    "PKM.C107_weights",
    "PKM.C107_datacube"
   ],
   "note": ""
  },
  {
   "property": "C108",
   "status": "proved",
   "theorems": [
    "PKM.C108_distributions",
    "PKM.C108_means",
    "PKM.C108_datacube",
    "PKM.C108_within_bins"
   ],
   "note": ""
  },
  {
   "property": "C109",
   "status": "proved",
   "theorems": [
    "PKM.C109_conditionals",
    "PKM.C109_marginals",
    "PKM.C109_conditionals_plain",
    "PKM.C109_marginals_plain",
    "PKM.C109_means_plain",
    "PKM.C109_means_parametric",
    "PKM.C109_means_mixture",
    "PKM.C109_velocity_wrong"
   ],
   "note": ""
  },
  {
   "property": "C110",
   "status": "proved",
   "theorems": [
    "PKM.C110_even",
    "PKM.C110_even_datacube",
    "PKM.C110_streams",
    "PKM.C110_disks"
   ],
   "note": ""
  },
  {
   "property": "C111",
   "status": "proved",
   "theorems": [
    "PKM.C111_streams",
    "PKM.C111_disks",
    "PKM.C111_stream_pixels",
    "PKM.C111_hotter_streams"
   ],
   "note": ""
  },
  {
   "property": "C112",
   "status": "proved",
   "theorems": [
    "PKM.C112_distributions",
    "PKM.C112_means",
    "PKM.C112_variances"
   ],
   "note": ""
  },
  {
   "property": "C113",
   "status": "proved",
   "theorems": [
    "PKM.C113_tables",
    "PKM.C113_particles",
    "PKM.C113_cubes",
    "PKM.C113_mixtures"
   ],
   "note": ""
  },
  {
   "property": "C114",
   "status": "proved",
   "theorems": [
    "PKM.C114_dispersion",
    "PKM.C114_orders",
    "PKM.C114_parametric",
    "PKM.C114_mixture",
    "PKM.C114_quarter_fails"
   ],
   "note": ""
  },
  {
   "property": "C115",
   "status": "proved",
   "theorems": [
    "PKM.C115_plain",
    "PKM.C115_parametric",
    "PKM.C115_mixture"
   ],
   "note": ""
  },
  {
   "property": "C116",
   "status": "proved",
   "theorems": [
    "PKM.C116_plain",
    "PKM.C116_parametric",
    "PKM.C116_mixture",
    "PKM.C116_mixture_any"
   ],
   "note": ""
  },
  {
   "property": "C117",
   "status": "proved",
   "theorems": [
    "PKM.C117_plain",
    "PKM.C117_mixture",
    "PKM.C117_parametric",
    "PKM.C117_mixture_any"
   ],
   "note": ""
  }
 ]
}