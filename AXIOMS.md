# Axioms of the theorems in MANIFEST.json

Generated by `tools/axioms.py` from `#print axioms`.

- `PKM.C01_volume_marginal`: propext, Classical.choice, Quot.sound
- `PKM.C01_volume_conditional`: propext, Classical.choice, Quot.sound
- `PKM.C02_shapes`: propext, Classical.choice, Quot.sound
- `PKM.C02_distribution_shape`: propext, Classical.choice, Quot.sound
- `PKM.C02_distribution_shape_rejects`: propext, Classical.choice, Quot.sound
- `PKM.C03_constructor`: propext, Classical.choice, Quot.sound
- `PKM.C03_constructor_rejects`: propext, Classical.choice, Quot.sound
- `PKM.C03_proper`: propext, Classical.choice, Quot.sound
- `PKM.C03_values_edges`: propext, Classical.choice, Quot.sound
- `PKM.C03_extent`: propext, Classical.choice, Quot.sound
- `PKM.C03_unknown_variable`: propext, Classical.choice, Quot.sound
- `PKM.C04_constructor_shape`: propext, Classical.choice, Quot.sound
- `PKM.C05_marginals`: propext, Classical.choice, Quot.sound
- `PKM.C06_conditionals`: propext, Classical.choice, Quot.sound
- `PKM.C07_density_marginal`: propext, Classical.choice, Quot.sound
- `PKM.C07_density_conditional`: propext, Classical.choice, Quot.sound
- `PKM.C08_marginals_normalised`: propext, Classical.choice, Quot.sound
- `PKM.C08_light_normalised`: propext, Classical.choice, Quot.sound
- `PKM.C08_conditionals_normalised`: propext, Classical.choice, Quot.sound
- `PKM.C09_tower`: propext, Classical.choice, Quot.sound
- `PKM.C09_chain`: propext, Classical.choice, Quot.sound
- `PKM.C10_light_weighted`: propext, Classical.choice, Quot.sound
- `PKM.C10_dark`: propext, Classical.choice, Quot.sound
- `PKM.C10_scaling`: propext, Classical.choice, Quot.sound
- `PKM.C10_total`: propext, Classical.choice, Quot.sound
- `PKM.C11_exp_log`: propext, Classical.choice, Quot.sound
- `PKM.C11_probabilities`: propext, Classical.choice, Quot.sound
- `PKM.C12_marginal_exists`: propext, Classical.choice, Quot.sound
- `PKM.C12_no_underscore`: propext, Classical.choice, Quot.sound
- `PKM.C12_one_underscore`: propext, Classical.choice, Quot.sound
- `PKM.C12_many_underscores`: propext, Classical.choice, Quot.sound
- `PKM.C12_unsorted_accepted`: propext, Classical.choice, Quot.sound
- `PKM.C12_cases`: propext, Classical.choice, Quot.sound
- `PKM.C12_accepted`: propext, Classical.choice, Quot.sound
- `PKM.C12_unsorted_density_rejected`: propext, Classical.choice, Quot.sound
- `PKM.C13_means`: propext, Classical.choice, Quot.sound
- `PKM.C13_count`: propext
- `PKM.C13_rejects`: propext, Classical.choice, Quot.sound
- `PKM.C14_mean_in_grid`: propext, Classical.choice, Quot.sound
- `PKM.C15_total_expectation`: propext, Classical.choice, Quot.sound
- `PKM.C16_central_moments`: propext, Classical.choice, Quot.sound
- `PKM.C16_noncentral_moments`: propext, Classical.choice, Quot.sound
- `PKM.C16_variance`: propext, Classical.choice, Quot.sound
- `PKM.C17_normal_moments`: propext, Classical.choice, Quot.sound
- `PKM.C17_excess`: propext, Classical.choice, Quot.sound
- `PKM.C17_excess_error`: propext, Classical.choice, Quot.sound
- `PKM.C17_skewness_kurtosis`: propext, Classical.choice, Quot.sound
- `PKM.C18_covariance`: propext, Classical.choice, Quot.sound
- `PKM.C18_count`: propext
- `PKM.C18_formula`: propext, Classical.choice, Quot.sound
- `PKM.C18_rejects`: propext, Classical.choice, Quot.sound
- `PKM.C19_correlation`: propext, Classical.choice, Quot.sound
- `PKM.C20_l_moments`: propext, Classical.choice, Quot.sound
- `PKM.C20_l_mean_is_mean`: propext, Classical.choice, Quot.sound
- `PKM.C21_dispersion_nonneg`: propext, Classical.choice, Quot.sound
- `PKM.C21_affine`: propext, Classical.choice, Quot.sound
- `PKM.C21_scaling`: propext, Classical.choice, Quot.sound
- `PKM.C21_translation_partial`: propext, Classical.choice, Quot.sound
- `PKM.C21_translation_fails`: propext, Classical.choice, Quot.sound
- `PKM.C22_position_rejected`: propext, Classical.choice, Quot.sound
- `PKM.C22_one_variable`: propext, Classical.choice, Quot.sound
- `PKM.C22_order_positive`: propext, Classical.choice, Quot.sound
- `PKM.C22_normal_odd`: propext, Classical.choice, Quot.sound
- `PKM.C22_normal_dispersion`: propext, Classical.choice, Quot.sound
- `PKM.C22_excess_odd`: propext, Classical.choice, Quot.sound
- `PKM.C23_padding`: propext, Classical.choice, Quot.sound
- `PKM.C23_padded_batches`: propext, Classical.choice, Quot.sound
- `PKM.C23_spectra`: propext, Classical.choice, Quot.sound
- `PKM.C23_batches`: propext, Classical.choice, Quot.sound
- `PKM.C23_failures`: propext, Classical.choice, Quot.sound
- `PKM.C24_flux_dv`: propext, Classical.choice, Quot.sound
- `PKM.C24_flux`: propext, Classical.choice, Quot.sound
- `PKM.C24_flux_error`: propext, Classical.choice, Quot.sound
- `PKM.C25_validation`: propext, Classical.choice, Quot.sound
- `PKM.C25_symmetric`: propext, Classical.choice, Quot.sound
- `PKM.C25_even`: propext, Classical.choice, Quot.sound
- `PKM.C26_linear`: propext, Classical.choice, Quot.sound
- `PKM.C26_convolution`: propext, Classical.choice, Quot.sound
- `PKM.C26_at_rest`: propext, Classical.choice, Quot.sound
- `PKM.C27_marginals`: propext, Classical.choice, Quot.sound
- `PKM.C27_weighted_sum`: propext, Classical.choice, Quot.sound
- `PKM.C27_conditionals`: propext, Classical.choice, Quot.sound
- `PKM.C27_light_weighted`: propext, Classical.choice, Quot.sound
- `PKM.C27_uncollapsed`: propext, Classical.choice, Quot.sound
- `PKM.C27_rejects`: propext, Classical.choice, Quot.sound
- `PKM.C27_light_unsorted`: propext, Classical.choice, Quot.sound
- `PKM.C27_nested`: propext, Classical.choice, Quot.sound
- `PKM.C28_constructor`: propext, Classical.choice, Quot.sound
- `PKM.C28_normalised`: propext, Classical.choice, Quot.sound
- `PKM.C28_constructed`: propext, Classical.choice, Quot.sound
- `PKM.C29_mean_partial`: propext, Classical.choice, Quot.sound
- `PKM.C29_central_moment_partial`: propext, Classical.choice, Quot.sound
- `PKM.C29_unconditional`: propext, Classical.choice, Quot.sound
- `PKM.C29_covariance`: propext, Classical.choice, Quot.sound
- `PKM.C29_l_moments`: propext, Classical.choice, Quot.sound
- `PKM.C29_fails_at_empty_members`: propext, Classical.choice, Quot.sound
- `PKM.C30_weighted_sum`: propext, Classical.choice, Quot.sound
- `PKM.C30_empty`: propext, Classical.choice, Quot.sound
- `PKM.C30_missing`: propext, Classical.choice, Quot.sound
- `PKM.C30_shapes`: propext, Classical.choice, Quot.sound
- `PKM.C31_bins`: propext, Classical.choice, Quot.sound
- `PKM.C31_rejects`: propext, Classical.choice, Quot.sound
- `PKM.C31_invalid_accepted`: propext, Classical.choice, Quot.sound
- `PKM.C32_marginals`: propext, Classical.choice, Quot.sound
- `PKM.C32_conditionals`: propext, Classical.choice, Quot.sound
- `PKM.C32_ingredients`: propext, Classical.choice, Quot.sound
- `PKM.C32_light_ingredients`: propext, Classical.choice, Quot.sound
- `PKM.C32_truncated`: propext, Classical.choice, Quot.sound
- `PKM.C33_velocity_bins`: propext, Classical.choice, Quot.sound
- `PKM.C33_density`: propext, Classical.choice, Quot.sound
- `PKM.C34_mean`: propext, Classical.choice, Quot.sound
- `PKM.C34_central`: propext, Classical.choice, Quot.sound
- `PKM.C34_noncentral`: propext, Classical.choice, Quot.sound
- `PKM.C34_closed_form`: propext, Classical.choice, Quot.sound
- `PKM.C34_empty`: propext, Classical.choice, Quot.sound
- `PKM.C34_ignores_z`: propext, Classical.choice, Quot.sound
- `PKM.C34_ignores_z_wrong`: propext, Classical.choice, Quot.sound
- `PKM.C34_factorial2`: propext, Classical.choice, Quot.sound
- `PKM.C34_factorial2_wrong`: propext, Classical.choice, Quot.sound
- `PKM.C34_methods`: propext, Classical.choice, Quot.sound
- `PKM.C34_methods_mu`: propext, Classical.choice, Quot.sound
- `PKM.C35_normalised`: propext, Classical.choice, Quot.sound
- `PKM.C35_interpolated`: propext, Classical.choice, Quot.sound
- `PKM.C35_table_increasing`: propext, Classical.choice, Quot.sound
- `PKM.C35_evaluate`: propext, Classical.choice, Quot.sound
- `PKM.C36_between_limits`: propext, Classical.choice, Quot.sound
- `PKM.C37_spatial`: propext, Classical.choice, Quot.sound
- `PKM.C37_depletion`: propext, Classical.choice, Quot.sound
- `PKM.C37_dispersion`: propext, Classical.choice, Quot.sound
- `PKM.C37_rotation`: propext, Classical.choice, Quot.sound
- `PKM.C37_rejects`: propext, Classical.choice, Quot.sound
- `PKM.C37_zero_rmax`: propext, Classical.choice, Quot.sound
- `PKM.C37_on_minor_axis`: propext, Classical.choice, Quot.sound
- `PKM.C38_spatial`: propext, Classical.choice, Quot.sound
- `PKM.C38_track`: propext, Classical.choice, Quot.sound
- `PKM.C38_rejects`: propext, Classical.choice, Quot.sound
- `PKM.C38_velocity`: propext, Classical.choice, Quot.sound
- `PKM.C38_order`: propext, Classical.choice, Quot.sound
- `PKM.C38_constants`: propext, Classical.choice, Quot.sound
- `PKM.C38_equal_angles`: propext, Classical.choice, Quot.sound
- `PKM.C39_component`: propext, Classical.choice, Quot.sound
- `PKM.C39_histogram`: propext, Classical.choice, Quot.sound
- `PKM.C39_partition`: propext, Classical.choice, Quot.sound
- `PKM.C39_order`: propext, Classical.choice, Quot.sound
- `PKM.C39_mass_scale`: propext, Classical.choice, Quot.sound
- `PKM.C39_ignored`: propext, Classical.choice, Quot.sound
- `PKM.C39_equal_masses`: propext, Classical.choice, Quot.sound
- `PKM.C39_counts`: propext, Classical.choice, Quot.sound
- `PKM.C39_nothing_in_range`: propext, Classical.choice, Quot.sound
- `PKM.C39_lengths`: propext, Classical.choice, Quot.sound
- `PKM.C40_constant`: propext, Classical.choice, Quot.sound
- `PKM.C40_shot`: propext, Classical.choice, Quot.sound
- `PKM.C40_empty`: propext, Classical.choice, Quot.sound
- `PKM.C40_never_negative`: propext, Classical.choice, Quot.sound
- `PKM.C40_negative_flux`: propext, Classical.choice, Quot.sound
- `PKM.C41_no_datacube`: propext, Classical.choice, Quot.sound
- `PKM.C41_data`: propext, Classical.choice, Quot.sound
- `PKM.C41_history`: propext, Classical.choice, Quot.sound
- `PKM.C41_after_history`: propext, Classical.choice, Quot.sound
- `PKM.C42_rebin`: propext, Classical.choice, Quot.sound
- `PKM.C42_partition`: propext, Classical.choice, Quot.sound
- `PKM.C42_flux`: propext, Classical.choice, Quot.sound
- `PKM.C42_identity`: propext, Classical.choice, Quot.sound
- `PKM.C42_zero`: propext, Classical.choice, Quot.sound
- `PKM.C43_edges_iff`: propext, Classical.choice, Quot.sound
- `PKM.C43_edges_partial`: propext, Classical.choice, Quot.sound
- `PKM.C43_snapped`: propext, Classical.choice, Quot.sound
- `PKM.C43_too_few`: propext, Classical.choice, Quot.sound
- `PKM.C44_get_ssp_partial`: propext, Classical.choice, Quot.sound
- `PKM.C44_rebinned_error`: propext, Classical.choice, Quot.sound
- `PKM.C44_rebinned_wrong`: propext, Classical.choice, Quot.sound
- `PKM.C44_spacing`: propext, Classical.choice, Quot.sound
- `PKM.C45_split`: propext, Classical.choice, Quot.sound
- `PKM.C45_join`: propext, Classical.choice, Quot.sound
- `PKM.C45_join_error`: propext, Classical.choice, Quot.sound
- `PKM.C45_bad_sign`: propext, Classical.choice, Quot.sound
- `PKM.C45_no_Z`: propext, Classical.choice, Quot.sound
- `PKM.C46_filter`: propext, Classical.choice, Quot.sound
- `PKM.C46_complete`: propext, Classical.choice, Quot.sound
- `PKM.C46_columns`: propext, Classical.choice, Quot.sound
- `PKM.C46_succeeds`: propext, Classical.choice, Quot.sound
- `PKM.C46_wrong_length`: propext, Classical.choice, Quot.sound
- `PKM.C46_no_cache`: propext, Classical.choice, Quot.sound
- `PKM.C46_duplicates`: propext, Classical.choice, Quot.sound
- `PKM.C47_truncate`: propext, Classical.choice, Quot.sound
- `PKM.C47_outside`: propext, Classical.choice, Quot.sound
- `PKM.C48_unchanged`: propext, Classical.choice, Quot.sound
- `PKM.C48_answers`: propext, Classical.choice, Quot.sound
- `PKM.C48_answers_kept`: propext, Classical.choice, Quot.sound
- `PKM.C48_values_shared`: propext, Classical.choice, Quot.sound
- `PKM.C48_values_new`: propext, Classical.choice, Quot.sound
- `PKM.C48_density_shared`: propext, Classical.choice, Quot.sound
- `PKM.C49_before`: propext, Classical.choice, Quot.sound
- `PKM.C49_disk`: propext, Classical.choice, Quot.sound
- `PKM.C49_disk_documented`: propext, Classical.choice, Quot.sound
- `PKM.C49_frame`: propext, Classical.choice, Quot.sound
- `PKM.C49_stream`: propext, Classical.choice, Quot.sound
- `PKM.C49_stream_frame`: propext, Classical.choice, Quot.sound
- `PKM.C50_unchanged`: propext, Classical.choice, Quot.sound
- `PKM.C50_last`: propext, Classical.choice, Quot.sound
- `PKM.C50_raises`: propext, Classical.choice, Quot.sound
- `PKM.C50_second`: propext, Classical.choice, Quot.sound
- `PKM.C50_sound`: propext, Classical.choice, Quot.sound
- `PKM.C50_failed`: propext, Classical.choice, Quot.sound
- `PKM.C51_saved`: propext, Classical.choice, Quot.sound
- `PKM.C51_frame`: propext, Classical.choice, Quot.sound
- `PKM.C51_crash`: propext, Classical.choice, Quot.sound
- `PKM.C51_kept`: propext, Classical.choice, Quot.sound
- `PKM.C51_not_atomic`: propext, Classical.choice, Quot.sound
- `PKM.C51_unpicklable`: propext, Classical.choice, Quot.sound
- `PKM.C51_nested`: propext, Classical.choice, Quot.sound
- `PKM.C51_blocked`: propext, Classical.choice, Quot.sound
- `PKM.C51_is_directory`: propext, Classical.choice, Quot.sound
- `PKM.C51_default`: propext, Classical.choice, Quot.sound
- `PKM.C51_no_slash`: propext, Classical.choice, Quot.sound
- `PKM.C52_frame`: propext, Classical.choice, Quot.sound
- `PKM.C52_compose`: propext, Classical.choice, Quot.sound
- `PKM.C52_axis`: propext, Classical.choice, Quot.sound
- `PKM.C53_image`: propext, Classical.choice, Quot.sound
- `PKM.C53_refused`: propext, Classical.choice, Quot.sound
- `PKM.C53_unchanged_partial`: propext, Classical.choice, Quot.sound
- `PKM.C53_list_grows`: propext, Classical.choice, Quot.sound
- `PKM.C53_stale_extent`: propext, Classical.choice, Quot.sound
- `PKM.C53_mixed`: propext, Classical.choice, Quot.sound
- `PKM.C53_unknown`: propext, Classical.choice, Quot.sound
- `PKM.C54_ssps`: propext, Classical.choice, Quot.sound
- `PKM.C55_thin`: propext, Classical.choice, Quot.sound
- `PKM.C55_identity`: propext, Classical.choice, Quot.sound
- `PKM.C55_full`: propext, Classical.choice, Quot.sound
- `PKM.C55_zero`: propext, Classical.choice, Quot.sound
- `PKM.C56_data`: propext, Classical.choice, Quot.sound
- `PKM.C56_ssps`: propext, Classical.choice, Quot.sound
- `PKM.C57_adjacent_partial`: propext, Classical.choice, Quot.sound
- `PKM.C57_one`: propext, Classical.choice, Quot.sound
- `PKM.C57_strided`: propext, Classical.choice, Quot.sound
- `PKM.C57_divisible`: propext, Classical.choice, Quot.sound
- `PKM.C57_not_adjacent`: propext, Classical.choice, Quot.sound
- `PKM.C57_zero`: propext, Classical.choice, Quot.sound
- `PKM.C58_reset`: propext, Classical.choice, Quot.sound
- `PKM.C58_lost_cache`: propext, Classical.choice, Quot.sound
- `PKM.C59_constructed`: propext, Classical.choice, Quot.sound
- `PKM.C59_pixels`: propext, Classical.choice, Quot.sound
- `PKM.C59_doppler`: propext, Classical.choice, Quot.sound
- `PKM.C59_tabulated`: propext, Classical.choice, Quot.sound
- `PKM.C59_ready`: propext, Classical.choice, Quot.sound
- `PKM.C59_no_range`: propext, Classical.choice, Quot.sound
- `PKM.C60_ticks`: propext, Classical.choice, Quot.sound
- `PKM.C60_rebin_partial`: propext, Classical.choice, Quot.sound
- `PKM.C60_object`: propext, Classical.choice, Quot.sound
- `PKM.C60_new_partial`: propext, Classical.choice, Quot.sound
- `PKM.C60_rebin_wrong`: propext, Classical.choice, Quot.sound
- `PKM.C61_physical`: propext, Classical.choice, Quot.sound
- `PKM.C61_discrete`: propext, Classical.choice, Quot.sound
- `PKM.C61_spacing`: propext, Classical.choice, Quot.sound
- `PKM.C61_spectrum`: propext, Classical.choice, Quot.sound
- `PKM.C61_ambiguous`: propext, Classical.choice, Quot.sound
- `PKM.C62_archive`: propext, Classical.choice, Quot.sound
- `PKM.C62_other`: propext, Classical.choice, Quot.sound
- `PKM.C62_unevaluated`: propext, Classical.choice, Quot.sound
- `PKM.C63_batches`: propext, Classical.choice, Quot.sound
- `PKM.C63_convolution_partial`: propext, Classical.choice, Quot.sound
- `PKM.C63_odd`: propext, Classical.choice, Quot.sound
- `PKM.C63_flux`: propext, Classical.choice, Quot.sound
- `PKM.C63_shift_partial`: propext, Classical.choice, Quot.sound
- `PKM.C63_odd_wrong`: propext, Classical.choice, Quot.sound
- `PKM.C64_answers`: propext, Classical.choice, Quot.sound
- `PKM.C64_parameters`: propext, Classical.choice, Quot.sound
- `PKM.C64_history_irrelevant`: propext, Classical.choice, Quot.sound
- `PKM.C64_cube`: propext, Classical.choice, Quot.sound
- `PKM.C64_answers_kept`: propext, Classical.choice, Quot.sound
- `PKM.C64_answers_new`: propext, Classical.choice, Quot.sound
- `PKM.C64_mean_shared`: propext, Classical.choice, Quot.sound
- `PKM.C65_marginals`: propext, Classical.choice, Quot.sound
- `PKM.C65_conditionals`: propext, Classical.choice, Quot.sound
- `PKM.C65_weighted_sum`: propext, Classical.choice, Quot.sound
- `PKM.C65_uncollapsed`: propext, Classical.choice, Quot.sound
- `PKM.C65_constructed`: propext, Classical.choice, Quot.sound
- `PKM.C66_mean_partial`: propext, Classical.choice, Quot.sound
- `PKM.C66_mean_given_velocity`: propext, Classical.choice, Quot.sound
- `PKM.C66_central_about_mean`: propext, Classical.choice, Quot.sound
- `PKM.C66_central_partial`: propext, Classical.choice, Quot.sound
- `PKM.C66_normalised`: propext, Classical.choice, Quot.sound
- `PKM.C66_mean_given_velocity_wrong`: propext, Classical.choice, Quot.sound
- `PKM.C66_velocity_given_all_wrong`: propext, Classical.choice, Quot.sound
- `PKM.C67_answers`: propext, Classical.choice, Quot.sound
- `PKM.C67_answers_any`: propext, Classical.choice, Quot.sound
- `PKM.C67_ybar`: propext, Classical.choice, Quot.sound
- `PKM.C67_arrays_kept`: propext, Classical.choice, Quot.sound
- `PKM.C67_answers_new`: propext, Classical.choice, Quot.sound
- `PKM.C67_ybar_new`: propext, Classical.choice, Quot.sound
- `PKM.C67_weights_copied`: propext, Classical.choice, Quot.sound
- `PKM.C67_list_shared`: propext, Classical.choice, Quot.sound
- `PKM.C68_spread`: propext, Classical.choice, Quot.sound
- `PKM.C68_shape`: propext, Classical.choice, Quot.sound
- `PKM.C68_velocity_spread_pos`: propext, Classical.choice, Quot.sound
- `PKM.C68_covariance_partial`: propext, Classical.choice, Quot.sound
- `PKM.C68_covariance_velocity`: propext, Classical.choice, Quot.sound
- `PKM.C68_correlation_partial`: propext, Classical.choice, Quot.sound
- `PKM.C68_correlation_velocity`: propext, Classical.choice, Quot.sound
- `PKM.C68_l_moments_partial`: propext, Classical.choice, Quot.sound
- `PKM.C68_l_moments_of_distribution`: propext, Classical.choice, Quot.sound
- `PKM.C68_correlation_wrong`: propext, Classical.choice, Quot.sound
- `PKM.C68_l_mean_wrong`: propext, Classical.choice, Quot.sound
- `PKM.C69_spread_partial`: propext, Classical.choice, Quot.sound
- `PKM.C69_shape_partial`: propext, Classical.choice, Quot.sound
- `PKM.C69_covariance_partial`: propext, Classical.choice, Quot.sound
- `PKM.C69_covariance_velocity`: propext, Classical.choice, Quot.sound
- `PKM.C69_correlation_partial`: propext, Classical.choice, Quot.sound
- `PKM.C69_correlation_velocity`: propext, Classical.choice, Quot.sound
- `PKM.C69_l_moments_partial`: propext, Classical.choice, Quot.sound
- `PKM.C69_l_moments_of_distribution`: propext, Classical.choice, Quot.sound
- `PKM.C69_correlation_wrong`: propext, Classical.choice, Quot.sound
- `PKM.C70_loads_partial`: propext, Classical.choice, Quot.sound
- `PKM.C70_too_few`: propext, Classical.choice, Quot.sound
- `PKM.C70_default_fails`: propext, Classical.choice, Quot.sound
- `PKM.C70_component`: propext, Classical.choice, Quot.sound
- `PKM.C70_whole_chain_partial`: propext, Classical.choice, Quot.sound
- `PKM.C71_grid_partial`: propext, Classical.choice, Quot.sound
- `PKM.C71_columns`: propext, Classical.choice, Quot.sound
- `PKM.C71_miles`: propext, Classical.choice, Quot.sound
- `PKM.C71_rejects`: propext, Classical.choice, Quot.sound
- `PKM.C71_probe`: propext, Classical.choice, Quot.sound
- `PKM.C71_base_class`: propext, Classical.choice, Quot.sound
- `PKM.C71_spacing_wrong`: propext, Classical.choice, Quot.sound
- `PKM.C71_mod_dir`: propext, Classical.choice, Quot.sound
- `PKM.C72_plain_partial`: propext, Classical.choice, Quot.sound
- `PKM.C72_units`: propext, Classical.choice, Quot.sound
- `PKM.C72_symmetric`: propext, Classical.choice, Quot.sound
- `PKM.C72_parametric`: propext, Classical.choice, Quot.sound
- `PKM.C72_mixture`: propext, Classical.choice, Quot.sound
- `PKM.C72_excess`: propext, Classical.choice, Quot.sound
- `PKM.C72_skewness_kurtosis`: propext, Classical.choice, Quot.sound
- `PKM.C72_bound_fails`: propext, Classical.choice, Quot.sound
- `PKM.C72_dispersion_negative`: propext, Classical.choice, Quot.sound
- `PKM.C73_plain_distributions`: propext, Classical.choice, Quot.sound
- `PKM.C73_plain_moments`: propext, Classical.choice, Quot.sound
- `PKM.C73_plain_datacube`: propext, Classical.choice, Quot.sound
- `PKM.C73_mixture_partial`: propext, Classical.choice, Quot.sound
- `PKM.C73_parametric_partial`: propext, Classical.choice, Quot.sound
- `PKM.C73_parametric_lost`: propext, Classical.choice, Quot.sound
- `PKM.C74_distributions`: propext, Classical.choice, Quot.sound
- `PKM.C74_means`: propext, Classical.choice, Quot.sound
- `PKM.C74_central`: propext, Classical.choice, Quot.sound
- `PKM.C74_total_weights`: propext, Classical.choice, Quot.sound
- `PKM.C74_datacube`: propext, Classical.choice, Quot.sound
- `PKM.C75_marginals`: propext, Classical.choice, Quot.sound
- `PKM.C75_fallback`: propext, Classical.choice, Quot.sound
- `PKM.C75_conditionals`: propext, Classical.choice, Quot.sound
- `PKM.C75_moments`: propext, Classical.choice, Quot.sound
- `PKM.C75_own_mean`: propext, Classical.choice, Quot.sound
- `PKM.C75_stored_unused`: propext, Classical.choice, Quot.sound
- `PKM.C75_datacube`: propext, Classical.choice, Quot.sound
- `PKM.C76_distributions`: propext, Classical.choice, Quot.sound
- `PKM.C76_means`: propext, Classical.choice, Quot.sound
- `PKM.C76_dispersions`: propext, Classical.choice, Quot.sound
- `PKM.C77_accepted`: propext, Classical.choice, Quot.sound
- `PKM.C77_distributions`: propext, Classical.choice, Quot.sound
- `PKM.C77_moments`: propext, Classical.choice, Quot.sound
- `PKM.C77_datacube`: propext, Classical.choice, Quot.sound
- `PKM.C78_law`: propext, Classical.choice, Quot.sound
- `PKM.C78_moments`: propext, Classical.choice, Quot.sound
- `PKM.C79_sums`: propext, Classical.choice, Quot.sound
- `PKM.C79_datacube`: propext, Classical.choice, Quot.sound
- `PKM.C79_constructor`: propext, Classical.choice, Quot.sound
- `PKM.C80_given`: propext, Classical.choice, Quot.sound
- `PKM.C80_total`: propext, Classical.choice, Quot.sound
- `PKM.C80_marginals`: propext, Classical.choice, Quot.sound
- `PKM.C80_tabulated`: propext, Classical.choice, Quot.sound
- `PKM.C80_enough`: propext, Classical.choice, Quot.sound
- `PKM.C81_full_turn`: propext, Classical.choice, Quot.sound
- `PKM.C81_full_turn_stream`: propext, Classical.choice, Quot.sound
- `PKM.C81_half_turn`: propext, Classical.choice, Quot.sound
- `PKM.C82_point_symmetry`: propext, Classical.choice, Quot.sound
- `PKM.C83_disk_units`: propext, Classical.choice, Quot.sound
- `PKM.C83_stream_units`: propext, Classical.choice, Quot.sound
- `PKM.C83_cube`: propext, Classical.choice, Quot.sound
- `PKM.C84_disk`: propext, Classical.choice, Quot.sound
- `PKM.C84_stream`: propext, Classical.choice, Quot.sound
- `PKM.C84_order`: propext, Classical.choice, Quot.sound
- `PKM.C84_stale`: propext, Classical.choice, Quot.sound
- `PKM.C84_matters`: propext, Classical.choice, Quot.sound
- `PKM.C85_richer`: propext, Classical.choice, Quot.sound
- `PKM.C85_disk`: propext, Classical.choice, Quot.sound
- `PKM.C85_stream`: propext, Classical.choice, Quot.sound
- `PKM.C85_light`: propext, Classical.choice, Quot.sound
- `PKM.C85_disk_light`: propext, Classical.choice, Quot.sound
- `PKM.C86_older`: propext, Classical.choice, Quot.sound
- `PKM.C86_phi`: propext, Classical.choice, Quot.sound
- `PKM.C86_light`: propext, Classical.choice, Quot.sound
- `PKM.C86_recall`: propext, Classical.choice, Quot.sound
- `PKM.C87_profile`: propext, Classical.choice, Quot.sound
- `PKM.C87_concentration`: propext, Classical.choice, Quot.sound
- `PKM.C87_inside_out`: propext, Classical.choice, Quot.sound
- `PKM.C87_age_gradient`: propext, Classical.choice, Quot.sound
- `PKM.C87_grown`: propext, Classical.choice, Quot.sound
- `PKM.C88_curve`: propext, Classical.choice, Quot.sound
- `PKM.C88_profile`: propext, Classical.choice, Quot.sound
- `PKM.C88_scale`: propext, Classical.choice, Quot.sound
- `PKM.C88_hotter`: propext, Classical.choice, Quot.sound
- `PKM.C89_disk`: propext, Classical.choice, Quot.sound
- `PKM.C89_disk_older`: propext, Classical.choice, Quot.sound
- `PKM.C89_stream`: propext, Classical.choice, Quot.sound
- `PKM.C89_stream_older`: propext, Classical.choice, Quot.sound
- `PKM.C89_strict`: propext, Classical.choice, Quot.sound
- `PKM.C90_plain`: propext, Classical.choice, Quot.sound
- `PKM.C90_plain_covariance`: propext, Classical.choice, Quot.sound
- `PKM.C90_parametric`: propext, Classical.choice, Quot.sound
- `PKM.C90_parametric_covariance`: propext, Classical.choice, Quot.sound
- `PKM.C90_velocity_bins`: propext, Classical.choice, Quot.sound
- `PKM.C90_mixture`: propext, Classical.choice, Quot.sound
- `PKM.C90_mixture_covariance`: propext, Classical.choice, Quot.sound
- `PKM.C90_narrower`: propext, Classical.choice, Quot.sound
- `PKM.C91_plain`: propext, Classical.choice, Quot.sound
- `PKM.C91_parametric`: propext, Classical.choice, Quot.sound
- `PKM.C91_mixture`: propext, Classical.choice, Quot.sound
- `PKM.C91_evenly_bright`: propext, Classical.choice, Quot.sound
- `PKM.C92_faster`: propext, Classical.choice, Quot.sound
- `PKM.C92_stream`: propext, Classical.choice, Quot.sound
- `PKM.C92_disk`: propext, Classical.choice, Quot.sound
- `PKM.C93_moments_partial`: propext, Classical.choice, Quot.sound
- `PKM.C93_velocity`: propext, Classical.choice, Quot.sound
- `PKM.C93_plain`: propext, Classical.choice, Quot.sound
- `PKM.C93_about_mean`: propext, Classical.choice, Quot.sound
- `PKM.C93_velocity_wrong`: propext, Classical.choice, Quot.sound
- `PKM.C94_other_end`: propext, Classical.choice, Quot.sound
- `PKM.C94_one_point`: propext, Classical.choice, Quot.sound
- `PKM.C95_mean_partial`: propext, Classical.choice, Quot.sound
- `PKM.C95_central_partial`: propext, Classical.choice, Quot.sound
- `PKM.C95_distributions_raise`: propext, Classical.choice, Quot.sound
- `PKM.C95_means_raise`: propext, Classical.choice, Quot.sound
- `PKM.C95_deeper_raise`: propext, Classical.choice, Quot.sound
- `PKM.C95_datacube`: propext, Classical.choice, Quot.sound
- `PKM.C95_velocity_wrong`: propext, Classical.choice, Quot.sound
- `PKM.C96_plain_distributions`: propext, Classical.choice, Quot.sound
- `PKM.C96_plain_moments`: propext, Classical.choice, Quot.sound
- `PKM.C96_parametric_distributions`: propext, Classical.choice, Quot.sound
- `PKM.C96_parametric_moments`: propext, Classical.choice, Quot.sound
- `PKM.C96_mixture_distributions`: propext, Classical.choice, Quot.sound
- `PKM.C96_mixture_moments`: propext, Classical.choice, Quot.sound
- `PKM.C96_mixture_velocity_given_all`: propext, Classical.choice, Quot.sound
- `PKM.C96_mixture_datacube`: propext, Classical.choice, Quot.sound
- `PKM.C96_plain_datacube`: propext, Classical.choice, Quot.sound
- `PKM.C96_parametric_datacube`: propext, Classical.choice, Quot.sound
- `PKM.C96_library`: propext, Classical.choice, Quot.sound
- `PKM.C97_plain_distributions`: propext, Classical.choice, Quot.sound
- `PKM.C97_plain_moments`: propext, Classical.choice, Quot.sound
- `PKM.C97_parametric_distributions_partial`: propext, Classical.choice, Quot.sound
- `PKM.C97_parametric_moments_partial`: propext, Classical.choice, Quot.sound
- `PKM.C97_mixture_distributions_partial`: propext, Classical.choice, Quot.sound
- `PKM.C97_mixture_moments_partial`: propext, Classical.choice, Quot.sound
- `PKM.C97_plain_datacube`: propext, Classical.choice, Quot.sound
- `PKM.C97_parametric_datacube`: propext, Classical.choice, Quot.sound
- `PKM.C97_mixture_datacube`: propext, Classical.choice, Quot.sound
- `PKM.C97_velocity_wrong`: propext, Classical.choice, Quot.sound
- `PKM.C98_plain_distributions`: propext, Classical.choice, Quot.sound
- `PKM.C98_plain_moments`: propext, Classical.choice, Quot.sound
- `PKM.C98_plain_marginals`: propext, Classical.choice, Quot.sound
- `PKM.C98_parametric_distributions_partial`: propext, Classical.choice, Quot.sound
- `PKM.C98_parametric_moments_partial`: propext, Classical.choice, Quot.sound
- `PKM.C98_parametric_marginals_partial`: propext, Classical.choice, Quot.sound
- `PKM.C98_mixture_distributions_partial`: propext, Classical.choice, Quot.sound
- `PKM.C98_mixture_moments_partial`: propext, Classical.choice, Quot.sound
- `PKM.C98_mixture_marginals_partial`: propext, Classical.choice, Quot.sound
- `PKM.C98_velocity_wrong`: propext, Classical.choice, Quot.sound
- `PKM.C99_metallicity`: propext, Classical.choice, Quot.sound
- `PKM.C99_velocity`: propext, Classical.choice, Quot.sound
- `PKM.C99_joint`: propext, Classical.choice, Quot.sound
- `PKM.C99_mass`: propext, Classical.choice, Quot.sound
- `PKM.C99_metallicity_moments`: propext, Classical.choice, Quot.sound
- `PKM.C99_velocity_moments`: propext, Classical.choice, Quot.sound
- `PKM.C99_covariance`: propext, Classical.choice, Quot.sound
- `PKM.C99_metallicity_lmoments`: propext, Classical.choice, Quot.sound
- `PKM.C99_light_wrong`: propext, Classical.choice, Quot.sound
- `PKM.C100_plain_linear`: propext, Classical.choice, Quot.sound
- `PKM.C100_parametric_linear`: propext, Classical.choice, Quot.sound
- `PKM.C100_plain_absent`: propext, Classical.choice, Quot.sound
- `PKM.C100_parametric_absent`: propext, Classical.choice, Quot.sound
- `PKM.C100_plain_featureless`: propext, Classical.choice, Quot.sound
- `PKM.C100_parametric_featureless`: propext, Classical.choice, Quot.sound
- `PKM.C100_plain_equal`: propext, Classical.choice, Quot.sound
- `PKM.C100_parametric_equal`: propext, Classical.choice, Quot.sound
- `PKM.C100_mixture_linear`: propext, Classical.choice, Quot.sound
- `PKM.C101_disk`: propext, Classical.choice, Quot.sound
- `PKM.C101_aligned_disk`: propext, Classical.choice, Quot.sound
- `PKM.C101_stream`: propext, Classical.choice, Quot.sound
- `PKM.C101_on_the_cut`: propext, Classical.choice, Quot.sound
- `PKM.C102_plain_partial`: propext, Classical.choice, Quot.sound
- `PKM.C102_parametric_partial`: propext, Classical.choice, Quot.sound
- `PKM.C102_mixture_partial`: propext, Classical.choice, Quot.sound
- `PKM.C102_grey`: propext, Classical.choice, Quot.sound
- `PKM.C102_wrong`: propext, Classical.choice, Quot.sound
- `PKM.C103_noise`: propext, Classical.choice, Quot.sound
- `PKM.C103_plain_partial`: propext, Classical.choice, Quot.sound
- `PKM.C103_parametric_partial`: propext, Classical.choice, Quot.sound
- `PKM.C103_weak_lines_partial`: propext, Classical.choice, Quot.sound
- `PKM.C103_mixture`: propext, Classical.choice, Quot.sound
- `PKM.C103_negative`: propext, Classical.choice, Quot.sound
- `PKM.C104_disk_velocity_bins`: propext, Classical.choice, Quot.sound
- `PKM.C104_stream_velocity_bins`: propext, Classical.choice, Quot.sound
- `PKM.C104_cube`: propext, Classical.choice, Quot.sound
- `PKM.C105_stream_partial`: propext, Classical.choice, Quot.sound
- `PKM.C105_disk_partial`: propext, Classical.choice, Quot.sound
- `PKM.C105_cube`: propext, Classical.choice, Quot.sound
- `PKM.C105_disk_wrong`: propext, Classical.choice, Quot.sound
- `PKM.C106_disk`: propext, Classical.choice, Quot.sound
- `PKM.C106_stream_partial`: propext, Classical.choice, Quot.sound
- `PKM.C106_stream_wrong`: propext, Classical.choice, Quot.sound
- `PKM.C107_distributions`: propext, Classical.choice, Quot.sound
- `PKM.C107_distributions_plain`: propext, Classical.choice, Quot.sound
- `PKM.C107_means`: propext, Classical.choice, Quot.sound
- `PKM.C107_weights`: propext, Classical.choice, Quot.sound
- `PKM.C107_datacube`: propext, Classical.choice, Quot.sound
- `PKM.C108_distributions`: propext, Classical.choice, Quot.sound
- `PKM.C108_means`: propext, Classical.choice, Quot.sound
- `PKM.C108_datacube`: propext, Classical.choice, Quot.sound
- `PKM.C108_within_bins`: propext, Classical.choice, Quot.sound
- `PKM.C109_conditionals`: propext, Classical.choice, Quot.sound
- `PKM.C109_marginals`: propext, Classical.choice, Quot.sound
- `PKM.C109_conditionals_plain`: propext, Classical.choice, Quot.sound
- `PKM.C109_marginals_plain`: propext, Classical.choice, Quot.sound
- `PKM.C109_means_plain`: propext, Classical.choice, Quot.sound
- `PKM.C109_means_parametric`: propext, Classical.choice, Quot.sound
- `PKM.C109_means_mixture`: propext, Classical.choice, Quot.sound
- `PKM.C109_velocity_wrong`: propext, Classical.choice, Quot.sound
- `PKM.C110_even`: propext, Classical.choice, Quot.sound
- `PKM.C110_even_datacube`: propext, Classical.choice, Quot.sound
- `PKM.C110_streams`: propext, Classical.choice, Quot.sound
- `PKM.C110_disks`: propext, Classical.choice, Quot.sound
- `PKM.C111_streams`: propext, Classical.choice, Quot.sound
- `PKM.C111_disks`: propext, Classical.choice, Quot.sound
- `PKM.C111_stream_pixels`: propext, Classical.choice, Quot.sound
- `PKM.C111_hotter_streams`: propext, Classical.choice, Quot.sound
- `PKM.C112_distributions`: propext, Classical.choice, Quot.sound
- `PKM.C112_means`: propext, Classical.choice, Quot.sound
- `PKM.C112_variances`: propext, Classical.choice, Quot.sound
- `PKM.C113_tables`: propext, Classical.choice, Quot.sound
- `PKM.C113_particles`: propext, Classical.choice, Quot.sound
- `PKM.C113_cubes`: propext, Classical.choice, Quot.sound
- `PKM.C113_mixtures`: propext, Classical.choice, Quot.sound
- `PKM.C114_dispersion`: propext, Classical.choice, Quot.sound
- `PKM.C114_orders`: propext, Classical.choice, Quot.sound
- `PKM.C114_parametric`: propext, Classical.choice, Quot.sound
- `PKM.C114_mixture`: propext, Classical.choice, Quot.sound
- `PKM.C114_quarter_fails`: propext, Classical.choice, Quot.sound
- `PKM.C115_plain`: propext, Classical.choice, Quot.sound
- `PKM.C115_parametric`: propext, Classical.choice, Quot.sound
- `PKM.C115_mixture`: propext, Classical.choice, Quot.sound
- `PKM.C116_plain`: propext, Classical.choice, Quot.sound
- `PKM.C116_parametric`: propext, Classical.choice, Quot.sound
- `PKM.C116_mixture`: propext, Classical.choice, Quot.sound
- `PKM.C116_mixture_any`: propext, Classical.choice, Quot.sound
- `PKM.C117_plain`: propext, Classical.choice, Quot.sound
- `PKM.C117_mixture`: propext, Classical.choice, Quot.sound
- `PKM.C117_parametric`: propext, Classical.choice, Quot.sound
- `PKM.C117_mixture_any`: propext, Classical.choice, Quot.sound
