# Axioms of the property theorems

As printed by `#print axioms` for every theorem of `MANIFEST.json` (namespace `Verif.Thm`).

## Classical.choice, Quot.sound, propext

* C01_num_cores
* C01_num_cores_values
* C02_slices_tile
* C03_sliced_fit_iff
* C03_sliced_fit_never_suppresses
* C03_sliced_fit_partial
* C04_jump_reassembly
* C04_jump_slices_tile
* C05_neighbors_slicing_transparent
* C06_saturation_sticky
* C07_saturated_iff
* C07_saturated_iff_grown
* C08_exempt_never_detected
* C100_nframes_mismatch
* C100_straight_ramps
* C100_zero_frame_taken_out
* C101_group_dq
* C101_integration_dq
* C101_no_slope_no_flag
* C101_nothing_to_fit
* C102_expansion
* C102_only_jumps_count
* C102_straight_ramp
* C103_every_pixel
* C103_pixel_independent
* C104_array
* C104_pattern_length
* C104_single_ramp_loses_slope
* C104_straight_ramp
* C104_units
* C105_below_threshold
* C105_bounds
* C105_flagged_ignored
* C105_weighted_mean
* C106_count
* C106_first_good
* C106_no_false_alarm
* C106_ratio
* C106_searched
* C106_straight_ramps
* C106_zero_nframes_finds_nothing
* C107_few
* C107_flags
* C107_other_flags
* C107_processes_partial
* C107_showers_add
* C108_area_ratio
* C108_intensity
* C108_mean_has_no_fallback
* C108_ratio
* C108_reported_kept
* C108_shape
* C108_spectral_needs_ratio
* C109_error
* C109_from_var_needs_enable_var
* C109_keys
* C109_weight_type_accepted_too_early
* C10_growth_is_square_dilation_partial
* C110_direction
* C110_directions_only
* C110_does_not_turn
* C110_one_point
* C110_special
* C110_turns
* C110_two_points
* C110_wavelength
* C110_zero_not_written
* C111_image
* C111_spectrum
* C111_wavelength_first
* C112_angles
* C112_inverse
* C113_box
* C113_string
* C113_which_box
* C113_writes_360
* C114_fails
* C114_intersection
* C114_one
* C114_pieces_become_one
* C114_pieces_fail
* C114_union
* C115_cover
* C115_found
* C115_radius
* C116_catalog
* C116_parallax
* C116_position
* C116_rows
* C116_searched_before_moving
* C116_still
* C117_choice
* C117_directory
* C117_paths
* C117_rows
* C118_memory
* C119_chisq
* C119_dq
* C119_four_groups
* C119_rate_and_error
* C120_unit_free
* C121_disabled_box_still_applies
* C121_every_pixel
* C121_narrow_fails
* C121_returns
* C121_shape
* C121_where
* C122_bilinear
* C122_error
* C122_exact
* C122_larger_than_asked
* C122_spacing
* C123_corners
* C123_every_pixel
* C123_larger_than_asked
* C123_walk
* C124_area_counted_twice
* C124_flat_sky_matched
* C124_local
* C124_pixels
* C124_shift
* C124_whole
* C125_covers
* C125_horizon
* C125_north
* C125_parity
* C125_reference
* C125_scale
* C125_shape
* C125_transform_not_used
* C126_fill
* C126_flags
* C126_outside_box
* C126_shift
* C126_value
* C127_all
* C127_brightest
* C127_old_position
* C128_rate
* C129_half_hit
* C129_iterative
* C129_rate
* C129_single_pass
* C12_averaged_groups
* C130_ramp
* C130_rate
* C131_hit_not_found
* C131_integration
* C131_lone_jump
* C132_dnu_iff
* C132_saturated_iff
* C133_what_is_written
* C134_median
* C134_resampled
* C134_simple
* C134_two_images
* C135_flag_lost
* C135_flag_lost_iff
* C135_same_output_partial
* C135_same_values
* C136_history_free_iff
* C136_history_free_partial
* C136_history_matters
* C137_flags
* C137_returns_iff
* C137_single_reads_agree
* C137_zero_frame
* C138_additional
* C138_first_averaged_inexact
* C138_group_level_biased
* C138_steady_source
* C139_after_jump_spreads
* C139_neighbours_spread
* C139_old_flags_play_no_part
* C139_repeat
* C139_repeat_keeps
* C139_repeat_step
* C13_zero_frame_bad
* C13_zero_frame_good
* C140_again_not_miri_partial
* C140_again_partial
* C140_charge_loss_again
* C140_group_dq_left
* C140_suppressed_late
* C141_again_differs
* C141_caller_dq
* C141_lone_jump
* C141_nothing_found
* C141_second_mask
* C142_integration
* C142_pair
* C143_again
* C143_both
* C143_global
* C143_local
* C143_match
* C144_hit
* C144_test_exact
* C145_any_order
* C145_memory
* C145_missing
* C145_modes_agree
* C146_arrangement
* C146_defined
* C146_equal
* C146_range
* C146_scale
* C146_some_pixel_left
* C146_two_values
* C147_again_same
* C147_growth_adds
* C147_monotone
* C148_likely
* C149_threshold
* C149_unit
* C14_any_dark
* C14_coarse_dark_misaligned
* C14_frame_average_aligned_partial
* C150_unit
* C151_even_pattern
* C151_fails
* C151_time_unit
* C152_casertano
* C152_casertano_whole
* C152_jump
* C152_ols
* C152_one_group
* C153_last_integration
* C153_one_process
* C153_only_ints
* C154_after_jump
* C154_neighbours
* C155_meaning
* C155_round_trip
* C155_supported
* C155_tangent_plane
* C156_casertano
* C156_casertano_whole
* C156_jump
* C156_likely
* C156_ols
* C156_one_group
* C157_flags
* C157_medfilt
* C157_medfilt_level
* C157_median
* C158_match
* C158_unit_and_level
* C159_jumps
* C159_maps
* C159_outliers
* C159_saturation
* C15_extrapolation_linear
* C160_casertano
* C160_jumps
* C161_missing_sky
* C161_order
* C161_times
* C162_persistence_lowers_variance
* C162_read_noise
* C162_zero_frame_revives
* C163_area
* C163_core_missed
* C163_describes
* C163_drawn_aligned
* C163_test_mirrored
* C163_test_partial
* C164_casertano
* C164_likely
* C164_ols
* C164_threshold
* C165_casertano
* C165_ols
* C166_ols
* C166_one_group
* C167_first_jump_forgotten
* C167_miri_groups
* C168_between
* C168_mean
* C168_nan
* C168_order
* C168_uniform
* C168_unusable
* C169_sky_weights
* C169_variance_of_mean
* C170_image
* C170_missing_noise
* C170_variance
* C171_either_way
* C172_seamless
* C173_coarse_dark_too_much
* C173_ramp
* C173_removed
* C174_copies
* C174_error
* C174_error_differs
* C174_likely
* C174_single
* C175_background
* C175_decreasing
* C175_neighbors_added
* C176_global_keeps
* C176_local
* C176_pedestals
* C177_median
* C177_resampled
* C178_copies
* C178_iterative
* C179_local
* C179_mosaic
* C17_frame_dark_keeps_numbers_partial
* C17_matching_keeps_numbers_partial
* C180_fewer
* C180_flags
* C180_noise
* C181_by_time
* C181_not_understated
* C181_not_understated_ivm
* C181_understated
* C182_iterative
* C182_neighbors_lost
* C182_single_pass
* C183_flag_crs
* C183_half
* C183_hit_found
* C183_images
* C183_median
* C183_rest_kept
* C184_further_image
* C184_optimal
* C184_poisson_raised
* C184_read_noise
* C184_read_noise_raised
* C185_flags
* C185_local
* C186_iterative
* C186_level
* C186_limits
* C187_cas22
* C187_cas22_pixel
* C187_likely
* C187_likely_default
* C187_likely_fit
* C187_likely_groups
* C187_likely_spread
* C187_likely_zero
* C187_ols
* C187_ramp
* C187_segment
* C187_uneven_reads
* C188_cas22
* C188_likely
* C188_likely_exposure
* C188_likely_fit
* C188_likely_zero
* C188_ols
* C188_pixel
* C188_ramp
* C189_cas22
* C189_likely
* C189_likely_fit
* C189_likely_zero
* C189_ols
* C189_pixel
* C189_ramp
* C18_integration_choice_averaged_partial
* C18_nothing_subtracted
* C18_unfilled_dark_used
* C190_casertano
* C190_casertano_jump
* C190_jump
* C190_likely
* C190_ols
* C190_ramp
* C190_segment
* C191_chisq
* C191_faint
* C191_faint_five
* C191_search
* C191_steady
* C191_sum
* C192_brighter
* C192_mosaic
* C192_variance
* C193_linear
* C193_unit
* C194_reads
* C194_unit
* C195_unit
* C19_polynomial
* C20_no_solution_passes_through
* C21_read_level_exposure
* C23_cleanup
* C24_propagation_exact
* C24_transients_exact
* C25_median_is_median
* C25_single_pass_exact
* C26_expansion_exact
* C26_saturation_expansion_partial
* C27_every_good_group_once
* C27_segments_sound
* C28_prune_list
* C28_pruning_exact
* C29_exact_on_lines
* C29_nan_sample_counts_as_zero
* C29_pedestal_ignored
* C29_scaling
* C30_exposure_mean
* C30_integration_mean
* C30_large_variance_zeroes_slope
* C31_rate_dq
* C31_rateints_dq
* C32_compress_final
* C32_compress_integration
* C32_compress_integration_flags
* C33_discard_exact
* C33_first_kept_has_no_jump
* C34_suppression_entry
* C34_suppression_exact
* C35_ramps_are_maximal_runs
* C36_loop
* C36_pixel
* C37_exact_on_lines
* C37_pedestal_ignored
* C38_generalised_least_squares
* C38_masked_data_change_the_rate
* C38_masked_data_partial
* C38_masked_nan_destroys_the_fit
* C38_no_used_difference
* C38_pixel
* C38_rescaled_determinant
* C39_flagged_group_not_used_partial
* C39_jump_flags
* C39_masking_loop
* C39_pixel
* C40_read_pattern_partial
* C40_read_times
* C41_weighted_mean
* C42_conserved
* C43_direction
* C44_consistent
* C44_equalised
* C44_measurement
* C45_fails_iff
* C45_global_partial
* C45_missing_sky_raises
* C45_none_computable
* C45_not_above
* C46_disk_is_memory
* C48_monotone
* C48_nan_not_flagged
* C48_resampled
* C48_simple
* C49_derivative
* C50_report
* C51_old_groups_are_skipped
* C51_pointings_of_both_runs
* C51_same_groups_fail
* C51_times_partial
* C52_combination
* C52_order
* C52_read_noise
* C52_stale_weight
* C52_unassigned_weight
* C53_bad_is_zero
* C53_finite
* C53_good_pixel
* C53_negative_variance
* C54_box_beyond
* C54_centre_outside
* C54_centres
* C54_no_box
* C54_not_empty
* C54_touched_partial
* C55_failed
* C55_found
* C55_moves
* C55_start
* C55_terminates
* C56_preserves_length
* C56_rejected
* C56_requested_rotation
* C56_rotation
* C57_covers
* C57_exists
* C57_given_size
* C57_other_tangent_point
* C58_keyword_partial
* C58_keyword_when
* C58_negative_infinity
* C58_not_finite
* C58_polygons
* C59_complete
* C59_disjoint
* C59_fails
* C59_ranges
* C59_selected
* C60_zero
* C62_inverse
* C62_towards_velocity
* C62_unit_vector
* C62_zero_velocity
* C63_dark_dq_propagated
* C64_reads_average_to_resultant
* C64_single_read_agrees
* C65_cap_changes_value
* C65_inverse_only_exact
* C65_inverse_only_still_corrected
* C65_kept_iff
* C65_read_level_passes_through_partial
* C66_iterative_fixpoint
* C66_reference_level
* C67_showers_bounded
* C68_subimage_exact
* C68_thin_column
* C68_thin_row
* C69_edge_test_uses_rows_for_columns
* C69_large_events_partial
* C69_near_edge_square_partial
* C69_selection_exact
* C70_extra_flag_is_used
* C70_flagged_ignored_partial
* C70_further_flag_is_used
* C70_ignored_iff
* C71_exact
* C71_no_clean_group_no_variance
* C71_no_usable_group_no_slope_partial
* C71_unfittable_ramp_reports_zero_slope
* C72_rule_iff
* C72_zero_frame_mixed_into_persistent_ramp
* C72_zero_frame_use_partial
* C73_average
* C73_pixel_variances_positive
* C74_array
* C74_average_poisson_nonneg
* C74_poisson_variance_nonneg
* C75_jump_test_partial
* C75_nan_statistic_hides_jump
* C75_statistic
* C75_threshold
* C76_masked_or_last
* C76_one_omitted
* C76_two_defined
* C76_two_omitted
* C77_local_twice
* C79_even_kernel_grows
* C79_is_median
* C79_median_filter_partial
* C80_spacing
* C81_both_lost
* C81_corner_lost
* C81_corners_partial
* C81_kept_partial
* C81_vanishes
* C82_kept
* C83_relative
* C84_accepted
* C84_centroid
* C84_ra_dec
* C85_longer_is_better
* C85_poisson
* C85_read_noise
* C86_exponent_monotone
* C86_faint_unweighted
* C86_least_squares
* C87_as_if_not_lost_partial
* C87_error_not_updated
* C87_exposure
* C87_lone_flag_not_restored
* C87_unusable_gets_variance
* C87_variance
* C87_variance_exact
* C88_line
* C88_line_two
* C88_two_group_intercept_error
* C88_two_group_slope_error
* C88_uncertainties
* C88_weight
* C89_pedestal_partial
* C89_pedestal_value
* C90_magnitudes
* C90_padding
* C91_slices
* C92_optimal_line
* C93_pixel_poisson
* C93_ramp_variances
* C94_fallback_but_read_noise
* C94_fallback_ignores_charge_loss
* C94_fallback_partial
* C94_read_noise
* C94_second_fit_differs
* C94_selection
* C95_each_pixel_exact
* C95_each_pixel_partial
* C95_miri_exact
* C95_miri_partial
* C97_iterative
* C97_order_matters
* C97_sigma_clip
* C97_single_pass
* C97_too_few_groups
* C98_only_jump_flags
* C98_step
* C99_minimum_groups
* C99_negative_count
* C99_reset_by_slice
* C99_shower_data
* C99_slices_partial
* C99_slices_too_few
* C99_step_partial
* C99_transient_after_neighbor

## Quot.sound, propext

* C08_no_sat_check_reported
* C09_ad_floor_iff
* C09_dnu_iff
* C09_floor_flagged
* C103_fixed_table
* C103_pixel_table
* C104_noise
* C118_other_arguments
* C118_wrong_type_frees_twice
* C119_one_integration
* C11_flags_only_added
* C11_integrations_independent
* C121_boxes
* C121_boxes_lost
* C123_zero
* C127_timeout
* C132_ad_floor_iff
* C132_like_two_d
* C133_second_call_same
* C136_model_kept
* C145_broadcast
* C145_broadcast_column
* C145_index
* C148_ols
* C157_accepted
* C157_blot
* C15_extrapolation_count
* C16_compatible_not_skipped
* C16_incompatible_skipped
* C17_matching_subtracts
* C18_integration_choice
* C193_signal
* C20_flag_only_with_cause
* C21_read_level_saturated_kept
* C21_saturated_kept
* C22_tiling_transparent
* C26_saturation_overwrites_flags
* C37_short_ramps
* C40_second_fit_is_inconsistent
* C40_without_pattern_partial
* C42_returns
* C44_delta_iff
* C45_after_match
* C45_group_sky
* C47_accepts_partial
* C47_default_buffer_partial
* C47_large_buffer_refuses
* C50_histories
* C57_crpix
* C60_limit_partial
* C61_inside
* C69_two_groups_fail
* C70_bad_gain_flagged
* C75_last_not_a_number
* C77_local
* C77_local_records_the_sky
* C78_sections
* C83_absolute
* C87_only_read_noise
* C89_pedestal_zero
* C96_arrays_restored_partial
* C96_fit_reads_values_partial
* C96_foreign_data_changed
* C96_zero_frame_misread

## none

* C15_one_extra_group
* C60_no_limit

## propext

* C03_sliced_fit_with_suppression_differs
* C10_small_image_raises
* C145_closed
* C145_evaluated_again
* C155_corrector
* C28_size_stale_after_pruning
* C33_jump_kept_when_nothing_dropped
* C36_no_jump_detection
* C39_high_flags_are_ignored
* C61_no_box
* C90_extra_plane
* C91_empty_product_differs
