{
 "claims": [
  {
   "property": "C01",
   "status": "proved",
   "theorems": [
    "Verif.Thm.C01_num_cores",
    "Verif.Thm.C01_num_cores_values"
   ],
   "note": ""
  },
  {
   "property": "C02",
   "status": "proved",
   "theorems": [
    "Verif.Thm.C02_slices_tile"
   ],
   "note": ""
  },
  {
   "property": "C03",
   "status": "partial",
   "theorems": [
    "Verif.Thm.C03_sliced_fit_iff",
    "Verif.Thm.C03_sliced_fit_never_suppresses",
    "Verif.Thm.C03_sliced_fit_partial",
    "Verif.Thm.C03_sliced_fit_with_suppression_differs"
   ],
   "note": "Full equality fails with one-group suppression: slice_ramp_data does not carry suppress_one_group_ramps. Proved without suppression; with it the sliced result is the unsuppressed one (C03_sliced_fit_never_suppresses), so equality holds exactly when suppression makes no difference (C03_sliced_fit_iff)."
  },
  {
   "property": "C04",
   "status": "proved",
   "theorems": [
    "Verif.Thm.C04_jump_slices_tile",
    "Verif.Thm.C04_jump_reassembly"
   ],
   "note": ""
  },
  {
   "property": "C05",
   "status": "proved",
   "theorems": [
    "Verif.Thm.C05_neighbors_slicing_transparent"
   ],
   "note": ""
  },
  {
   "property": "C06",
   "status": "proved",
   "theorems": [
    "Verif.Thm.C06_saturation_sticky"
   ],
   "note": ""
  },
  {
   "property": "C07",
   "status": "proved",
   "theorems": [
    "Verif.Thm.C07_saturated_iff_grown",
    "Verif.Thm.C07_saturated_iff"
   ],
   "note": ""
  },
  {
   "property": "C08",
   "status": "proved",
   "theorems": [
    "Verif.Thm.C08_exempt_never_detected",
    "Verif.Thm.C08_no_sat_check_reported"
   ],
   "note": ""
  },
  {
   "property": "C09",
   "status": "proved",
   "theorems": [
    "Verif.Thm.C09_floor_flagged",
    "Verif.Thm.C09_ad_floor_iff",
    "Verif.Thm.C09_dnu_iff"
   ],
   "note": ""
  },
  {
   "property": "C10",
   "status": "partial",
   "theorems": [
    "Verif.Thm.C10_growth_is_square_dilation_partial",
    "Verif.Thm.C10_small_image_raises"
   ],
   "note": "Exact for images of at least 2n rows and columns. Smaller images make _adjacent_pixels raise (IndexError/ValueError); proved as C10_small_image_raises."
  },
  {
   "property": "C11",
   "status": "proved",
   "theorems": [
    "Verif.Thm.C11_flags_only_added",
    "Verif.Thm.C11_integrations_independent"
   ],
   "note": ""
  },
  {
   "property": "C12",
   "status": "proved",
   "theorems": [
    "Verif.Thm.C12_averaged_groups"
   ],
   "note": ""
  },
  {
   "property": "C13",
   "status": "proved",
   "theorems": [
    "Verif.Thm.C13_zero_frame_bad",
    "Verif.Thm.C13_zero_frame_good"
   ],
   "note": ""
  },
  {
   "property": "C14",
   "status": "partial",
   "theorems": [
    "Verif.Thm.C14_frame_average_aligned_partial",
    "Verif.Thm.C14_coarse_dark_misaligned",
    "Verif.Thm.C14_any_dark"
   ],
   "note": "Holds for frame-resolved darks (nframes 1, groupgap 0). For darks that average frames the averaging indexes dark groups as if they were frames: C14_any_dark says exactly what is subtracted, witness C14_coarse_dark_misaligned (science turns NaN)."
  },
  {
   "property": "C15",
   "status": "proved",
   "theorems": [
    "Verif.Thm.C15_extrapolation_count",
    "Verif.Thm.C15_extrapolation_linear",
    "Verif.Thm.C15_one_extra_group"
   ],
   "note": ""
  },
  {
   "property": "C16",
   "status": "proved",
   "theorems": [
    "Verif.Thm.C16_incompatible_skipped",
    "Verif.Thm.C16_compatible_not_skipped"
   ],
   "note": ""
  },
  {
   "property": "C17",
   "status": "partial",
   "theorems": [
    "Verif.Thm.C17_matching_keeps_numbers_partial",
    "Verif.Thm.C17_matching_subtracts",
    "Verif.Thm.C17_frame_dark_keeps_numbers_partial"
   ],
   "note": "Matching settings: any dark. Non-matching: frame-resolved dark. Otherwise false, see C14_coarse_dark_misaligned."
  },
  {
   "property": "C18",
   "status": "partial",
   "theorems": [
    "Verif.Thm.C18_integration_choice",
    "Verif.Thm.C18_integration_choice_averaged_partial",
    "Verif.Thm.C18_unfilled_dark_used",
    "Verif.Thm.C18_nothing_subtracted"
   ],
   "note": "Direct subtraction proved in full. Averaged 4-D darks: false when the exposure does not start at integration one and the dark has more integrations than the science data (C18_unfilled_dark_used), proved otherwise; in the remaining case nothing at all is subtracted (C18_nothing_subtracted)."
  },
  {
   "property": "C19",
   "status": "proved",
   "theorems": [
    "Verif.Thm.C19_polynomial"
   ],
   "note": ""
  },
  {
   "property": "C20",
   "status": "proved",
   "theorems": [
    "Verif.Thm.C20_no_solution_passes_through",
    "Verif.Thm.C20_flag_only_with_cause"
   ],
   "note": ""
  },
  {
   "property": "C21",
   "status": "proved",
   "theorems": [
    "Verif.Thm.C21_saturated_kept",
    "Verif.Thm.C21_read_level_saturated_kept",
    "Verif.Thm.C21_read_level_exposure"
   ],
   "note": ""
  },
  {
   "property": "C22",
   "status": "proved",
   "theorems": [
    "Verif.Thm.C22_tiling_transparent"
   ],
   "note": ""
  },
  {
   "property": "C23",
   "status": "proved",
   "theorems": [
    "Verif.Thm.C23_cleanup"
   ],
   "note": ""
  },
  {
   "property": "C24",
   "status": "proved",
   "theorems": [
    "Verif.Thm.C24_propagation_exact",
    "Verif.Thm.C24_transients_exact"
   ],
   "note": ""
  },
  {
   "property": "C25",
   "status": "proved",
   "theorems": [
    "Verif.Thm.C25_single_pass_exact",
    "Verif.Thm.C25_median_is_median"
   ],
   "note": ""
  },
  {
   "property": "C26",
   "status": "partial",
   "theorems": [
    "Verif.Thm.C26_expansion_exact",
    "Verif.Thm.C26_saturation_expansion_partial",
    "Verif.Thm.C26_saturation_overwrites_flags"
   ],
   "note": "Expansion of saturated cores overwrites all other flags (C26_saturation_overwrites_flags), so 'keeps the flags already present' is false; everything else proved."
  },
  {
   "property": "C27",
   "status": "proved",
   "theorems": [
    "Verif.Thm.C27_segments_sound",
    "Verif.Thm.C27_every_good_group_once"
   ],
   "note": ""
  },
  {
   "property": "C28",
   "status": "proved",
   "theorems": [
    "Verif.Thm.C28_pruning_exact",
    "Verif.Thm.C28_prune_list",
    "Verif.Thm.C28_size_stale_after_pruning"
   ],
   "note": ""
  },
  {
   "property": "C29",
   "status": "proved",
   "theorems": [
    "Verif.Thm.C29_exact_on_lines",
    "Verif.Thm.C29_pedestal_ignored",
    "Verif.Thm.C29_scaling",
    "Verif.Thm.C29_nan_sample_counts_as_zero"
   ],
   "note": ""
  },
  {
   "property": "C30",
   "status": "proved",
   "theorems": [
    "Verif.Thm.C30_integration_mean",
    "Verif.Thm.C30_exposure_mean",
    "Verif.Thm.C30_large_variance_zeroes_slope"
   ],
   "note": "Integration and exposure level. The cut-off is explicit; C30_large_variance_zeroes_slope shows what the code does above it (slope forced to 0)."
  },
  {
   "property": "C31",
   "status": "proved",
   "theorems": [
    "Verif.Thm.C31_rateints_dq",
    "Verif.Thm.C31_rate_dq"
   ],
   "note": ""
  },
  {
   "property": "C32",
   "status": "proved",
   "theorems": [
    "Verif.Thm.C32_compress_integration",
    "Verif.Thm.C32_compress_integration_flags",
    "Verif.Thm.C32_compress_final"
   ],
   "note": ""
  },
  {
   "property": "C33",
   "status": "proved",
   "theorems": [
    "Verif.Thm.C33_discard_exact",
    "Verif.Thm.C33_first_kept_has_no_jump",
    "Verif.Thm.C33_jump_kept_when_nothing_dropped"
   ],
   "note": ""
  },
  {
   "property": "C34",
   "status": "proved",
   "theorems": [
    "Verif.Thm.C34_suppression_exact",
    "Verif.Thm.C34_suppression_entry"
   ],
   "note": ""
  },
  {
   "property": "C35",
   "status": "proved",
   "theorems": [
    "Verif.Thm.C35_ramps_are_maximal_runs"
   ],
   "note": ""
  },
  {
   "property": "C36",
   "status": "proved",
   "theorems": [
    "Verif.Thm.C36_loop",
    "Verif.Thm.C36_pixel",
    "Verif.Thm.C36_no_jump_detection"
   ],
   "note": ""
  },
  {
   "property": "C37",
   "status": "proved",
   "theorems": [
    "Verif.Thm.C37_exact_on_lines",
    "Verif.Thm.C37_pedestal_ignored",
    "Verif.Thm.C37_short_ramps"
   ],
   "note": ""
  },
  {
   "property": "C38",
   "status": "partial",
   "theorems": [
    "Verif.Thm.C38_generalised_least_squares",
    "Verif.Thm.C38_no_used_difference",
    "Verif.Thm.C38_rescaled_determinant",
    "Verif.Thm.C38_masked_data_partial",
    "Verif.Thm.C38_masked_data_change_the_rate",
    "Verif.Thm.C38_masked_nan_destroys_the_fit",
    "Verif.Thm.C38_pixel"
   ],
   "note": "Proved for the fit of any mask, and lifted to whole pixels (C38_pixel). Part not true of the code: masked differences do influence the result, through the median used as rate guess and because NaN times zero is NaN (C38_masked_data_change_the_rate, C38_masked_nan_destroys_the_fit); what holds is C38_masked_data_partial."
  },
  {
   "property": "C39",
   "status": "partial",
   "theorems": [
    "Verif.Thm.C39_flagged_group_not_used_partial",
    "Verif.Thm.C39_high_flags_are_ignored",
    "Verif.Thm.C39_masking_loop",
    "Verif.Thm.C39_pixel",
    "Verif.Thm.C39_jump_flags"
   ],
   "note": "Flags above the lowest eight bits are dropped when the DQ is copied to bytes, so groups that carry only those are used (C39_high_flags_are_ignored)."
  },
  {
   "property": "C40",
   "status": "partial",
   "theorems": [
    "Verif.Thm.C40_read_times",
    "Verif.Thm.C40_read_pattern_partial",
    "Verif.Thm.C40_second_fit_is_inconsistent",
    "Verif.Thm.C40_without_pattern_partial"
   ],
   "note": "False in general: with a zero frame and a first resultant of at least two reads the caller's pattern is modified, and a second fit has one read time too many (C40_second_fit_is_inconsistent). C40_read_pattern_partial characterises exactly when it holds."
  },
  {
   "property": "C41",
   "status": "proved",
   "theorems": [
    "Verif.Thm.C41_weighted_mean"
   ],
   "note": ""
  },
  {
   "property": "C42",
   "status": "proved",
   "theorems": [
    "Verif.Thm.C42_conserved",
    "Verif.Thm.C42_returns"
   ],
   "note": ""
  },
  {
   "property": "C43",
   "status": "proved",
   "theorems": [
    "Verif.Thm.C43_direction"
   ],
   "note": ""
  },
  {
   "property": "C44",
   "status": "proved",
   "theorems": [
    "Verif.Thm.C44_measurement",
    "Verif.Thm.C44_delta_iff",
    "Verif.Thm.C44_consistent",
    "Verif.Thm.C44_equalised"
   ],
   "note": ""
  },
  {
   "property": "C45",
   "status": "partial",
   "theorems": [
    "Verif.Thm.C45_global_partial",
    "Verif.Thm.C45_none_computable",
    "Verif.Thm.C45_fails_iff",
    "Verif.Thm.C45_after_match",
    "Verif.Thm.C45_group_sky",
    "Verif.Thm.C45_not_above",
    "Verif.Thm.C45_missing_sky_raises"
   ],
   "note": "C45_global_partial: proved when no computable sky is followed by a missing one; C45_fails_iff shows the code raises TypeError exactly otherwise (witness C45_missing_sky_raises)."
  },
  {
   "property": "C46",
   "status": "proved",
   "theorems": [
    "Verif.Thm.C46_disk_is_memory"
   ],
   "note": ""
  },
  {
   "property": "C47",
   "status": "partial",
   "theorems": [
    "Verif.Thm.C47_accepts_partial",
    "Verif.Thm.C47_default_buffer_partial",
    "Verif.Thm.C47_large_buffer_refuses"
   ],
   "note": "Refuted in the code: add_image compares the number of images with the number of sections. C47_accepts_partial gives the exact acceptance condition, C47_default_buffer_partial the case of the default buffer, C47_large_buffer_refuses the failure."
  },
  {
   "property": "C48",
   "status": "proved",
   "theorems": [
    "Verif.Thm.C48_resampled",
    "Verif.Thm.C48_nan_not_flagged",
    "Verif.Thm.C48_simple",
    "Verif.Thm.C48_monotone"
   ],
   "note": ""
  },
  {
   "property": "C49",
   "status": "proved",
   "theorems": [
    "Verif.Thm.C49_derivative"
   ],
   "note": ""
  },
  {
   "property": "C50",
   "status": "proved",
   "theorems": [
    "Verif.Thm.C50_report",
    "Verif.Thm.C50_histories"
   ],
   "note": "Input models are assumed to pass validation and to have start and end times; drizzling itself is not modelled."
  },
  {
   "property": "C51",
   "status": "partial",
   "theorems": [
    "Verif.Thm.C51_times_partial",
    "Verif.Thm.C51_pointings_of_both_runs",
    "Verif.Thm.C51_old_groups_are_skipped",
    "Verif.Thm.C51_same_groups_fail"
   ],
   "note": "False as stated: reset_arrays keeps the group ids, so pointings count both runs, old groups add no time, and repeating the same groups raises in finalize (min of an empty list). Proved: times agree for new groups, plus the exact behaviour otherwise."
  },
  {
   "property": "C52",
   "status": "proved",
   "theorems": [
    "Verif.Thm.C52_combination",
    "Verif.Thm.C52_order",
    "Verif.Thm.C52_read_noise",
    "Verif.Thm.C52_stale_weight",
    "Verif.Thm.C52_unassigned_weight"
   ],
   "note": "Holds for models that all carry a read-noise array (or exptime weights); without it the weights of the previous model are reused (C52_stale_weight) or the call fails (C52_unassigned_weight)."
  },
  {
   "property": "C53",
   "status": "proved",
   "theorems": [
    "Verif.Thm.C53_bad_is_zero",
    "Verif.Thm.C53_finite",
    "Verif.Thm.C53_good_pixel",
    "Verif.Thm.C53_negative_variance"
   ],
   "note": "Finding: a negative variance yields a negative weight (C53_negative_variance). The exposure time is taken to be finite."
  },
  {
   "property": "C54",
   "status": "partial",
   "theorems": [
    "Verif.Thm.C54_no_box",
    "Verif.Thm.C54_not_empty",
    "Verif.Thm.C54_touched_partial",
    "Verif.Thm.C54_centres",
    "Verif.Thm.C54_centre_outside",
    "Verif.Thm.C54_box_beyond"
   ],
   "note": "False as stated: the range holds the pixels the box touches, not only those whose centres lie in it (C54_centre_outside); boxes beyond the image are not clipped (C54_box_beyond)."
  },
  {
   "property": "C55",
   "status": "proved",
   "theorems": [
    "Verif.Thm.C55_found",
    "Verif.Thm.C55_failed",
    "Verif.Thm.C55_terminates",
    "Verif.Thm.C55_moves",
    "Verif.Thm.C55_start"
   ],
   "note": ""
  },
  {
   "property": "C56",
   "status": "proved",
   "theorems": [
    "Verif.Thm.C56_rotation",
    "Verif.Thm.C56_preserves_length",
    "Verif.Thm.C56_rejected",
    "Verif.Thm.C56_requested_rotation"
   ],
   "note": ""
  },
  {
   "property": "C57",
   "status": "proved",
   "theorems": [
    "Verif.Thm.C57_covers",
    "Verif.Thm.C57_exists",
    "Verif.Thm.C57_crpix",
    "Verif.Thm.C57_given_size",
    "Verif.Thm.C57_other_tangent_point"
   ],
   "note": "When the fiducial is not the tangent point of the transform given by the caller, the vertices need not fall inside the image (C57_other_tangent_point)."
  },
  {
   "property": "C58",
   "status": "partial",
   "theorems": [
    "Verif.Thm.C58_polygons",
    "Verif.Thm.C58_not_finite",
    "Verif.Thm.C58_negative_infinity",
    "Verif.Thm.C58_keyword_when",
    "Verif.Thm.C58_keyword_partial"
   ],
   "note": "Full round trip for the polygons string (C58_polygons) and for four-vertex footprints. Missing for compute_s_region_keyword: vertices beyond the fourth are silently left out, and fewer than four raise. Further findings: NaN and +inf coordinates vanish when the polygons string is parsed (C58_not_finite); -inf makes parsing fail (C58_negative_infinity)."
  },
  {
   "property": "C59",
   "status": "proved",
   "theorems": [
    "Verif.Thm.C59_selected",
    "Verif.Thm.C59_fails",
    "Verif.Thm.C59_disjoint",
    "Verif.Thm.C59_ranges",
    "Verif.Thm.C59_complete"
   ],
   "note": ""
  },
  {
   "property": "C60",
   "status": "partial",
   "theorems": [
    "Verif.Thm.C60_limit_partial",
    "Verif.Thm.C60_zero",
    "Verif.Thm.C60_no_limit"
   ],
   "note": "A limit of zero sources returns all sources (C60_zero); proved for every non-zero limit."
  },
  {
   "property": "C61",
   "status": "proved",
   "theorems": [
    "Verif.Thm.C61_inside",
    "Verif.Thm.C61_no_box"
   ],
   "note": ""
  },
  {
   "property": "C62",
   "status": "proved",
   "theorems": [
    "Verif.Thm.C62_unit_vector",
    "Verif.Thm.C62_zero_velocity",
    "Verif.Thm.C62_inverse",
    "Verif.Thm.C62_towards_velocity"
   ],
   "note": ""
  },
  {
   "property": "C63",
   "status": "proved",
   "theorems": [
    "Verif.Thm.C63_dark_dq_propagated"
   ],
   "note": ""
  },
  {
   "property": "C64",
   "status": "proved",
   "theorems": [
    "Verif.Thm.C64_reads_average_to_resultant",
    "Verif.Thm.C64_single_read_agrees"
   ],
   "note": ""
  },
  {
   "property": "C65",
   "status": "partial",
   "theorems": [
    "Verif.Thm.C65_kept_iff",
    "Verif.Thm.C65_inverse_only_exact",
    "Verif.Thm.C65_read_level_passes_through_partial",
    "Verif.Thm.C65_cap_changes_value",
    "Verif.Thm.C65_inverse_only_still_corrected"
   ],
   "note": "Proved for pixels whose forward coefficients are benign, without cap and additional correction. With the cap at 1.2*saturation the value is kept exactly when no read behind it exceeds the cap (C65_kept_iff). Pixels unusable only in the inverse coefficients are flagged but corrected with the forward polynomial averaged over evenly spaced reads (C65_inverse_only_exact, for all of them)."
  },
  {
   "property": "C66",
   "status": "proved",
   "theorems": [
    "Verif.Thm.C66_iterative_fixpoint",
    "Verif.Thm.C66_reference_level"
   ],
   "note": ""
  },
  {
   "property": "C67",
   "status": "proved",
   "theorems": [
    "Verif.Thm.C67_showers_bounded"
   ],
   "note": ""
  },
  {
   "property": "C68",
   "status": "proved",
   "theorems": [
    "Verif.Thm.C68_subimage_exact",
    "Verif.Thm.C68_thin_row",
    "Verif.Thm.C68_thin_column"
   ],
   "note": ""
  },
  {
   "property": "C69",
   "status": "partial",
   "theorems": [
    "Verif.Thm.C69_selection_exact",
    "Verif.Thm.C69_near_edge_square_partial",
    "Verif.Thm.C69_edge_test_uses_rows_for_columns",
    "Verif.Thm.C69_large_events_partial",
    "Verif.Thm.C69_two_groups_fail"
   ],
   "note": "Finding: two-group ramps raise UnboundLocalError (C69_two_groups_fail); the edge test compares columns with the number of rows (C69_edge_test_uses_rows_for_columns). Containment of a core is tested with the mirror image of the region's ellipse (finding C163_test_mirrored, C163_core_missed); C69_selection_exact states the test as coded."
  },
  {
   "property": "C70",
   "status": "partial",
   "theorems": [
    "Verif.Thm.C70_ignored_iff",
    "Verif.Thm.C70_further_flag_is_used",
    "Verif.Thm.C70_bad_gain_flagged",
    "Verif.Thm.C70_flagged_ignored_partial",
    "Verif.Thm.C70_extra_flag_is_used"
   ],
   "note": "Finding: samples with further flags are not ignored (C70_extra_flag_is_used, C70_further_flag_is_used); C70_ignored_iff says exactly which samples are."
  },
  {
   "property": "C71",
   "status": "partial",
   "theorems": [
    "Verif.Thm.C71_exact",
    "Verif.Thm.C71_no_usable_group_no_slope_partial",
    "Verif.Thm.C71_no_clean_group_no_variance",
    "Verif.Thm.C71_unfittable_ramp_reports_zero_slope"
   ],
   "note": "Proved for ramps all of whose groups are unusable or saturated. Finding: a ramp whose remaining groups carry jump flags only (e.g. DNU, JUMP, JUMP) has no segment, yet is reported with slope 0, variance 0 and no DO_NOT_USE (C71_unfittable_ramp_reports_zero_slope); C71_exact says exactly when."
  },
  {
   "property": "C72",
   "status": "partial",
   "theorems": [
    "Verif.Thm.C72_rule_iff",
    "Verif.Thm.C72_zero_frame_use_partial",
    "Verif.Thm.C72_zero_frame_mixed_into_persistent_ramp"
   ],
   "note": "Proved: exact description of when and how the zero frame is used. Finding: usability for this purpose is 'DQ exactly 0', whereas the fit also uses groups with e.g. only PERSISTENCE, so zero frame and such groups are mixed in one segment (C72_zero_frame_mixed_into_persistent_ramp)."
  },
  {
   "property": "C73",
   "status": "proved",
   "theorems": [
    "Verif.Thm.C73_average",
    "Verif.Thm.C73_pixel_variances_positive"
   ],
   "note": ""
  },
  {
   "property": "C74",
   "status": "proved",
   "theorems": [
    "Verif.Thm.C74_poisson_variance_nonneg",
    "Verif.Thm.C74_average_poisson_nonneg",
    "Verif.Thm.C74_array"
   ],
   "note": ""
  },
  {
   "property": "C75",
   "status": "partial",
   "theorems": [
    "Verif.Thm.C75_jump_test_partial",
    "Verif.Thm.C75_nan_statistic_hides_jump",
    "Verif.Thm.C75_statistic",
    "Verif.Thm.C75_threshold",
    "Verif.Thm.C75_last_not_a_number"
   ],
   "note": "Proved when the statistic of the last difference is a number. Finding: the running maximum starts from that statistic; if it is NaN (negative variance estimate) every comparison fails and no jump is reported (C75_last_not_a_number in general, C75_nan_statistic_hides_jump as a witness)."
  },
  {
   "property": "C76",
   "status": "proved",
   "theorems": [
    "Verif.Thm.C76_one_omitted",
    "Verif.Thm.C76_masked_or_last",
    "Verif.Thm.C76_two_omitted",
    "Verif.Thm.C76_two_defined"
   ],
   "note": ""
  },
  {
   "property": "C77",
   "status": "proved",
   "theorems": [
    "Verif.Thm.C77_local",
    "Verif.Thm.C77_local_records_the_sky",
    "Verif.Thm.C77_local_twice"
   ],
   "note": ""
  },
  {
   "property": "C78",
   "status": "proved",
   "theorems": [
    "Verif.Thm.C78_sections"
   ],
   "note": ""
  },
  {
   "property": "C79",
   "status": "partial",
   "theorems": [
    "Verif.Thm.C79_median_filter_partial",
    "Verif.Thm.C79_is_median",
    "Verif.Thm.C79_even_kernel_grows"
   ],
   "note": "Proved for odd kernel sizes; for even sizes the result is one pixel larger (C79_even_kernel_grows)."
  },
  {
   "property": "C80",
   "status": "proved",
   "theorems": [
    "Verif.Thm.C80_spacing"
   ],
   "note": ""
  },
  {
   "property": "C81",
   "status": "partial",
   "theorems": [
    "Verif.Thm.C81_kept_partial",
    "Verif.Thm.C81_vanishes",
    "Verif.Thm.C81_both_lost",
    "Verif.Thm.C81_corners_partial",
    "Verif.Thm.C81_corner_lost"
   ],
   "note": "Missing: every corner stays represented. False in the code: a vertex in line with its neighbours whose successor coincides with it to the threshold is removed together with the successor (C81_both_lost for all outlines, C81_corner_lost an instance), and an outline with only short edges vanishes (C81_vanishes). When no vertex coincides with its predecessor, every turning vertex is kept (C81_corners_partial)."
  },
  {
   "property": "C82",
   "status": "proved",
   "theorems": [
    "Verif.Thm.C82_kept"
   ],
   "note": ""
  },
  {
   "property": "C83",
   "status": "proved",
   "theorems": [
    "Verif.Thm.C83_relative",
    "Verif.Thm.C83_absolute"
   ],
   "note": ""
  },
  {
   "property": "C84",
   "status": "proved",
   "theorems": [
    "Verif.Thm.C84_accepted",
    "Verif.Thm.C84_ra_dec",
    "Verif.Thm.C84_centroid"
   ],
   "note": ""
  },
  {
   "property": "C85",
   "status": "proved",
   "theorems": [
    "Verif.Thm.C85_read_noise",
    "Verif.Thm.C85_poisson",
    "Verif.Thm.C85_longer_is_better"
   ],
   "note": ""
  },
  {
   "property": "C86",
   "status": "proved",
   "theorems": [
    "Verif.Thm.C86_least_squares",
    "Verif.Thm.C86_faint_unweighted",
    "Verif.Thm.C86_exponent_monotone"
   ],
   "note": ""
  },
  {
   "property": "C87",
   "status": "partial",
   "theorems": [
    "Verif.Thm.C87_only_read_noise",
    "Verif.Thm.C87_as_if_not_lost_partial",
    "Verif.Thm.C87_variance_exact",
    "Verif.Thm.C87_variance",
    "Verif.Thm.C87_exposure",
    "Verif.Thm.C87_error_not_updated",
    "Verif.Thm.C87_lone_flag_not_restored",
    "Verif.Thm.C87_unusable_gets_variance"
   ],
   "note": "Partial: CHARGELOSS groups must also be DO_NOT_USE (a lone flag is not restored, C87_lone_flag_not_restored) and two adjacent flagless groups must remain. C87_variance_exact gives the recomputed variance whichever flags are set: a CHARGELOSS flag without DO_NOT_USE becomes a DO_NOT_USE flag. The error array is not updated (C87_error_not_updated) and an unusable pixel gets a variance (C87_unusable_gets_variance)."
  },
  {
   "property": "C88",
   "status": "proved",
   "theorems": [
    "Verif.Thm.C88_line",
    "Verif.Thm.C88_line_two",
    "Verif.Thm.C88_uncertainties",
    "Verif.Thm.C88_two_group_slope_error",
    "Verif.Thm.C88_weight",
    "Verif.Thm.C88_two_group_intercept_error"
   ],
   "note": "C88_two_group_intercept_error: the intercept uncertainty of a two-group segment copies the slope's."
  },
  {
   "property": "C89",
   "status": "partial",
   "theorems": [
    "Verif.Thm.C89_pedestal_value",
    "Verif.Thm.C89_pedestal_partial",
    "Verif.Thm.C89_pedestal_zero"
   ],
   "note": "Partial: true only for a group time of one second; C89_pedestal_value gives the value in general (the code multiplies a rate per second by a fraction of a group)."
  },
  {
   "property": "C90",
   "status": "proved",
   "theorems": [
    "Verif.Thm.C90_magnitudes",
    "Verif.Thm.C90_padding",
    "Verif.Thm.C90_extra_plane"
   ],
   "note": "C90_extra_plane: stale segment counts give extra planes of zeros."
  },
  {
   "property": "C91",
   "status": "proved",
   "theorems": [
    "Verif.Thm.C91_slices",
    "Verif.Thm.C91_empty_product_differs"
   ],
   "note": "C91_empty_product_differs: with no segment at all the assembled arrays have one plane, the single-process ones none."
  },
  {
   "property": "C92",
   "status": "proved",
   "theorems": [
    "Verif.Thm.C92_optimal_line"
   ],
   "note": "The power function is uninterpreted with the properties stated in Cas22PowOk."
  },
  {
   "property": "C93",
   "status": "proved",
   "theorems": [
    "Verif.Thm.C93_ramp_variances",
    "Verif.Thm.C93_pixel_poisson"
   ],
   "note": "C93_ramp_variances gives the Poisson variance per unit rate; times not decreasing between resultants."
  },
  {
   "property": "C94",
   "status": "partial",
   "theorems": [
    "Verif.Thm.C94_fallback_but_read_noise",
    "Verif.Thm.C94_selection",
    "Verif.Thm.C94_fallback_partial",
    "Verif.Thm.C94_read_noise",
    "Verif.Thm.C94_fallback_ignores_charge_loss",
    "Verif.Thm.C94_second_fit_differs"
   ],
   "note": "Partial: LIKELY with fewer than four groups and charge loss is not fitted like OLS_C (C94_fallback_ignores_charge_loss); then exactly the read-noise variances can differ (C94_fallback_but_read_noise). The scaling changes the caller's array, so a second fit differs (C94_second_fit_differs)."
  },
  {
   "property": "C95",
   "status": "partial",
   "theorems": [
    "Verif.Thm.C95_each_pixel_exact",
    "Verif.Thm.C95_each_pixel_partial",
    "Verif.Thm.C95_miri_exact",
    "Verif.Thm.C95_miri_partial"
   ],
   "note": "Partial: with suppression of one-group ramps and several processes, slices lose the setting (C03). C95_each_pixel_exact and C95_miri_exact give the result for any number of processes. The likelihood fit is a parameter here (C38-C44)."
  },
  {
   "property": "C96",
   "status": "partial",
   "theorems": [
    "Verif.Thm.C96_fit_reads_values_partial",
    "Verif.Thm.C96_zero_frame_misread",
    "Verif.Thm.C96_arrays_restored_partial",
    "Verif.Thm.C96_foreign_data_changed"
   ],
   "note": "Arrays read by the C extension and returned to the caller. Partial: a zero frame in foreign byte order is not swapped and is misread (C96_zero_frame_misread); data, dark current and pixel DQ in foreign byte order come back reversed (C96_foreign_data_changed)."
  },
  {
   "property": "C97",
   "status": "proved",
   "theorems": [
    "Verif.Thm.C97_too_few_groups",
    "Verif.Thm.C97_single_pass",
    "Verif.Thm.C97_iterative",
    "Verif.Thm.C97_sigma_clip",
    "Verif.Thm.C97_order_matters"
   ],
   "note": "astropy's sigma_clip is a parameter. Groups are counted as the code does; see C97_order_matters."
  },
  {
   "property": "C98",
   "status": "proved",
   "theorems": [
    "Verif.Thm.C98_only_jump_flags",
    "Verif.Thm.C98_step"
   ],
   "note": ""
  },
  {
   "property": "C99",
   "status": "partial",
   "theorems": [
    "Verif.Thm.C99_slices_partial",
    "Verif.Thm.C99_slices_too_few",
    "Verif.Thm.C99_step_partial",
    "Verif.Thm.C99_transient_after_neighbor",
    "Verif.Thm.C99_negative_count",
    "Verif.Thm.C99_reset_by_slice",
    "Verif.Thm.C99_minimum_groups",
    "Verif.Thm.C99_shower_data"
   ],
   "note": "Proved without sigma clipping, with neighbour flagging or after-jump flagging but not both, and when no group is unusable in one slice only; otherwise the claim is false (C99_transient_after_neighbor, C99_reset_by_slice, C99_negative_count, C99_minimum_groups, C99_shower_data)."
  },
  {
   "property": "C100",
   "status": "proved",
   "theorems": [
    "Verif.Thm.C100_zero_frame_taken_out",
    "Verif.Thm.C100_straight_ramps",
    "Verif.Thm.C100_nframes_mismatch"
   ],
   "note": ""
  },
  {
   "property": "C101",
   "status": "proved",
   "theorems": [
    "Verif.Thm.C101_group_dq",
    "Verif.Thm.C101_integration_dq",
    "Verif.Thm.C101_nothing_to_fit",
    "Verif.Thm.C101_no_slope_no_flag"
   ],
   "note": ""
  },
  {
   "property": "C102",
   "status": "proved",
   "theorems": [
    "Verif.Thm.C102_expansion",
    "Verif.Thm.C102_only_jumps_count",
    "Verif.Thm.C102_straight_ramp"
   ],
   "note": ""
  },
  {
   "property": "C103",
   "status": "proved",
   "theorems": [
    "Verif.Thm.C103_fixed_table",
    "Verif.Thm.C103_pixel_table",
    "Verif.Thm.C103_every_pixel",
    "Verif.Thm.C103_pixel_independent"
   ],
   "note": ""
  },
  {
   "property": "C104",
   "status": "proved",
   "theorems": [
    "Verif.Thm.C104_array",
    "Verif.Thm.C104_single_ramp_loses_slope",
    "Verif.Thm.C104_units",
    "Verif.Thm.C104_noise",
    "Verif.Thm.C104_pattern_length",
    "Verif.Thm.C104_straight_ramp"
   ],
   "note": ""
  },
  {
   "property": "C105",
   "status": "proved",
   "theorems": [
    "Verif.Thm.C105_weighted_mean",
    "Verif.Thm.C105_bounds",
    "Verif.Thm.C105_flagged_ignored",
    "Verif.Thm.C105_below_threshold"
   ],
   "note": ""
  },
  {
   "property": "C106",
   "status": "proved",
   "theorems": [
    "Verif.Thm.C106_first_good",
    "Verif.Thm.C106_count",
    "Verif.Thm.C106_searched",
    "Verif.Thm.C106_no_false_alarm",
    "Verif.Thm.C106_zero_nframes_finds_nothing",
    "Verif.Thm.C106_ratio",
    "Verif.Thm.C106_straight_ramps"
   ],
   "note": ""
  },
  {
   "property": "C107",
   "status": "partial",
   "theorems": [
    "Verif.Thm.C107_flags",
    "Verif.Thm.C107_few",
    "Verif.Thm.C107_processes_partial",
    "Verif.Thm.C107_showers_add",
    "Verif.Thm.C107_other_flags"
   ],
   "note": "C107_processes_partial needs the conditions of C99_step_partial, words with only the three flags and no persistence flags; C107_other_flags shows the words condition is needed"
  },
  {
   "property": "C108",
   "status": "proved",
   "theorems": [
    "Verif.Thm.C108_ratio",
    "Verif.Thm.C108_area_ratio",
    "Verif.Thm.C108_intensity",
    "Verif.Thm.C108_spectral_needs_ratio",
    "Verif.Thm.C108_mean_has_no_fallback",
    "Verif.Thm.C108_reported_kept",
    "Verif.Thm.C108_shape"
   ],
   "note": ""
  },
  {
   "property": "C109",
   "status": "proved",
   "theorems": [
    "Verif.Thm.C109_keys",
    "Verif.Thm.C109_error",
    "Verif.Thm.C109_from_var_needs_enable_var",
    "Verif.Thm.C109_weight_type_accepted_too_early"
   ],
   "note": ""
  },
  {
   "property": "C110",
   "status": "proved",
   "theorems": [
    "Verif.Thm.C110_direction",
    "Verif.Thm.C110_directions_only",
    "Verif.Thm.C110_turns",
    "Verif.Thm.C110_one_point",
    "Verif.Thm.C110_two_points",
    "Verif.Thm.C110_special",
    "Verif.Thm.C110_wavelength",
    "Verif.Thm.C110_zero_not_written",
    "Verif.Thm.C110_does_not_turn"
   ],
   "note": ""
  },
  {
   "property": "C111",
   "status": "proved",
   "theorems": [
    "Verif.Thm.C111_image",
    "Verif.Thm.C111_spectrum",
    "Verif.Thm.C111_wavelength_first"
   ],
   "note": ""
  },
  {
   "property": "C112",
   "status": "proved",
   "theorems": [
    "Verif.Thm.C112_angles",
    "Verif.Thm.C112_inverse"
   ],
   "note": ""
  },
  {
   "property": "C113",
   "status": "proved",
   "theorems": [
    "Verif.Thm.C113_box",
    "Verif.Thm.C113_which_box",
    "Verif.Thm.C113_string",
    "Verif.Thm.C113_writes_360"
   ],
   "note": ""
  },
  {
   "property": "C114",
   "status": "proved",
   "theorems": [
    "Verif.Thm.C114_union",
    "Verif.Thm.C114_fails",
    "Verif.Thm.C114_intersection",
    "Verif.Thm.C114_pieces_fail",
    "Verif.Thm.C114_one",
    "Verif.Thm.C114_pieces_become_one"
   ],
   "note": ""
  },
  {
   "property": "C115",
   "status": "proved",
   "theorems": [
    "Verif.Thm.C115_radius",
    "Verif.Thm.C115_cover",
    "Verif.Thm.C115_found"
   ],
   "note": ""
  },
  {
   "property": "C116",
   "status": "proved",
   "theorems": [
    "Verif.Thm.C116_position",
    "Verif.Thm.C116_parallax",
    "Verif.Thm.C116_still",
    "Verif.Thm.C116_rows",
    "Verif.Thm.C116_catalog",
    "Verif.Thm.C116_searched_before_moving"
   ],
   "note": ""
  },
  {
   "property": "C117",
   "status": "proved",
   "theorems": [
    "Verif.Thm.C117_paths",
    "Verif.Thm.C117_directory",
    "Verif.Thm.C117_rows",
    "Verif.Thm.C117_choice"
   ],
   "note": ""
  },
  {
   "property": "C118",
   "status": "proved",
   "theorems": [
    "Verif.Thm.C118_memory",
    "Verif.Thm.C118_wrong_type_frees_twice",
    "Verif.Thm.C118_other_arguments"
   ],
   "note": ""
  },
  {
   "property": "C119",
   "status": "proved",
   "theorems": [
    "Verif.Thm.C119_rate_and_error",
    "Verif.Thm.C119_one_integration",
    "Verif.Thm.C119_dq",
    "Verif.Thm.C119_chisq",
    "Verif.Thm.C119_four_groups"
   ],
   "note": ""
  },
  {
   "property": "C120",
   "status": "proved",
   "theorems": [
    "Verif.Thm.C120_unit_free"
   ],
   "note": ""
  },
  {
   "property": "C121",
   "status": "proved",
   "theorems": [
    "Verif.Thm.C121_boxes",
    "Verif.Thm.C121_boxes_lost",
    "Verif.Thm.C121_shape",
    "Verif.Thm.C121_every_pixel",
    "Verif.Thm.C121_where",
    "Verif.Thm.C121_returns",
    "Verif.Thm.C121_narrow_fails",
    "Verif.Thm.C121_disabled_box_still_applies"
   ],
   "note": ""
  },
  {
   "property": "C122",
   "status": "proved",
   "theorems": [
    "Verif.Thm.C122_bilinear",
    "Verif.Thm.C122_exact",
    "Verif.Thm.C122_error",
    "Verif.Thm.C122_spacing",
    "Verif.Thm.C122_larger_than_asked"
   ],
   "note": ""
  },
  {
   "property": "C123",
   "status": "proved",
   "theorems": [
    "Verif.Thm.C123_walk",
    "Verif.Thm.C123_corners",
    "Verif.Thm.C123_zero",
    "Verif.Thm.C123_every_pixel",
    "Verif.Thm.C123_larger_than_asked"
   ],
   "note": ""
  },
  {
   "property": "C124",
   "status": "proved",
   "theorems": [
    "Verif.Thm.C124_pixels",
    "Verif.Thm.C124_whole",
    "Verif.Thm.C124_local",
    "Verif.Thm.C124_shift",
    "Verif.Thm.C124_area_counted_twice",
    "Verif.Thm.C124_flat_sky_matched"
   ],
   "note": ""
  },
  {
   "property": "C125",
   "status": "proved",
   "theorems": [
    "Verif.Thm.C125_reference",
    "Verif.Thm.C125_scale",
    "Verif.Thm.C125_north",
    "Verif.Thm.C125_covers",
    "Verif.Thm.C125_shape",
    "Verif.Thm.C125_horizon",
    "Verif.Thm.C125_parity",
    "Verif.Thm.C125_transform_not_used"
   ],
   "note": ""
  },
  {
   "property": "C126",
   "status": "proved",
   "theorems": [
    "Verif.Thm.C126_value",
    "Verif.Thm.C126_outside_box",
    "Verif.Thm.C126_shift",
    "Verif.Thm.C126_flags",
    "Verif.Thm.C126_fill"
   ],
   "note": ""
  },
  {
   "property": "C127",
   "status": "proved",
   "theorems": [
    "Verif.Thm.C127_all",
    "Verif.Thm.C127_brightest",
    "Verif.Thm.C127_old_position",
    "Verif.Thm.C127_timeout"
   ],
   "note": ""
  },
  {
   "property": "C128",
   "status": "proved",
   "theorems": [
    "Verif.Thm.C128_rate"
   ],
   "note": ""
  },
  {
   "property": "C129",
   "status": "proved",
   "theorems": [
    "Verif.Thm.C129_rate",
    "Verif.Thm.C129_single_pass",
    "Verif.Thm.C129_iterative",
    "Verif.Thm.C129_half_hit"
   ],
   "note": ""
  },
  {
   "property": "C130",
   "status": "proved",
   "theorems": [
    "Verif.Thm.C130_ramp",
    "Verif.Thm.C130_rate"
   ],
   "note": ""
  },
  {
   "property": "C131",
   "status": "proved",
   "theorems": [
    "Verif.Thm.C131_lone_jump",
    "Verif.Thm.C131_integration",
    "Verif.Thm.C131_hit_not_found"
   ],
   "note": ""
  },
  {
   "property": "C132",
   "status": "proved",
   "theorems": [
    "Verif.Thm.C132_saturated_iff",
    "Verif.Thm.C132_ad_floor_iff",
    "Verif.Thm.C132_dnu_iff",
    "Verif.Thm.C132_like_two_d"
   ],
   "note": ""
  },
  {
   "property": "C133",
   "status": "proved",
   "theorems": [
    "Verif.Thm.C133_what_is_written",
    "Verif.Thm.C133_second_call_same"
   ],
   "note": ""
  },
  {
   "property": "C134",
   "status": "proved",
   "theorems": [
    "Verif.Thm.C134_median",
    "Verif.Thm.C134_two_images",
    "Verif.Thm.C134_simple",
    "Verif.Thm.C134_resampled"
   ],
   "note": ""
  },
  {
   "property": "C135",
   "status": "partial",
   "theorems": [
    "Verif.Thm.C135_same_values",
    "Verif.Thm.C135_same_output_partial",
    "Verif.Thm.C135_flag_lost_iff",
    "Verif.Thm.C135_flag_lost"
   ],
   "note": ""
  },
  {
   "property": "C136",
   "status": "partial",
   "theorems": [
    "Verif.Thm.C136_history_free_partial",
    "Verif.Thm.C136_model_kept",
    "Verif.Thm.C136_history_free_iff",
    "Verif.Thm.C136_history_matters"
   ],
   "note": "Partial because the code depends on history in the remaining case; C136_history_free_iff says exactly when (three-dimensional dark with the settings of the exposure), witness C136_history_matters."
  },
  {
   "property": "C137",
   "status": "proved",
   "theorems": [
    "Verif.Thm.C137_returns_iff",
    "Verif.Thm.C137_flags",
    "Verif.Thm.C137_zero_frame",
    "Verif.Thm.C137_single_reads_agree"
   ],
   "note": ""
  },
  {
   "property": "C138",
   "status": "proved",
   "theorems": [
    "Verif.Thm.C138_additional",
    "Verif.Thm.C138_steady_source",
    "Verif.Thm.C138_group_level_biased",
    "Verif.Thm.C138_first_averaged_inexact"
   ],
   "note": ""
  },
  {
   "property": "C139",
   "status": "proved",
   "theorems": [
    "Verif.Thm.C139_old_flags_play_no_part",
    "Verif.Thm.C139_repeat",
    "Verif.Thm.C139_repeat_step",
    "Verif.Thm.C139_repeat_keeps",
    "Verif.Thm.C139_neighbours_spread",
    "Verif.Thm.C139_after_jump_spreads"
   ],
   "note": ""
  },
  {
   "property": "C140",
   "status": "partial",
   "theorems": [
    "Verif.Thm.C140_group_dq_left",
    "Verif.Thm.C140_again_partial",
    "Verif.Thm.C140_again_not_miri_partial",
    "Verif.Thm.C140_suppressed_late",
    "Verif.Thm.C140_charge_loss_again"
   ],
   "note": "Partial: a second call differs for MIRI ramps that get their only usable group from the removal of JUMP_DET (C140_suppressed_late) and with charge loss (C140_charge_loss_again)."
  },
  {
   "property": "C141",
   "status": "proved",
   "theorems": [
    "Verif.Thm.C141_second_mask",
    "Verif.Thm.C141_nothing_found",
    "Verif.Thm.C141_lone_jump",
    "Verif.Thm.C141_caller_dq",
    "Verif.Thm.C141_again_differs"
   ],
   "note": ""
  },
  {
   "property": "C142",
   "status": "proved",
   "theorems": [
    "Verif.Thm.C142_pair",
    "Verif.Thm.C142_integration"
   ],
   "note": ""
  },
  {
   "property": "C143",
   "status": "proved",
   "theorems": [
    "Verif.Thm.C143_global",
    "Verif.Thm.C143_local",
    "Verif.Thm.C143_match",
    "Verif.Thm.C143_both",
    "Verif.Thm.C143_again"
   ],
   "note": ""
  },
  {
   "property": "C144",
   "status": "proved",
   "theorems": [
    "Verif.Thm.C144_hit",
    "Verif.Thm.C144_test_exact"
   ],
   "note": ""
  },
  {
   "property": "C145",
   "status": "proved",
   "theorems": [
    "Verif.Thm.C145_memory",
    "Verif.Thm.C145_any_order",
    "Verif.Thm.C145_modes_agree",
    "Verif.Thm.C145_index",
    "Verif.Thm.C145_broadcast",
    "Verif.Thm.C145_closed",
    "Verif.Thm.C145_broadcast_column",
    "Verif.Thm.C145_evaluated_again",
    "Verif.Thm.C145_missing"
   ],
   "note": ""
  },
  {
   "property": "C146",
   "status": "proved",
   "theorems": [
    "Verif.Thm.C146_defined",
    "Verif.Thm.C146_range",
    "Verif.Thm.C146_some_pixel_left",
    "Verif.Thm.C146_arrangement",
    "Verif.Thm.C146_scale",
    "Verif.Thm.C146_two_values",
    "Verif.Thm.C146_equal"
   ],
   "note": ""
  },
  {
   "property": "C147",
   "status": "proved",
   "theorems": [
    "Verif.Thm.C147_again_same",
    "Verif.Thm.C147_growth_adds",
    "Verif.Thm.C147_monotone"
   ],
   "note": ""
  },
  {
   "property": "C148",
   "status": "proved",
   "theorems": [
    "Verif.Thm.C148_ols",
    "Verif.Thm.C148_likely"
   ],
   "note": ""
  },
  {
   "property": "C149",
   "status": "proved",
   "theorems": [
    "Verif.Thm.C149_unit",
    "Verif.Thm.C149_threshold"
   ],
   "note": ""
  },
  {
   "property": "C150",
   "status": "proved",
   "theorems": [
    "Verif.Thm.C150_unit"
   ],
   "note": ""
  },
  {
   "property": "C151",
   "status": "proved",
   "theorems": [
    "Verif.Thm.C151_time_unit",
    "Verif.Thm.C151_even_pattern",
    "Verif.Thm.C151_fails"
   ],
   "note": ""
  },
  {
   "property": "C152",
   "status": "proved",
   "theorems": [
    "Verif.Thm.C152_ols",
    "Verif.Thm.C152_one_group",
    "Verif.Thm.C152_jump",
    "Verif.Thm.C152_casertano",
    "Verif.Thm.C152_casertano_whole"
   ],
   "note": ""
  },
  {
   "property": "C153",
   "status": "proved",
   "theorems": [
    "Verif.Thm.C153_one_process",
    "Verif.Thm.C153_only_ints",
    "Verif.Thm.C153_last_integration"
   ],
   "note": ""
  },
  {
   "property": "C154",
   "status": "proved",
   "theorems": [
    "Verif.Thm.C154_neighbours",
    "Verif.Thm.C154_after_jump"
   ],
   "note": ""
  },
  {
   "property": "C155",
   "status": "proved",
   "theorems": [
    "Verif.Thm.C155_round_trip",
    "Verif.Thm.C155_tangent_plane",
    "Verif.Thm.C155_supported",
    "Verif.Thm.C155_corrector",
    "Verif.Thm.C155_meaning"
   ],
   "note": ""
  },
  {
   "property": "C156",
   "status": "proved",
   "theorems": [
    "Verif.Thm.C156_jump",
    "Verif.Thm.C156_casertano",
    "Verif.Thm.C156_casertano_whole",
    "Verif.Thm.C156_likely",
    "Verif.Thm.C156_ols",
    "Verif.Thm.C156_one_group"
   ],
   "note": ""
  },
  {
   "property": "C157",
   "status": "proved",
   "theorems": [
    "Verif.Thm.C157_median",
    "Verif.Thm.C157_accepted",
    "Verif.Thm.C157_flags",
    "Verif.Thm.C157_blot",
    "Verif.Thm.C157_medfilt",
    "Verif.Thm.C157_medfilt_level"
   ],
   "note": ""
  },
  {
   "property": "C158",
   "status": "proved",
   "theorems": [
    "Verif.Thm.C158_unit_and_level",
    "Verif.Thm.C158_match"
   ],
   "note": ""
  },
  {
   "property": "C159",
   "status": "proved",
   "theorems": [
    "Verif.Thm.C159_maps",
    "Verif.Thm.C159_saturation",
    "Verif.Thm.C159_outliers",
    "Verif.Thm.C159_jumps"
   ],
   "note": ""
  },
  {
   "property": "C160",
   "status": "proved",
   "theorems": [
    "Verif.Thm.C160_jumps",
    "Verif.Thm.C160_casertano"
   ],
   "note": ""
  },
  {
   "property": "C161",
   "status": "proved",
   "theorems": [
    "Verif.Thm.C161_order",
    "Verif.Thm.C161_missing_sky",
    "Verif.Thm.C161_times"
   ],
   "note": ""
  },
  {
   "property": "C162",
   "status": "proved",
   "theorems": [
    "Verif.Thm.C162_read_noise",
    "Verif.Thm.C162_persistence_lowers_variance",
    "Verif.Thm.C162_zero_frame_revives"
   ],
   "note": ""
  },
  {
   "property": "C163",
   "status": "partial",
   "theorems": [
    "Verif.Thm.C163_describes",
    "Verif.Thm.C163_area",
    "Verif.Thm.C163_drawn_aligned",
    "Verif.Thm.C163_test_mirrored",
    "Verif.Thm.C163_test_partial",
    "Verif.Thm.C163_core_missed"
   ],
   "note": "Findings: C163_test_mirrored (the angle of a region is measured from the rows and drawn so, but point_inside_ellipse measures it from the columns), C163_core_missed (an elongated snowball is not selected). C163_test_partial covers round regions and regions along a diagonal."
  },
  {
   "property": "C164",
   "status": "proved",
   "theorems": [
    "Verif.Thm.C164_ols",
    "Verif.Thm.C164_likely",
    "Verif.Thm.C164_casertano",
    "Verif.Thm.C164_threshold"
   ],
   "note": ""
  },
  {
   "property": "C165",
   "status": "proved",
   "theorems": [
    "Verif.Thm.C165_ols",
    "Verif.Thm.C165_casertano"
   ],
   "note": ""
  },
  {
   "property": "C166",
   "status": "proved",
   "theorems": [
    "Verif.Thm.C166_ols",
    "Verif.Thm.C166_one_group"
   ],
   "note": ""
  },
  {
   "property": "C167",
   "status": "proved",
   "theorems": [
    "Verif.Thm.C167_miri_groups",
    "Verif.Thm.C167_first_jump_forgotten"
   ],
   "note": ""
  },
  {
   "property": "C168",
   "status": "proved",
   "theorems": [
    "Verif.Thm.C168_mean",
    "Verif.Thm.C168_nan",
    "Verif.Thm.C168_order",
    "Verif.Thm.C168_unusable",
    "Verif.Thm.C168_between",
    "Verif.Thm.C168_uniform"
   ],
   "note": ""
  },
  {
   "property": "C169",
   "status": "proved",
   "theorems": [
    "Verif.Thm.C169_variance_of_mean",
    "Verif.Thm.C169_sky_weights"
   ],
   "note": ""
  },
  {
   "property": "C170",
   "status": "proved",
   "theorems": [
    "Verif.Thm.C170_image",
    "Verif.Thm.C170_variance",
    "Verif.Thm.C170_missing_noise"
   ],
   "note": ""
  },
  {
   "property": "C171",
   "status": "proved",
   "theorems": [
    "Verif.Thm.C171_either_way"
   ],
   "note": ""
  },
  {
   "property": "C172",
   "status": "proved",
   "theorems": [
    "Verif.Thm.C172_seamless"
   ],
   "note": ""
  },
  {
   "property": "C173",
   "status": "proved",
   "theorems": [
    "Verif.Thm.C173_removed",
    "Verif.Thm.C173_ramp",
    "Verif.Thm.C173_coarse_dark_too_much"
   ],
   "note": ""
  },
  {
   "property": "C174",
   "status": "proved",
   "theorems": [
    "Verif.Thm.C174_copies",
    "Verif.Thm.C174_single",
    "Verif.Thm.C174_error",
    "Verif.Thm.C174_likely",
    "Verif.Thm.C174_error_differs"
   ],
   "note": "The error of the one-integration products differs between rate and rateints for ramps of several segments (C174_error_differs); an exactly zero likelihood rate gets a zero Poisson variance (part of C174_likely)."
  },
  {
   "property": "C175",
   "status": "proved",
   "theorems": [
    "Verif.Thm.C175_background",
    "Verif.Thm.C175_neighbors_added",
    "Verif.Thm.C175_decreasing"
   ],
   "note": "Needed conditions: neighbours of jumps above the upper limit are not flagged, so a signal that lowers the deviation can add flags there (C175_neighbors_added); the noise comes from the size of the median difference, so ramps that decrease are excluded (C175_decreasing)."
  },
  {
   "property": "C176",
   "status": "proved",
   "theorems": [
    "Verif.Thm.C176_pedestals",
    "Verif.Thm.C176_local",
    "Verif.Thm.C176_global_keeps"
   ],
   "note": ""
  },
  {
   "property": "C177",
   "status": "proved",
   "theorems": [
    "Verif.Thm.C177_median",
    "Verif.Thm.C177_resampled"
   ],
   "note": ""
  },
  {
   "property": "C178",
   "status": "proved",
   "theorems": [
    "Verif.Thm.C178_copies",
    "Verif.Thm.C178_iterative"
   ],
   "note": ""
  },
  {
   "property": "C179",
   "status": "proved",
   "theorems": [
    "Verif.Thm.C179_mosaic",
    "Verif.Thm.C179_local"
   ],
   "note": ""
  },
  {
   "property": "C180",
   "status": "proved",
   "theorems": [
    "Verif.Thm.C180_fewer",
    "Verif.Thm.C180_noise",
    "Verif.Thm.C180_flags"
   ],
   "note": ""
  },
  {
   "property": "C181",
   "status": "proved",
   "theorems": [
    "Verif.Thm.C181_by_time",
    "Verif.Thm.C181_not_understated",
    "Verif.Thm.C181_not_understated_ivm",
    "Verif.Thm.C181_understated"
   ],
   "note": ""
  },
  {
   "property": "C182",
   "status": "proved",
   "theorems": [
    "Verif.Thm.C182_single_pass",
    "Verif.Thm.C182_iterative",
    "Verif.Thm.C182_neighbors_lost"
   ],
   "note": ""
  },
  {
   "property": "C183",
   "status": "proved",
   "theorems": [
    "Verif.Thm.C183_median",
    "Verif.Thm.C183_hit_found",
    "Verif.Thm.C183_rest_kept",
    "Verif.Thm.C183_images",
    "Verif.Thm.C183_flag_crs",
    "Verif.Thm.C183_half"
   ],
   "note": ""
  },
  {
   "property": "C184",
   "status": "proved",
   "theorems": [
    "Verif.Thm.C184_read_noise",
    "Verif.Thm.C184_further_image",
    "Verif.Thm.C184_optimal",
    "Verif.Thm.C184_poisson_raised",
    "Verif.Thm.C184_read_noise_raised"
   ],
   "note": ""
  },
  {
   "property": "C185",
   "status": "proved",
   "theorems": [
    "Verif.Thm.C185_flags",
    "Verif.Thm.C185_local"
   ],
   "note": ""
  },
  {
   "property": "C186",
   "status": "proved",
   "theorems": [
    "Verif.Thm.C186_level",
    "Verif.Thm.C186_iterative",
    "Verif.Thm.C186_limits"
   ],
   "note": ""
  },
  {
   "property": "C187",
   "status": "proved",
   "theorems": [
    "Verif.Thm.C187_likely_spread",
    "Verif.Thm.C187_likely_groups",
    "Verif.Thm.C187_likely_zero",
    "Verif.Thm.C187_likely_default",
    "Verif.Thm.C187_segment",
    "Verif.Thm.C187_ols",
    "Verif.Thm.C187_ramp",
    "Verif.Thm.C187_cas22_pixel",
    "Verif.Thm.C187_cas22",
    "Verif.Thm.C187_likely_fit",
    "Verif.Thm.C187_likely",
    "Verif.Thm.C187_uneven_reads"
   ],
   "note": ""
  },
  {
   "property": "C188",
   "status": "proved",
   "theorems": [
    "Verif.Thm.C188_ramp",
    "Verif.Thm.C188_pixel",
    "Verif.Thm.C188_cas22",
    "Verif.Thm.C188_likely_fit",
    "Verif.Thm.C188_likely",
    "Verif.Thm.C188_ols",
    "Verif.Thm.C188_likely_zero",
    "Verif.Thm.C188_likely_exposure"
   ],
   "note": ""
  },
  {
   "property": "C189",
   "status": "proved",
   "theorems": [
    "Verif.Thm.C189_ramp",
    "Verif.Thm.C189_pixel",
    "Verif.Thm.C189_cas22",
    "Verif.Thm.C189_likely_fit",
    "Verif.Thm.C189_likely",
    "Verif.Thm.C189_likely_zero",
    "Verif.Thm.C189_ols"
   ],
   "note": ""
  },
  {
   "property": "C190",
   "status": "proved",
   "theorems": [
    "Verif.Thm.C190_jump",
    "Verif.Thm.C190_ramp",
    "Verif.Thm.C190_casertano",
    "Verif.Thm.C190_segment",
    "Verif.Thm.C190_likely",
    "Verif.Thm.C190_casertano_jump",
    "Verif.Thm.C190_ols"
   ],
   "note": ""
  },
  {
   "property": "C191",
   "status": "proved",
   "theorems": [
    "Verif.Thm.C191_sum",
    "Verif.Thm.C191_chisq",
    "Verif.Thm.C191_steady",
    "Verif.Thm.C191_search",
    "Verif.Thm.C191_faint",
    "Verif.Thm.C191_faint_five"
   ],
   "note": ""
  },
  {
   "property": "C192",
   "status": "proved",
   "theorems": [
    "Verif.Thm.C192_mosaic",
    "Verif.Thm.C192_variance",
    "Verif.Thm.C192_brighter"
   ],
   "note": ""
  },
  {
   "property": "C193",
   "status": "proved",
   "theorems": [
    "Verif.Thm.C193_linear",
    "Verif.Thm.C193_unit",
    "Verif.Thm.C193_signal"
   ],
   "note": ""
  },
  {
   "property": "C194",
   "status": "proved",
   "theorems": [
    "Verif.Thm.C194_unit",
    "Verif.Thm.C194_reads"
   ],
   "note": ""
  },
  {
   "property": "C195",
   "status": "proved",
   "theorems": [
    "Verif.Thm.C195_unit"
   ],
   "note": ""
  }
 ]
}