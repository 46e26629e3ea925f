{"id": "C01", "title": "Worker count is always usable", "statement": "compute_num_cores never asks for more workers than there are chunks of work or cores available, and it returns at least one worker whenever there is at least one chunk and one core, unless the caller literally asks for zero cores.", "quantifier": "every max_cores string, every number of chunks, every number of available cores", "why_tests_cant": "The request string and both counts are unbounded; tests sample a few keyword/number combinations.", "anchors": ["src/stcal/multiprocessing.py:compute_num_cores"]}
{"id": "C02", "title": "Ramp-fit row slices tile the detector", "statement": "When ramp fitting is split over n slices the row ranges are consecutive, start at row 0, together contain every detector row exactly once, and no two slices differ by more than one row.", "quantifier": "every number of rows and every positive number of slices", "why_tests_cant": "The remainder distribution must be right for every (rows, slices) pair.", "anchors": ["src/stcal/ramp_fitting/ols_fit.py:rows_per_slice", "src/stcal/ramp_fitting/ols_fit.py:compute_slices_for_starmap"]}
{"id": "C03", "title": "Sliced ramp fitting reassembles to the single-process result", "statement": "For a fit that treats every detector row independently, slicing the ramp data, fitting every slice, and assembling the pool results yields exactly the product that one whole-detector fit yields; if any slice yields no result the whole answer is empty.", "quantifier": "every input cube, every per-row fit function, every slice count", "why_tests_cant": "Needs all shapes and all slice counts; an off-by-one at a slice edge shows up only for particular remainders.", "anchors": ["src/stcal/ramp_fitting/ols_fit.py:ols_ramp_fit_multiprocessing", "src/stcal/ramp_fitting/ols_fit.py:slice_ramp_data", "src/stcal/ramp_fitting/ols_fit.py:assemble_pool_results", "src/stcal/ramp_fitting/ols_fit.py:get_slice"]}
{"id": "C04", "title": "Jump-detection row slices tile the detector", "statement": "The row slices handed to jump-detection workers are consecutive, cover every detector row exactly once, the last slice absorbing the remainder, and writing the slices back in place reproduces the full array.", "quantifier": "every number of rows, every positive slice count, every array contents", "why_tests_cant": "Remainder handling depends on every (rows, slices) pair.", "anchors": ["src/stcal/jump/jump.py:slice_data", "src/stcal/jump/jump.py:reassemble_sliced_data"]}
{"id": "C05", "title": "Neighbour flagging is transparent to slicing", "statement": "Flagging the four neighbours of primary jumps gives the same jump flags whether the detector is processed in one piece or in row slices whose edge rows are exchanged afterwards, once saturated and unusable groups have been cleaned.", "quantifier": "every jump/flag cube, every ratio cube, every slicing into at least one row per slice", "why_tests_cant": "The boundary rows matter for every slice count and every flag pattern; races at slice edges are exactly what sampled tests miss.", "anchors": ["src/stcal/jump/twopoint_difference.py:flag_four_neighbors", "src/stcal/jump/jump.py:reassemble_sliced_data", "src/stcal/jump/jump.py:detect_jumps_data"]}
{"id": "C06", "title": "Saturation is sticky within an integration", "statement": "Once a checked pixel reaches its saturation threshold in some group, that group and every later group of the same integration carry the SATURATED flag in the output.", "quantifier": "every science cube, threshold image, flag cube, number of groups and integrations", "why_tests_cant": "Quantifies over all ramps and all group positions.", "anchors": ["src/stcal/saturation/saturation.py:flag_saturated_pixels"]}
{"id": "C07", "title": "Saturation flags are set exactly where they should be", "statement": "Without neighbour growth and without a read pattern, an output group is flagged SATURATED exactly when it was flagged on input or some group at or before it in the same integration reached the pixel's threshold.", "quantifier": "every cube, thresholds, flags", "why_tests_cant": "An exact characterisation over all inputs, both directions.", "anchors": ["src/stcal/saturation/saturation.py:flag_saturated_pixels"]}
{"id": "C08", "title": "Unchecked pixels are never flagged saturated", "statement": "A pixel whose reference flag says NO_SAT_CHECK, or whose threshold is not a number, is never itself detected as saturated as long as its values do not exceed the A/D limit, and it is reported as NO_SAT_CHECK in the pixel DQ when the threshold was not a number.", "quantifier": "every cube whose values are at most the A/D limit, every threshold and reference-flag image", "why_tests_cant": "Must hold for every pixel value and every combination of reference flags.", "anchors": ["src/stcal/saturation/saturation.py:flag_saturated_pixels"]}
{"id": "C09", "title": "A/D floor flagging", "statement": "A group whose value is at or below zero leaves with both AD_FLOOR and DO_NOT_USE set; without growth and read pattern a group whose value is positive gains neither.", "quantifier": "every cube", "why_tests_cant": "Exact iff over all values.", "anchors": ["src/stcal/saturation/saturation.py:flag_saturated_pixels"]}
{"id": "C10", "title": "Neighbour growth is exactly a square dilation", "statement": "Growing saturation by n pixels flags exactly the pixels of the image that have a flagged pixel within n rows and n columns, for any image shape, including images smaller than the growth box, and touches no other flag bit.", "quantifier": "every image shape, every flag pattern, every n", "why_tests_cant": "The implementation replaces a morphological dilation by shifted copies plus edge marching; equivalence has to hold for every shape and n.", "anchors": ["src/stcal/saturation/saturation.py:_adjacent_pixels"]}
{"id": "C11", "title": "Saturation step only adds flags and integrations are independent", "statement": "The saturation step never clears a bit of the group DQ or pixel DQ, and the flags written for one integration do not depend on the data of any other integration.", "quantifier": "every input cube, every option setting", "why_tests_cant": "Non-interference over all inputs.", "anchors": ["src/stcal/saturation/saturation.py:flag_saturated_pixels"]}
{"id": "C12", "title": "Averaged-group saturation pass only adds DO_NOT_USE in front of saturation", "statement": "When a read pattern is given, the extra passes add DO_NOT_USE only: the backward pass only to groups of pixels whose next group is saturated or which neighbour such a pixel, and the second-group pass only to the second group.", "quantifier": "every cube, read pattern, threshold image", "why_tests_cant": "Interplay of passes for every read pattern and group count.", "anchors": ["src/stcal/saturation/saturation.py:flag_saturated_pixels"]}
{"id": "C13", "title": "Zero-frame saturation handling", "statement": "A zero-frame pixel that reaches its threshold or is non-positive is replaced by zero; a pixel that is in range, and has no grown neighbour, keeps its value.", "quantifier": "every zero frame and threshold image", "why_tests_cant": "Both directions for all pixel values.", "anchors": ["src/stcal/saturation/saturation.py:flag_saturated_pixels"]}
{"id": "C14", "title": "Dark averaging lines up with the science read-out", "statement": "The averaged dark for science group g is the mean of exactly those dark frames that science group g averaged: frames g*(nframes+groupgap) up to g*(nframes+groupgap)+nframes-1.", "quantifier": "every dark cube, nframes, groupgap, number of groups", "why_tests_cant": "Index arithmetic over unbounded group counts.", "anchors": ["src/stcal/dark_current/dark_sub.py:average_dark_frames_3d", "src/stcal/dark_current/dark_sub.py:average_dark_frames_4d"]}
{"id": "C15", "title": "Dark extrapolation is long enough and at most one group too long", "statement": "When the science exposure has more frames than the dark, the number of extrapolated dark groups makes the dark cover the science exposure and exceeds the least such number by at most one (by none when the dark has no group gap), and each appended group continues the last dark difference linearly.", "quantifier": "every combination of science and dark group counts, nframes, groupgap with a non-empty group", "why_tests_cant": "Ceiling arithmetic for every combination.", "anchors": ["src/stcal/dark_current/dark_sub.py:do_correction_data", "src/stcal/dark_current/dark_sub.py:extrapolate_dark"]}
{"id": "C16", "title": "Incompatible darks leave the data untouched", "statement": "If the dark averages more frames per group or has a larger group gap than the science data, the step reports SKIPPED and returns science data, group DQ and pixel DQ unchanged.", "quantifier": "every science and dark exposure", "why_tests_cant": "Must hold for every data content and parameter pair.", "anchors": ["src/stcal/dark_current/dark_sub.py:do_correction_data"]}
{"id": "C17", "title": "A dark pixel that is not a number never damages science", "statement": "Dark subtraction never turns a science value that is a number into one that is not, whatever the dark reference contains, and subtracts zero where the dark is not a number (for matching group settings).", "quantifier": "every science and dark cube", "why_tests_cant": "All placements of NaN.", "anchors": ["src/stcal/dark_current/dark_sub.py:do_correction_data", "src/stcal/dark_current/dark_sub.py:subtract_dark"]}
{"id": "C18", "title": "Every integration gets a real dark", "statement": "Each science integration is corrected with a dark integration: its own when the exposure starts at integration one and the dark has one, otherwise the last dark integration.", "quantifier": "every number of science and dark integrations, every first-integration number", "why_tests_cant": "Depends on the relation of three counts; a sampled test uses one combination.", "anchors": ["src/stcal/dark_current/dark_sub.py:subtract_dark", "src/stcal/dark_current/dark_sub.py:average_dark_frames_4d"]}
{"id": "C19", "title": "Linearity correction evaluates the coefficient polynomial", "statement": "For an unsaturated group the corrected value is sum over k of c_k * value^k with the pixel's coefficients.", "quantifier": "every coefficient list, every value", "why_tests_cant": "All polynomial degrees and values.", "anchors": ["src/stcal/linearity/linearity.py:apply_polynomial", "src/stcal/linearity/linearity.py:linearity_correction"]}
{"id": "C20", "title": "Pixels without a usable linearity solution pass through", "statement": "A pixel flagged NO_LIN_CORR in the reference, with any coefficient that is not a number, or with a zero linear coefficient, keeps its science values, and its output pixel DQ carries NO_LIN_CORR; no pixel DQ bit is ever cleared.", "quantifier": "every coefficient cube, DQ image, science cube", "why_tests_cant": "All placements of bad coefficients and flags.", "anchors": ["src/stcal/linearity/linearity.py:prepare_coefficients", "src/stcal/linearity/linearity.py:correct_for_flag", "src/stcal/linearity/linearity.py:correct_for_NaN", "src/stcal/linearity/linearity.py:correct_for_zero"]}
{"id": "C21", "title": "Saturated groups are not linearised", "statement": "A group flagged SATURATED leaves linearity correction with its input value, and a zero-frame pixel equal to zero stays zero.", "quantifier": "every cube, flags, coefficients", "why_tests_cant": "All positions and values.", "anchors": ["src/stcal/linearity/linearity.py:linearity_correction"]}
{"id": "C22", "title": "Read-level linearity is transparent to row tiling", "statement": "Processing the detector in row tiles of 64 gives exactly the result of processing all rows at once.", "quantifier": "every number of rows and every row-local correction", "why_tests_cant": "Tile arithmetic for every row count.", "anchors": ["src/stcal/linearity/linearity.py:linearity_correction"]}
{"id": "C23", "title": "No jump flag survives on saturated or unusable groups", "statement": "After two-point jump detection no group carries JUMP_DET together with SATURATED or DO_NOT_USE, and the clean-up changes no other bit and no other group.", "quantifier": "every group DQ value and flag assignment", "why_tests_cant": "All bit patterns.", "anchors": ["src/stcal/jump/jump.py:detect_jumps_data"]}
{"id": "C24", "title": "After-jump flagging covers exactly the requested groups", "statement": "Propagating large-jump flags by n groups flags exactly the groups from the jump to n groups later (clipped to the ramp), whichever of the two internal strategies is used.", "quantifier": "every flag cube, every n, every number of groups", "why_tests_cant": "Two algorithms selected by data density must agree on all inputs.", "anchors": ["src/stcal/jump/twopoint_difference.py:propagate_flags", "src/stcal/jump/twopoint_difference.py:transient_jumps"]}
{"id": "C25", "title": "Two-point detection flags only real outliers", "statement": "Single-pass two-point difference flags a group only if its difference from the median difference exceeds threshold times noise and is a number; the first group is never flagged and no flag is removed.", "quantifier": "every cube, noise image, threshold", "why_tests_cant": "Exact condition over all values.", "anchors": ["src/stcal/jump/twopoint_difference.py:find_crs", "src/stcal/jump/twopoint_difference.py:look_for_more_than_one_jump"]}
{"id": "C26", "title": "Snowball expansion respects saturation", "statement": "Expanding a large event flags jumps only on pixels not saturated in the group, only inside the enlarged ellipses, only for the requested following groups, and keeps all other flags; expanding a saturated core keeps the flags already present.", "quantifier": "every DQ cube, ellipse list, expansion setting", "why_tests_cant": "All DQ patterns and group positions.", "anchors": ["src/stcal/jump/jump.py:extend_ellipses", "src/stcal/jump/jump.py:extend_saturation", "src/stcal/jump/jump.py:flag_large_events"]}
{"id": "C27", "title": "Ramp segments are a correct decomposition of the ramp", "statement": "The segments fitted by the OLS fitter are in order, disjoint, lie inside the ramp, consist only of unflagged groups except that a segment may begin with a group flagged only as a jump, never cross a jump, and every unflagged group belongs to exactly one segment before short segments are discarded.", "quantifier": "every group-DQ vector of every length", "why_tests_cant": "All flag sequences.", "anchors": ["src/stcal/ramp_fitting/src/slope_fitter.c:compute_integration_segments", "src/stcal/ramp_fitting/src/slope_fitter.c:add_segment_to_list"]}
{"id": "C28", "title": "Short segments are discarded only when longer ones exist", "statement": "After pruning, if any segment has two or more groups then exactly the segments of two or more groups remain, otherwise only the first one-group segment remains.", "quantifier": "every segment list", "why_tests_cant": "Linked-list surgery over all lists.", "anchors": ["src/stcal/ramp_fitting/src/slope_fitter.c:prune_segment_list"]}
{"id": "C29", "title": "The weighted segment fit is exact on linear ramps and ignores the pedestal", "statement": "For a segment of two or more groups the fitted slope of data a+b*group is b per group time for every weighting, adding a constant to all groups does not change the slope, and scaling the data by k (at fixed weights) scales the slope by k.", "quantifier": "every segment length, start group, weight exponent, intercept, slope, added constant", "why_tests_cant": "Algebraic identity over all lengths and values.", "anchors": ["src/stcal/ramp_fitting/src/slope_fitter.c:ramp_fit_pixel_integration_fit_slope_seg_default_weighted_seg", "src/stcal/ramp_fitting/src/slope_fitter.c:ramp_fit_pixel_integration_fit_slope_seg_len2"]}
{"id": "C30", "title": "Combined slopes are weighted means", "statement": "With positive read-noise variances below the large-variance cut-off, the integration slope is the inverse-variance mean of the segment slopes, so it lies between the least and greatest segment slope; the exposure slope is likewise a mean over all segments of all integrations; and the combined variance is no larger than any single one.", "quantifier": "every list of segment slopes and positive variances", "why_tests_cant": "Bounds over all lists.", "anchors": ["src/stcal/ramp_fitting/src/slope_fitter.c:ramp_fit_pixel_integration_fit_slope", "src/stcal/ramp_fitting/src/slope_fitter.c:ramp_fit_pixel"]}
{"id": "C31", "title": "Rate-product DQ of the OLS fit", "statement": "The exposure-level DQ carries DO_NOT_USE from fitting exactly when every integration is unusable, carries SATURATED whenever any group of any integration is saturated, and an integration is unusable exactly when the pixel was unusable on entry or, with no zero frame standing in, its first group is saturated or all of its groups are saturated or unusable; unusable integrations have no slope.", "quantifier": "every number of integrations and every group-DQ cube", "why_tests_cant": "All patterns of per-integration states.", "anchors": ["src/stcal/ramp_fitting/src/slope_fitter.c:ramp_fit_pixel", "src/stcal/ramp_fitting/src/slope_fitter.c:ramp_fit_pixel_integration"]}
{"id": "C32", "title": "DQ compression", "statement": "Compressing an integration's group DQ into its pixel DQ sets DO_NOT_USE iff every group is saturated or unusable (or it was set), SATURATED iff some group is saturated (or set), JUMP_DET iff some group has a jump (or set); compressing integrations ORs all flags except that DO_NOT_USE survives only if every integration has it.", "quantifier": "every DQ cube", "why_tests_cant": "All bit patterns and counts.", "anchors": ["src/stcal/ramp_fitting/utils.py:dq_compress_sect", "src/stcal/ramp_fitting/utils.py:dq_compress_final"]}
{"id": "C33", "title": "Fully unusable leading and trailing groups are dropped", "statement": "Group discarding removes exactly the leading groups in which every pixel is unusable and at most one trailing such group, keeps all remaining groups in order with their data, reports failure when fewer than two groups would remain, and, when leading groups were dropped, the first kept group carries no jump flag.", "quantifier": "every cube and DQ cube", "why_tests_cant": "All patterns of unusable groups.", "anchors": ["src/stcal/ramp_fitting/ols_fit.py:discard_miri_groups"]}
{"id": "C34", "title": "One-good-group suppression", "statement": "Suppression marks every group DO_NOT_USE in exactly those ramps that have exactly one usable group, leaves all other ramps unchanged and never clears a bit; it is disabled when the exposure has a single group.", "quantifier": "every DQ cube", "why_tests_cant": "All ramps and counts.", "anchors": ["src/stcal/ramp_fitting/ramp_fit.py:suppress_one_good_group_ramps", "src/stcal/ramp_fitting/ramp_fit.py:ramp_fit"]}
{"id": "C35", "title": "Cas22 ramp discovery", "statement": "The ramps found for a pixel are the maximal runs of unflagged resultants: ordered, separated by at least one flagged resultant, every resultant in a ramp is unflagged and every unflagged resultant is in exactly one ramp.", "quantifier": "every DQ vector", "why_tests_cant": "All flag sequences.", "anchors": ["src/stcal/ramp_fitting/ols_cas22/_ramp.pyx:init_ramps"]}
{"id": "C36", "title": "Cas22 jump loop terminates and loses only the jump resultants", "statement": "For every outcome of the per-ramp jump test, the fit/split loop terminates, and each resultant of an input ramp ends either in exactly one fitted ramp or flagged as a jump.", "quantifier": "every initial ramp list and every sequence of detection outcomes", "why_tests_cant": "Termination and partition over all detection histories.", "anchors": ["src/stcal/ramp_fitting/ols_cas22/_jump.pyx:fit_jumps"]}
{"id": "C37", "title": "Cas22 ramp fit is exact on linear ramps", "statement": "The fitted slope of a ramp whose resultants are a+b*t_bar is b, the fit ignores a constant pedestal, its read variance is non-negative, and ramps of fewer than two resultants give no value.", "quantifier": "every read-time table, weights, intercept and slope with a non-singular fit", "why_tests_cant": "Algebraic identity over all ramps.", "anchors": ["src/stcal/ramp_fitting/ols_cas22/_ramp.pyx:fit_ramp"]}
{"id": "C38", "title": "The likelihood fit is the generalised least-squares estimate", "statement": "The count rate returned by the likelihood fitter is the minimiser of the chi-square of the group differences with the tridiagonal covariance built from photon and read noise, the returned uncertainty is its standard deviation, the reported chi-square is the minimum, and masked differences have no influence on them.", "quantifier": "every number of differences, every covariance with non-vanishing determinants, every mask, every data vector", "why_tests_cant": "A fast O(n) recursion claims to equal a matrix inversion for all sizes.", "anchors": ["src/stcal/ramp_fitting/likely_fit.py:fit_ramps", "src/stcal/ramp_fitting/likely_fit.py:matrix_computations", "src/stcal/ramp_fitting/likely_fit.py:compute_thetas", "src/stcal/ramp_fitting/likely_fit.py:compute_phis"]}
{"id": "C39", "title": "Likelihood jump masking only removes differences and terminates", "statement": "Jump masking never re-enables a difference, terminates after at most as many passes as there are differences, and a difference adjacent to a flagged group is never used.", "quantifier": "every data row, DQ, threshold", "why_tests_cant": "Loop invariants over all passes.", "anchors": ["src/stcal/ramp_fitting/likely_fit.py:mask_jumps", "src/stcal/ramp_fitting/likely_fit.py:determine_diffs2use"]}
{"id": "C40", "title": "Fitting does not change its inputs' read pattern", "statement": "Running the likelihood fit leaves the caller's read pattern unchanged, so that fitting the same exposure twice uses the same read times.", "quantifier": "every read pattern, with and without a zero frame", "why_tests_cant": "Needs histories of repeated calls; aliasing is invisible to a single-call test.", "anchors": ["src/stcal/ramp_fitting/likely_fit.py:likely_ramp_fit", "src/stcal/ramp_fitting/likely_fit.py:get_readtimes"]}
{"id": "C41", "title": "Combining likelihood integrations is a weighted mean", "statement": "The combined slope is a weighted mean of the integration slopes that are numbers, with non-negative weights summing to one, so it lies between their minimum and maximum, and it is not a number only if no integration has a slope.", "quantifier": "every number of integrations, every slope and positive variance", "why_tests_cant": "Bounds over all lists.", "anchors": ["src/stcal/ramp_fitting/likely_fit.py:compute_image_info"]}
{"id": "C42", "title": "Sky matching conserves data plus sky", "statement": "With subtraction on, for every image the sum of pixel data and recorded sky is unchanged by sky matching; with subtraction off the pixel data are unchanged; all members of a group receive the same change.", "quantifier": "every image list, method, direction and computed sky values", "why_tests_cant": "All methods and all outcomes of sky computation, including failures.", "anchors": ["src/stcal/skymatch/skymatch.py:skymatch", "src/stcal/skymatch/skymatch.py:_apply_sky", "src/stcal/skymatch/skyimage.py:SkyGroup.sky"]}
{"id": "C43", "title": "Match direction", "statement": "After matching down every matched image's sky change is non-negative and at least one is zero; matching up makes every change non-positive with at least one zero; pairwise differences are those of the computed solution and images without a solution are not changed and are marked invalid.", "quantifier": "every vector of computed deltas with any images missing", "why_tests_cant": "All vectors and missing patterns.", "anchors": ["src/stcal/skymatch/skymatch.py:skymatch"]}
{"id": "C44", "title": "Sky matching recovers consistent offsets in every connected mosaic", "statement": "If the measured pairwise sky differences are consistent with some sky level per image, then any least-squares solution of the matching equations has the same pairwise differences as those levels between any two images connected through overlaps.", "quantifier": "every number of images, every overlap graph, every positive weights", "why_tests_cant": "Quantifies over all mosaics (graphs).", "anchors": ["src/stcal/skymatch/skymatch.py:_find_optimum_sky_deltas", "src/stcal/skymatch/skymatch.py:_overlap_matrix"]}
{"id": "C45", "title": "Global sky is the minimum sky", "statement": "The global method gives every image the smallest sky value that could be computed, and an image whose sky cannot be computed does not prevent this.", "quantifier": "every list of computed or missing sky values", "why_tests_cant": "All orders of missing values.", "anchors": ["src/stcal/skymatch/skymatch.py:skymatch"]}
{"id": "C46", "title": "On-disk median equals in-memory median", "statement": "For any stack of equally shaped images that it accepts, the section-wise on-disk median equals the in-memory median pixel by pixel, for every buffer size.", "quantifier": "every stack, shape, buffer size", "why_tests_cant": "Section arithmetic for every (rows, buffer, images).", "anchors": ["src/stcal/outlier_detection/median.py:_OnDiskMedian", "src/stcal/outlier_detection/median.py:MedianComputer", "src/stcal/outlier_detection/median.py:nanmedian3D"]}
{"id": "C47", "title": "On-disk median accepts the announced number of images", "statement": "A median computer created for N images accepts N appended images, whatever the buffer size.", "quantifier": "every N, shape, buffer size", "why_tests_cant": "Needs all buffer sizes; the default one hides the problem.", "anchors": ["src/stcal/outlier_detection/median.py:_OnDiskMedian.add_image", "src/stcal/outlier_detection/median.py:_OnDiskMedian._get_buffer_indices"]}
{"id": "C48", "title": "Outlier masks", "statement": "A pixel is flagged as outlier by the resampled-reference test exactly when its own difference exceeds the second threshold and some pixel in its 3x3 neighbourhood exceeds the first; a pixel whose science or reference value is not a number is never flagged.", "quantifier": "every image, thresholds", "why_tests_cant": "All values, NaN placements and image edges.", "anchors": ["src/stcal/outlier_detection/utils.py:flag_resampled_crs", "src/stcal/outlier_detection/utils.py:flag_crs"]}
{"id": "C49", "title": "Absolute derivative is the largest neighbour difference", "statement": "The derivative image holds for each finite pixel the largest absolute difference to its finite left, right, upper and lower neighbours (zero if none), and not-a-number where the input is not a number.", "quantifier": "every image shape and NaN placement", "why_tests_cant": "In-place masked maximum passes must agree with the definition on all shapes.", "anchors": ["src/stcal/outlier_detection/utils.py:_abs_deriv"]}
{"id": "C50", "title": "Resample time bookkeeping counts every group once", "statement": "Within one resampling run the output pointings equal the number of distinct group ids added, exposure, measurement time and duration are sums over the first model of each group, start and end are the extremes over those models; adding after finalising is refused and finalising twice changes nothing.", "quantifier": "every sequence of add/finalize calls", "why_tests_cant": "All call histories.", "anchors": ["src/stcal/resample/resample.py:Resample.add_model", "src/stcal/resample/resample.py:Resample.update_time", "src/stcal/resample/resample.py:Resample.finalize"]}
{"id": "C51", "title": "A reset resampler behaves like a new one", "statement": "After finalize and reset_arrays, adding models and finalising reports the same pointings and times as a newly created resampler would.", "quantifier": "every pair of model histories before and after a reset", "why_tests_cant": "Needs histories with a reset in the middle.", "anchors": ["src/stcal/resample/resample.py:Resample.reset_arrays", "src/stcal/resample/resample.py:Resample.update_time"]}
{"id": "C52", "title": "Resampled variances combine as a weighted mean's variance", "statement": "The output variance of a pixel is sum(w^2 var)/(sum w)^2 over the models contributing there, independent of the order in which models were added, no number when none contributes; with inverse-variance weights the read-noise variance is 1/sum(1/var), never more than any contributor.", "quantifier": "every sequence of models with their own read-noise variance", "why_tests_cant": "Order independence over all permutations.", "anchors": ["src/stcal/resample/resample.py:Resample.resample_variance_arrays", "src/stcal/resample/resample.py:Resample.finalize_resample_variance"]}
{"id": "C53", "title": "Bad pixels get zero drizzle weight", "statement": "A pixel with any DQ bit outside the good bits gets weight exactly zero, every weight is a finite number, and a good pixel gets its inverse variance, exposure time or one according to the weighting type.", "quantifier": "every DQ value, good-bits mask, variance", "why_tests_cant": "All bit patterns and non-finite variances.", "anchors": ["src/stcal/resample/utils.py:build_driz_weight", "src/stcal/resample/utils.py:_get_inverse_variance", "src/stcal/resample/utils.py:build_mask"]}
{"id": "C54", "title": "The resampled pixel range lies inside the image and the bounding box", "statement": "The range of input pixels resampled is non-empty and inside the image, and with a bounding box covers exactly the pixels whose centres lie in the box, when the box overlaps the image.", "quantifier": "every image shape and bounding box", "why_tests_cant": "Truncation towards zero, half-pixel edges and boxes outside the image.", "anchors": ["src/stcal/resample/utils.py:resample_range"]}
{"id": "C55", "title": "Mean pixel area search terminates with a finite outline", "statement": "The search for a usable image outline terminates for every world-coordinate function, and if it succeeds all outline points used have finite sky coordinates and lie on the perimeter of a rectangle inside the image; if it fails every tried rectangle had a non-finite edge.", "quantifier": "every WCS behaviour, every image shape and bounding box", "why_tests_cant": "Termination and result for arbitrary patterns of non-finite coordinates.", "anchors": ["src/stcal/resample/utils.py:compute_mean_pixel_area", "src/stcal/resample/utils.py:_get_boundary_points"]}
{"id": "C56", "title": "The output WCS matrix is a rotation with the requested parity", "statement": "For parity +1 or -1 the matrix is orthogonal with determinant equal to the parity, so it preserves pixel-scale; any other parity is rejected.", "quantifier": "every roll angle, V3 angle and parity", "why_tests_cant": "All real angles.", "anchors": ["src/stcal/alignment/util.py:calc_rotation_matrix"]}
{"id": "C57", "title": "The output image covers the input footprints", "statement": "With automatic shape and the reference point at the tangent point, every input footprint vertex falls within one pixel of the output bounding box and at non-negative pixel coordinates; with a given crpix the fiducial lands on it.", "quantifier": "every list of footprints", "why_tests_cant": "All footprint sets; rounding of the size.", "anchors": ["src/stcal/alignment/util.py:_compute_bounding_box_with_offsets"]}
{"id": "C58", "title": "S_REGION strings round-trip", "statement": "Parsing the S_REGION string written for a footprint gives back every vertex coordinate in order, to within half a unit of the ninth decimal.", "quantifier": "every list of coordinates", "why_tests_cant": "All numbers, signs and lengths.", "anchors": ["src/stcal/alignment/util.py:compute_s_region_keyword", "src/stcal/alignment/util.py:sregion_to_footprint", "src/stcal/alignment/resample_utils.py:_polygons_to_sregion"]}
{"id": "C59", "title": "The catalogue query reads every partition that overlaps the cone", "statement": "Every catalogue partition file that contains some searched sky cell (no deeper than the search depth) is selected by its deepest enclosing partition, each selected partition encloses a searched cell, and the depth-29 index ranges of the searched cells are exactly the index intervals of their descendants.", "quantifier": "every partition list, cell list and depth", "why_tests_cant": "Hierarchical index arithmetic over all depths.", "anchors": ["src/stcal/tweakreg/_s3_catalog.py:_find_pixels_in_catalog", "src/stcal/tweakreg/_s3_catalog.py:_generate_depth_29_ranges"]}
{"id": "C60", "title": "Source count limit", "statement": "Requesting the n brightest (or n faintest) catalogue sources returns exactly min(n, total) sources and they are the brightest (faintest) ones.", "quantifier": "every magnitude list and every requested count", "why_tests_cant": "Slice arithmetic including zero and counts beyond the table.", "anchors": ["src/stcal/tweakreg/astrometric_utils.py:create_astrometric_catalog"]}
{"id": "C61", "title": "Catalogue filtering", "statement": "Filtering a source catalogue by a bounding box keeps exactly the sources strictly inside, in their original order; without a box nothing is dropped.", "quantifier": "every catalogue and box", "why_tests_cant": "All positions including edges.", "anchors": ["src/stcal/tweakreg/tweakreg.py:filter_catalog_by_bounding_box"]}
{"id": "C62", "title": "Velocity aberration keeps directions on the sphere", "statement": "For every observer velocity below light speed the aberrated direction of a unit vector is again a unit vector, zero velocity changes nothing, the scale factor is positive, and aberrating with the opposite velocity undoes the correction.", "quantifier": "every direction and every velocity below light speed", "why_tests_cant": "All real vectors.", "anchors": ["src/stcal/velocity_aberration.py:compute_va_effects_vector"]}
{"id": "C63", "title": "Dark flags are carried to the science data", "statement": "Whenever the dark is subtracted, the output pixel DQ has exactly the science flags plus the flags of the dark reference (of every dark integration for integration-dependent darks), and the group DQ is unchanged.", "quantifier": "every science exposure and dark reference", "why_tests_cant": "All flag patterns, both dark formats, with and without averaging or extrapolation.", "anchors": ["src/stcal/dark_current/dark_sub.py:subtract_dark"]}
{"id": "C64", "title": "Read-level linearity is consistent with the measurement", "statement": "On the read-level path the reconstructed reads of a resultant average exactly to the measured resultant before linearisation, and for a resultant of one read (no cap, no additional correction) the result equals the group-level correction.", "quantifier": "every read pattern, count rate, pair of forward and inverse polynomials", "why_tests_cant": "All polynomials, patterns and values.", "anchors": ["src/stcal/linearity/linearity.py:_linearity_correction_tile"]}
{"id": "C65", "title": "Pixels without a linearity solution pass through the read-level path", "statement": "On the read-level path a pixel flagged NO_LIN_CORR keeps its unsaturated resultants.", "quantifier": "every pixel, read pattern and inverse polynomial", "why_tests_cant": "Needs the identity through two polynomials and an average for all inputs.", "anchors": ["src/stcal/linearity/linearity.py:_linearity_correction_tile", "src/stcal/linearity/linearity.py:prepare_coefficients"]}
{"id": "C66", "title": "Iterative jump detection reaches a fixed point", "statement": "Iterative two-point detection flags only numbers, each being, when flagged, the largest deviation from the reference level of the differences then in use and above the threshold for their number; at the end no remaining deviation exceeds the threshold; unflagged differences are unchanged.", "quantifier": "every set of differences over any number of integrations, every noise and threshold setting", "why_tests_cant": "The loop is data dependent; whether its bound can stop it early depends on all inputs.", "anchors": ["src/stcal/jump/twopoint_difference.py:iterative_jump", "src/stcal/jump/twopoint_difference.py:get_cr_locs", "src/stcal/jump/twopoint_difference.py:calc_med_first_diffs"]}
{"id": "C67", "title": "Shower flagging is bounded and reversible", "statement": "Whatever showers are detected, group flags change only by adding JUMP_DET to unsaturated groups, and a pixel's flags in an integration change only if its approximate rate is defined before and after and changed by at most the allowed amplitude.", "quantifier": "every cube, DQ array, pixel DQ, list of detected showers", "why_tests_cant": "All detection outcomes and all values.", "anchors": ["src/stcal/jump/jump.py:find_faint_extended", "src/stcal/jump/jump.py:max_flux_showers", "src/stcal/jump/jump.py:extend_ellipses"]}
{"id": "C68", "title": "Ellipses are drawn completely", "statement": "Drawing an ellipse in a cut-out and pasting it marks exactly the image pixels inside the ellipse, wherever its centre is relative to the image edges, for semi-axes that are not negative. A semi-axis is negative for an event one pixel wide, whose shorter axis is taken as -1: along a row nothing is drawn for such an event, along a column it is drawn as with the positive semi-axis.", "quantifier": "every centre, axes, rotation, image size; events one pixel wide along a row and along a column", "why_tests_cant": "Edge clipping has many cases; the claim is over all positions.", "anchors": ["src/stcal/jump/jump.py:ellipse_subim", "src/stcal/jump/jump.py:_sk_ellipse"]}
{"id": "C69", "title": "Snowball flagging selects and changes only what it should", "statement": "A jump region is treated as a snowball exactly if it is near an edge of the image or contains a newly saturated core in this or the next group; the pass completes for every number of groups, never removes SATURATED, adds only JUMP_DET and SATURATED, and leaves the first group alone.", "quantifier": "every DQ array, every image size, every number of groups and integrations, every region finder", "why_tests_cant": "All shapes, group counts and detection outcomes.", "anchors": ["src/stcal/jump/jump.py:flag_large_events", "src/stcal/jump/jump.py:make_snowballs", "src/stcal/jump/jump.py:near_edge"]}
{"id": "C70", "title": "Unusable input is kept out of the jump step", "statement": "Pixels without a positive gain get NO_GAIN_VALUE and DO_NOT_USE and no others change; every sample flagged as jump, saturated or unusable is ignored by the shower search.", "quantifier": "every gain value, every DQ word", "why_tests_cant": "All bit patterns and NaN cases.", "anchors": ["src/stcal/jump/jump.py:setup_pdq", "src/stcal/jump/jump.py:nan_invalid_data"]}
{"id": "C71", "title": "A ramp that cannot be fitted has no slope", "statement": "An integration without any group that can enter the fit is reported with no slope (NaN) and DO_NOT_USE, and with zero variances.", "quantifier": "every group-DQ pattern", "why_tests_cant": "All DQ patterns; the unusual mixed patterns (unusable plus jump) are exactly those no test fixture has.", "anchors": ["src/stcal/ramp_fitting/src/slope_fitter.c:ramp_fit_pixel_integration", "src/stcal/ramp_fitting/src/slope_fitter.c:ramp_fit_pixel_integration_fit_slope"]}
{"id": "C72", "title": "Zero frame stands in only for ramps without usable group", "statement": "The zero-frame sample replaces the first group exactly when one-group suppression is off, a non-zero zero frame exists and no group is usable; it then becomes the first sample with a clear DQ, all other samples and DQ are unchanged, and in all other cases the ramp is fitted as it came.", "quantifier": "every ramp, DQ pattern and zero-frame value", "why_tests_cant": "All DQ patterns, including flags the fit ignores such as PERSISTENCE.", "anchors": ["src/stcal/ramp_fitting/src/slope_fitter.c:get_pixel_ramp_zero"]}
{"id": "C73", "title": "Cas22 pixel slope is an inverse-variance mean", "statement": "The slope of a pixel is the inverse-read-variance mean of the fitted ramps with at least two resultants, so it lies between the least and greatest ramp slope; its read variance is 1/sum(1/v), at most that of any ramp; with increasing times, positive read counts and non-zero read noise all these variances are positive; without such a ramp slope and variances are zero.", "quantifier": "every list of ramps, every pixel", "why_tests_cant": "Bounds over all lists of ramps.", "anchors": ["src/stcal/ramp_fitting/ols_cas22/_jump.pyx:fit_jumps"]}
{"id": "C74", "title": "Cas22 Poisson variance is never negative", "statement": "For every read pattern in time order and whatever the weights, the Poisson variance of a fitted ramp, and of the pixel average, is non-negative.", "quantifier": "every read pattern, ramp, data and weighting power", "why_tests_cant": "Positive semidefiniteness of the read covariance for every pattern; the code's one-pass formula has terms of both signs.", "anchors": ["src/stcal/ramp_fitting/ols_cas22/_ramp.pyx:fit_ramp", "src/stcal/ramp_fitting/ols_cas22/_ramp.pyx:from_read_pattern"]}
{"id": "C75", "title": "Cas22 jump test picks the largest significant difference", "statement": "With jump detection on, a ramp is split exactly when the statistic of some single or double difference in it exceeds the slope-dependent threshold, and it is split at the largest statistic.", "quantifier": "every ramp, data, read pattern and threshold", "why_tests_cant": "All data, including those whose variance estimate is negative.", "anchors": ["src/stcal/ramp_fitting/ols_cas22/_jump.pyx:_fit_statistic", "src/stcal/ramp_fitting/ols_cas22/_jump.pyx:fit_jumps"]}
{"id": "C76", "title": "The likelihood jump search compares with the fit that leaves the differences out", "statement": "For every used difference the reported chi-square and count rate on omitting it are those of the likelihood fit with that difference masked, so omitting never increases the chi-square; a masked difference offers no improvement; and the same holds for two neighbouring differences whenever the closed formula gives a number, which it does exactly if a third difference is used and the jumps fitted to the two are correlated.", "quantifier": "every number of differences, every read pattern and noise, every mask, every data vector", "why_tests_cant": "A closed formula claims to equal a re-fit for every subset of every ramp.", "anchors": ["src/stcal/ramp_fitting/likely_fit.py:compute_jump_detects", "src/stcal/ramp_fitting/likely_algo_classes.py:RampResult"]}
{"id": "C77", "title": "The local sky method records each image's own sky", "statement": "The local method changes every image (or group) by the sky computed for it, marks images whose sky cannot be computed invalid without changing them, leaves a single image, without subtraction, with exactly its measured sky whatever was recorded before, and repeating it without subtraction changes nothing.", "quantifier": "every list of images and groups, every measurement", "why_tests_cant": "All previous sky values, groups and failures; idempotence.", "anchors": ["src/stcal/skymatch/skymatch.py:skymatch", "src/stcal/skymatch/skymatch.py:_apply_sky", "src/stcal/skymatch/skyimage.py:SkyGroup.calc_sky"]}
{"id": "C78", "title": "On-disk median sections tile the image and respect the buffer", "statement": "Every image row belongs to exactly one section, no section is empty, and if the buffer can hold one row of each image then the data of one section of all images fit in it.", "quantifier": "every number of images, shape, item size and buffer size", "why_tests_cant": "Integer arithmetic for every combination.", "anchors": ["src/stcal/outlier_detection/median.py:_OnDiskMedian._get_buffer_indices", "src/stcal/outlier_detection/median.py:_OnDiskMedian._temparray_setup"]}
{"id": "C79", "title": "Median filter", "statement": "The median filter returns an image of the input's shape whose pixels are the median of the finite values in the window centred on them, zeros being taken outside the image, NaN only if the window has no finite value.", "quantifier": "every image, NaN placement and kernel size", "why_tests_cant": "All kernel sizes, including even ones, and image edges.", "anchors": ["src/stcal/outlier_detection/utils.py:medfilt"]}
{"id": "C80", "title": "The outline used for the pixel area is finely sampled", "statement": "Neighbouring points of the outline, including the step from the last point back to the first, are never more than 15 pixels apart, whatever the image size and however often the rectangle was shrunk.", "quantifier": "every image shape, bounding box and WCS behaviour for which an outline is found", "why_tests_cant": "Integer division and rounding of the point count for all sizes.", "anchors": ["src/stcal/resample/utils.py:compute_mean_pixel_area", "src/stcal/resample/utils.py:_get_boundary_points"]}
{"id": "C81", "title": "Simplified outlines keep the corners", "statement": "Simplifying a combined outline keeps a subsequence of its vertices, drops a vertex only if it coincides with its predecessor or lies on a straight line between its neighbours (to the thresholds), and every corner of the outline stays represented.", "quantifier": "every outline and thresholds", "why_tests_cant": "All polygons, including repeated vertices and wrap-around.", "anchors": ["src/stcal/alignment/resample_utils.py:_simplify_by_angle"]}
{"id": "C82", "title": "Final cone filter", "statement": "The final catalogue filter keeps exactly the rows whose great-circle distance from the centre is at most the search radius.", "quantifier": "every position, centre and radius up to 180 degrees", "why_tests_cant": "All positions on the sphere, including poles and antipodes.", "anchors": ["src/stcal/tweakreg/_s3_catalog.py:_filter_table"]}
{"id": "C83", "title": "Acceptance of image alignment", "statement": "Relative alignment returns the fitted images exactly when the separation exceeds the square root of two times the tolerance, the fit succeeds and every footprint corner moved by a number below the limit; absolute alignment returns them exactly when the separation is large enough, the reference catalogue has enough sources and the fit succeeds.", "quantifier": "every parameter set, image list and fit outcome", "why_tests_cant": "All combinations of checks, including NaN separations.", "anchors": ["src/stcal/tweakreg/tweakreg.py:relative_align", "src/stcal/tweakreg/tweakreg.py:absolute_align", "src/stcal/tweakreg/tweakreg.py:_is_wcs_correction_small"]}
{"id": "C84", "title": "Columns of reference catalogues", "statement": "A reference catalogue is accepted exactly when it has, in any case, at most one RA, DEC and sky_centroid column each and either both RA and DEC or sky_centroid; the result has one RA and one DEC column (the given ones, or the coordinates of sky_centroid), no sky_centroid, and all other columns unchanged.", "quantifier": "every table of uniquely named columns", "why_tests_cant": "All sets of column names.", "anchors": ["src/stcal/tweakreg/tweakreg.py:_parse_sky_centroid"]}
{"id": "C85", "title": "Segment variances follow the noise model", "statement": "For a segment with positive gain the fitted read-noise variance equals the variance of the slope of an unweighted straight-line fit to its groups with independent errors of rnoise/gain per group (a one-group segment counts as two groups one integration time apart); the Poisson variance equals N/(gain T)^2 where N is the number of electrons the rate (positive median rate plus dark current) collects in the time T between first and last group; both shrink when the segment gets longer.", "quantifier": "all segments, ramps, gains > 0, read noises, dark currents, median rates (also NaN), group times and timing modes", "why_tests_cant": "A test compares a few lengths with stored numbers; a wrong factor that is right for the tested lengths, or a closed form that deviates for long segments, is not seen.", "anchors": ["src/stcal/ramp_fitting/src/slope_fitter.c:segment_rnoise_default", "src/stcal/ramp_fitting/src/slope_fitter.c:segment_rnoise_len1", "src/stcal/ramp_fitting/src/slope_fitter.c:segment_rnoise_len2", "src/stcal/ramp_fitting/src/slope_fitter.c:ramp_fit_pixel_integration_fit_slope_seg_default_weighted_seg"]}
{"id": "C86", "title": "Segment slopes are optimally weighted least-squares slopes", "statement": "A segment of three or more groups gets the slope that minimises the sum of squared residuals weighted by |distance from the middle|^P / rnoise^2, and no other slope reaches that minimum; P is 0, 0.4, 1, 3, 6 or 10 according to whether the segment's signal-to-noise ratio is below 5, 10, 20, 50, 100 or above. P never decreases with the signal-to-noise ratio, and below 5 the fit is the unweighted one.", "quantifier": "all segments of three or more numeric samples, all pixels with positive gain and non-zero read noise, all powf and sqrt with 1^p = 1 and positivity", "why_tests_cant": "Optimality is a statement about all competing lines for all data; tests only compare a few fitted values with stored ones.", "anchors": ["src/stcal/ramp_fitting/src/slope_fitter.c:ramp_fit_pixel_integration_fit_slope_seg_default_weighted_ols", "src/stcal/ramp_fitting/src/slope_fitter.c:ramp_fit_pixel_integration_fit_slope_seg_default_weighted_seg", "src/stcal/ramp_fitting/src/slope_fitter.c:snr_power", "src/stcal/ramp_fitting/src/slope_fitter.c:segment_snr"]}
{"id": "C87", "title": "Charge loss does not cost read-noise precision", "statement": "When unmodified group DQ is supplied to the OLS fit, slopes, Poisson variances, errors and DQ words are those of the fit; read-noise variances of integrations with CHARGELOSS groups become those the fit would report had the CHARGELOSS and accompanying DO_NOT_USE flags been absent, and the exposure's read-noise variance is the combination of the new integration variances; other integrations keep theirs.", "quantifier": "every pixel, every number of integrations and groups, every original DQ", "why_tests_cant": "All flag patterns and the interplay of the recomputed variances with the fitted ones.", "anchors": ["src/stcal/ramp_fitting/src/slope_fitter.c:ramp_fit_pixel", "src/stcal/ramp_fitting/src/slope_fitter.c:ramp_fit_pixel_rnoise_chargeloss_segs", "src/stcal/ramp_fitting/ramp_fit.py:create_ramp_fit_class"]}
{"id": "C88", "title": "Optional results: the segment lines and their uncertainties", "statement": "The slope and intercept in the optional product for a segment of three or more groups are those of the weighted least-squares line and their uncertainties are the standard errors of that line; a two-group segment gets the line through both samples and the standard error of their difference. The weight of every segment is the inverse of its read-noise variance.", "quantifier": "every segment, sample values, gain and read noise", "why_tests_cant": "Optimality and error propagation quantify over all other lines and all data.", "anchors": ["src/stcal/ramp_fitting/src/slope_fitter.c:ramp_fit_pixel_integration_fit_slope_seg_default_weighted_ols", "src/stcal/ramp_fitting/ols_fit.py:ols_ramp_fit_single"]}
{"id": "C89", "title": "Optional results: pedestal", "statement": "The pedestal of an integration on the line p + rate*time is p, and it is zero when the integration is unusable, saturated in its first group or without slope.", "quantifier": "every flagless ramp on a line, every group timing; every unusable integration", "why_tests_cant": "Every timing pattern; tests use group times of one second.", "anchors": ["src/stcal/ramp_fitting/src/slope_fitter.c:get_pixel_ramp_integration_segments_and_pedestal"]}
{"id": "C90", "title": "Optional results: cosmic-ray magnitudes and padding", "statement": "The magnitudes of an integration are, in time order, the steps between consecutive groups at the groups after the first that carry JUMP_DET, NaN when a saturated sample is involved; padded arrays contain every value, then zeros, in as many planes as the largest reported count.", "quantifier": "every ramp and flags; every array of lists", "why_tests_cant": "All flag patterns and list lengths.", "anchors": ["src/stcal/ramp_fitting/src/slope_fitter.c:get_pixel_ramp", "src/stcal/ramp_fitting/src/slope_fitter.c:save_opt_res", "src/stcal/ramp_fitting/ols_fit.py:ols_ramp_fit_single"]}
{"id": "C91", "title": "Optional results do not depend on the number of slices", "statement": "For every number of row slices the optional product assembled from the slices has the number of planes (at least one for segment arrays) and the contents of the product computed in one piece.", "quantifier": "every product, number of rows and slices", "why_tests_cant": "All combinations of per-slice plane counts.", "anchors": ["src/stcal/ramp_fitting/ols_fit.py:assemble_pool_results", "src/stcal/ramp_fitting/ols_fit.py:create_output_info", "src/stcal/ramp_fitting/ols_fit.py:get_slice"]}
{"id": "C92", "title": "Casertano et al. ramp fit is the optimal weighted line", "statement": "The slope of a fitted ramp is the slope of the line minimising the sum of w_i*(res_i - a - b*t_i)^2, unique in its slope, where w_i = (1+P)n_i/(1+P n_i)*|2(t_i - tmid)/(t_last - t_first)|^P and P follows the published table of signal-to-noise.", "quantifier": "every ramp of at least two resultants, every resultant values, reads and times", "why_tests_cant": "The minimum is over all lines and all data.", "anchors": ["src/stcal/ramp_fitting/ols_cas22/_ramp.pyx:fit_ramp"]}
{"id": "C93", "title": "Casertano et al. variances belong to the slope", "statement": "Read-noise and Poisson variances of a fitted ramp are those of its slope as a linear combination of individual reads with independent read noise and cumulative Poisson counts; the pixel's Poisson variance is that of the weighted mean at its own slope, zero for negative slopes.", "quantifier": "every read pattern in time order, every ramp and data; for the pixel: positive read-noise variances", "why_tests_cant": "Covariance of averaged reads cannot be observed on single ramps.", "anchors": ["src/stcal/ramp_fitting/ols_cas22/_ramp.pyx:fit_ramp", "src/stcal/ramp_fitting/ols_cas22/_jump.pyx:fit_jumps"]}
{"id": "C94", "title": "Choice of the ramp-fitting algorithm and read-noise scaling", "statement": "LIKELY (any letter case) with at least four groups runs the likelihood fit; everything else is fitted like OLS_C; least squares use and leave in the caller's array the read noise times gain over sqrt(2*nframes), the likelihood fit leaves it alone.", "quantifier": "every algorithm name, number of groups and exposure", "why_tests_cant": "All names and exposures.", "anchors": ["src/stcal/ramp_fitting/ramp_fit.py:ramp_fit_data", "src/stcal/ramp_fitting/ramp_fit.py:create_ramp_fit_class"]}
{"id": "C95", "title": "Every pixel of an exposure is fitted on its own", "statement": "The least-squares product has the shape of the exposure and every pixel holds the fit of its own samples, flags, gain, noise and dark current, whatever the other pixels and the number of processes; for MIRI on the groups left after dropping unusable leading and trailing ones; no result if every ramp is saturated in its first group or fewer than two groups are left.", "quantifier": "every exposure, instrument, algorithm, process count", "why_tests_cant": "All exposures; cross-talk between pixels or slices shows only for particular combinations.", "anchors": ["src/stcal/ramp_fitting/ramp_fit.py:ramp_fit", "src/stcal/ramp_fitting/ols_fit.py:ols_ramp_fit_multi", "src/stcal/ramp_fitting/ols_fit.py:discard_miri_groups"]}
{"id": "C96", "title": "Byte order around the C extension", "statement": "Whatever the byte order of the machine and of each array, the C extension reads the numbers the caller sees, and the caller's arrays are as before on return.", "quantifier": "every byte order and contents of the arrays", "why_tests_cant": "Tests run on little-endian machines with native arrays.", "anchors": ["src/stcal/ramp_fitting/ols_fit.py:endianness_handler", "src/stcal/ramp_fitting/ols_fit.py:handle_array_endianness", "src/stcal/ramp_fitting/ols_fit.py:ols_ramp_fit_single"]}
{"id": "C97", "title": "Which jumps find_crs reports", "statement": "find_crs on an exposure: if some integration has fewer than minimum_groups usable groups and there are too few integrations or groups for sigma clipping, nothing changes and -99 is reported; otherwise sigma clipping, the single pass or the iterative search is used as documented, and (without neighbour and after-jump flagging) a sample gains JUMP_DET exactly if its difference to the previous group is rejected by that method.", "quantifier": "every exposure shape, data, flags, thresholds and clipping rule", "why_tests_cant": "All shapes and flag patterns; the choice of method depends on counts over the whole exposure.", "anchors": ["src/stcal/jump/twopoint_difference.py:find_crs", "src/stcal/jump/twopoint_difference.py:groups_all_set_dnu", "src/stcal/jump/twopoint_difference.py:check_group_counts", "src/stcal/jump/twopoint_difference.py:check_sigma_clip_groups", "src/stcal/jump/twopoint_difference.py:run_jump_detection", "src/stcal/jump/twopoint_difference.py:det_jump_sigma_clipping"]}
{"id": "C98", "title": "Jump detection changes only JUMP_DET", "statement": "find_crs with any options changes no bit but JUMP_DET, adds it only to usable samples after the first of an integration, and removes it only from planes reset after sigma clipping; after the step, in any number of processes, JUMP_DET is set only on samples that are neither saturated nor unusable.", "quantifier": "every exposure, options and number of processes", "why_tests_cant": "All exposures and options.", "anchors": ["src/stcal/jump/twopoint_difference.py:find_crs", "src/stcal/jump/jump.py:detect_jumps_data", "src/stcal/jump/jump.py:twopoint_diff_multi"]}
{"id": "C99", "title": "Jump detection does not depend on the number of processes", "statement": "The group DQ and the number of primary cosmic rays are the same whatever the number of slices.", "quantifier": "every exposure and number of slices up to the number of rows", "why_tests_cant": "All exposures and slice counts; differences show only for events at slice boundaries.", "anchors": ["src/stcal/jump/jump.py:twopoint_diff_multi", "src/stcal/jump/jump.py:slice_data", "src/stcal/jump/jump.py:reassemble_sliced_data", "src/stcal/jump/jump.py:detect_jumps_data"]}
{"id": "C100", "title": "The likelihood fit is exact on straight ramps", "statement": "If in every integration of a pixel the reads of unflagged groups and the zero frame lie on a line of slope b (the group being the mean of its reads, nframes being the number of reads of the first group when there is a zero frame; offsets may differ; flagged groups hold any numbers), then every integration with two neighbouring clean groups, or a zero frame before a clean first group, has rate b and chi-square 0, the others have none, no group is flagged and the rate of the exposure is b.", "quantifier": "every read pattern with increasing times, number of groups from four, integrations, gain, noise, flags, thresholds >= 0", "why_tests_cant": "All read patterns and flag patterns; the handling of the zero frame must agree in samples, times and flags.", "anchors": ["src/stcal/ramp_fitting/likely_fit.py:likely_ramp_fit", "src/stcal/ramp_fitting/likely_fit.py:get_readtimes", "src/stcal/ramp_fitting/likely_fit.py:compute_image_info"]}
{"id": "C101", "title": "What the likelihood fit does to the data quality", "statement": "The only change to the group DQ of the caller is that JUMP_DET is set in clean groups after clean groups (or in a clean first group, if the zero frame is used); the DQ of an integration has DO_NOT_USE if every returned group is saturated or unusable, SATURATED and JUMP_DET if some returned group has them, besides the flags of the pixel, also when the zero frame is used; without usable difference there is no slope.", "quantifier": "every input, with and without zero frame", "why_tests_cant": "All flag patterns; the extra plane of the zero frame shifts all groups.", "anchors": ["src/stcal/ramp_fitting/likely_fit.py:likely_ramp_fit", "src/stcal/ramp_fitting/likely_fit.py:determine_diffs2use", "src/stcal/ramp_fitting/utils.py:dq_compress_sect"]}
{"id": "C102", "title": "Snowball expansion in the likelihood fit", "statement": "Expansion removes from the fit exactly the differences that end in a group with JUMP_DET afterwards, the remaining ones are fitted by generalised least squares; if the expansion changes no JUMP_DET flag the fit is unchanged; whatever is flagged, a straight ramp never gets another slope.", "quantifier": "every expansion rule, input and noise", "why_tests_cant": "All expansions and data.", "anchors": ["src/stcal/ramp_fitting/likely_fit.py:likely_ramp_fit"]}
{"id": "C103", "title": "Every pixel of the Casertano fit is fitted by itself", "statement": "The tables pre-computed for the jump test hold the documented values whatever the uninitialised or reused arrays held; fit_ramps ends, and what it returns for a pixel is the fit of that pixel, independent of the other pixels, their number and order, and the scratch array shared by all of them.", "quantifier": "every read pattern, data, flags, noise and previous contents of the arrays", "why_tests_cant": "A scratch array left over from another pixel only matters for particular sequences of pixels.", "anchors": ["src/stcal/ramp_fitting/ols_cas22/_fit.pyx:fit_ramps", "src/stcal/ramp_fitting/ols_cas22/_jump.pyx:fill_fixed_values", "src/stcal/ramp_fitting/ols_cas22/_jump.pyx:_fill_pixel_values", "src/stcal/ramp_fitting/ols_cas22/_jump.pyx:_fit_statistic"]}
{"id": "C104", "title": "fit_ramps_casertano on arrays, single ramps and units", "statement": "For an array of pixels the output has a slope, three variances and the flags of each pixel at its place; if the unflagged resultants of a pixel are on a line, nothing is flagged and the slope is exact if two consecutive resultants are good, and zero with zero variances otherwise. A single ramp returns the number 0 instead of its slope; a result from data with a unit carries that unit although computed in electrons; a read pattern of another length is refused.", "quantifier": "every shape, read pattern with increasing mean times, flags, read noise, threshold that is not negative, and jump detection on or off", "why_tests_cant": "All flag patterns and lines; shapes other than the tested ones.", "anchors": ["src/stcal/ramp_fitting/ols_cas22_fit.py:fit_ramps_casertano", "src/stcal/ramp_fitting/ols_cas22/_fit.pyx:fit_ramps"]}
{"id": "C105", "title": "Smoothing with missing pixels in the shower search", "statement": "convolve_fast gives each pixel with a value the kernel-weighted mean of the pixels with a value, positions outside the image counting as zero, and never a value outside the range of these; missing pixels stay missing; flagged pixels are never emission and have no influence on others; a plane nowhere above the threshold has no emission.", "quantifier": "every image, pattern of missing pixels, image size and non-negative kernel of odd width", "why_tests_cant": "All patterns of missing pixels, edges included.", "anchors": ["src/stcal/jump/jump.py:convolve_fast", "src/stcal/jump/jump.py:get_bigellipses"]}
{"id": "C106", "title": "Shower search: groups searched and false alarms", "statement": "The groups searched are those after the first one with a usable sample; the number of unusable groups counts groups without any; if no unflagged ratio exceeds the threshold, in particular if every pixel has equal differences between its usable groups, the flags come back unchanged, those of reference pixels included; with nframes zero no shower is ever found when there are fewer integrations than minimum_sigclip_groups.", "quantifier": "every exposure, flags, kernel and region search that finds nothing in an empty plane", "why_tests_cant": "All exposures and flag patterns; reference pixels are modified during the search and must be restored.", "anchors": ["src/stcal/jump/jump.py:find_faint_extended", "src/stcal/jump/jump.py:find_first_good_group", "src/stcal/jump/jump.py:count_dnu_groups", "src/stcal/jump/jump.py:diff_meddiff_int", "src/stcal/jump/jump.py:diff_meddiff_grp"]}
{"id": "C107", "title": "The jump step as a whole, with snowballs and showers", "statement": "detect_jumps_data fails exactly if snowballs are asked for and there are two groups. Otherwise it sets no flag but JUMP_DET and SATURATED; saturated samples stay saturated; without snowballs every other flag of every sample is as before; without persistence flags no sample comes out both saturated and a jump; without showers no sample of a first group gets JUMP_DET; asking for showers takes no flag away from any sample, changes no saturated one, and leaves pixel DQ and number of cosmic rays as they are; the pixel DQ gets DO_NOT_USE and NO_GAIN_VALUE exactly where the gain is missing or not positive. Group DQ, pixel DQ, number of cosmic rays and number of events do not depend on max_cores.", "quantifier": "every exposure, number of processes, detection options, region search and smoothing kernel; independence of max_cores is proved under the conditions of C99, for words with no flags other than JUMP_DET, SATURATED and DO_NOT_USE and snowballs without persistence flags", "why_tests_cant": "All flag words and combinations of options; with other flags in the words the result does depend on the number of processes (C107_other_flags).", "anchors": ["src/stcal/jump/jump.py:detect_jumps_data", "src/stcal/jump/jump.py:flag_large_events", "src/stcal/jump/jump.py:find_faint_extended", "src/stcal/jump/jump.py:nan_invalid_data", "src/stcal/jump/jump.py:setup_pdq"]}
{"id": "C108", "title": "Pixel scales and output shape of a Resample object", "statement": "Whatever sequence of add_model, finalize and reset_arrays is called, the pixel_scale_ratio reported in the output model is the one in use and the output pixel scale does not change. A ratio given by the caller is kept; otherwise it is the output scale over the pixel scale (root of the pixel area, in arcseconds) of the first accepted imaging model with a known area, and there is none before; an area is the nominal one if positive, else the computed mean. If the output scale comes from the output WCS, the squared ratio times the input area is the output area. Intensities are scaled by one, or, for spectral data in flux density units with a nominal area, by the inverse ratio; add_model fails exactly if the product is finalized or the needed ratio does not exist. An output shape made from the bounding box contains a row or column exactly if its far edge is in the box.", "quantifier": "every sequence of calls on every object and models; every bounding box", "why_tests_cant": "Unbounded call sequences with resets; a single test run only sees one first model.", "anchors": ["src/stcal/resample/resample.py:Resample._compute_pixel_scale_ratio", "src/stcal/resample/resample.py:Resample._get_intensity_scale", "src/stcal/resample/resample.py:Resample.get_input_model_pixel_area", "src/stcal/resample/resample.py:Resample.check_output_wcs", "src/stcal/resample/resample.py:Resample.reset_arrays"]}
{"id": "C109", "title": "Required keys and error arrays of Resample", "statement": "validate_input_model accepts a model exactly if it has the thirteen keys always needed, the data unit for spectral data, the variances if they are resampled, the error if it is, and the read noise variance for inverse variance weights without resampled variances; then add_model finds every key it looks up. Errors from variances are the root of the sum of the variances that are not NaN and NaN exactly if all are; resampled errors are divided by the pixel scale ratio for images and multiplied by its root for spectra, and unchanged without a ratio.", "quantifier": "every set of keys, options, names of variances, ratio and values", "why_tests_cant": "All combinations of options and missing keys; tests cover a few.", "anchors": ["src/stcal/resample/resample.py:Resample.validate_input_model", "src/stcal/resample/resample.py:Resample.finalize", "src/stcal/resample/resample.py:Resample.add_model", "src/stcal/resample/utils.py:build_driz_weight"]}
{"id": "C110", "title": "Fiducial point of footprints", "statement": "The fiducial point computed from footprints is a longitude in [0, 360) and latitude in [-90, 90], the direction of the centre of the box around the unit vectors of all vertices. It depends only on the set of directions: not on the order, repetition or grouping of vertices nor on whole turns of longitudes. It is the point itself for a footprint that is one point away from the poles, and half way on the great circle for two. A given reference value is returned as it is; a NaN coordinate gives NaN; no vertices are an error. The spectral fiducial is the least wavelength.", "quantifier": "every list of footprints with any number of vertices, real coordinates, NaN, any reference value", "why_tests_cant": "Continuous inputs on the sphere, including those across longitude zero and near the poles; tests use a few footprints.", "anchors": ["src/stcal/alignment/util.py:_calculate_fiducial_from_spatial_footprint", "src/stcal/alignment/util.py:_calculate_fiducial", "src/stcal/alignment/util.py:compute_fiducial"]}
{"id": "C111", "title": "Pixel scale of a WCS", "statement": "For an image, compute_scale is the geometric mean of the sky separations of neighbouring pixels along both axes, times the pixel scale ratio if one is given, and lies between the two separations; the dispersion axis is ignored. For spectra with the positions first, it is the separation across the dispersion and an error without a dispersion axis.", "quantifier": "every transform, separation function, fiducial pixel, ratio and dispersion axis", "why_tests_cant": "The transform is arbitrary; tests use one or two WCS objects.", "anchors": ["src/stcal/alignment/util.py:compute_scale"]}
{"id": "C112", "title": "Velocity aberration in angles", "statement": "For every velocity below that of light, compute_va_effects returns a right ascension in [0, 360) and a declination in [-90, 90] whose direction, and a scale factor, are those of the vector form. Correcting the result with the opposite velocity returns to the position away from the poles, with inverse scale factors; at rest nothing changes.", "quantifier": "every velocity below the speed of light and every position", "why_tests_cant": "Continuous ranges of velocities and positions.", "anchors": ["src/stcal/velocity_aberration.py:compute_va_effects", "src/stcal/velocity_aberration.py:compute_va_effects_vector"]}
{"id": "C113", "title": "S_REGION of an image", "statement": "The bounding box made from a shape contains a pixel centre exactly if the pixel belongs to the image, and reaches half a pixel beyond the outer centres. compute_s_region_imaging uses the bounding box of the WCS if there is one, otherwise that of the shape, which it attaches to the WCS, and fails without both. The string written for four vertices is read back in order to half a unit of the ninth decimal, with right ascensions equal to those of the footprint up to whole turns, in [0, 360].", "quantifier": "every shape, bounding box and footprint with finite coordinates", "why_tests_cant": "Rounding and wrapping interact at the end of the range, which samples miss.", "anchors": ["src/stcal/alignment/util.py:compute_s_region_imaging", "src/stcal/alignment/util.py:wcs_bbox_from_shape", "src/stcal/alignment/util.py:compute_s_region_keyword"]}
{"id": "C114", "title": "S_REGION of combined images", "statement": "combine_sregions joins exactly the outlines of its inputs, each vertex carried to output pixels and each outline with its own vertices; the string is read back as the kept vertices of the union carried to the sky, in order, to half a unit of the ninth decimal. With a footprint to intersect with, it is the kept vertices of the intersections that are not empty, and an error if all are. Without one it fails exactly if a string cannot be read, numbers of vertices differ, an input has one or two vertices, or the union is not made of polygons. A single outline of which no vertex is dropped comes back.", "quantifier": "every list of strings and footprints, every pair of transforms, every union and intersection function", "why_tests_cant": "Any number of inputs, vertices and pieces, with all failures.", "anchors": ["src/stcal/alignment/resample_utils.py:combine_sregions", "src/stcal/alignment/resample_utils.py:combine_footprints", "src/stcal/alignment/resample_utils.py:_intersect_with_bbox", "src/stcal/alignment/resample_utils.py:_convert_to_array"]}
{"id": "C115", "title": "Search radius covers the field", "statement": "compute_radius returns the least angle in [0, 180] that reaches all vertices of the footprint from the fiducial point. If it is at most 90 degrees, every source within the footprint (a non-negative combination of the directions of its vertices) is kept by the cone search with that radius; for a catalogue whose partitions do not enclose each other and a cone search that misses no cell, every row within the footprint is in the returned catalogue.", "quantifier": "every footprint with at least one vertex, every source position, every partitioned catalogue", "why_tests_cant": "The sphere is continuous and the catalogue arbitrary; tests query a few fields.", "anchors": ["src/stcal/tweakreg/astrometric_utils.py:compute_radius", "src/stcal/tweakreg/_s3_catalog.py:_filter_table", "src/stcal/tweakreg/_s3_catalog.py:_get_hats_sources", "src/stcal/tweakreg/_s3_catalog.py:get_s3_catalog"]}
{"id": "C116", "title": "Proper motion and parallax", "statement": "The corrected catalogue has exactly the rows with proper motion and parallax, in order, with nothing but the position changed. The new direction is the old one plus the proper motion in the interval towards east and north (in angle on the sky, not in coordinate) less parallax times the position of the Earth across the line of sight; cosine of the displacement is 1 over the root of 1 plus the squares. A star at rest keeps its position. Without an epoch the result of the search is returned.", "quantifier": "every row, epoch and position of the Earth", "why_tests_cant": "Continuous inputs, including those near the poles and across longitude zero.", "anchors": ["src/stcal/tweakreg/_s3_catalog.py:_correct_for_proper_motion", "src/stcal/tweakreg/_s3_catalog.py:get_s3_catalog"]}
{"id": "C117", "title": "Names and paths of catalogues", "statement": "Each selected partition has one path, different partitions have different paths, and the directory is the greatest multiple of 10000 not above its number for every number below 10^15 in spite of the rounded division. The web service rows without proper motion are left out exactly if an epoch other than zero is given. The name of a reference catalogue is recognised in spite of case and white space and before a file of that name; otherwise it must be a file.", "quantifier": "every list of partitions, every rounding with the precision of doubles, every table, every name", "why_tests_cant": "All numbers below 10^15 and all strings.", "anchors": ["src/stcal/tweakreg/_s3_catalog.py:_pixels_to_paths", "src/stcal/tweakreg/astrometric_utils.py:get_catalog", "src/stcal/tweakreg/tweakreg.py:_parse_refcat"]}
{"id": "C118", "title": "Memory of the linked lists in the C extension", "statement": "While the C extension computes segments group by group, prunes them, fits them, handles charge loss, hands lists over to the optional results, builds the optional product and frees, it reads and writes live nodes and in-range array cells only, frees every segment and cosmic-ray node it has allocated exactly once and nothing else. Each integration gets the fits of its own surviving segments, in order, and the optional cells hold the segments and cosmic rays of their own pixel and integration, all within the allocated planes. With arrays of a wrong type the ramp data structure is freed twice.", "quantifier": "every allocator that returns an address not in use, every earlier content of the heap, every list of pixels with any groups, flags and options", "why_tests_cant": "Use after free and leaks depend on the allocator and often have no visible effect; the groups give unboundedly many list shapes.", "anchors": ["src/stcal/ramp_fitting/src/slope_fitter.c:compute_integration_segments", "src/stcal/ramp_fitting/src/slope_fitter.c:add_segment_to_list", "src/stcal/ramp_fitting/src/slope_fitter.c:prune_segment_list", "src/stcal/ramp_fitting/src/slope_fitter.c:clean_segment_list", "src/stcal/ramp_fitting/src/slope_fitter.c:save_opt_res", "src/stcal/ramp_fitting/src/slope_fitter.c:get_ramp_data"]}
{"id": "C119", "title": "Rate product of the likelihood fit", "statement": "likely_ramp_fit refuses exactly the ramps with fewer than four groups. With one integration, slope, error, chi-square and DQ of the rate product are those of the integration. With several, the slope is the inverse-variance mean of the slopes that are not NaN, with Poisson variances scaled to the mean of a first round started from the median, and the squared error is the inverse of the sum of those weights; the DQ has DO_NOT_USE exactly if all integrations have it and any other flag exactly if some integration has it; the chi-square is the sum, and NaN as soon as one integration has no fit.", "quantifier": "every number of integrations, slopes and non-negative variances with positive read noise variance", "why_tests_cant": "Continuous slopes and variances and any pattern of missing fits.", "anchors": ["src/stcal/ramp_fitting/likely_fit.py:compute_image_info", "src/stcal/ramp_fitting/likely_fit.py:likely_ramp_fit"]}
{"id": "C120", "title": "Jump detection does not depend on the unit of the data", "statement": "If samples, read noise and neighbour thresholds are given in a unit k times smaller and the gain accordingly, detect_jumps_data returns the same group DQ, pixel DQ, number of cosmic rays and number of events.", "quantifier": "every positive k, exposure, options, number of processes, clipping rule, region search and kernel", "why_tests_cant": "Continuous scale factor and all exposures; tests use one unit.", "anchors": ["src/stcal/jump/jump.py:detect_jumps_data", "src/stcal/jump/jump.py:setup_pdq"]}
{"id": "C121", "title": "Pixel maps", "statement": "calc_pixmap leaves the bounding boxes of both WCS objects as they were, also if the transform raises, provided the first box (if any) has two axes. The map has the shape asked for, else that of the WCS, else it covers the pixels that begin before the end of the box. With step size one, or for an image or box of at most ten by ten pixels, every pixel has the value of the transform. Otherwise pixels of the image with centre in the box have numbers and all others NaN. A call with a transform that works returns if there are more than `order` rows and columns with centre in the box.", "quantifier": "every transform, box, shape, step size, spline order and spline", "why_tests_cant": "Arbitrary boxes, shapes and step sizes; the failures need unusual boxes or narrow images.", "anchors": ["src/stcal/resample/utils.py:calc_pixmap"]}
{"id": "C122", "title": "Accuracy of coarse pixel maps", "statement": "If a spline of degree `order` reproduces polynomials of that degree in each coordinate (bilinear interpolation, for order 1, does), a pixel map computed on a coarse grid is exact for such transforms. For order 1 and a transform that changes by at most L per pixel the error is at most 2 L times the spacing of the grid, which is at most the step size and a ninth of it; the grid runs from the first to the last pixel and has at least ten points or as many as pixels.", "quantifier": "every step size of at least one, box, shape, polynomial or Lipschitz transform", "why_tests_cant": "Continuous transforms and all step sizes; tests use one image size.", "anchors": ["src/stcal/resample/utils.py:calc_pixmap"]}
{"id": "C123", "title": "Bounding polygon of a sky image", "statement": "The polygon of a SkyImage consists of the sky positions of a closed walk around the outer edge of the image (half a pixel outside the pixel centres), counter-clockwise in pixel coordinates, by way of the four corners. Without a step size its vertices are the corners; with step size s of at least one, adjacent vertices are at most 2 s - 1 pixels apart; with step size one they are the pixel corners along the edge. A step size of zero is an error.", "quantifier": "every image size, step size and transform", "why_tests_cant": "All sizes and step sizes; the vertices of a real polygon are only seen through its area.", "anchors": ["src/stcal/skymatch/skyimage.py:_calc_bounding_polygon"]}
{"id": "C124", "title": "Pixels of a sky measurement", "statement": "SkyImage.calc_sky with an overlap takes the statistic of exactly the good pixels that lie in the common region with the other image, or with some image of the group, each pixel once; other pixels have no influence; without such pixels, or if the statistic fails or is not finite, there is no sky. If the statistic moves with its data, so does the sky. If all good pixels of each element have one value, then after skymatch with the method match all good pixels of images that overlap, directly or by way of others, have the same level.", "quantifier": "every image, mask, polygon library, statistic, group and pixel values", "why_tests_cant": "All masks and overlaps; tests compare a few synthetic images within tolerances.", "anchors": ["src/stcal/skymatch/skyimage.py:SkyImage.calc_sky", "src/stcal/skymatch/skyimage.py:SkyImage.intersection", "src/stcal/skymatch/skymatch.py:skymatch"]}
{"id": "C125", "title": "Output WCS from footprints", "statement": "In the WCS returned by wcs_from_sregions the pixel crpix has the reference position, which is the crval given or the fiducial point of the footprints; the angular distance of any other pixel from it has tangent scale times distance in pixels (scale in radians), with the scale given or, for none and for zero, the one of compute_scale; with a rotation given, the Y axis at the reference point has that position angle and the X axis is at right angles to it, on the side given by vparity. Without crpix and shape all footprint vertices are at pixel coordinates from 0 to less than n + 1/2; a shape given is kept, and shapes below 2 are errors, as are vertices 90 degrees or more from crval and parities other than 1 and -1. A transform given has no influence on position, scale and matrix (contrary to the documentation).", "quantifier": "every list of footprints and every combination of the optional arguments", "why_tests_cant": "Tests compare a few WCS objects at a few points; the statement is about the whole sky and all arguments.", "anchors": ["src/stcal/alignment/util.py:wcs_from_sregions"]}
{"id": "C126", "title": "Blotted median images", "statement": "gwcs_blot gives each pixel the interpolated median at its position according to the two WCS, and the fill value to pixels that have no position or whose position is outside the median. If an image is shifted by whole pixels against the median, its pixels get exactly the values of their median pixels at every step size of the pixel map; a pixel that deviates by d from its median is then flagged by flag_crs exactly if |d| exceeds the threshold, and flag_resampled_crs flags no pixel that deviates by the background. Pixels with a NaN fill value are never flagged; with the default 0 they are flagged by their own value.", "quantifier": "every image, median, shift, bounding box, step size and interpolation exact at pixel centres", "why_tests_cant": "All positions and shifts; the tests blot one image with an identity transform.", "anchors": ["src/stcal/outlier_detection/utils.py:gwcs_blot", "src/stcal/outlier_detection/utils.py:flag_crs", "src/stcal/outlier_detection/utils.py:flag_resampled_crs"]}
{"id": "C127", "title": "Reference catalogue as a whole", "statement": "create_astrometric_catalog with a catalogue on S3 returns all rows within the footprint (of a field of at most 90 degrees in radius), at their positions of the epoch asked for, and only rows whose catalogue position is within the radius; with a limit n the n brightest of these. A reading that takes longer than the timeout is an error (but the call then lasts until the reading ends).", "quantifier": "every footprint, catalogue, epoch, cone search that includes all cells within the radius, and limit of sources", "why_tests_cant": "Network access; tests see a few fields only and cannot know which sources are missing.", "anchors": ["src/stcal/tweakreg/astrometric_utils.py:create_astrometric_catalog", "src/stcal/tweakreg/_s3_catalog.py:get_s3_catalog"]}
{"id": "C128", "title": "The fit of a steady source is exact", "statement": "If in a pixel every two successive groups without flags (or, for the first of them, with JUMP_DET alone; PERSISTENCE does not count) differ by b counts, then the OLS_C rate of the pixel, and the rate of each integration with two such groups, is exactly b divided by the group time, whatever the samples of flagged groups, the sizes and positions of the flagged jumps, the number of segments and integrations and the powers of the weights. Integrations without any group that can be fitted count nothing.", "quantifier": "every ramp, number of groups and integrations, pattern of flags, gain > 0, read noise <> 0 (whose variance of a difference is below the code's limit of 10^6), group time <> 0 and powers of the weights; zero frame not used, first group not saturated", "why_tests_cant": "All ramps and jump patterns; tests compare some slopes to a tolerance and cannot see the bias of a weight on untested patterns.", "anchors": ["src/stcal/ramp_fitting/src/slope_fitter.c:ramp_fit_pixel", "src/stcal/ramp_fitting/src/slope_fitter.c:ramp_fit_pixel_integration_fit_slope_seg"]}
{"id": "C129", "title": "Cosmic rays do not bias the rate", "statement": "A pixel receives b counts per group and is hit by cosmic rays before some groups. If more than half of the differences of its usable groups are not hit and each hit exceeds the threshold times the noise of the source, jump detection flags every group after a hit (and, without neighbours and after-jump flags, no other group), and the ramp fit of the flagged data gives exactly b divided by the group time. This holds for the single pass and, for hits that add counts to a source that is not negative, for the iterative search.", "quantifier": "every image, ramp, pattern of hits that leaves a majority of the differences, size of hits above the threshold, read noise, gain > 0 and equal group times; one process, or several under the conditions of C99", "why_tests_cant": "Composition of two steps over all hit patterns and ramp lengths; tests run the steps separately, on single hits.", "anchors": ["src/stcal/jump/twopoint_difference.py:find_crs", "src/stcal/jump/twopoint_difference.py:run_jump_detection", "src/stcal/jump/twopoint_difference.py:iterative_jump", "src/stcal/ramp_fitting/src/slope_fitter.c:ramp_fit_pixel"]}
{"id": "C130", "title": "From raw counts to the rate", "statement": "A pixel's raw counts are numbers, and below its saturation level the linearity polynomial turns them into source plus the dark current of the reference; the source grows by b per group except where cosmic rays hit, more than half of the usable differences are not hit, and hits exceed the thresholds of jump detection. Then flag_saturated_pixels, linearity_correction, dark subtraction, jump detection and the OLS_C fit, each run on the result of the step before, give exactly b divided by the group time as rate and as rate of each integration that can be fitted. Saturated samples, whatever their values, growth of saturation to neighbours, read patterns and frame averaging do not bias it.", "quantifier": "every image, detector response, source, dark reference of three dimensions (read by read or with the groups of the science data), pattern and size of hits, saturation levels, growth and read pattern; processes as in C129", "why_tests_cant": "Composition of five steps over all detector responses and ramps; tests run each step on its own with a few ramps.", "anchors": ["src/stcal/saturation/saturation.py:flag_saturated_pixels", "src/stcal/linearity/linearity.py:linearity_correction", "src/stcal/dark_current/dark_sub.py:do_correction_data", "src/stcal/jump/twopoint_difference.py:find_crs", "src/stcal/ramp_fitting/src/slope_fitter.c:ramp_fit_pixel"]}
{"id": "C131", "title": "The likelihood fit finds a lone jump and recovers the slope", "statement": "If the reads of a pixel lie on a line of slope b except for one step between two clean neighbouring groups, with at least two other usable group differences, and no count rate explains the differences within the one-omission threshold (which is below the two-omission threshold), then the likelihood fit flags exactly the group after the step as a jump, leaves every other group flag alone, and returns the rate b with chi-square zero, provided that the jumps fitted to any two adjacent differences are correlated. Without that proviso the jump can be missed altogether.", "quantifier": "all read patterns, numbers of groups, read noises, gains, offsets, slopes, step heights and positions, contents of flagged groups, with and without a zero frame", "why_tests_cant": "Tests use a few simulated ramps and check that flags appear near the injected jump within noise; that the search ranks the true difference strictly above every other one, for every read pattern and noise level, and that the second pass finds nothing more, are statements about all inputs.", "anchors": ["src/stcal/ramp_fitting/likely_fit.py:mask_jumps", "src/stcal/ramp_fitting/likely_fit.py:compute_jump_detects", "src/stcal/ramp_fitting/likely_fit.py:likely_ramp_fit"]}
{"id": "C132", "title": "Saturation flagging with thresholds that vary by integration and group", "statement": "When the threshold, reference DQ and bias of flag_saturated_pixels are 4-D (striped readout), SATURATED is set exactly where it was set or where a pixel within the growth distance reached, in this or an earlier group of the integration, the threshold of that group; AD_FLOOR exactly at values at or below zero; and DO_NOT_USE exactly where it was set, at such values, in front of a group that saturates when the value is above the diluted threshold of its own group, and in the second group by the criterion that uses the threshold and bias of the first group. An integration whose planes are all equal gets the flags, pixel DQ and zero frame that the 2-D arrays would give.", "quantifier": "all detector shapes, numbers of integrations and groups, data (with NaN), flags, thresholds varying freely, growth distances, read patterns", "why_tests_cant": "Every comparison has a 2-D and a 4-D branch that must index the same integration and group; a slip between the group of the data and the group of the threshold shows only when thresholds differ between groups.", "anchors": ["src/stcal/saturation/saturation.py:flag_saturated_pixels"]}
{"id": "C133", "title": "Overwriting the saturation reference arrays is harmless", "statement": "flag_saturated_pixels writes into the threshold and reference DQ arrays it is given. Afterwards the threshold holds the level in force at each pixel (one above the A/D limit where the pixel is exempt) and the DQ has NO_SAT_CHECK added where the threshold was NaN. A further call with the overwritten arrays, on any data, returns what it would have returned with the originals.", "quantifier": "all detector shapes, data, flags, thresholds with NaN, reference DQ, growth distances, read patterns and zero frames", "why_tests_cant": "The side effect on the caller's arrays is invisible in a single call; tests pass fresh arrays.", "anchors": ["src/stcal/saturation/saturation.py:flag_saturated_pixels"]}
{"id": "C134", "title": "Outlier detection finds the cosmic rays and nothing else", "statement": "Images of one scene on a common grid, each pixel within a tolerance of the scene in more than half of the images that have a value there and arbitrary in the others. The median made by MedianComputer, on disk with any buffer that accepts the images, is within the tolerance of the scene; so is the median blotted by gwcs_blot to the grid of an image shifted by whole pixels. flag_crs then flags every pixel that differs from the scene by more than snr times its error plus the tolerance, and no pixel that differs by at most snr times its error less the tolerance. flag_resampled_crs flags no pixel within the second noise threshold less the tolerance, and every pixel that exceeds both thresholds, with the scene's differences to the four neighbours in place of the derivative, by the tolerance. Without a majority (two images) no threshold separates the hit pixel from the good one.", "quantifier": "all scenes, numbers and shapes of images, tolerances, patterns of hits and of NaN with a good majority at the pixel, buffer sizes, whole-pixel shifts, bounding boxes, step sizes and orders of the map, errors (with NaN) and settings with non-negative scales", "why_tests_cant": "The guarantee spans three components with their own indexing (sections on disk, pixel maps, neighbourhoods); tests check each component on a few literal images.", "anchors": ["src/stcal/outlier_detection/median.py:MedianComputer", "src/stcal/outlier_detection/utils.py:gwcs_blot", "src/stcal/outlier_detection/utils.py:flag_crs", "src/stcal/outlier_detection/utils.py:flag_resampled_crs"]}
{"id": "C135", "title": "Reusing linearity coefficients after a call", "statement": "linearity_correction writes into the coefficient array it is given. A later call on any exposure with the overwritten array returns the same science data and zero frame as with the original array, and the same pixel DQ. The DQ part holds for pixels that have a usable solution or whose reference DQ says NO_LIN_CORR; for a pixel whose coefficients hold a NaN or a zero linear term the flag NO_LIN_CORR is raised by the first call only, unless it is already in the input or reference DQ.", "quantifier": "every pixel, coefficient list with NaN, reference and input DQ, flag values, science data, group DQ and zero frame", "why_tests_cant": "The side effect on the caller's array is invisible in a single call; tests pass fresh arrays.", "anchors": ["src/stcal/linearity/linearity.py:linearity_correction", "src/stcal/linearity/linearity.py:prepare_coefficients"]}
{"id": "C136", "title": "Reusing a dark model after a call", "statement": "do_correction writes into the array of the dark model it is given (NaN becomes zero). Whatever exposures were corrected before with the same model in memory, the result for the next exposure is that of a fresh copy of the model. This holds when the exposure does not outlast the dark or, of the last two groups of the dark, both are numbers or neither is (or the one that is a number is zero); otherwise the extrapolated dark depends on whether a shorter exposure was corrected before.", "quantifier": "every sequence of earlier exposures, exposure, dark of three or four dimensions with NaN, and group structure", "why_tests_cant": "Tests correct one exposure with a fresh dark; the effect needs a sequence of calls of different lengths.", "anchors": ["src/stcal/dark_current/dark_sub.py:do_correction", "src/stcal/dark_current/dark_sub.py:do_correction_data"]}
{"id": "C137", "title": "Read-level linearity correction of an exposure", "statement": "linearity_correction with inverse coefficients returns iff a read pattern is given and every pixel has at least two coefficients of each kind. Each output pixel DQ holds the input flags, the reference flags and, iff the coefficients or the inverse coefficients give no usable solution, NO_LIN_CORR, and nothing else. The zero frame is that of a call without inverse coefficients. When every resultant is a single read and neither cap nor additional correction applies, the science data are those of a call without inverse coefficients.", "quantifier": "every image shape, number of integrations and groups, coefficient lists with NaN, flags, read pattern and additional correction; for the agreement of the two paths: increasing single reads, at least two resultants, science values that are numbers", "why_tests_cant": "Two coefficient arrays and two DQ updates in sequence, and a loop over tiles and integrations: tests use one small image.", "anchors": ["src/stcal/linearity/linearity.py:linearity_correction", "src/stcal/linearity/linearity.py:linearity_correction_int"]}
{"id": "C138", "title": "Read-level correction is exact for a steady source", "statement": "The true counts at read k are a + b k, each resultant is the mean over its reads of the inverse polynomial of the true counts, and the coefficients undo the inverse polynomial at the true counts. If the first resultant and the one that gives the count rate are single unsaturated reads, linearity_correction with inverse coefficients returns, for every unsaturated resultant, exactly the mean of the true counts over its reads, however many there are; a cap above the measured reads changes nothing. The same holds with an additional correction, if the coefficients give the true counts for every read after that correction and, without it, for those two single reads. The group-level path is biased for such data, and the recovery is not exact if the first resultant averages reads.", "quantifier": "every read pattern, offset, rate, coefficient polynomials, image, saturation pattern, cap and additional correction that looks at one read at a time", "why_tests_cant": "A statement about all response curves and read patterns; tests compare to a tolerance with one quadratic response.", "anchors": ["src/stcal/linearity/linearity.py:linearity_correction", "src/stcal/linearity/linearity.py:linearity_correction_int", "src/stcal/linearity/linearity.py:_linearity_correction_tile"]}
{"id": "C139", "title": "Jump flags already in the input play no part in jump detection, and repeating the step changes nothing", "statement": "If two group DQ arrays agree on which samples are DO_NOT_USE and SATURATED, find_crs without sigma clipping, neighbour flagging and after-jump flagging adds JUMP_DET to the same samples of both and changes nothing else. Hence running find_crs again on its own flags changes nothing, and neither does running the two-point difference step of detect_jumps_data again in one process, its clean-up included. With any options (but no sigma clipping) a second run keeps every JUMP_DET of the first. With neighbour flagging or after-jump flagging on, a second run can spread the flags further.", "quantifier": "all data, noise, thresholds, DQ arrays with distinct flag bits; any sizes", "why_tests_cant": "Repetition is a relation between two runs; tests run the step once, mostly on inputs without jump flags.", "anchors": ["src/stcal/jump/twopoint_difference.py:find_crs", "src/stcal/jump/jump.py:detect_jumps_data"]}
{"id": "C140", "title": "What ramp_fit leaves in the group DQ, and fitting again", "statement": "With least squares, ramp_fit changes the caller's group DQ only by adding DO_NOT_USE to all groups of ramps suppressed for having one usable group, and, for MIRI, by taking JUMP_DET from every group (but the first) before which there are only dead groups. Given the exposure as it was left, with the read noise put back, a second call has the same result and changes nothing more.", "quantifier": "every exposure, instrument, flags, options and number of processes", "why_tests_cant": "Needs two calls on the same object; tests build a new model for every call.", "anchors": ["src/stcal/ramp_fitting/ramp_fit.py:ramp_fit", "src/stcal/ramp_fitting/ramp_fit.py:suppress_one_good_group_ramps", "src/stcal/ramp_fitting/ols_fit.py:discard_miri_groups", "src/stcal/ramp_fitting/ols_fit.py:ols_ramp_fit_multi"]}
{"id": "C141", "title": "Running the likelihood fit again on its own flags", "statement": "likely_ramp_fit writes JUMP_DET for the jumps it found into the caller's group DQ. A second call starts from the differences the first ended with, except that the difference after a dropped one is lost as well; if nothing was dropped the second call returns the same; a ramp that is straight but for one jump keeps its rate and gets no further flag. Otherwise the rate of the second call can differ.", "quantifier": "every read pattern, data with or without missing values, flags, noise and thresholds", "why_tests_cant": "Needs two calls on the same object; tests build a new model for every call.", "anchors": ["src/stcal/ramp_fitting/likely_fit.py:likely_ramp_fit", "src/stcal/ramp_fitting/likely_fit.py:determine_diffs2use", "src/stcal/ramp_fitting/likely_fit.py:mask_jumps"]}
{"id": "C142", "title": "The likelihood fit finds a hit during a group", "statement": "If the reads of a pixel lie on a line of slope b but for a hit at some moment while a group of several reads is being taken (neighbouring groups clean, at least three other usable differences), and no count rate explains the differences within the thresholds, not even with any one difference left out, then likely_ramp_fit drops exactly the two differences of that group, flags the group and the next one as jumps and no other, and the slope is b with chi-square zero.", "quantifier": "every read pattern, data, moment and height of the hit, noise and thresholds with correlated neighbouring jump estimates; with or without a zero frame", "why_tests_cant": "The choice between dropping one difference and dropping two depends on all chi-square improvements; tests use noise and compare within a tolerance.", "anchors": ["src/stcal/ramp_fitting/likely_fit.py:mask_jumps", "src/stcal/ramp_fitting/likely_fit.py:compute_jump_detects", "src/stcal/ramp_fitting/likely_fit.py:likely_ramp_fit"]}
{"id": "C143", "title": "Sky matching its own result changes nothing", "statement": "Let skymatch be called a second time, with the same method and the same options, on the images it has just treated. Then it does not fail, and it changes no pixel, no recorded sky and no validity mark, of single images as of groups, for all four methods, matching up or down, with or without subtraction. With subtraction the statistic is one that follows a constant subtracted from all pixels (no lower or upper limits); the linear system is solved by the pseudo-inverse, i.e. by the shortest of all least-squares solutions, which exists for all equations.", "quantifier": "for all lists of images and groups, measurements, overlaps, methods, directions and both subtraction modes", "why_tests_cant": "A test repeats the call for a few images with one method; the claim rests on the residuals of a least-squares solution being orthogonal to all equations, and on the order in which the combined method marks images invalid and valid again.", "anchors": ["src/stcal/skymatch/skymatch.py:skymatch", "src/stcal/skymatch/skymatch.py:_find_optimum_sky_deltas", "src/stcal/skymatch/skymatch.py:_apply_sky", "src/stcal/skymatch/skyimage.py:SkyGroup.calc_sky"]}
{"id": "C144", "title": "The Casertano fit finds a cosmic ray where it is and recovers the slope", "statement": "For a read pattern in which every resultant averages its reads in the same way, one step after the other, let the unflagged resultants of a pixel be a steady source of rate b >= 0 plus one hit of any size at any moment during resultant j (a fraction phi of the charge appears in resultant j, all of it later). fit_ramps_casertano with jump detection then does one of two things. Either it flags nothing in the pixel, and then no single or double difference inside a run of three or more good resultants has a statistic above the threshold. Or it flags exactly two consecutive good resultants x, x+1 with x in {j-2, j-1, j}, leaves every other flag alone, and the slope of the pixel is exactly b, with positive read variance, if two consecutive resultants are still unflagged (zeros otherwise). A hit in an already flagged resultant adds no flag and does not change the slope. For such read patterns the jump test of three or more resultants with a slope that is not negative is exact: a jump is reported if and only if some difference exceeds the threshold, so NaN statistics never hide one.", "quantifier": "all regular read patterns, shapes, flags, read noises, rates, hit sizes and times, thresholds that are not negative", "why_tests_cant": "whether the flagged pair covers the hit depends on how the fitted slope, biased by the hit itself, compares with single and double differences at neighbouring positions; tests use a few positions and sizes", "anchors": ["src/stcal/ramp_fitting/ols_cas22/_jump.pyx:fit_jumps", "src/stcal/ramp_fitting/ols_cas22/_jump.pyx:_fit_statistic", "src/stcal/ramp_fitting/ols_cas22/_ramp.pyx:fit_ramp", "src/stcal/ramp_fitting/ols_cas22_fit.py:fit_ramps_casertano"]}
{"id": "C145", "title": "The median computer gives the same image in memory and on disk when every announced slot is filled", "statement": "MedianComputer in memory: after any calls of append with images of the announced shape at indices of the announced stack (also negative, repeated, in any order) evaluate gives at every pixel the statistic of the n slots, each slot holding the image appended last or, if there was none, whatever the fresh memory held. If every slot is filled exactly once, the result does not depend on the fresh memory nor on the order and equals, at every pixel, the result of the on-disk computer for the same calls, whatever the buffer size, if that accepts them. An append without an index or with an index outside the stack raises in memory; on disk the index is not looked at. With one slot of two left unfilled the in-memory median is the mean of the value and uninitialised memory, the on-disk median is the value. In memory an image of a single row is repeated over all rows of the slot, on disk it is refused. An evaluated on-disk computer refuses further calls.", "quantifier": "all numbers and shapes of images, indices, orders of calls, buffer sizes, contents of the fresh memory and, for the agreement, all statistics that do not depend on the order", "why_tests_cant": "tests append at 0, 1, ..., n-1 in order and fill the stack; uninitialised memory is often zero in a test process, and the order of appends in a pipeline depends on grouping", "anchors": ["src/stcal/outlier_detection/median.py:MedianComputer.append", "src/stcal/outlier_detection/median.py:MedianComputer.evaluate", "src/stcal/outlier_detection/median.py:MedianComputer.__init__"]}
{"id": "C146", "title": "The weight threshold of outlier detection is always usable", "statement": "compute_weight_threshold is NaN exactly when no weight is finite and non-zero: the sigma clipping never removes all weights. It lies between the fraction maskpt of the smallest and of the largest usable weight; with non-negative weights and maskpt at most 1 some pixel reaches it, so masking below the threshold never masks everything. It does not depend on the arrangement of the pixels nor on zero or non-finite weights; weights multiplied by a positive number give a threshold multiplied by it; equal usable weights give exactly maskpt times the weight. Of N equal weights and a < N weights of another value, the deviating ones are ignored if and only if 9aN < (N+a)^2 (a single one among seven or more equal ones), and the threshold is then exactly maskpt times the common weight.", "quantifier": "all lists of weights, fractions, factors and counts", "why_tests_cant": "tests use a few weight maps; that the clipping always leaves a weight follows from the position of the median relative to the mean for every distribution", "anchors": ["src/stcal/outlier_detection/utils.py:compute_weight_threshold"]}
{"id": "C147", "title": "Repeating the saturation step, and monotonicity", "statement": "Without growth, running flag_saturated_pixels again on its own group DQ, pixel DQ and zero frames changes nothing, with or without a read pattern. With growth a second run grows again: runs with growth m and then n set the SATURATED flags of a single run with growth m + n. Larger science values, lower saturation levels, more SATURATED flags on input and larger growth never lose a SATURATED flag.", "quantifier": "every cube, thresholds, reference flags, flags on input, read pattern, growth that does not raise", "why_tests_cant": "Relates several runs on arbitrary cubes; tests run the step once on a few hand-made ramps.", "anchors": ["src/stcal/saturation/saturation.py:flag_saturated_pixels", "src/stcal/saturation/saturation.py:_adjacent_pixels", "src/stcal/saturation/saturation.py:_plane_saturation"]}
{"id": "C148", "title": "The order of the integrations does not matter", "statement": "If the integrations of an exposure are put in another order, the rate product of the OLS_C fit (slope, variances, error, DQ) and that of the likelihood fit (slope, variances, error, chi-square, DQ) are the same, and every integration keeps its own result.", "quantifier": "every pixel, number of integrations and groups, flags, zero frames, order", "why_tests_cant": "All permutations of all exposures; tests have one or two integrations in one order.", "anchors": ["src/stcal/ramp_fitting/src/slope_fitter.c:ramp_fit_pixel", "src/stcal/ramp_fitting/likely_fit.py:compute_image_info", "src/stcal/ramp_fitting/likely_fit.py:likely_ramp_fit"]}
{"id": "C149", "title": "The OLS_C fit and the unit of the data", "statement": "If the data of a pixel are given in a unit in which every number is k times as large (data, zero frame, read noise and dark current k times, gain a k-th), every rateints entry and the rate of the OLS_C fit have the same DQ, k times the rate and error and k^2 times the variances, except where one of the two fits replaces a variance of 10^6 or more by zero. Such a replaced read-noise variance makes the rate zero, so that a pixel with a rate of 7/22 has the rate zero in a unit 100000 times smaller.", "quantifier": "every pixel, number of integrations and groups, flags, zero frames, settings, positive k", "why_tests_cant": "Relates two runs on arbitrary ramps and every scale factor; tests fit each ramp in one unit only.", "anchors": ["src/stcal/ramp_fitting/src/slope_fitter.c:ramp_fit_pixel", "src/stcal/ramp_fitting/src/slope_fitter.c:ramp_fit_pixel_integration_fit_slope"]}
{"id": "C150", "title": "The likelihood fit and the unit of the data", "statement": "If the data of a pixel are given in a unit in which every number is k times as large (data, zero frame, read noise and dark current k times, gain a k-th), likely_ramp_fit finds the same jumps, and gives for every integration and for the rate the same DQ and chi-square, k times the rate and k^2 times the variances; the rescaling of the covariance matrix does not matter.", "quantifier": "every pixel, number of integrations and groups, read pattern, flags, zero frames, settings, positive k", "why_tests_cant": "Relates two runs on arbitrary ramps and every scale factor; tests fit each ramp in one unit only.", "anchors": ["src/stcal/ramp_fitting/likely_fit.py:likely_ramp_fit", "src/stcal/ramp_fitting/likely_fit.py:compute_alphas_betas", "src/stcal/ramp_fitting/likely_fit.py:mask_jumps", "src/stcal/ramp_fitting/likely_fit.py:compute_image_info"]}
{"id": "C151", "title": "Read patterns in jump detection", "statement": "Multiplying all read times of the read pattern by a positive number or adding a constant does not change the result of detect_jumps_data. With a pattern in which all groups have m reads and the mean times are evenly spaced the result is that without a read pattern for m frames per group. Without snowballs the step raises an exception exactly if there is neither a read pattern nor a number of frames, or if the pattern has neither as many groups as the data nor two groups (a pattern of two groups is accepted for any number of groups and its time difference used throughout).", "quantifier": "every exposure, read pattern, setting, number of processes; clipping rules that do not depend on the unit", "why_tests_cant": "Relates runs with different read patterns on arbitrary exposures; tests use one or two patterns.", "anchors": ["src/stcal/jump/jump_class.py:JumpData.__init__", "src/stcal/jump/twopoint_difference.py:run_jump_detection", "src/stcal/jump/twopoint_difference.py:find_crs"]}
{"id": "C152", "title": "Samples flagged as unusable have no influence", "statement": "Two inputs that agree in everything but the values of samples flagged DO_NOT_USE or SATURATED give the same result (NaN values included): every rateints entry and the rate of the OLS_C fit of a pixel with more than one group (flag bits being distinct; the zero frame may differ too where one-group ramps are suppressed or some group is good); the group DQ, pixel DQ and counts of the jump step for any number of processes if showers are not searched for, and with showers if it runs in one process and has enough groups; the parameters, variances and DQ of fit_ramps_casertano for resultants with any flag. With one group per integration the OLS_C statement is false: the value of a DO_NOT_USE sample enters the Poisson variance of the other integrations.", "quantifier": "all data, flag words, zero frames, gains, read noises, pairs of values of flagged samples, numbers of integrations, groups, pixels and processes", "why_tests_cant": "no test fits the same ramp twice with different values in the flagged samples, and the flagged samples of test data are mostly zero", "anchors": ["src/stcal/ramp_fitting/src/slope_fitter.c:ramp_fit_pixel", "src/stcal/jump/jump.py:detect_jumps_data", "src/stcal/ramp_fitting/ols_cas22_fit.py:fit_ramps_casertano"]}
{"id": "C153", "title": "Order of the integrations in jump detection", "statement": "Putting the integrations of an exposure in another order puts the group DQ words found by two-point difference jump detection in the same other order and leaves the number of cosmic rays as it is, whichever of the three searches (sigma clipping, single pass, iterative) is used and with the flagging of neighbours and of groups after a jump. This holds for one process if only_use_ints is set or the integration that comes last has as many usable groups as the one that came last before, and for any number of processes if only_use_ints is set. Without either condition it fails: the order can decide whether detection is skipped.", "quantifier": "all exposures, all orders of the integrations, all parameters and switches, every clipping rule that looks at values and not at positions, with snowballs and showers switched off", "why_tests_cant": "A test would have to compare runs over all orders of the integrations; the known tests use one or two integrations and fixed orders.", "anchors": ["src/stcal/jump/jump.py:detect_jumps_data", "src/stcal/jump/jump.py:twopoint_diff_multi", "src/stcal/jump/twopoint_difference.py:find_crs", "src/stcal/jump/twopoint_difference.py:groups_all_set_dnu", "src/stcal/jump/twopoint_difference.py:run_jump_detection"]}
{"id": "C154", "title": "What the flagging of neighbours and of groups after a jump adds", "statement": "If find_crs does not skip detection: with flag_4_neighbors a sample gains JUMP_DET exactly if it is neither saturated nor unusable, is not in the first group, and it or one of its four neighbours inside the frame is detected as a jump in the same group and deviates from its median difference by more than min_jump_to_flag_neighbors and less than max_jump_to_flag_neighbors standard deviations. With after-jump flagging a sample gains JUMP_DET exactly if it is neither saturated nor unusable and lies at most after_jump_flag_n1 groups after a jump (detected or neighbour) of its own pixel and integration that exceeds the median by at least after_jump_flag_e1 counts, or at most n2 groups after one that exceeds it by at least e2. No other word changes.", "quantifier": "all exposures, flags, noises, parameters, switches and clipping rules; all integrations, groups and pixels", "why_tests_cant": "The tests check a few jumps at fixed positions with fixed thresholds; none lies on a threshold, and few are at the edge of the frame.", "anchors": ["src/stcal/jump/twopoint_difference.py:find_crs", "src/stcal/jump/twopoint_difference.py:flag_four_neighbors", "src/stcal/jump/twopoint_difference.py:transient_jumps"]}
{"id": "C155", "title": "Reference angles of a WCS", "statement": "The reference angles that alignment reads off a WCS are those with which the transform to the sky was built: from a pipeline ending in a rotation by v2/3600, -v3/3600, roll, dec, -ra the function returns v2, v3, roll, ra and dec, or, if the WCS has been aligned before, v2, v3 and roll of the tangent plane of that alignment together with ra and dec of the sky transform.  For rotations about z, y, x, y, z these angles mean what their names say: the transform takes the direction (v2, v3) to (ra, dec), and roll is the position angle of increasing v3 there, from north towards east.  A WCS is refused exactly if one of these parts is missing.  The corrector receives roll, v2 and v3 and the catalog rows strictly inside the bounding box.", "quantifier": "all pipelines of frames with different names, all transforms, all angles, catalogs and bounding boxes", "why_tests_cant": "tests check the angles of a few WCSs; sign, unit and frame errors cancel for symmetric choices, and the meaning of the angles under the rotation is not asserted", "anchors": ["src/stcal/tweakreg/utils.py:_wcsinfo_from_wcs_transform", "src/stcal/tweakreg/tweakreg.py:construct_wcs_corrector"]}
{"id": "C156", "title": "The zero level of a ramp has no influence", "statement": "Adding a constant to all samples of a pixel's integration (another one for each pixel and integration), as the reset level of the detector does, changes nothing: not the group DQ, pixel DQ and counts of the jump step, with any detection algorithm, number of processes, snowballs and showers; not the parameters, variances and DQ of fit_ramps_casertano; not the fits, DQ and combined result of the likelihood fit, if the zero frame is raised with the samples; and not the rateints entries and the rate of the OLS_C fit of a pixel with more than one group, if every integration has two neighbouring groups without flag and numbers in all groups that can be used, or is not used at all. For OLS_C ramps of which a single group is left the statement is false: the zero level is taken for signal.", "quantifier": "all data, zero levels, flag words, zero frames, gains, read noises, read patterns, numbers of integrations, groups, pixels and processes", "why_tests_cant": "no test runs the same data twice with different zero levels; the ramps of the tests mostly start at zero or at one fixed value", "anchors": ["src/stcal/jump/jump.py:detect_jumps_data", "src/stcal/ramp_fitting/src/slope_fitter.c:ramp_fit_pixel", "src/stcal/ramp_fitting/likely_fit.py:likely_ramp_fit", "src/stcal/ramp_fitting/ols_cas22_fit.py:fit_ramps_casertano"]}
{"id": "C157", "title": "Outlier detection does not depend on the unit and the common zero level of the images", "statement": "Give all images of an outlier detection in another unit and with another common zero level (x becomes k*x+z with k > 0, errors and background become k times as large; NaN stays NaN). Then the median image, in memory and on disk, is the former one in the new unit and level; images are accepted just as before; the blotted median follows if the interpolation does; and flag_crs and flag_resampled_crs flag the same pixels, as data and median enter only as differences and the derivative image of the blot is made of differences. medfilt follows the unit, but not the level: it pads with zeros.", "quantifier": "all fields, factors k > 0, levels z, image sizes, numbers of images, buffer sizes, values with NaN, SNRs, scales and backgrounds, transforms and interpolations that follow the affine map", "why_tests_cant": "Tests run in one unit at one background level; that no threshold, padding or NaN replacement brings in an absolute level can only be seen by comparing all pairs of runs.", "anchors": ["src/stcal/outlier_detection/median.py:MedianComputer.evaluate", "src/stcal/outlier_detection/median.py:nanmedian3D", "src/stcal/outlier_detection/utils.py:flag_crs", "src/stcal/outlier_detection/utils.py:flag_resampled_crs", "src/stcal/outlier_detection/utils.py:gwcs_blot", "src/stcal/outlier_detection/utils.py:medfilt"]}
{"id": "C158", "title": "Sky matching does not depend on the unit and the common zero level of the images", "statement": "Give all images of a sky matching in another unit and with another common zero level (pixels x become k*x+z with k > 0, recorded skies k*s), with a statistic that follows such changes. skymatch raises just when it did before. With 'match' the result is the former one with images in the new unit and level, and with the skies in the new unit (they are differences). With 'local', 'global' and 'global+match', if every element has good pixels, all recorded skies are the former ones in the new unit plus z; the images are the former ones in the new unit without the zero level if the sky is subtracted, and with it if not. Validity marks are the same.", "quantifier": "all fields, factors k > 0, levels z, lists of images and groups, all four methods, both directions, subtract or not, every statistic following affine maps, every solver returning the shortest least-squares solution", "why_tests_cant": "Tests use a few scenes in one unit; independence of unit and level relates all pairs of runs, and rests on the uniqueness of the shortest least-squares solution.", "anchors": ["src/stcal/skymatch/skymatch.py:skymatch", "src/stcal/skymatch/skymatch.py:_apply_sky", "src/stcal/skymatch/skymatch.py:_find_optimum_sky_deltas", "src/stcal/skymatch/skymatch.py:_overlap_matrix", "src/stcal/skymatch/skyimage.py:SkyImage.calc_sky", "src/stcal/skymatch/skyimage.py:SkyGroup.calc_sky"]}
{"id": "C159", "title": "Saturation, jump and outlier flags do not depend on the orientation of the frames", "statement": "Flip all frames of an exposure upside down or left to right, exchange rows and columns, or do any combination of these (all eight orientations). flag_saturated_pixels raises just when it did; otherwise its group DQ, pixel DQ and zero frames, with growth by n pixels and for grouped reads, are the former ones in the new orientation. So are, in one process, the group DQ words after the two-point difference jump detection (sigma clipping, single pass or iterative, with flagging of four neighbours and after jumps), and as many primary jumps are reported. So are the derivative image of _abs_deriv and the flags of flag_crs and flag_resampled_crs.", "quantifier": "all frame sizes, data with NaN, DQ words, thresholds, gains and read noises, growth radii, read patterns, numbers of integrations and groups, clip rules, SNRs, scales and backgrounds, all compositions of flips and transpositions", "why_tests_cant": "Tests use frames in one orientation; the passes treat rows and columns by different code (edge loops, shifted slices, order of maxima), and only a proof for all inputs shows that they amount to the same.", "anchors": ["src/stcal/saturation/saturation.py:flag_saturated_pixels", "src/stcal/saturation/saturation.py:_adjacent_pixels", "src/stcal/jump/jump.py:detect_jumps_data", "src/stcal/jump/twopoint_difference.py:find_crs", "src/stcal/jump/twopoint_difference.py:flag_four_neighbors", "src/stcal/outlier_detection/utils.py:_abs_deriv", "src/stcal/outlier_detection/utils.py:flag_resampled_crs"]}
{"id": "C160", "title": "Stricter thresholds never add flags", "statement": "Running jump detection with higher rejection thresholds, a narrower window of jump sizes whose neighbours are flagged (or no flagging of neighbours at all), larger minimum sizes and shorter times for the flagging of groups after a jump, gives for every sample the same data quality word as with the original settings, except that the jump flag may be missing; no sample gains a flag, whatever the number of processes. Running the Casertano ramp fit with a higher jump threshold (larger intercept, smaller constant) marks no resultant as a jump that the lower threshold does not mark, every other word is unchanged, and every ramp that is fitted with the lower threshold is part of one fitted with the higher threshold.", "quantifier": "All exposures, input flags, gains that are not negative, read noise, sigma-clipping rules, settings that are at least as strict, numbers of processes, with the detection of snowballs and showers off; all pixels of Casertano fits, read patterns and thresholds, with a logarithm that is not negative from 1 to 10000.", "why_tests_cant": "Both searches are iterative: every detection removes a difference from the sample and changes the median, the noise, the threshold used and the ramps fitted next, so the detections with two settings need not be nested a priori; a test compares single settings on single ramps.", "anchors": ["src/stcal/jump/jump.py:detect_jumps_data", "src/stcal/jump/twopoint_difference.py:find_crs", "src/stcal/ramp_fitting/ols_cas22/_jump.pyx:fit_jumps"]}
{"id": "C161", "title": "The order of the images does not matter for sky matching and resampling times", "statement": "skymatch called with the same images and groups in another order gives every image and group the same sky, the same data and the same validity mark, whichever method, match direction and subtraction is chosen, provided the call ends without an exception in both orders. (Whether the global method raises depends on the order if some images have no good pixels.) The pointings, exposure time, duration, start, end and measurement time that Resample reports do not depend on the order in which the models are added, if models of one group have the same times.", "quantifier": "All lists of images and groups, all measurements over images and overlaps, all permutations of the list, all methods; all lists of models to resample and all permutations.", "why_tests_cant": "The equations of the matching are written for ordered pairs and solved by a pseudo-inverse, so that another order changes every row, column and sign; equality of the solutions for all orders is a statement about the shortest least-squares solution that runs on single orders cannot show.", "anchors": ["src/stcal/skymatch/skymatch.py:skymatch", "src/stcal/skymatch/skymatch.py:_find_optimum_sky_deltas", "src/stcal/resample/resample.py:update_time"]}
{"id": "C162", "title": "Losing groups never lowers the read-noise variance of the ordinary fit", "statement": "When a pixel is fitted a second time with the same samples but with more groups flagged (unusable, saturated, jump or any other flag), every read-noise variance that is still reported, in the integration product and in the exposure product, is at least the one reported without the additional flags, and the earlier fit does report one unless its entry is flagged unusable or saturated. This holds although flags split and shorten the fitted segments, although a jump group joins the segment after it, and although a single remaining group or the zero frame is fitted with its own shorter time. Conditions: positive gain, non-zero read noise, frame time <= one-group time <= group time, no PERSISTENCE flags (unless one-group ramps are suppressed), and a ramp saturated in its first group has no good group; without the last two the claim is false.", "quantifier": "all pixels, all numbers of integrations and groups, all samples, all pairs of flag patterns of which the second contains the first, zero frame present or not, suppression on or off", "why_tests_cant": "Tests fit a handful of flag patterns; the claim compares every pair of nested patterns, including those where segments split, vanish or are replaced by the zero frame.", "anchors": ["src/stcal/ramp_fitting/src/slope_fitter.c:compute_integration_segments", "src/stcal/ramp_fitting/src/slope_fitter.c:segment_rnoise_default", "src/stcal/ramp_fitting/src/slope_fitter.c:ramp_fit_pixel"]}
{"id": "C163", "title": "The ellipse of a region of flagged pixels describes, marks and tests the region consistently", "statement": "The ellipse that stands for a region of connected flagged pixels is centred on the mean position of its pixels (hence inside their bounding box), its angle is the direction in which the pixels spread most and its axis lengths are four times the root mean square spreads along and across that direction, less one. It is returned exactly if the region, with holes filled, has the minimum area. The ellipse is drawn along the same direction, and a point counts as inside exactly if it lies in this ellipse.", "quantifier": "every region, every minimum area, every plane and mask, every point, every image size", "why_tests_cant": "Tests use round or axis-parallel regions with the core in the centre; directions and offsets form a continuum.", "anchors": ["src/stcal/jump/jump.py:_sk_filter_areas", "src/stcal/jump/jump.py:find_ellipses", "src/stcal/jump/jump.py:point_inside_ellipse", "src/stcal/jump/jump.py:ellipse_subim"]}
{"id": "C164", "title": "The ramp fits and the unit of time", "statement": "If the times of an exposure (group, frame and read times, and the dark current as a rate) are given in another unit, t new units making one old one, then the OLS_C fit gives the same DQ, a t-th of every rate and error and a t^2-th of every variance (except where one of the two fits replaces a variance of 10^6 or more by zero, which makes the rate zero); the likelihood fit gives the same flags, jumps, chi-square and weights, a t-th of every rate and a t^2-th of every variance; and fit_ramps of the Casertano fit gives the same flags, a t-th of the slope and a t^2-th of the three variances, if the jump threshold does not depend on the rate (constant 0, or jump detection off).", "quantifier": "every pixel or array of pixels, number of integrations and groups, read pattern with distinct mean times, flags, settings, positive t", "why_tests_cant": "Relates two runs on arbitrary ramps and every conversion factor; tests run one set of times.", "anchors": ["src/stcal/ramp_fitting/src/slope_fitter.c:ramp_fit_pixel", "src/stcal/ramp_fitting/likely_fit.py:likely_ramp_fit", "src/stcal/ramp_fitting/likely_algo_classes.py:Covar", "src/stcal/ramp_fitting/ols_cas22/_fit.pyx:fit_ramps", "src/stcal/ramp_fitting/ols_cas22/_jump.pyx:fit_jumps", "src/stcal/ramp_fitting/ols_cas22/_ramp.pyx:fit_ramp"]}
{"id": "C165", "title": "Unusable groups at the end can be cut off", "statement": "If the last groups of every integration of a pixel are flagged DO_NOT_USE or SATURATED (and not as jumps or persistence) and at least two groups come before them, the OLS_C fit with these groups and the fit without them give the same rate, variances and error for every integration and for the exposure, and the same DQ, but for SATURATED, which the longer ramp reports if one of its last groups is saturated. If the last resultants of every pixel are flagged, fit_ramps of the Casertano fit gives the same slopes, variances and DQ as with the read pattern and data cut off before them.", "quantifier": "every pixel or array of pixels, number of integrations, groups and groups cut off, read pattern, flags, zero frames, settings", "why_tests_cant": "Relates two runs with different numbers of groups on arbitrary ramps; tests fit each ramp with one number of groups.", "anchors": ["src/stcal/ramp_fitting/src/slope_fitter.c:ramp_fit_pixel", "src/stcal/ramp_fitting/src/slope_fitter.c:compute_integration_segments", "src/stcal/ramp_fitting/src/slope_fitter.c:compute_median_rate", "src/stcal/ramp_fitting/ols_cas22/_fit.pyx:fit_ramps", "src/stcal/ramp_fitting/ols_cas22/_ramp.pyx:init_ramps"]}
{"id": "C166", "title": "Unusable groups at the beginning can be cut off", "statement": "If the first groups of every integration of a pixel are flagged DO_NOT_USE (and not saturated, jump or persistence), the group after them is not saturated and every integration has two neighbouring groups without flags and with finite samples, then the OLS_C fit of the whole ramp and the fit of the ramp without these first groups (as the MIRI step leaves it) give exactly the same rate, variances, errors and DQ for every integration and for the exposure. (With a single usable group this fails: the ramp is then timed as a first group.)", "quantifier": "every pixel, number of integrations, groups and groups cut off, flags, samples, zero frames, settings", "why_tests_cant": "Relates two runs with different numbers of groups on arbitrary ramps; tests fit each ramp with one number of groups.", "anchors": ["src/stcal/ramp_fitting/src/slope_fitter.c:ramp_fit_pixel", "src/stcal/ramp_fitting/src/slope_fitter.c:compute_integration_segments", "src/stcal/ramp_fitting/src/slope_fitter.c:compute_median_rate", "src/stcal/ramp_fitting/ols_fit.py:discard_miri_groups"]}
{"id": "C167", "title": "Removing the unusable groups of a MIRI exposure does not change the fit", "statement": "When ramp_fit with the ordinary fit removes the groups of a MIRI exposure that are unusable in all pixels (leading ones and a last one) and at least two are left, every pixel gets exactly the same rates, variances, errors and DQ (per integration and for the exposure) as if the exposure were not MIRI and the groups stayed, provided the removed groups of the pixel report no saturation, jump or persistence, the first group left is neither saturated nor a jump, every integration has two neighbouring good groups among those left and the pixel has no charge loss that the algorithm looks at. (A jump in the first group left is no longer reported after the removal.)", "quantifier": "every exposure, number of integrations, groups and removed groups, all other pixels, flags, settings, numbers of processes", "why_tests_cant": "Compares two code paths for arbitrary exposures; tests of the MIRI path use single ramps and compare with literals.", "anchors": ["src/stcal/ramp_fitting/ramp_fit.py:ramp_fit", "src/stcal/ramp_fitting/ols_fit.py:ols_ramp_fit_multi", "src/stcal/ramp_fitting/ols_fit.py:discard_miri_groups", "src/stcal/ramp_fitting/src/slope_fitter.c:ramp_fit_pixel"]}
{"id": "C168", "title": "The resampled image is the weighted mean of the input pixels", "statement": "Without negative overlaps or weights, each pixel of the output image is the weighted mean of the input pixels that overlap it (sky taken off unless it was subtracted before, times the intensity scale), the weight being overlap times inverse variance or time, and zero for pixels with a DQ bit that is not among the good bits; the weight image is the sum of the weights, and an output pixel without weight has the fill value. A NaN in a pixel with weight makes the output pixel NaN. The order of the images does not matter (except rounding), values and variances in unusable pixels do not matter, the result lies between the smallest and the largest contribution, and a uniform sky over different sky levels is reproduced exactly.", "quantifier": "every list of images, shapes, bounding boxes, overlaps, DQ words, weight types, sky levels, intensity scales, fill values", "why_tests_cant": "Holds for any number of images and any overlaps; tests resample a few small images and compare with literals.", "anchors": ["src/stcal/resample/resample.py:Resample.add_model", "src/stcal/resample/resample.py:Resample.finalize", "src/stcal/resample/utils.py:build_driz_weight", "src/stcal/resample/utils.py:resample_range"]}
{"id": "C169", "title": "The resampled variances are the variances of the resampled image", "statement": "For images on the grid of the output, with weight type ivm or exptime and one intensity scale, each variance array of the output model is the variance of the weighted mean that the output image is: the sum over the images of the squared share of the image times the variance of its pixel in output units (times the scaling factor of the variances). Where no image is usable the image has the fill value and the variances are NaN. (With weight type ivm-sky this fails: the image is weighted by the sky variance, the variances are combined with the read-noise weights.)", "quantifier": "every number of images, DQ words, read-noise variances, times, variance arrays, intensity scale, sky levels", "why_tests_cant": "Relates image and variance arrays for arbitrary images; tests check them separately against literals.", "anchors": ["src/stcal/resample/resample.py:Resample.add_model", "src/stcal/resample/resample.py:Resample.resample_variance_arrays", "src/stcal/resample/resample.py:Resample.finalize_resample_variance", "src/stcal/resample/utils.py:build_driz_weight"]}
{"id": "C170", "title": "Resampling follows the unit of the data", "statement": "Resampling images whose data and sky levels are all multiplied by one positive factor, and whose variances are multiplied by its square, gives the image times the factor and every variance array times its square, NaN and fill values at the same pixels; with inverse-variance weights the weight image is divided by the square, with exposure times it stays. This holds for any overlaps, bounding boxes and flags, if all images have the variance array that weights are made of. (If one lacks its read-noise array it gets weight one beside the inverse variances of the others, and the image then depends on the unit.)", "quantifier": "every list of images, factor, weight type, overlaps, DQ words, NaN and infinite variances, sky levels, intensity scales", "why_tests_cant": "Relates two runs on arbitrary images; tests resample images in one unit.", "anchors": ["src/stcal/resample/resample.py:Resample.add_model", "src/stcal/resample/resample.py:Resample.resample_variance_arrays", "src/stcal/resample/resample.py:Resample.finalize_resample_variance", "src/stcal/resample/utils.py:build_driz_weight"]}
{"id": "C171", "title": "Subtracting the matched sky before or while resampling is the same", "statement": "If sky matching (any method, up or down) subtracts the sky it finds and the images are then resampled as subtracted, the image and the weights are exactly those of sky matching without subtraction followed by resampling, which takes off the recorded levels; and one of the two calls of sky matching raises an exception only if the other does. The statistic follows a constant subtracted from all pixels, and no sky is recorded before.", "quantifier": "every list of images and groups, measurements, overlaps, solver, method, direction, weight type, DQ words, intensity scales", "why_tests_cant": "Compares two routes through two steps for arbitrary images; tests run each step alone.", "anchors": ["src/stcal/skymatch/skymatch.py:skymatch", "src/stcal/skymatch/skyimage.py:SkyImage", "src/stcal/resample/resample.py:Resample.add_model"]}
{"id": "C172", "title": "A mosaic of matched images has no steps", "statement": "If every image shows the scene raised by a level of its own, the sky differences measured in the overlaps are those of the levels, and any two images are connected through overlaps, then after sky matching (method match) and resampling the mosaic is the mosaic of the scene itself plus one and the same constant at every output pixel, however many and whichever images contribute there and whatever their weights; the constant is the lowest level when matching down and the highest when matching up (times the intensity scale). The weight image is the same.", "quantifier": "every number of images, overlap graph, scene, levels, weights, DQ words, weight type, bounding boxes, both directions, with or without subtraction", "why_tests_cant": "End-to-end relation over two steps for all overlap graphs and weights; tests check each step on small examples.", "anchors": ["src/stcal/skymatch/skymatch.py:skymatch", "src/stcal/resample/resample.py:Resample.add_model", "src/stcal/resample/utils.py:build_driz_weight"]}
{"id": "C173", "title": "A steady dark current is removed exactly, however the exposure is read out", "statement": "Every frame of an exposure is the signal plus a dark current that grows by a fixed amount per frame, and each group is the mean of its nframes frames with groupgap frames dropped after it. The dark reference recorded the same dark current, either frame by frame or with the groups of the science data, and may be shorter than the exposure. Dark subtraction completes, and each group becomes the mean of the signal alone over the frames of that group; a steady source is left as a ramp growing by its signal per frame times (nframes+groupgap). A reference whose groups average q frames without gaps is taken as if its groups were frames, so that (q-1) times the dark current too much is subtracted.", "quantifier": "all numbers of integrations and groups, all nframes, groupgap, dark lengths of at least two groups, signals and dark currents", "why_tests_cant": "Needs every read-out pattern, every length of the reference (hence averaging and extrapolation together) and arbitrary signals; tests use a handful of patterns.", "anchors": ["src/stcal/dark_current/dark_sub.py:do_correction_data", "src/stcal/dark_current/dark_sub.py:average_dark_frames_3d", "src/stcal/dark_current/dark_sub.py:extrapolate_dark", "src/stcal/dark_current/dark_sub.py:subtract_dark"]}
{"id": "C174", "title": "Repeating an integration", "statement": "If an exposure consists of n equal integrations, OLS_C gives every integration the result of the exposure with one of them, the same DQ and, where the single exposure reports variances, the same rate with both variances divided by n and the error the root of their sum (a variance suppressed by the cut-off of 10^6 may reappear when divided by n). The likelihood fit does the same, chi-squares adding up, if the rate is not exactly zero; with rate zero the Poisson variance of the exposure is zero. For one integration the rate product of OLS_C repeats slope, variances and DQ of the integration; its error never exceeds that of the integration and agrees with it if the ramp is fitted in one segment, but not in general (the integration combines the segments' total variances, the rate adds the combined variances).", "quantifier": "every integration (data with NaN, group DQ, zero frame), number of copies, number of groups, pixel constants and exposure times; flags being single bits, positive gain, times and read noise and non-negative dark current for the comparison of errors", "why_tests_cant": "Relates runs on different numbers of integrations and two products of one run for every pattern of flags and segments; tests compare single numbers.", "anchors": ["src/stcal/ramp_fitting/src/slope_fitter.c:ramp_fit_pixel", "src/stcal/ramp_fitting/src/slope_fitter.c:ramp_fit_pixel_integration_fit_slope", "src/stcal/ramp_fitting/likely_fit.py:compute_image_info"]}
{"id": "C175", "title": "A steady signal on top never adds jumps", "statement": "If a further source that shines steadily, with any rate in each pixel, is added to an exposure whose usable ramps do not decrease and whose groups are read out alike, every sample has the flags that two-point jump detection gave it before, or has lost JUMP_DET; with the iterative search, the single pass or sigma clipping, with flagging of groups after a jump, and for any number of processes. With flagging of neighbours the same holds if no deviation exceeds the upper limit for it.", "quantifier": "every exposure, gain, read noise (not zero), rate of the further source per pixel, thresholds, options, number of processes; any square root that is positive and monotone", "why_tests_cant": "Relates two runs for arbitrary ramps through a loop whose length depends on the data; tests compare flags of single ramps.", "anchors": ["src/stcal/jump/twopoint_difference.py:iterative_jump", "src/stcal/jump/twopoint_difference.py:look_for_more_than_one_jump", "src/stcal/jump/twopoint_difference.py:transient_jumps", "src/stcal/jump/jump.py:detect_jumps_data"]}
{"id": "C176", "title": "Individual zero levels of the images do not survive sky matching", "statement": "If a constant of its own is added to every image (or group) of a list whose images are connected through usable overlaps, the method global+match records for every image a sky larger by exactly its constant, and the images with the sky subtracted are identical to those obtained without the constants; the method match does the same up to one constant common to all images; the method local does so without any condition on overlaps; the method global records one and the same change for all images, so that the constants stay in them.", "quantifier": "for all lists of images and groups, all constants, all statistics that follow an added constant, match_down and subtract both ways, every solver that returns a least-squares solution", "why_tests_cant": "Tests add constant backgrounds to three or four images and compare with a tolerance; that the solution of the overlap equations follows arbitrary individual constants for every overlap graph and every noise in the overlaps is a statement about all least-squares problems.", "anchors": ["src/stcal/skymatch/skymatch.py:skymatch", "src/stcal/skymatch/skymatch.py:_find_optimum_sky_deltas", "src/stcal/skymatch/skymatch.py:_overlap_matrix", "src/stcal/skymatch/skymatch.py:_apply_sky"]}
{"id": "C177", "title": "Giving every image several times", "statement": "If every image of a list is given k times, in any order, the median image used for outlier detection is the same; the resampled image (including which pixels are NaN or filled) is the same, the weights are exactly k times as large, and every resampled variance is exactly a k-th of what it was, NaN where it was NaN.", "quantifier": "for all lists of images, all k of at least one, all orders of the copies, all weights of the pixels that are not negative, the weight types exptime, ivm and ivm-sky, all fill values and all variance arrays; with inverse-variance weights all images have read-noise variances", "why_tests_cant": "A test repeats one list of images two or three times and compares with a tolerance; that median, mean, weights and variances are all consistent with k-fold exposure for every list, order and weighting needs an argument about sorted lists and sums of any length.", "anchors": ["src/stcal/resample/resample.py:Resample.add_model", "src/stcal/resample/resample.py:Resample.finalize", "src/stcal/resample/resample.py:Resample.resample_variance_arrays", "src/stcal/resample/resample.py:Resample.finalize_resample_variance", "src/stcal/outlier_detection/median.py:nanmedian3D"]}
{"id": "C178", "title": "Repeating the integrations in jump detection", "statement": "If every integration of an exposure is given k times, in any order, two-point difference jump detection gives every copy exactly the data-quality words that the integration gets without the copies, with the flagged neighbours and the groups after jumps, and reports k times as many cosmic rays, provided that both exposures are searched by sigma clipping or both in a single pass. In the iterative search this does not hold: the thresholds for two and three differences count the differences of all integrations together.", "quantifier": "for all exposures and parameters with one process, all k of at least one, all orders of the copies, all integrations with at least three usable groups, every clipping rule whose verdict depends on a value and on the distribution of the values it is compared with", "why_tests_cant": "A test repeats one exposure once or twice; that medians, thresholds, neighbour search and counts are all unaffected for every number of copies, every order and every pattern of NaN and flags is a statement about all exposures.", "anchors": ["src/stcal/jump/twopoint_difference.py:find_crs", "src/stcal/jump/twopoint_difference.py:det_jump_sigma_clipping", "src/stcal/jump/twopoint_difference.py:look_for_more_than_one_jump", "src/stcal/jump/twopoint_difference.py:get_cr_locs", "src/stcal/jump/jump.py:detect_jumps_data"]}
{"id": "C179", "title": "Individual zero levels of the images do not reach the mosaic", "statement": "If a constant of its own is added to every image (or group) of a list whose images are connected through usable overlaps, then the mosaic obtained by sky matching with global+match and resampling is exactly the mosaic obtained without the constants (image and weights), whether the sky is subtracted by the sky matching or only recorded and subtracted while resampling; with match it is that mosaic raised everywhere by one constant, with the same weights and the same empty pixels; with local it is the same mosaic without any condition on overlaps.", "quantifier": "for all lists of images and groups, all constants, all pixel values and noise in the overlaps, statistics that follow an added constant, solvers that return a least-squares solution, geometries, weights that are not negative, fill values, match_down and subtract both ways", "why_tests_cant": "Tests match a few synthetic images and look at the sky values; that nothing of arbitrary individual constants is left in the drizzled image, for every overlap graph and weighting and both ways of subtracting, relates two runs of two steps on all inputs.", "anchors": ["src/stcal/skymatch/skymatch.py:skymatch", "src/stcal/skymatch/skymatch.py:_apply_sky", "src/stcal/resample/resample.py:Resample.add_model", "src/stcal/resample/resample.py:Resample.finalize"]}
{"id": "C180", "title": "Fewer differences or more noise never make the likelihood fit look better", "statement": "With the same rate guess, a likelihood fit that uses only some of the group differences of another (because more groups are flagged or jumps were masked) never states a smaller uncertainty nor a larger chi-square; the square of the change of the count rate is at most the growth of the squared uncertainty times the drop in chi-square; the growth is the variance of the change; and if the uncertainty is the same, so are all weights and hence the rate. With the same differences, a larger read noise, a larger rate guess or a smaller gain never gives a smaller uncertainty.", "quantifier": "for all read patterns, differences, masks of which one contains the other, group flags, gains, read noises, rate guesses that are not negative, and scale factors", "why_tests_cant": "A statement comparing all pairs of masks and all noise levels; the code computes each by a chain of determinant recursions in which the comparison is not visible.", "anchors": ["src/stcal/ramp_fitting/likely_fit.py:fit_ramps", "src/stcal/ramp_fitting/likely_fit.py:matrix_computations", "src/stcal/ramp_fitting/likely_fit.py:get_ramp_result", "src/stcal/ramp_fitting/likely_fit.py:determine_diffs2use", "src/stcal/ramp_fitting/likely_fit.py:compute_alphas_betas"]}
{"id": "C181", "title": "Resampled variances where input pixels are spread over several output pixels", "statement": "With `weight_type=\"exptime\"`, each variance of an output pixel is the variance of the time-weighted mean of the images, where an image has the square of its overlap-weighted mean error (usable pixels only); the amount of the output pixel that an image covers does not enter, as long as it is not zero. If all images that touch the output pixel cover the same amount of it with usable pixels, no variance is smaller than the true variance of the science value for independent input pixels; the same holds with `weight_type=\"ivm\"` if the read noise is the same in all pixels of an image and the images share one intensity scale. Where the amounts differ, as at image edges and next to flagged pixels, the variances can be too small by any factor (finding).", "quantifier": "all lists of images, overlaps, DQ arrays, good bits, variances, times, intensity scales (exptime), scaling factors", "why_tests_cant": "A test compares variances on aligned grids or against stored results; that the error estimate bounds the real scatter from above for every geometry, and where it fails to, needs an argument about all overlaps.", "anchors": ["src/stcal/resample/resample.py:Resample.add_model", "src/stcal/resample/resample.py:Resample._resample_one_variance_array", "src/stcal/resample/resample.py:Resample.resample_variance_arrays", "src/stcal/resample/resample.py:Resample.finalize_resample_variance"]}
{"id": "C182", "title": "A stronger hit leaves the same jump flags", "statement": "Suppose the two-point search flags the largest difference between consecutive groups of a pixel as a jump. If the hit is stronger by any amount, that is, if all groups of that integration from the hit on are higher by the same non-negative constant, then every group DQ word returned is the same as before: the hit is still flagged and no other flag of that pixel, of its other integrations or of any other pixel appears or disappears. This holds for the single-pass search with at least three usable differences in the pixel, and for the iterative search if the hit is the largest difference in size and deviates most from the reference level when the search begins, with neighbour and after-jump flagging switched off. With neighbour flagging it fails: a jump above max_jump_to_flag_neighbors loses the flags of its neighbours.", "quantifier": "all numbers of integrations, groups, rows and columns, all data and DQ words, all thresholds, group times, numbers of reads and read noises, all non-negative noise functions, all strengths of the hit and all positions", "why_tests_cant": "tests inject jumps of a few fixed sizes; that the whole output stays the same for every larger size, also in the repeated passes, rests on the median ignoring the size of the largest value", "anchors": ["src/stcal/jump/twopoint_difference.py:find_crs", "src/stcal/jump/twopoint_difference.py:look_for_more_than_one_jump", "src/stcal/jump/twopoint_difference.py:iterative_jump", "src/stcal/jump/twopoint_difference.py:calc_med_first_diffs", "src/stcal/jump/twopoint_difference.py:flag_four_neighbors"]}
{"id": "C183", "title": "A spoiled minority of the samples cannot hide itself or harm the rest", "statement": "If more than half of the usable differences of a pixel lie in some range, the reference level of the single-pass jump search lies in that range, however large the other differences are. Hence every difference outside the range by more than the rejection threshold times the largest noise of such differences is flagged as a jump, upwards or downwards and however many of them there are, and no difference within the range is flagged if the range is positive and no wider than the threshold times the smallest noise (neighbour and after-jump flagging switched off). In the same way the median image used for outlier detection, in memory and on disk, stays in the range of the values of more than half of the images at each pixel, and flag_crs flags what is outside the range by more than the noise limit and nothing inside it if the range is no wider than the limit. With exactly half of the differences hit, all hits can be missed.", "quantifier": "all data, DQ words, numbers of integrations, groups, images, rows and columns, all ranges, thresholds, group times, numbers of reads and read noises other than zero, all monotonic positive noise functions, all sizes of the spoiled values", "why_tests_cant": "tests use one or two hits of fixed size in a ramp without noise; that any minority of arbitrary values is harmless is a statement about all arrangements", "anchors": ["src/stcal/jump/twopoint_difference.py:find_crs", "src/stcal/jump/twopoint_difference.py:look_for_more_than_one_jump", "src/stcal/outlier_detection/median.py:nanmedian3D", "src/stcal/outlier_detection/utils.py:flag_crs"]}
{"id": "C184", "title": "What a further image does to the resampled variances", "statement": "For images on the grid of the output with weight type ivm and one intensity scale, the resampled read-noise variance is the inverse of the sum of the inverse read-noise variances of the usable pixels, in output units (times the scaling factor). So a further image, wherever it stands in the list, never raises it and lowers it where its pixel is usable, and no other weighted mean of the usable pixels has a smaller read-noise variance. The other variances can rise with a further image, and with weight type exptime the read-noise variance can rise as well.", "quantifier": "all lists of aligned images, positions of the further image, DQ words and good bits, variances, intensity scales and scaling factors, all other weights", "why_tests_cant": "tests compare the variances of a few images with stored numbers; that weights are optimal and that more data never costs read-noise precision is a statement about all lists and all weights", "anchors": ["src/stcal/resample/resample.py:Resample.resample_variance_arrays", "src/stcal/resample/resample.py:Resample.finalize_resample_variance", "src/stcal/resample/resample.py:Resample._resample_one_variance_array", "src/stcal/resample/utils.py:build_driz_weight"]}
{"id": "C185", "title": "Individual zero levels of the images do not change which pixels are outliers", "statement": "If a constant of its own is added to every image (or group) of a list whose images are connected through usable overlaps, then after sky matching with global+match the images resampled one by one have the same values, weights and empty pixels, so the median image is the same and flag_resampled_crs, given as background the sky that is still in the image, flags exactly the pixels it flags without the constants, whether the sky was subtracted or only recorded; flag_crs does too if the sky was subtracted. The same holds with local without any condition on overlaps, and with match if the images are not rescaled, the interpolation of the blotting follows the zero level and positions outside the median image are filled with NaN. Pixels may be left out of the median by any rule that uses the weights.", "quantifier": "all fields, lists of images and groups, constants, least-squares solutions, statistics that follow the zero level, geometries, weight types, selections by weight, interpolations, transformations, thresholds", "why_tests_cant": "The property runs through four packages, whose tests use one step each with synthetic images at zero level; a test of the chain could only try a few constants.", "anchors": ["src/stcal/skymatch/skymatch.py:skymatch", "src/stcal/resample/resample.py:Resample.add_model", "src/stcal/outlier_detection/median.py:nanmedian3D", "src/stcal/outlier_detection/utils.py:gwcs_blot", "src/stcal/outlier_detection/utils.py:flag_crs", "src/stcal/outlier_detection/utils.py:flag_resampled_crs"]}
{"id": "C186", "title": "The iterative jump search tolerates hits in half of the differences", "statement": "If the sizes of the usable differences of a pixel are at least lo >= 0 and at least half of them are at most hi, with hi - lo no more than each of the three thresholds times the smallest noise of such differences, then the reference level of the iterative search lies between lo and hi in every round, every difference whose size is above hi by more than the thresholds times the noise at hi is flagged, and none whose size is at most hi is flagged, however large the others are (neighbour and after-jump flagging switched off). The single pass needs more than half. A majority with smaller differences beside it is not protected: all differences equal to the largest are left out of the reference level.", "quantifier": "all fields, monotone positive square-root functions, exposures, DQ, thresholds, read noise, group times, ranges", "why_tests_cant": "Hits can be of any size and in any half of the differences; a test tries a few ramps with one or two hits.", "anchors": ["src/stcal/jump/twopoint_difference.py:iterative_jump", "src/stcal/jump/twopoint_difference.py:calc_med_first_diffs", "src/stcal/jump/twopoint_difference.py:find_crs"]}
{"id": "C187", "title": "The fitted rate lies between the smallest and the largest count rate of neighbouring usable samples", "statement": "Each of the three ramp fits combines the samples with coefficients of both signs, yet gives a rate between the smallest and the largest count rate found between neighbouring usable samples; in particular a ramp that never falls gets no negative rate. For the least-squares fit of the C extension this holds for rate and rateints and any samples in the flagged groups, for the Casertano fit for every pixel with something to fit and wherever jumps are found, for the likelihood fit when the reads of each group are evenly spaced (or the mean distances of the reads of two neighbouring groups add up to less than the time between them), with and without a zero frame and snowball expansion. It does not hold for the likelihood fit with any unevenly spaced reads inside the groups.", "quantifier": "for all samples, flags, gains, read noises, read patterns, numbers of integrations and groups, weight exponents and jump thresholds", "why_tests_cant": "a test sees a few ramps; that no data and no choice of weights can push the estimate out of the range of its own differences is an inequality over all inputs", "anchors": ["src/stcal/ramp_fitting/src/slope_fitter.c:ramp_fit_pixel_integration_fit_slope_seg", "src/stcal/ramp_fitting/ols_cas22/_fit.pyx:fit_ramps", "src/stcal/ramp_fitting/ols_cas22/_ramp.pyx:fit_ramp", "src/stcal/ramp_fitting/likely_fit.py:fit_ramps", "src/stcal/ramp_fitting/likely_fit.py:likely_ramp_fit"]}
{"id": "C188", "title": "No fit claims less photon noise than counting every photon would leave", "statement": "Counting the photons of a source of rate f for a time T measures the rate with the variance f/T. The Poisson variance reported by a ramp fit is never below this bound. fit_ramps_casertano: for every pixel the Poisson variance times the time from the first to the last read of the read pattern is at least the slope, or slope and variances are all zero. Likelihood fit: for every integration with a rate, the Poisson variance times that time is at least (v + dark current) / gain, where v is the rate (zero if negative) found by the search for jumps. Least squares of the C extension: the Poisson variance of an integration is zero or, times the longest time an integration can be used for, at least the rate assumed for the photon noise divided by the gain; that of the exposure likewise with the time of all integrations. (For an exposure of several integrations the likelihood fit scales the Poisson variances with the rate of the exposure, and the bound fails: two integrations with opposite rates and equal variances leave a Poisson variance of zero.)", "quantifier": "All samples, flags, positions of jumps and numbers of segments, all read patterns in time order, all read noises and gains, all numbers of integrations.", "why_tests_cant": "The bound holds for the weights of the fit, which depend on the data, and for every way flags and jumps cut a ramp; tests compare variances with stored numbers for single patterns.", "anchors": ["src/stcal/ramp_fitting/ols_cas22/_ramp.pyx:fit_ramp", "src/stcal/ramp_fitting/ols_cas22/_jump.pyx:fit_jumps", "src/stcal/ramp_fitting/likely_fit.py:get_ramp_result", "src/stcal/ramp_fitting/likely_fit.py:compute_alphas_betas", "src/stcal/ramp_fitting/src/slope_fitter.c:ramp_fit_pixel_integration_fit_slope", "src/stcal/ramp_fitting/src/slope_fitter.c:ramp_fit_pixel"]}
{"id": "C189", "title": "No fit claims less read noise than the straight line through all reads has", "statement": "Let D(m) be the sum over the resultants (groups) of a ramp of the squared distance of their mean time from a time m, each counted as often as it has reads. If the samples have read noise s per read only, the slope of the straight line fitted to all of them has the variance s^2 / D at the mean time, and no unbiased combination has a smaller one. The read-noise variance reported by a ramp fit is never below s^2 / D(m), for any m. fit_ramps_casertano: for every pixel, or slope and variances are all zero. Likelihood fit: for every integration with a rate, the zero frame (if there is one) being a sample of its own, and for the exposure with D times the number of integrations. Least squares of the C extension: the read-noise variance of an integration with two or more groups is zero or at least that of its groups, with s the read noise divided by the gain; that of the exposure likewise with D times the number of integrations.", "quantifier": "all fields, read patterns in time order, data, DQ, flags, read noises, gains, dark currents, rates assumed for the photon noise, numbers of integrations and groups, reference times m; jumps found anywhere, snowball expansion on or off", "why_tests_cant": "the bound is a Cauchy-Schwarz inequality over all combinations of samples and must hold for every set of weights and for every way flags and jumps cut a ramp; tests compare variances with stored numbers for single patterns.", "anchors": ["src/stcal/ramp_fitting/ols_cas22/_ramp.pyx:fit_ramp", "src/stcal/ramp_fitting/ols_cas22/_jump.pyx:fit_jumps", "src/stcal/ramp_fitting/likely_fit.py:get_ramp_result", "src/stcal/ramp_fitting/likely_fit.py:compute_alphas_betas", "src/stcal/ramp_fitting/src/slope_fitter.c:ramp_fit_pixel_integration_fit_slope", "src/stcal/ramp_fitting/src/slope_fitter.c:ramp_fit_pixel"]}
{"id": "C190", "title": "A ramp read backwards has the same jumps, rates and variances", "statement": "A ramp read backwards in time and upside down (sample k is a constant minus sample n-1-k, read times are counted back from any time T) rises by the same differences in the opposite order. find_crs, without flagging of neighbours and of groups after jumps and without sigma clipping, flags group ng-g of the backwards ramp as a jump exactly when it flags group g of the ramp. fit_ramps of the Casertano fit without jump detection gives every pixel of the backwards exposure the same slope and the same read, Poisson and total variance. The least-squares fit of the C extension gives the backwards pixel the same rateints entries and rate, with variances, errors and DQ, the jump flags being placed at the group after the jump in both directions; every segment of two or more groups has the same slope and variances. The likelihood fit at a given guess has the same count rate, chi-square, uncertainty and variances, and the weights of the differences in the opposite order. The jump test of the Casertano fit does not have this symmetry: for a step in the data it excludes different resultants in the two directions, which changes the variances.", "quantifier": "all exposures, flags, masks and settings (jumps: group spacing and averaging the same backwards, no JUMP flag in the input at the group and the one before); all read patterns with at least one read in every resultant; all pixels of the C extension with clean, unusable and jump groups whose usable samples are numbers and that have two usable neighbours not separated by a jump in every integration; all read patterns in time order, masks and data, physical noise parameters", "why_tests_cant": "Test ramps rise with time, and none is compared with its mirror image; an index shifted by one in a weight, a flag or a covariance shows up only as an asymmetry in time.", "anchors": ["src/stcal/jump/twopoint_difference.py:find_crs", "src/stcal/ramp_fitting/ols_cas22/_fit.pyx:fit_ramps", "src/stcal/ramp_fitting/ols_cas22/_ramp.pyx:fit_ramp", "src/stcal/ramp_fitting/src/slope_fitter.c:ramp_fit_pixel_integration_fit_slope_seg_default_weighted", "src/stcal/ramp_fitting/src/slope_fitter.c:compute_integration_segments", "src/stcal/ramp_fitting/likely_fit.py:fit_ramps"]}
{"id": "C191", "title": "Signals add up in the likelihood fit with a given rate guess", "statement": "fit_ramps called with a rate guess is linear in the group differences: the rate of any combination of two signals is the same combination of their rates, the weights, the uncertainty and the variances do not depend on the signal, and chi-square obeys the rule of the parallelogram. A steady signal on top raises the rate, and the rates found by the jump search on leaving out one difference or two, by exactly that signal and changes neither chi-square nor any of the improvements the jump search decides by. Hence in pixels whose median difference is not positive, with and without the steady signal, likely_ramp_fit sets the same jump flags (with five groups of single reads: none at all, however large the hit, because the search divides by zero).", "quantifier": "for all read patterns, differences, masks, gains, read noises other than zero, rate guesses that are not negative, scale factors, combinations and steady signals of either sign", "why_tests_cant": "a test compares rates of a few ramps; that weights, chi-square and all improvements are unaffected by a common signal is a statement about all data and masks", "anchors": ["src/stcal/ramp_fitting/likely_fit.py:fit_ramps", "src/stcal/ramp_fitting/likely_fit.py:compute_jump_detects", "src/stcal/ramp_fitting/likely_fit.py:mask_jumps", "src/stcal/ramp_fitting/likely_fit.py:matrix_computations", "src/stcal/ramp_fitting/likely_fit.py:get_ramp_result"]}
{"id": "C192", "title": "The mosaic of a combination of scenes is the combination of the mosaics", "statement": "Two scenes seen in the same exposures (same weights, flags, overlaps, intensity scales), each with its own data and sky levels, are resampled; so is their combination x times the first plus y times the second, for any x and y, also negative. At every output pixel with weight the third image is x times the first plus y times the second, and NaN exactly where one of the two is NaN; where nothing contributes each has its fill value. The three weight images are equal, and the resampled variances do not depend on the scene. If one scene, less its sky, is nowhere brighter than the other, its image is nowhere brighter (intensity scales not negative).", "quantifier": "every list of exposures, all data with NaN anywhere, DQ, bounding boxes, overlaps, sky levels subtracted already or not, all weight types with weights not negative, all x and y", "why_tests_cant": "the running weighted mean of drizzle is updated pixel by pixel; additivity needs an identity for all weights, NaN patterns and coefficients", "anchors": ["src/stcal/resample/resample.py:Resample.add_model", "src/stcal/resample/resample.py:Resample.finalize", "src/stcal/resample/utils.py:build_driz_weight"]}
{"id": "C193", "title": "Dark subtraction is linear", "statement": "Subtract from two exposures that were taken in the same way their darks, and from the combination x times the first plus y times the second the same combination of the darks (darks with NaN at the same places; x and y any numbers). The three calls raise together and skip together, leave the same pixel DQ, and the third result is, at every integration and group, the combination of the other two, NaN exactly where one of them is; likewise the averaged darks, extrapolated or not. With exposure and dark in another unit the result is in that unit. Whatever signal is added to an exposure is in the result in full, whatever the dark is.", "quantifier": "every pair of exposures with NaN anywhere, every pair of darks with three or four dimensions, all numbers of groups, frames and gaps, all coefficients", "why_tests_cant": "extrapolation, replacement of NaN, frame averaging and the choice of the dark integration all have to preserve combinations, for all numbers of groups and frames", "anchors": ["src/stcal/dark_current/dark_sub.py:do_correction_data", "src/stcal/dark_current/dark_sub.py:extrapolate_dark", "src/stcal/dark_current/dark_sub.py:average_dark_frames_3d", "src/stcal/dark_current/dark_sub.py:average_dark_frames_4d", "src/stcal/dark_current/dark_sub.py:subtract_dark"]}
{"id": "C194", "title": "The linearity correction follows the unit of the data", "statement": "Give data, zero frame and coefficients in another unit (values times k, the coefficient of power j times k divided by k to the power j; k any number but zero). Then linearity_correction returns the corrected values of before in that unit and the same pixel DQ: the same pixels count as having no solution, saturated values and zeros of the zero frame pass as before, NaN is where it was, and a call with fewer than two coefficients raises in every unit. The same holds for the resultants of the read-level path (inverse coefficients in the new unit as well, k > 0, no additional correction).", "quantifier": "all data and zero frames with NaN anywhere, all flags, any number of coefficients with NaN or zero among them, all k but zero; on the read-level path any read pattern, cap and tile height", "why_tests_cant": "the Horner loop multiplies intermediate values of different units; the identity is needed for all degrees and factors", "anchors": ["src/stcal/linearity/linearity.py:linearity_correction", "src/stcal/linearity/linearity.py:prepare_coefficients", "src/stcal/linearity/linearity.py:apply_polynomial"]}
{"id": "C195", "title": "Saturation flags do not depend on the unit of the data", "statement": "Give data, saturation thresholds, bias and zero frame in another unit (times k > 0; the limit of the converter such that limit plus one is in the new unit). Then flag_saturated_pixels raises the same flags in every group and pixel, with a read pattern or without, with growth or without, and the zero frame it returns is that of before in the new unit; it raises an exception in one unit exactly if it does in the other.", "quantifier": "all exposures with NaN anywhere, thresholds missing or NaN, any flags, read pattern, growth, and k > 0; two-dimensional references", "why_tests_cant": "three passes compare the data with thresholds, diluted thresholds and extrapolations with the bias; all comparisons have to scale for all inputs", "anchors": ["src/stcal/saturation/saturation.py:flag_saturated_pixels", "src/stcal/saturation/saturation.py:_plane_saturation"]}
