# Formal model of stcal: design

The subject is the Python/Cython/C package `stcal` (`/repo/src/stcal`), the calibration library shared by the
JWST and Roman pipelines.  The model is a set of total Lean 4 functions that mirror the code function by function and
branch by branch, with exceptions as values.  Every property in `properties.jsonl` is a theorem about that model, for all
inputs that its `quantifier` names.

## Layout

* `lean/Verif/Model/*.lean` - the model.  Each definition cites the file and lines it models, and says what is simplified.
* `lean/Verif/Proof/*.lean` - helper lemmas and invariants (no property is stated there).
* `lean/Verif/Thm/*.lean` - small separate specifications and the property theorems, each with an `example` that meets
  its hypotheses on a non-trivial case.
* `seeded/LOG.jsonl` - mutation log: bugs seeded in a scratch copy of the model and which theorems caught them.
* `MANIFEST.json` - property -> theorems.

## Modelling conventions

* **Numbers.** Floating-point arithmetic is not modelled.  Pixel values, slopes and variances are elements of an arbitrary
  linearly ordered field (`ℚ` in examples); `ℝ` where a square root or trigonometry is needed.  Theorems about values hence
  hold up to rounding in the code.  Where NaN matters the value type is `Option α`, `none` being NaN, with the IEEE rules that
  the code relies on (comparison with NaN is false, arithmetic propagates NaN, `nansum` etc. skip it).  Infinities are
  modelled only where a definition says so.
* **DQ words** are `Nat` with the bitwise operations of `Nat`.  `Dq.Has d f` (some bit of `f` is set in `d`) is what
  `(d & f) != 0` computes.  Fixed-width wrap-around does not occur for `&`, `|`, `^` of in-range words; `~m` is modelled
  by clearing bits.
* **Arrays.** Images are functions of row and column together with explicit dimensions; the time (group) axis, integrations,
  segments and model lists are `List`s, or functions with an explicit length where the code indexes randomly.
* **Exceptions** are constructors of `Except`/`Option`.
* **Library calls** (numpy, scipy, astropy, gwcs, drizzle, skimage) are modelled by their documented meaning at the call, or
  are parameters of the model over which the theorems quantify (e.g. the WCS transform, a per-row fit).

## Trusted base

1. Lean's kernel.  Axioms: every theorem depends on a subset of `propext`, `Classical.choice`, `Quot.sound`, which
   `lean/Verif` neither extends nor circumvents: no `axiom`, `sorry`, `admit`, `native_decide` or `bv_decide`
   anywhere.  (The property theorems use Mathlib's algebra and order lemmas, which themselves use the three; theorems
   that are plain computations or bit arguments, such as `C96_arrays_restored_partial`, need only `propext` and `Quot.sound`.  `AXIOMS.md` lists them per theorem.)
   `decide +kernel` is used in `example`s and witnesses: it is evaluated by the kernel.
2. The transcription of the code into `Verif/Model` (by reading; the code is never run), including the number model above.
3. The English reading of the statements in `Verif/Thm`.

Functions left uninterpreted (theorems hold for every function, or for every function with the hypotheses stated):
`sqrt`, `powf`/`pow`, `log10` in the ramp fits; the WCS transform and its inverse; the statistic of the sky; the
pseudo-inverse of the sky equations; region finding in the jump step; the per-row fit in C03; the drizzle kernel; that drizzle forms a running weighted mean (C168, C169).

## Plan per property

| id | modelled | how proved |
|----|----------|------------|
| C01 | `compute_num_cores` on a parsed request (numeral / keyword / other) | case split |
| C02 | `rows_per_slice`, start rows of `compute_slices_for_starmap` | induction on the slice list |
| C03 | row slicing, `assemble_pool_results`/`get_slice` with a row-local fit as parameter | partition lemma |
| C04 | `slice_data`, `reassemble_sliced_data` row ranges | arithmetic |
| C05 | `flag_four_neighbors` with row_below/row_above exchange | bitwise extensionality |
| C06-C09, C11-C13 | `flag_saturated_pixels` for one integration as folds over groups | fold invariants |
| C10 | `_adjacent_pixels` (shifted interior copy and edge marching) | equality with box dilation |
| C14-C18 | `do_correction_data`, averaging, extrapolation, `subtract_dark` | index arithmetic, fold invariants |
| C19-C22 | `linearity_correction`, coefficient preparation, Horner evaluation, row tiles | induction on coefficients |
| C23 | XOR clean-up in `detect_jumps_data` | bit extensionality |
| C24 | both strategies of `propagate_flags` | equality with window spec |
| C25 | detection branches of `find_crs` | direct |
| C26 | `extend_ellipses`, `extend_saturation`, group loop | direct; negation witness for overwriting flags |
| C27-C28 | segment discovery and pruning of `slope_fitter.c` | scan invariant |
| C29-C30 | fits of a segment; combination over segments | finite-sum algebra |
| C31-C32 | DQ of the integration / exposure | list induction, bit extensionality |
| C33-C34 | `discard_miri_groups`, `suppress_one_good_group_ramps` | list induction |
| C35-C37 | `init_ramps`, `fit_jumps`, `fit_ramp` | scan invariant, termination measure, algebra |
| C38 | `likely_fit` recursions | tridiagonal inverse identity by induction |
| C39-C41 | masks, read-pattern aliasing, weights | monotone loop; negation witness; convexity |
| C42-C45 | `skymatch` | list induction; graph connectivity; negation witness |
| C46-C47 | `_OnDiskMedian` | section arithmetic; negation witness |
| C48-C49 | `flag_resampled_crs`, `_abs_deriv` | pointwise |
| C50-C55 | `Resample` state machine and `resample/utils.py` | induction over call histories; negation witnesses |
| C56-C58 | `alignment/util.py` | trigonometric / list algebra |
| C59-C61 | `tweakreg` helpers | shift arithmetic; list lemmas |
| C62 | `compute_va_effects_vector` | real algebra |
| C63 | `subtract_dark` DQ | bit extensionality |
| C64-C65 | read-level path of `linearity.py` | list algebra; negation witnesses |
| C66 | `iterative_jump` | fixed-point argument with a decreasing measure |
| C67-C70 | showers, ellipses, snowballs, input masking of the jump step | pointwise; negation witnesses |
| C71-C72 | pixels without fit and zero frames in `slope_fitter.c` | from the segment invariant of C27 |
| C73-C75 | `fit_jumps`, `_fit_statistic`, `_threshold` | finite sums; running maximum |
| C76 | `compute_jump_detects` | Schur complement of the inverse from C38 |
| C77 | local sky | list induction |
| C78, C46 | `_OnDiskMedian` sections | arithmetic |
| C79 | `medfilt` | index arithmetic |
| C80, C55 | `compute_mean_pixel_area`, `_get_boundary_points` | well-founded loop; the moves of the rectangle search (`C55_moves`, `C55_start`) |
| C81 | `_simplify_by_angle` | scan invariant; negation witnesses |
| C82 | final cone filter of `_s3_catalog.py` | spherical trigonometry over the reals |
| C83-C84 | `tweakreg.py` acceptance and columns | case analysis |
| C85-C86 | variances and weights of segment fits | finite-sum algebra; normal equations |
| C87 | charge-loss recomputation in `slope_fitter.c` | reduction to the segment theorem; `C87_variance_exact` for any flags |
| C88-C91 | optional results, padding and reassembly | list induction |
| C92-C93 | weights and variances of `fit_ramp` | normal equations; covariance of averaged reads |
| C94-C95 | `ramp_fit.py` and `ols_ramp_fit_multi` | reduction to C03, C33, C34, C87; the `_exact` theorems hold for any number of processes, with the loss of the suppression setting in slices |
| C96 | byte-order handling in `ols_fit.py` | case analysis |
| C97-C99 | `find_crs`, `twopoint_diff_multi`, `detect_jumps_data` on a whole exposure | reduction to C05, C22-C25, C66 |
| C100-C102 | `likely_ramp_fit` for one pixel: zero frame, DQ, snowball expansion as a parameter, image product | reduction to C38, C39, C41, C32 |
| C103-C104 | tables of the jump test, `fit_ramps` with its shared scratch array, `fit_ramps_casertano` | loop invariants on the arrays; refinement to the model of one pixel (C35-C37, C73) |
| C105-C106 | `find_faint_extended` with the statistics and the smoothing; sigma clipping and region search are parameters | finite sums; reduction to C25, C67 |
| C107 | `detect_jumps_data` with snowballs and showers | composition of C98, C69, C67; congruence of both searches on the pixels of the exposure |
| C108-C109 | pixel scales, output shape, required keys and errors of `Resample` | induction over call histories; case analysis of options |
| C110-C112 | fiducial point, pixel scale, aberration in angles | real trigonometry (arc tangent of two arguments as argument of a complex number); reduction to C62 |
| C113-C114 | bounding box from a shape, outline of an image, `combine_sregions`; shapely and the transforms are parameters | reduction to the parser of C58; induction over inputs and outlines |
| C115-C117 | search radius, proper motion, paths and names of reference catalogues | convexity on the sphere; orthonormal frames; reduction to C59; rounding bounds |
| C118 | linked lists of `slope_fitter.c` on a heap of addresses | refinement to the lists of C01-C02; frame conditions; allocator as arbitrary function |
| C119 | rate product of `likely_fit.py` | inverse-variance sums over the fits that exist |
| C120 | `detect_jumps_data` in two units | homogeneity of median and products; composition with C107 |
| C121-C122 | `calc_pixmap`; the transform and splines of degree above one are parameters | case analysis; interpolation on ordered grids by induction |
| C123-C124 | outline of a `SkyImage`, pixels used by `calc_sky`; polygons on the sphere, filling and statistic are parameters | ordered lists of vertices; reduction to C44 |
| C125 | `wcs_from_sregions`: tangent projection over ℝ, with the results of C56-C58, C110 for matrix, box, footprints and fiducial point | orthonormal frame at the reference point; projection is inverted exactly |
| C126 | `gwcs_blot`, drizzle's `blot_image` is a parameter (interpolation exact at pixel centres, nothing outside the image) | composition of C121, C122 with C48 |
| C127 | `create_astrometric_catalog` for catalogues on S3; files, cone search and orbit of the Earth are parameters | composition of C59, C60, C115, C116 |
| C128 | `slope_fitter.c` for one pixel as in C27-C34, C71 (no code added): rate of a ramp whose comparable groups differ by `b` | a segment holds comparable neighbours only, so it is a line; weighted means of equal slopes |
| C129 | models of C97 and C128 composed: jump detection hands its flags to the fit | the median of the differences is the source; first-difference outliers are the hits; induction over the rounds of the iterative search; several processes by C99 |
| C130 | models of C06-C22 and C129 composed (no code added) | C07, C14, C17, C19 give the samples of a source; then C129 |
| C131 | models of C38, C39, C76, C100 (no code added) | chi-square is positive unless the used differences agree, so leaving out the odd one is strictly best (C76); the second pass sees exact data |
| C132 | `Model/Saturation4`: the 4-D branches of `flag_saturated_pixels` | the closed forms of C07/C12 with one threshold plane per group; refinement to the 2-D model |
| C133 | `Params.overwritten`: the arrays after the in-place assignments | the level and mask computed from the overwritten arrays are the same |
| C134 | models of C46, C48, C49, C126 composed (no code added) | the median of a good majority is within its tolerance (counting); then C46, C126 and C48/C49 with the triangle inequality |
| C135 | `Model/Linearity.coeffsAfter`: the writes into `lin_coeffs` | the overwritten list is the original or the identity polynomial; preparing it again changes the DQ word only |
| C136 | `Model/Dark.modelAfter`: the write through `DarkData.data` | induction over the earlier exposures: the model is the original or has its NaNs zeroed; zeroing commutes with extrapolation exactly when of the last two groups both or neither are numbers, or the only number is zero (`C136_history_free_iff`) |
| C137 | `Model/Linearity.linearityRead`: the driver with `ilin_coeffs` | pixelwise reading of the driver; C20, C22 and C64 |
| C138 | as C137 | the count rate is exactly `b`, hence the offset is zero and the reconstructed reads are the measured ones; the additional correction is then applied read by read in every tile |
| C139 | models of C97, C98 (no code added) | differences, usable groups and the choice of method depend on the DO_NOT_USE and SATURATED bits only; then bits of words |
| C140 | `dqAfter`, `rampFit` | which groups the loop clears (induction on the groups); words that differ only in removed JUMP_DET are cut alike; suppression is idempotent unless the removal makes a group usable |
| C141 | `Likely.pixelFit`, `LikelyDriver.fitInt` run on the DQ they return | `flagJumps` followed by `diffs2use`, word by word; C131 and the exact-ramp lemma of C100 for the second run |
| C142 | models of C38, C39, C76, C100 (no code added) | leaving out the two odd differences makes chi-square zero and no other choice does; the hypotheses on the thresholds decide between one difference and two |
| C143 | `Sky.skymatch` run on its own result (no code added) | a measurement of an element changed by d is lowered by d (single, smallest of a group, weighted mean of a group), so the equations written after the first pass are those of its residuals; normal equations and minimality of the norm give the solution 0; marks are followed through both phases |
| C144 | models of C35, C36, C37, C75, C104 (no code added) | the hit never lowers the fitted slope (Chebyshev sum inequality for the weights), so only differences across it can exceed the threshold; with a regular pattern the variance estimates do not depend on the position and are positive, so the pair chosen covers the hit; the remaining ramps are straight |
| C145 | `MedianComputer` with index, uninitialised memory, clean-up (`Model/MedianComputer.lean`) | induction over the appends (last write wins); a full set of distinct slots is a permutation of the stack; C46 for the disk |
| C146 | `compute_weight_threshold` with astropy's `sigma_clip` modelled from its documentation (`Model/WeightThreshold.lean`) | half of the weights lie on the far side of the median from the mean, so not all squares can exceed nine variances; induction over the rounds for permutation and scaling; two values by exact computation |
| C147 | models of C06-C13 (no code added) | exact flags of C07, C09 and C12 applied to the result of a run; squares add up |
| C148 | models of C29-C31 and C119 (no code added) | all sums, counts and medians are invariant under permutations |
| C149 | models of C29-C31 (no code added) | segment sums, weights and variances are homogeneous in the unit; the power of the weights is a pure number; entries agree unless a variance was replaced by zero |
| C150 | models of C38-C40 and C119 (no code added) | the covariance matrix is homogeneous, its rescaling commutes with the unit, chi-square differences are pure numbers, so the same jumps are masked |
| C151 | `Model/JumpTimes.lean` | differences and their sigma scale inversely with the times, so all ratios, clipping and heights are unchanged; an even pattern is the time step 1 in another unit |
| C152 | `Ols`, `JumpStep`, `Cas22Driver` | segments hold no DO_NOT_USE group and SATURATED samples become NaN; differences see masked data only; ramps lie within unflagged resultants (loop invariant of C36) |
| C153 | JumpDriver | Statistics of a pixel (median, largest and smallest value, clipping test) depend on the multiset of differences; each search is a map over integrations with those statistics as parameters (for the iterative search by induction on the rounds); slices commute with the reordering. Finding: `C153_last_integration`. |
| C154 | JumpDriver, Jump | `find_crs` with the options on is its own result with them off, passed through the plane and pixel maps; each is characterised pointwise (window on the ratio, four neighbours inside the frame; propagation by C24). |
| C155 | WcsInfo, Catalog | the pipeline is split at the frames by position (names are distinct); the first five-angle rotation and the single named rotation are found by induction; converse by the same splitting; the meaning of the angles by evaluating the rotations one at a time over ℝ |
| C156 | JumpStep, Ols, LikelyDriver, Cas22Driver | every use of the data is a difference: the masked cubes differ by zero levels, so first differences, approximate rates and shower ratios agree; the weights of the Casertano slope sum to zero; the zero-frame split commutes with the shift; for OLS_C the pruning (C28) leaves only segments of two or more groups, whose weighted fit is invariant |
| C157 | Outlier, MedianComputer, Blot | the median of an affine image of a list is the affine image of the median (sorting commutes with increasing maps); `C46_disk_is_memory` for the disk; differences and derivatives scale with `k` and lose `z`; counterexample for the padding of `medfilt` |
| C158 | Sky | measurements, smallest sky and weighted mean of a group commute with the affine map; differences in the equations scale with `k`; the shortest least-squares solution is unique (convexity, parallelogram law), hence proportional to the right-hand sides |
| C159 | Saturation, JumpDriver, Outlier | maps of frames that keep or exchange row and column distances; growth, four neighbours and derivative are characterised by distances (C10, C154, C48, C49), the rest is pixel by pixel; counts and the median gain by the bijection of the pixels |
| C160 | `JumpDriver`, `Cas22` | If the stricter search finds a jump, the other search with the same state finds the same (`newCr` looks at the largest ratio only), so the iterations agree until the stricter one stops; the later stages only add jump flags, from smaller sets. Casertano: the ramps that come up are an inductive set, monotone in the test; flags and recorded ramps are read off that set. Outlier thresholds: C48. |
| C161 | `Sky`, `Resample` | Twice the sum of squares is a sum over all ordered pairs, symmetric in the pair, so that renumbering the images renumbers its variables; the shortest minimiser is unique (C158), hence renumbered as well. Smallest and largest value of a list do not depend on its order. Times: first models of the groups are a permutation (C50). |
| C162 | `Ols` | Every natural segment with more flags lies inside one with fewer (a jump group is a good or a jump group without the flags); the information of a segment is proportional to n³ - n, which is superadditive, so a sum over disjoint segments inside another is at most that of the other; the one-group and zero-frame times are ordered below the group time. |
| C163 | `Region` | The quadratic form of the spread is diagonal in the direction of the orientation (double-angle identities, `atan2` as complex argument); the drawing by C68; the containment test by trigonometry of 180° - θ; witness region of five rows by two columns. |
| C164 | `Ols`, `LikelyDriver`, `Cas22Driver` | Changing the unit of time is changing the unit of the data by its reciprocal for the OLS fit (then C149) and likewise for the covariance of the likelihood fit (then the search of C150); for the Casertano fit induction over the loop with equal decisions, weights of the average scaled by t². Example showing that a threshold that depends on the rate makes the flags depend on the unit. |
| C165 | `Ols`, `Cas22Driver` | The loop over the groups closes an open segment at the first unusable group as the end of the ramp does; the differences added to the median are NaN; counts grow with the number of groups. For the Casertano fit the runs of good resultants are the same and everything else reads only resultants of a run. |
| C166 | `Ols` | The loop over the groups opens its first segment at the first usable group, so that all segments are shifted by the number of leading groups; the weighted sums of a segment do not depend on where it begins; the leading differences are NaN for the median. The first usable group must not be saturated and two neighbouring good groups must exist (otherwise the timing of a single group or the fallback of the median comes in: `C166_one_group`). |
| C167 | `RampFit`, `Ols` | C95 gives the pixel of the exposure with and without the removal of MIRI groups; C165 takes off the last group and C166 the first ones. The planes are dead for all pixels, so DO_NOT_USE in the removed groups follows. A jump in the first group left is forgotten (`C167_first_jump_forgotten`). |
| C168 | `Drizzle` (`Resample` for the weights and the range of pixels); `Drizzle.add_image` of the package drizzle is modelled as a running weighted mean from its documentation, overlaps are given | fold over the pixels with the invariant "weight is the sum so far, weight times image is the weighted sum so far"; the sums are finite sums over rows and columns, so order, bounds and uniform images follow |
| C169 | `Drizzle`, `Resample` | one pixel per image: C168's invariant for a single image gives each resampled variance, C52 the combination; the factor between the weights of image and variances (inverse square of the intensity scale) cancels |
| C170 | `Drizzle`, `Resample` | the running mean commutes with a change of unit (`ry_put`), hence every image and every resampled variance; C52 turns the combination of variances into sums |
| C171 | `Sky`, `Drizzle`; how an image of sky matching becomes a model of `Resample` (data, level, subtracted) is part of the statement, pipelines do it | relation "same sky, data differ by it" is kept by every phase of `skymatch`, and resampling takes the sky off |
| C172 | `Sky`, `Drizzle` | C43 and C44: data less sky is the scene plus one constant in every image; C168: a constant goes through the weighted mean |
| C173 | `Dark`, composed from C14 and C17 | the mean of a steady signal is affine in the group number, so the extrapolated reference is the same affine function |
| C174 | `Ols`, `LikelyDriver` | every integration of the copies is fitted alike and the median rate is that of one copy, so the sums over integrations are n times one term; errors: the sum of two harmonic totals is at most the harmonic total of the sums |
| C175 | `JumpDriver` | the median follows the signal and all deviations shrink by one factor, so the loop flags the same differences in the same order and stops earlier or at the same time; flags after jumps and of neighbours are monotone as in C160 |
| C176 | `Sky` | the constants enter the right-hand sides as row times constants; two least-squares solutions agree in every equation, hence along every chain of overlaps; the second phase removes the remaining common constant |
| C177 | `Outlier`, `Resample` | a sorted list with every entry repeated has the same middle; sums of weights and of weighted values are multiplied by the number of copies, and the ratios by which the image and the variances are defined follow |
| C178 | `JumpDriver` | the differences of the longer exposure are copies of those of the shorter one, so medians and clipping verdicts agree; every later step works on one integration; the choice of the search is decided by the numbers of groups |
| C179 | `Sky`, `Drizzle` | C176 gives images that agree, or differ by one constant, once the sky is out; the weighted means of C168 then agree or differ by it |
| C180 | `Likely`: masks of which one contains the other, and noise levels, at a fixed rate guess | first-order optimality of the C38 estimate, then the Cauchy-Schwarz argument for nested linear models |
| C181 | `Drizzle`: any overlaps, for weights by time; for weights by read noise with one noise per image | the drizzled error is a mean, whose square is at least the sum of squares of its terms; the weights of the images in the variances agree with those in the science image up to a factor if the images cover the output pixel alike |
| C182 | `Thm/StrongHit.lean` | A strictly largest difference that grows leaves the median (three or more values) and `calc_med_first_diffs` unchanged, because the sorted list is the other values followed by it; its own ratio grows, all other ratios stay. In the iterative search both runs flag exactly that difference in the first pass and go on from the same table. Finding: with neighbour flagging a stronger hit loses the flags of its neighbours. |
| C183 | `Thm/Minority.lean` | In a sorted list the elements at the middle positions belong to any range that holds more than half of the list (counting before and after the position); so the median does. Noise is monotonic in the level, which bounds the ratio from both sides. `C183_half` shows that more than half is needed. |
| C184 | `Thm/FurtherImage.lean` | From C169: with inverse-variance weights, weight squared times variance is the weight, so the variance is the inverse of the sum of weights; a non-negative weight more never raises it; optimality by completing the square. Findings: other variances, and the read noise with weights by time, can rise. |
| C185 | `Thm/SkyOutlier.lean` | C176 gives images that differ by one constant once the sky is out; this goes through the cells of the images resampled alone (C179's lemmas), the median (C157), blotting and the flags, which depend on image less background less blotted median |
| C186 | `Thm/MinorityIter.lean` | At least half of the sizes at most `hi`, none below `lo`: the reference level (largest left out, median of three, smaller of two) lies in the range (`C186_level`), which is kept from round to round because only sizes above `hi` are masked; with C66 (nothing left above the threshold) `C186_iterative`. `C186_limits`: where it ends. |
| C187 | `Thm/RateBounds.lean`, `Thm/LikelyRange.lean` | Chebyshev's sum inequality with the (non-negative) weights of the fit shows that samples rising by at least `lo` have a slope of at least `lo`; lifted through segments, `C30_*_mean` and the driver, and through ramps, `C73_average` and `casertano`. Likelihood: the weights have the smallest variance of all with sum one (C38), and if no two differences are positively correlated the absolute values, rescaled, would do better unless the weights were non-negative already; single-read groups are of that kind (`C187_likely`, any mask, expansion, zero frame). Groups of several reads: the normal equations for the weights divided by the time steps are a discrete diffusion equation whose coefficients may be negative; comparing its equations at the largest and the smallest entry shows that no entry is negative as soon as the mean distances of the reads of two neighbouring groups add up to less than the time between the groups (`rt_sign`, `C187_likely_spread`), which evenly spaced reads always satisfy (`C187_likely_groups`, `_zero` with a zero frame split off, `_default` for the built-in times). `C187_uneven_reads`: a rising ramp with a negative rate for a pattern of unevenly spaced reads. |
| C188 | `Thm/PhotonLimit.lean` | Cauchy–Schwarz for a Poisson process, by induction over the reads in time order: coefficients of sum zero that give one for a line of slope one have at least the variance `1 / (last read - first read)`. The Casertano slope is such a combination (`C93_ramp_variances`), a second Cauchy–Schwarz sums over the ramps of a pixel, which share no resultant. The differences of the likelihood fit, summed by parts, are such a combination with the group averages as blocks. For the C extension the time steps of the segments add up to at most those of the ramp (`C27_segments_sound`). |
| C189 | `Thm/ReadLimit.lean` | Cauchy–Schwarz with the numbers of reads as weights (`bd_limit`): coefficients of sum zero that give one for a line of slope one. The Casertano coefficients are such (`fitRamp_some`), the inverse variances of the ramps of a pixel add up to at most the spread of all resultants; the likelihood weights are such after summing by parts; for the C extension `n³ - n` is twelve times the smallest spread of `n` even groups (`bd_cube`) and superadditive over segments (`lx_inside`). |
| C190 | `Thm/Backwards.lean` | Jumps: the first differences are those of the ramp in the opposite order, hence the median, the noise, the ratios and the iterated search are too (the search looks at values, not at positions). Casertano: the weights depend on the distance of a resultant from the middle of the ramp only, the Poisson variance as a sum over pairs is symmetric in time, and the average over the runs of good resultants does not depend on their order. OLS: the sums of the weighted fit about reflected abscissae; for a pixel (`Thm/BackwardsOls.lean`) the segments of two or more groups are maximal stretches without unusable group and without jump inside (from C27, C28), which is symmetric, and the sums over the segments do not depend on their order. Likelihood: the covariance of the differences is reflected (the terms that depend on one read only cancel in the differences), so chi-square is the same function of the rate (`cv_chi2`), and C38 makes the fit its minimiser. Finding `C190_casertano_jump`. |
| C191 | `Thm/LikelySum.lean` | The matrix quantities are linear (`B`) and quadratic (`A`) in the differences, while `C` and the weights do not contain them; the steady signal moves the argument of chi-square, whose minimum is unique (C38); the improvements are differences of two such minima (C76), and whether there is a number does not depend on the data; equal improvements give equal masks by induction over the passes. |
| C192 | `Drizzle`, `Resample` (one output pixel, overlaps given) | C168 writes the image as a weighted mean; numerators add, NaN at a weighted pixel of either scene makes both sides NaN |
| C193 | `Dark` | a dark of pairs stands for both darks; every function of the model has one result in pairs of which all combinations are images (`dl_*`), so the three calls are read off one witness |
| C194 | `Linearity` (read-level path: integrations, without additional correction) | replacing coefficients commutes with the change of unit; in the Horner loop the value after step t has unit k/k^(n-t) |
| C195 | `Saturation` (two-dimensional references) | every comparison of the three passes is multiplied by k; the passes are then equal by induction over the groups |
| C03, C14, C18, C65, C70, C71, C72, C75, C94 | `Thm/Exact.lean` | what the code does in the cases in which these properties fail, for all inputs |

## What is modelled

| module | code |
|--------|------|
| `Slicing` | `multiprocessing.py`; slicing and reassembly in `ramp_fitting/ols_fit.py`, `jump/jump.py` |
| `Saturation`, `Saturation4` | all of `saturation/saturation.py` |
| `Dark` | all of `dark_current/dark_sub.py`, one pixel |
| `Linearity` | all of `linearity/linearity.py` |
| `Jump`, `JumpDriver` | `jump/twopoint_difference.py` (astropy's `sigma_clip` is a parameter); `detect_jumps_data`, `twopoint_diff_multi`, `slice_data`, `reassemble_sliced_data` of `jump/jump.py` |
| `Snowball`, `Shower`, `JumpStep`, `JumpTimes` | group times of `JumpData.__init__`; `detect_jumps_data` with its counts, `flag_large_events`, `make_snowballs`, `extend_*`, `find_faint_extended` and its helpers, `max_flux_showers`; `_sk_filter_areas` is in `Region`; the Fourier convolution is an exact sum |
| `Region` | `find_ellipses`, `_sk_filter_areas`: centroid, axis lengths and orientation of a region from its pixels (scikit-image, from its documentation); labelling and hole filling are parameters |
| `Ols`, `Chargeloss`, `OptRes` | `ramp_fitting/src/slope_fitter.c` without python glue; lists are values here |
| `OlsHeap` | linked lists of `slope_fitter.c` with addresses, `malloc` and `free`; not the branches for failed allocations |
| `RampDq`, `RampFit` | `ramp_fitting/utils.py`, `ramp_fit.py`, `ols_fit.py` |
| `Cas22`, `Cas22Driver` | `ramp_fitting/ols_cas22/_ramp.pyx`, `_jump.pyx`, `_fit.pyx` without diagnostics and without checks of array sizes, `ols_cas22_fit.py` without rounding to float32 |
| `Likely`, `LikelyDriver` | `ramp_fitting/likely_fit.py`, `likely_algo_classes.py` |
| `Sky`, `SkyImage` | `skymatch/skymatch.py`, `skyimage.py` with polygons and statistic as parameters |
| `Outlier`, `Blot`, `MedianComputer`, `WeightThreshold` | `outlier_detection/median.py`, `utils.py` |
| `Drizzle` | `add_model`, `finalize`, `_resample_one_variance_array` of `resample/resample.py` at one output pixel, with the overlaps as given numbers; not context and DQ images |
| `Resample`, `ResampleScale`, `Pixmap` | bookkeeping, weights, variances, pixel scales, checks and errors of `resample/resample.py`, `resample/utils.py`; `calc_pixmap` |
| `Align`, `SRegion`, `Simplify`, `Angles`, `Combine`, `OutputWcs` | parts of `alignment/util.py`, all of `alignment/resample_utils.py` with shapely as parameter |
| `Catalog`, `Tweakreg`, `RefCat` | `tweakreg/` without network and file access; `align_wcs`, the cone search by cells and the orbit of the Earth are parameters |
| `WcsInfo` | `tweakreg/utils.py` and `construct_wcs_corrector`; a WCS is its list of frames with named submodels, of which only `RotationSequence3D` has a content; gwcs' `get_transform` and astropy's rotation convention are modelled from their documentation |
| `Aberration`, `Angles` | `velocity_aberration.py` |

## Findings

Behaviour of the code that contradicts a property or looks unintended.  Each has a theorem or a witness in `Verif/Thm`
unless marked (reading).

* Jump, events one pixel wide: axis lengths less one give a negative semi-axis, and `skimage.draw.ellipse` then draws nothing if
  the event lies along a row (`C68_thin_row`), but draws it if it lies along a column (`C68_thin_column`).
* Ramp fitting, driver: slices lose `suppress_one_group_ramps` (`C03_sliced_fit_with_suppression_differs`); LIKELY with
  fewer than four groups falls back to OLS_C without charge-loss handling (`C94_fallback_ignores_charge_loss`); the
  caller's read noise is scaled in place, so a second fit differs (`C94_second_fit_differs`); data, dark current and
  pixel DQ in foreign byte order come back with reversed bytes (`C96_foreign_data_changed`), and a zero frame in foreign
  byte order is read wrongly (`C96_zero_frame_misread`); suppression and the MIRI discarding change the caller's group DQ
  (`C140_group_dq_left`); a MIRI ramp whose only usable group is a former jump is fitted although suppression was requested,
  and suppressed by a second call (`C140_suppressed_late`); a second call treats charge loss differently
  (`C140_charge_loss_again`).
* Ramp fitting, C extension: stale size and tail after pruning (`C28_size_stale_after_pruning`, `C90_extra_plane`); a NaN
  sample in a segment of three or more counts as zero (`C29_nan_sample_counts_as_zero`); variances of 1e6 or more zero
  the slope (`C30_large_variance_zeroes_slope`), so that a rate depends on the unit of the data (`C149_threshold`); with one group per integration
  unusable samples enter the Poisson variance of the others (`C152_one_group`); in a ramp of which one group
  is left the zero level counts as signal (`C156_one_group`); a ramp without segment gets slope 0 and no DO_NOT_USE
  (`C71_unfittable_ramp_reports_zero_slope`, `C71_exact`); the zero frame is mixed into persistent ramps
  (`C72_zero_frame_mixed_into_persistent_ramp`), where additional PERSISTENCE flags can even lower the variance (`C162_persistence_lowers_variance`); charge loss: error not updated, lone flag not restored, unusable
  pixels get a variance (`C87_*`); two-group intercept uncertainty copies the slope's
  (`C88_two_group_intercept_error`); the pedestal multiplies a rate per second by a fraction of a group
  (`C89_pedestal_value`); empty optional products differ between one and several processes
  (`C91_empty_product_differs`); `ols_slope_fit_pixels` never reports errors (reading); with arrays of a wrong
  type the ramp data is freed twice (`C118_wrong_type_frees_twice`); after errors borrowed references to `None` are released
  (`slope_fitter.c:967-975`, reading); the guards of `save_opt_res` are off by one but never reached (`C118_memory`).
* Casertano fit: a NaN statistic of the last difference hides jumps (`C75_nan_statistic_hides_jump`, `C75_last_not_a_number`);
  `fit_ramps_casertano` returns 0 instead of the slope of a single ramp (`C104_single_ramp_loses_slope`), and attaches the
  unit of the input to numbers computed in electrons (`C104_units`); sizes of a read noise of two or more dimensions are not
  checked, and `ols_cas22/__init__.py` lists a name `Diff` that it does not import (reading).
* Likelihood fit: a second call on the flags left by the first also loses the difference after each jump
  (`C141_again_differs`); the chi-square of the exposure is NaN if one integration has no fit, though the rate is a number
  (`C119_chisq`); masked differences influence the result (`C38_masked_data_change_the_rate`,
  `C38_masked_nan_destroys_the_fit`); flags above eight bits are ignored (`C39_high_flags_are_ignored`); the caller's
  read pattern is modified (`C40_second_fit_is_inconsistent`); `count_rate_guess=None` raises TypeError (reading);
  in exact arithmetic the search for two jumps divides by zero for some read patterns, and then no jump is found
  (`C131_hit_not_found`; `C191_faint_five`: five groups of single reads in pixels whose median difference is not positive);
  the zero frame is split off with `nframes` even if the read pattern disagrees (`C100_nframes_mismatch`); a pixel can
  have no slope and no DO_NOT_USE (`C101_no_slope_no_flag`); groups marked SATURATED by the snowball expansion are still
  used (`C102_only_jumps_count`).
* Jump step: a read pattern of two groups is accepted for any number of groups (`C151_fails`); two-group ramps raise (`C69_two_groups_fail`); without `nframes` (allowed with a read pattern) no shower is found
  (`C106_zero_nframes_finds_nothing`); `Ring2DKernel` gets the outer radius as second argument, which in astropy is the width
  of the ring (reading; astropy is not in the sandbox); the edge test compares columns with rows
  (`C69_edge_test_uses_rows_for_columns`); multi-flag samples are used (`C70_extra_flag_is_used`, `C70_ignored_iff`); saturated cores
  overwrite flags (`C26_saturation_overwrites_flags`); whether the search is given up depends on the order of the
  integrations (`C97_order_matters`, `C153_last_integration`); the number of processes changes the result: after-jump flags miss neighbours flagged
  across a slice boundary (`C99_transient_after_neighbor`), planes of jumps are reset slice by slice
  (`C99_reset_by_slice`), skipped slices count -99 each (`C99_negative_count`), `minimum_groups` is 3 in one process
  only (`C99_minimum_groups`), and the shower search sees masked data in one process only (`C99_shower_data`), which
  changes the flags if unusable samples have other flags too (`C107_other_flags`); the number
  of snowballs is overwritten by the number of showers (`jump.py:109, 114`, reading).
* Saturation: growth by `n` raises for images below `2n` (`C10_small_image_raises`).
* Dark: darks that average frames are averaged by group index (`C14_coarse_dark_misaligned`; of a steady dark
  current, q times as much is subtracted, `C173_coarse_dark_too_much`); one extrapolated group too
  many when the dark has gaps (`C15_one_extra_group`); unfilled averaged integration
  (`C18_unfilled_dark_used`, `C18_nothing_subtracted`); `C14_any_dark` describes the subtraction for every 3-D dark.
* Linearity: the cap changes corrected values, pixels unusable only in the inverse are flagged but corrected
  (`C65_cap_changes_value`, `C65_inverse_only_still_corrected`).
* Reference arrays are overwritten: with coefficients kept in memory, NO_LIN_CORR is raised for the first exposure only
  (`C135_flag_lost`); a dark model kept in memory is extrapolated differently after a shorter exposure has been corrected
  with it (`C136_history_matters`).  The overwriting in `flag_saturated_pixels` is harmless (C133).
* Running jump detection on flags it has set itself spreads them further when neighbours or after-jump groups are flagged
  (`C139_neighbours_spread`, `C139_after_jump_spreads`): flagged neighbours count as jumps when they exceed the smaller
  threshold for neighbours.
* Read-level linearity is exact for a steady source only if the first resultant is a single read
  (`C138_first_averaged_inexact`); the group-level path is biased (`C138_group_level_biased`).
* Jump: the angle of a region is measured from the rows, and the drawing uses it so, but `point_inside_ellipse` measures it from the columns, i.e. it tests the mirror image of the ellipse
  (`C163_test_mirrored`); an elongated snowball with its saturated core off centre is not recognised (`C163_core_missed`), and a core beside it can be taken for its own.
* Jump: `min_sat_radius_extend` is documented as a minimum radius (jump_class.py:159-160) but compared with the full minor axis (jump.py:431-433) (reading).
* Ramp fitting: a ramp with one usable group is timed as a first group after the groups before it have been cut off, and as a later group while they are there
  (`C166_one_group`; no difference for one frame per group without gap). With two neighbouring good groups the cut never matters (`C166_ols`).
* Casertano fit: the jump threshold depends on the rate in the unit of time used, and the OLS fit sets to zero rates whose variance exceeds a fixed number, so that both depend on the unit of time
  (examples of C164, `C164_threshold`).
* Sky: a missing sky after a computable one raises (`C45_missing_sky_raises`), so that it depends on the order whether there is an exception (`C161_missing_sky`); vertices can be almost twice the step size
  apart, which is documented as the maximum (`C123_larger_than_asked`); the area of an overlap with a group counts what
  several of its images see several times (`C124_area_counted_twice`); `SkyGroup.calc_sky` sets `image.background`,
  which nothing reads, and masks of 0 and 1, as documented, would be used as indices (reading).
* Resample: spectral data in flux density units cannot be added without a given ratio (`C108_spectral_needs_ratio`); a
  preferred mean pixel area that cannot be computed is not replaced by the nominal one, as the message says it is
  (`C108_mean_has_no_fallback`); `compute_err="from_var"` without `enable_var` leaves the error `None`, against the
  documentation (`C109_from_var_needs_enable_var`); the constructor accepts any weight type that begins with `ivm`
  (`C109_weight_type_accepted_too_early`); `calc_pixmap` disables boxes before the `try` that restores them, so a box with
  another number of axes loses them (`C121_boxes_lost`); a disabled box still blanks pixels on a coarse grid
  (`C121_disabled_box_still_applies`); images with few columns and more than ten rows raise (`C121_narrow_fails`); the
  spacing of the grid can exceed the step size (`C122_larger_than_asked`).
* Outlier detection: `add_image` counts against sections (`C47_large_buffer_refuses`); even kernels grow the image
  (`C79_even_kernel_grows`); the in-memory median uses uninitialised memory for slots that were never filled, where the
  on-disk median leaves them out (`C145_missing`), and repeats an image of one row over the slot, where the on-disk computer
  raises (`C145_broadcast`); an on-disk computer can be evaluated only once (`C145_closed`).
* Resampling: `reset_arrays` keeps group ids (`C51_*`); stale or unbound read-noise weight (`C52_stale_weight`,
  `C52_unassigned_weight`); negative variances give negative weights (`C53_negative_variance`); the pixel range holds
  touching pixels and boxes beyond the image are not clipped (`C54_centre_outside`, `C54_box_beyond`).
* `wcs_from_sregions` uses a `transform` given by the caller only for the bounding box and the offset; the WCS returned is made of `pscale`,
  `rotation` and `crval`, which the documentation calls ignored (`C125_transform_not_used`). `pscale=0` counts as not given (`C125_shape`).
* Jump detection takes the median of the differences as the source. If half of them are hit, all differences may be flagged, and the
  rate is 0 with no flag but JUMP_DET (`C129_half_hit`).
* `gwcs_blot` with the default fill value 0: pixels without median are compared with 0 (`C126_fill`).
* The timeout of `get_s3_catalog` does not end the call: leaving the `with` statement of the executor waits for the reading
  (`C127_timeout`). Sources are selected by their catalogue position before the correction for proper motion (`C127_old_position`).
* Alignment: vertices beyond the fourth are dropped from S_REGION, NaN and infinities vanish or fail (`C58_*`); corners are
  lost in outline simplification (`C81_corner_lost`, `C81_vanishes`); another tangent point does not move the vertices
  into the image (`C57_other_tangent_point`); positions that are all zero leave the fiducial uninitialised
  (`C110_zero_not_written`); the fiducial does not turn with the footprint (`C110_does_not_turn`); with the wavelength first
  among the world axes the scale is taken along the dispersion (`C111_wavelength_first`); S_REGION can hold the right
  ascension 360 (`C113_writes_360`); an intersection in several pieces fails (`C114_pieces_fail`), and an outline in
  several pieces is read as one polygon (`C114_pieces_become_one`); footprints with different numbers of vertices fail
  (`C114_fails`); holes of a union are dropped (`resample_utils.py:115`, reading).
* Jump detection: brightening a scene can add flags to neighbours of jumps above the upper limit (`C175_neighbors_added`); the noise of a ramp that
  decreases grows with the decrease (`C175_decreasing`).
* Jump detection: the iterative search compares the number of differences of all integrations together with two, three and four, so a jump can
  be missed in one integration and found if the same integration is given twice (`C178_iterative`).
* Resampled variances: the images are combined with the weights time or inverse read noise, whatever part of the output pixel they cover, while
  the science image weights them by that part too.  Where the parts differ (edges of images, beside flagged pixels), the variance can be too
  small by any factor (`C181_understated`: k images that just touch the output pixel divide the variance by k + 1).
* C182: a stronger hit can leave fewer flags: above `max_jump_to_flag_neighbors` the neighbours of a jump are no longer flagged (twopoint_difference.py:538-542; `C182_neighbors_lost`). This is what the option asks for, but it makes the flags non-monotone in the strength of the hit.
* C184: adding an image can raise the resampled Poisson and flat variances (weights are made of the read noise only; `C184_poisson_raised`), and with weight type exptime the read-noise variance too (`C184_read_noise_raised`).
* `calc_med_first_diffs` leaves out every difference equal to the largest (twopoint_difference.py:757-759), while its description speaks of the largest one only. With equal differences the reference level can then lose the majority: of the sizes 500, 1, 500, 1, 500 the three equal ones are flagged (`C186_limits`).
* Likelihood fit: with unevenly spaced reads inside the groups and a masked difference the weights of the differences can be negative, so that a ramp that never falls gets a negative rate (`C187_uneven_reads`; likely_fit.py:1218-1222). For groups whose reads are evenly spaced this cannot happen (`C187_likely_groups`).
* Casertano fit: the jump test is not symmetric in time.  The statistic of a resultant includes the difference to the resultant after the next,
  so that a step is often attributed to the resultant before it and a resultant that was not affected is excluded; read backwards, other
  resultants are excluded and the variances differ (`C190_casertano_jump`).
* Errors: for an exposure with one integration the error of the rate is smaller than that of the same integration if the ramp
  has several segments, although slope and variances agree (`C174_error`, `C174_error_differs`); the likelihood fit gives an exposure of several
  integrations a zero Poisson variance if the rate is exactly zero (`C174_likely`), as happens for opposite rates and equal variances (`C188_likely_exposure`).
* Resampling: with weight type `ivm-sky` the variances are not combined with the weights of the image, so they are not its
  variances (`C169_sky_weights`); an image without read-noise variance has weight one beside inverse variances, so that the
  result depends on the unit (`C170_missing_noise`); the documentation says that without VAR_SKY the variance is set to 0, the code gives such pixels
  weight 1 (reading); a type such as `ivm-x` passes the check of the constructor and fails at the first image, and the message of that
  check is not formatted (`resample.py:287-290`, reading).
* Catalogues: a limit of zero sources returns all (`C60_zero`); epoch zero counts as no epoch (`C116_catalog`,
  `C117_rows`); sources are searched at the epoch of the catalogue and then moved, so that one that has moved into the field
  is missing (`C116_searched_before_moving`); the column `epoch` is not changed when positions are (`C116_rows`).

## Mutation testing

`seeded/LOG.jsonl` has one line per attempt: the definition edited, the edit, the claim it breaks, the property theorems
that no longer check, and theorems that were tightened in consequence.  Failing proofs are replaced by a stub in the
scratch copy and the build repeated until it goes through, so "failed" lists the theorems that fail themselves and those
that depend on them.

## Parts of the repository that are not modelled

Plotting/logging, file I/O and network access (`tweakreg/_s3_catalog.py` downloads, `tweakreg/astrometric_utils.py` HTTP),
multiprocessing itself (workers are pure functions here), failed allocations and reference counts of the C extension,
skimage's labelling of connected regions, drizzle's resampling kernel (which input pixel overlaps which output pixel, and how much), gwcs/astropy internals, `spherical_geometry` polygons.
