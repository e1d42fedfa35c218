{
 "claims": [
  {
   "property": "C01",
   "status": "proved",
   "theorems": [
    "Props.C01_boot_population",
    "Props.C01_boot_population_reach",
    "Props.C01_boot_none",
    "Props.C01_boot_empty_kept"
   ],
   "note": "All ranks, shapes, axis sets, populations and random outcomes; converse (every resample is reachable) and error branch also proved."
  },
  {
   "property": "C02",
   "status": "partial",
   "theorems": [
    "Props.C02_negative_axes_partial",
    "Props.C02_false"
   ],
   "note": "False for lists mixing negative and non-negative axes (C02_false: (1,-1) on a 2x2x2 array samples the wrong axes). Proved whenever sorting the spellings sorts the axis numbers: all negative, all non-negative."
  },
  {
   "property": "C03",
   "status": "proved",
   "theorems": [
    "Props.C03_reliability_all",
    "Props.C03_reliability_kept",
    "Props.C03_reliability_boot_all",
    "Props.C03_reliability_boot_kept",
    "Props.C03_counts_all",
    "Props.C03_counts_kept",
    "Props.C03_draws"
   ],
   "note": "Axes given as distinct non-negative numbers or None; probabilities NaN or non-negative (negative ones raise). With and without bootstrapping, with and without kept axes. C03_counts: the numbers of observed events per bin."
  },
  {
   "property": "C04",
   "status": "proved",
   "theorems": [
    "Props.C04_pairs_kept_together",
    "Props.C04_pairs_kept_together_boot"
   ],
   "note": "Proved for distinct non-negative axes, every tie-breaking of the sort, with and without bootstrap; every drawn resample keeps pairs together."
  },
  {
   "property": "C05",
   "status": "proved",
   "theorems": [
    "Props.C05_slices",
    "Props.C05_corr",
    "Props.C05_corr_boot",
    "Props.C05_brier_decomp",
    "Props.C05_brier_decomp_boot"
   ],
   "note": "Distinct non-negative axes in any order (negative ones make the transpose raise); generic statistic, then corr and brier_decomp with and without bootstrap."
  },
  {
   "property": "C06",
   "status": "proved",
   "theorems": [
    "Props.C06_spread_skill_shape",
    "Props.C06_spread_skill_boot_shape"
   ],
   "note": "boot_arr, spread-skill, corr and brier_decomp shapes for all ranks and axis sets."
  },
  {
   "property": "C07",
   "status": "proved",
   "theorems": [
    "Props.C07_average_of_averages"
   ],
   "note": "Average of averages over every kept position, for any axis set with equal-size groups and NaN-free data."
  },
  {
   "property": "C08",
   "status": "proved",
   "theorems": [
    "Props.C08_error_inequalities"
   ],
   "note": "At every output position of every averaging choice."
  },
  {
   "property": "C09",
   "status": "proved",
   "theorems": [
    "Props.C09_fraction",
    "Props.C09_function",
    "Props.C09_range_monotone"
   ],
   "note": "Method 'moments'; every axis, worker count, scalar or array threshold; missing members counted in the denominator. C09_function is the same for the exported function ens_to_prob."
  },
  {
   "property": "C10",
   "status": "proved",
   "theorems": [
    "Props.C10_workers",
    "Props.C10_empty"
   ],
   "note": "At least one position required: with none, several workers raise while one returns an empty array (C10_empty). Errors agree too."
  },
  {
   "property": "C11",
   "status": "partial",
   "theorems": [
    "Props.C11_range_partial",
    "Props.C11_perfect_partial",
    "Props.C11_false"
   ],
   "note": "Range and zero characterisation proved for every conversion into [0,1]; perfect ensembles score 0 for over always, for below only when observation and threshold differ (C11_false: tie gives 1)."
  },
  {
   "property": "C12",
   "status": "partial",
   "theorems": [
    "Props.C12_false",
    "Props.C12_complement_partial"
   ],
   "note": "False at ties of observation and threshold (C12_false) and for missing observations; proved elsewhere, for every conversion method."
  },
  {
   "property": "C13",
   "status": "proved",
   "theorems": [
    "Props.C13_decomposition",
    "Props.C13_brier_decomp",
    "Props.C13_defined"
   ],
   "note": "At slice level for every number of bins and at array level for the 19 used; NaN-free forecasts and 0/1 observations. With skip_nan and missing forecasts the weights count the missing values (not claimed)."
  },
  {
   "property": "C14",
   "status": "proved",
   "theorems": [
    "Props.C14_possible_rank",
    "Props.C14_skip",
    "Props.C14_errors"
   ],
   "note": "Every worker count, split axis and random outcome; with NaN skipping incomplete positions get NaN (only on numpy that still has np.float; otherwise the call always raises, C14_errors)."
  },
  {
   "property": "C15",
   "status": "partial",
   "theorems": [
    "Props.C15_reachable_partial",
    "Props.C15_false"
   ],
   "note": "False (C15_false): positions with the smallest tie count are never randomised. Any joint choice of ranks is reachable at positions having more ties than some other position."
  },
  {
   "property": "C16",
   "status": "proved",
   "theorems": [
    "Props.C16_workers",
    "Props.C16_workers_skip"
   ],
   "note": ""
  },
  {
   "property": "C17",
   "status": "proved",
   "theorems": [
    "Props.C17_exactly_one_bin",
    "Props.C17_partition",
    "Props.C17_general_call"
   ],
   "note": "The trailing extra bin (for values above 1+1e-8 and NaN) is shown empty for probabilities in [0,1]."
  },
  {
   "property": "C18",
   "status": "proved",
   "theorems": [
    "Props.C18_bins_balanced_ordered",
    "Props.C18_spread_defined",
    "Props.C18_too_many_bins"
   ],
   "note": "Groups complete, balanced and ordered for every tie-breaking (NaN last); spread non-decreasing over bins whenever both values are numbers, and numbers when variances are non-negative and NaN-free; too many bins is an AssertionError."
  },
  {
   "property": "C19",
   "status": "partial",
   "theorems": [
    "Props.C19_determ_partial",
    "Props.C19_symmetric_partial",
    "Props.C19_determ_all_partial",
    "Props.C19_false",
    "Props.C19_prob_partial",
    "Props.C19_prob_all_partial"
   ],
   "note": "False with avg_axis=None when no position shows the event: ZeroDivisionError instead of NaN (C19_false). Everything else proved, for iou_determ and the iou_prob helper."
  },
  {
   "property": "C20",
   "status": "proved",
   "theorems": [
    "Props.C20_pairs"
   ],
   "note": "The ROC routine itself (scikit-learn) is a parameter."
  },
  {
   "property": "C21",
   "status": "proved",
   "theorems": [
    "Props.C21_bounded",
    "Props.C21_symmetric",
    "Props.C21_affine",
    "Props.C21_affine_obs",
    "Props.C21_reorder"
   ],
   "note": "For any field with a square root. Degenerate and NaN cases are specified (NaN result)."
  },
  {
   "property": "C22",
   "status": "proved",
   "theorems": [
    "Props.C22_antisymmetric",
    "Props.C22_shift",
    "Props.C22_scale"
   ],
   "note": ""
  },
  {
   "property": "C23",
   "status": "proved",
   "theorems": [
    "Props.C23_harvey",
    "Props.C23_shrinks",
    "Props.C23_variance_nonneg",
    "Props.C23_pvalue",
    "Props.C23_accepted",
    "Props.C23_variance_formula",
    "Props.C23_statistic"
   ],
   "note": ""
  },
  {
   "property": "C24",
   "status": "proved",
   "theorems": [
    "Props.C24_boot_interval",
    "Props.C24_boot_defined",
    "Props.C24_boot_constant"
   ],
   "note": ""
  },
  {
   "property": "C25",
   "status": "partial",
   "theorems": [
    "Props.C25_false",
    "Props.C25_mean_inside_partial"
   ],
   "note": "False in general (C25_false: mean above the interval at confidence 1/2). Proved at confidence 1."
  },
  {
   "property": "C26",
   "status": "partial",
   "theorems": [
    "Props.C26_false",
    "Props.C26_relation_partial",
    "Props.C26_ordered_partial"
   ],
   "note": "False (C26_false). The other metrics use quantiles [1-c, c], i.e. the interval of confidence 2c-1; ordered when c >= 1/2."
  },
  {
   "property": "C27",
   "status": "partial",
   "theorems": [
    "Props.C27_scale_invariant_partial",
    "Props.C27_nonneg_partial",
    "Props.C27_false"
   ],
   "note": "Scale invariance and non-negativity proved; the zero-iff-flat clause is false (C27_false): the ideal frequencies used are 1/(i+2), so a flat histogram has a positive index."
  },
  {
   "property": "C28",
   "status": "proved",
   "theorems": [
    "Props.C28_value",
    "Props.C28_crps",
    "Props.C28_mean_in_range",
    "Props.C28_variance_nonneg"
   ],
   "note": ""
  },
  {
   "property": "C29",
   "status": "proved",
   "theorems": [
    "Props.C29_exactly_once",
    "Props.C29_schedule"
   ],
   "note": ""
  },
  {
   "property": "C30",
   "status": "proved",
   "theorems": [
    "Props.C30_same",
    "Props.C30_empty",
    "Props.C30_scratch_gone"
   ],
   "note": "Guard: an empty file cannot be mapped (C30_empty). A failed run leaves the scratch file behind; only successful runs are claimed."
  },
  {
   "property": "C31",
   "status": "partial",
   "theorems": [
    "Props.C31_covers_partial",
    "Props.C31_false",
    "Props.C31_grid"
   ],
   "note": "Proved for complete, non-constant observations; false for constant observations, where the range degenerates and every CRPS is 0 (C31_false)."
  },
  {
   "property": "C32",
   "status": "partial",
   "theorems": [
    "Props.C32_restored_partial",
    "Props.C32_false"
   ],
   "note": "Success case proved (C32_restored_partial); on an exception the settings stay suppressed (C32_false)."
  },
  {
   "property": "C33",
   "status": "proved",
   "theorems": [
    "Props.C33_value",
    "Props.C33_monotone"
   ],
   "note": "Pointwise at every position with non-zero mean and standard deviation, for every Gamma CDF in [0,1] that is non-decreasing, every threshold array and worker setting."
  },
  {
   "property": "C34",
   "status": "partial",
   "theorems": [
    "Props.C34_excess_partial",
    "Props.C34_false"
   ],
   "note": "False (C34_false): the CDF is 1-pop on the whole negative axis. Exact excess proved for every grid extension below zero: (1-pop)^2 times its length."
  },
  {
   "property": "C35",
   "status": "proved",
   "theorems": [
    "Props.C35_gaussian",
    "Props.C35_gamma",
    "Props.C35_hurdle",
    "Props.C35_complement",
    "Props.C35_rejects",
    "Props.C35_no_axes"
   ],
   "note": "For any values the statistics library returns (they are clipped); NaN stays NaN. Parameters without axes are refused: the clipping assigns to items, which a scalar does not allow (C35_no_axes)."
  },
  {
   "property": "C36",
   "status": "partial",
   "theorems": [
    "Props.C36_gaussian_partial",
    "Props.C36_gamma_partial",
    "Props.C36_hurdle_partial",
    "Props.C36_truncgamma_ignores_threshold",
    "Props.C36_false",
    "Props.C36_broadcast_false"
   ],
   "note": "False for the truncated Gamma (C36_false): in a pool the threshold is replaced by 3, so the result ignores it. Also false for parameter arrays of unequal but broadcastable shapes (C36_broadcast_false): the pool cuts the result to the shortest split. Proved for truncated and plain Gaussian, plain Gamma and Gamma hurdle for parameters of equal shape and all pool settings that can run."
  },
  {
   "property": "C37",
   "status": "partial",
   "theorems": [
    "Props.C37_inverts",
    "Props.C37_bounds",
    "Props.C37_monotone_partial",
    "Props.C37_sample",
    "Props.C37_false"
   ],
   "note": "About the methods _argcheck, _cdf, _ppf, _rvs of truncgamma_gen, for any strictly increasing incomplete gamma function with inverse. False beyond the upper bound, where _cdf returns 0 (C37_false); the scipy wrapper around these methods is not modelled."
  },
  {
   "property": "C38",
   "status": "proved",
   "theorems": [
    "Props.C38_integral",
    "Props.C38_class",
    "Props.C38_spec_is_cdf",
    "Props.C38_translation",
    "Props.C38_scaling",
    "Props.C38_slope",
    "Props.C38_nan"
   ],
   "note": "scipy's normal pdf/cdf taken as the mathematical ones; exact real arithmetic. Integrability is part of the statement."
  },
  {
   "property": "C39",
   "status": "proved",
   "theorems": [
    "Props.C39_reduced",
    "Props.C39_scaling",
    "Props.C39_integral",
    "Props.C39_negative_obs"
   ],
   "note": "Observations below zero with a negative shift are outside the identity: C39_negative_obs proves the code's value is then strictly too small."
  },
  {
   "property": "C40",
   "status": "proved",
   "theorems": [
    "Props.C40_split",
    "Props.C40_no_rows"
   ],
   "note": "properscoring's per-point score is an arbitrary function. C40_no_rows shows the boundary: with zero rows the split path raises ValueError."
  },
  {
   "property": "C41",
   "status": "proved",
   "theorems": [
    "Props.C41_pit",
    "Props.C41_raises"
   ],
   "note": "Also shown: pit raises exactly when randomising meets a NaN probability at a zero observation."
  },
  {
   "property": "C42",
   "status": "partial",
   "theorems": [
    "Props.C42_layout",
    "Props.C42_clipped",
    "Props.C42_spread_partial",
    "Props.C42_false"
   ],
   "note": "Layout and clipping for all axes, pools and draws. Spread uses the last axis whatever the setting: correct for the default, false otherwise (C42_false)."
  },
  {
   "property": "C43",
   "status": "proved",
   "theorems": [
    "Props.C43_transparent",
    "Props.C43_deterministic",
    "Props.C43_which"
   ],
   "note": "All classes at once. 'Accepted setters' is needed (C64_false) and so is distinct printing (C65_false). Environment variables are taken as fixed during the history."
  },
  {
   "property": "C44",
   "status": "proved",
   "theorems": [
    "Props.C44_values",
    "Props.C44_completed"
   ],
   "note": "C44_values: each reaggregating request returns the correct value or the error of a torn file; C44_completed: after completed runs it is always the correct value."
  },
  {
   "property": "C45",
   "status": "partial",
   "theorems": [
    "Props.C45_set_avg_partial",
    "Props.C45_false"
   ],
   "note": "Proved for start_from_scratch=True. False for start_from_scratch=False (C45_false: iou_determ is saved without avg_axis in its name)."
  },
  {
   "property": "C46",
   "status": "proved",
   "theorems": [
    "Props.C46_disabled",
    "Props.C46_only_pickles",
    "Props.C46_no_overwrite"
   ],
   "note": "The scratch file of memory-efficient integration is outside this property (see C66)."
  },
  {
   "property": "C47",
   "status": "proved",
   "theorems": [
    "Props.C47_no_collision",
    "Props.C47_injective",
    "Props.C47_paths"
   ],
   "note": "Printed arguments are assumed not to contain the separators _over_/_below_ etc. (class Plain; holds for numbers)."
  },
  {
   "property": "C48",
   "status": "proved",
   "theorems": [
    "Props.C48_no_base",
    "Props.C48_literal",
    "Props.C48_large",
    "Props.C48_small",
    "Props.C48_zero_dim",
    "Props.C48_no_spaces"
   ],
   "note": "Also the TypeError for 0-d arrays."
  },
  {
   "property": "C49",
   "status": "proved",
   "theorems": [
    "Props.C49_directory",
    "Props.C49_outside",
    "Props.C49_succeeds",
    "Props.C49_file_accepted"
   ],
   "note": "C49_file_accepted shows the regular-file corner case."
  },
  {
   "property": "C50",
   "status": "proved",
   "theorems": [
    "Props.C50_crash_no_wrong_value",
    "Props.C50_scratch_after_crash"
   ],
   "note": "Crash points are all intermediate file-system states, including partially deleted directories and torn files."
  },
  {
   "property": "C51",
   "status": "partial",
   "theorems": [
    "Props.C51_false",
    "Props.C51_damaged",
    "Props.C51_recovers_partial"
   ],
   "note": "False: a torn pickle makes every later run raise (C51_false, C51_damaged in general). Undamaged entries are still used and start_from_scratch=True recovers."
  },
  {
   "property": "C52",
   "status": "partial",
   "theorems": [
    "Props.C52_constructor_partial",
    "Props.C52_ignored",
    "Props.C52_false"
   ],
   "note": "False: set_collapse_func and set_ensemble_axis keep the collapsed forecasts (C52_ignored for all inputs, C52_false witness). Only the constructor's function is used."
  },
  {
   "property": "C53",
   "status": "partial",
   "theorems": [
    "Props.C53_assertion",
    "Props.C53_iou",
    "Props.C53_false_prob_iou"
   ],
   "note": "All requests raise. 'No file is written' is false for iou_determ of Gaussian/gamma verifiers, which first save f_determ (C53_false_prob_iou)."
  },
  {
   "property": "C54",
   "status": "partial",
   "theorems": [
    "Props.C54_false",
    "Props.C54_pairs_partial"
   ],
   "note": "False (C54_false): the omitted argument is None, which fails an assertion. Works when the other argument is passed as (None, None)."
  },
  {
   "property": "C55",
   "status": "proved",
   "theorems": [
    "Props.C55_guess",
    "Props.C55_explicit"
   ],
   "note": "Both directions, including the IndexError of a 0-d forecast."
  },
  {
   "property": "C56",
   "status": "proved",
   "theorems": [
    "Props.C56_stored",
    "Props.C56_rejected",
    "Props.C56_kept"
   ],
   "note": "C56_kept is over every history."
  },
  {
   "property": "C57",
   "status": "proved",
   "theorems": [
    "Props.C57_user",
    "Props.C57_foreign",
    "Props.C57_missing",
    "Props.C57_idempotent",
    "Props.C57_present",
    "Props.C57_print",
    "Props.C57_parse",
    "Props.C57_documented"
   ],
   "note": "str() of the two float defaults is given as text; float() is modelled on plain decimals."
  },
  {
   "property": "C58",
   "status": "proved",
   "theorems": [
    "Props.C58_round_trip",
    "Props.C58_injective"
   ],
   "note": "The number printer is a parameter with an inverse; prints_int shows integers satisfy the hypotheses."
  },
  {
   "property": "C59",
   "status": "proved",
   "theorems": [
    "Props.C59_not_matrix",
    "Props.C59_exists",
    "Props.C59_written",
    "Props.C59_failing"
   ],
   "note": "Crash between truncation and the final write leaves a torn file, as the trace part of C59_written shows."
  },
  {
   "property": "C60",
   "status": "partial",
   "theorems": [
    "Props.C60_range",
    "Props.C60_sorted",
    "Props.C60_disjoint",
    "Props.C60_number",
    "Props.C60_no_number",
    "Props.C60_attached",
    "Props.C60_succeeds",
    "Props.C60_false_joined"
   ],
   "note": "Exact arithmetic (station indices divided without rounding). Names with several rank numbers are joined and may collide (C60_false_joined)."
  },
  {
   "property": "C61",
   "status": "proved",
   "theorems": [
    "Props.C61_variance_spread"
   ],
   "note": ""
  },
  {
   "property": "C62",
   "status": "partial",
   "theorems": [
    "Props.C62_average_partial",
    "Props.C62_errors_partial",
    "Props.C62_false"
   ],
   "note": "Averages and error metrics proved. NaN observations in Brier scores are binarised to False instead of being skipped (C62_false)."
  },
  {
   "property": "C63",
   "status": "partial",
   "theorems": [
    "Props.C63_multi_equals_single_partial",
    "Props.C63_multi_defined_partial",
    "Props.C63_false",
    "Props.C63_counts_false"
   ],
   "note": "False as stated: C63_false shows the multi-position call raising when positions fill different numbers of bins (numpy >= 1.24; older numpy builds an object array). Proved whenever the call succeeds, and success characterised. C63_counts_false: the same for the counts."
  },
  {
   "property": "C64",
   "status": "partial",
   "theorems": [
    "Props.C64_attribute_changed",
    "Props.C64_false",
    "Props.C64_retry_partial"
   ],
   "note": "False: the attribute is assigned before validation and the saved results are not removed (C64_false)."
  },
  {
   "property": "C65",
   "status": "partial",
   "theorems": [
    "Props.C65_printed_alike",
    "Props.C65_false",
    "Props.C65_distinct_partial"
   ],
   "note": "False for arguments that print alike (C65_printed_alike for all inputs, C65_false witness with eight-digit printing)."
  },
  {
   "property": "C66",
   "status": "partial",
   "theorems": [
    "Props.C66_isolated_partial",
    "Props.C66_same_directory_false",
    "Props.C66_short_file_false",
    "Props.C66_leftover"
   ],
   "note": "True when no two integrations share a scratch path (C66_isolated_partial, any number of processes, any interleaving). False for the same directory: the file name is fixed, so one integration silently returns a wrong value and the other fails (C66_same_directory_false), or one finds the file too short (C66_short_file_false). C66_leftover: an exception leaves the file behind."
  },
  {
   "property": "C67",
   "status": "partial",
   "theorems": [
    "Props.C67_false",
    "Props.C67_missing",
    "Props.C67_ignored",
    "Props.C67_default_partial"
   ],
   "note": "False: the coordinate is always stored as num_stations (C67_false, C67_ignored in general)."
  },
  {
   "property": "C68",
   "status": "partial",
   "theorems": [
    "Props.C68_units_partial",
    "Props.C68_false",
    "Props.C68_false_early"
   ],
   "note": "False for num_search_times (C68_false) and after the early return on undecodable character variables (C68_false_early); proved for the five listed names."
  },
  {
   "property": "C69",
   "status": "proved",
   "theorems": [
    "Props.C69_data",
    "Props.C69_time_dimension",
    "Props.C69_coordinates",
    "Props.C69_unique",
    "Props.C69_absent"
   ],
   "note": "C69_coordinates: each of the five coordinates has the values of its source variable."
  },
  {
   "property": "C70",
   "status": "partial",
   "theorems": [
    "Props.C70_numbers_false",
    "Props.C70_partial"
   ],
   "note": "False: TypeError for every input (C70_numbers_false). C70_partial: works as soon as mu is an array."
  },
  {
   "property": "C71",
   "status": "partial",
   "theorems": [
    "Props.C71_cdf",
    "Props.C71_negative_shift_false",
    "Props.C71_partial",
    "Props.C71_truncated"
   ],
   "note": "False for every forecast with negative shift (strictly smaller, C71_negative_shift_false), because the formula censors at zero; true for shift >= 0 (C71_partial)."
  },
  {
   "property": "C72",
   "status": "proved",
   "theorems": [
    "Props.C72_crps",
    "Props.C72_crps_exact",
    "Props.C72_mean",
    "Props.C72_mean_exact",
    "Props.C72_variance"
   ],
   "note": "Exact real arithmetic; CDF rows are hypotheses (the rows returned by the verifier's cdf at the grid points)."
  },
  {
   "property": "C73",
   "status": "partial",
   "theorems": [
    "Props.C73_errors",
    "Props.C73_negative_false",
    "Props.C73_nonneg_partial",
    "Props.C73_above_one_false",
    "Props.C73_accuracy_partial",
    "Props.C73_bounds_partial",
    "Props.C73_half_false"
   ],
   "note": "False: negative for every threshold below min - 5*spread (members 10 and 11, threshold 0.1), above one for ensembles without spread and far thresholds (five zeros, threshold 30, default settings), about one half instead of one for ensembles without spread and near thresholds (C73_half_false). Proved: error bound 2*interval*k(0)/h against the smoothed probability between the first sampled point and the threshold, for thresholds in range. C73_errors: exactly which settings raise."
  },
  {
   "property": "C74",
   "status": "proved",
   "theorems": [
    "Props.C74_defined",
    "Props.C74_unbiased",
    "Props.C74_variance"
   ],
   "note": "np.random.choice is taken to draw positions independently and uniformly. Plain (non-negative, distinct) axes; see C02 for the others."
  },
  {
   "property": "C75",
   "status": "proved",
   "theorems": [
    "Props.C75_iou_prob",
    "Props.C75_iou_prob_all",
    "Props.C75_errors",
    "Props.C75_errors_boot",
    "Props.C75_over",
    "Props.C75_brier",
    "Props.C75_brier_boot",
    "Props.C75_sharpness",
    "Props.C75_axis_spelling",
    "Props.C75_axis_type",
    "Props.C75_negative_samples",
    "Props.C75_construct_det",
    "Props.C75_construct_ens",
    "Props.C75_det_metrics",
    "Props.C75_det_metrics_boot",
    "Props.C75_ens_cdf",
    "Props.C75_ens_brier",
    "Props.C75_ens_crps",
    "Props.C75_ens_errors",
    "Props.C75_ens_spread",
    "Props.C75_ens_rank",
    "Props.C75_saved",
    "Props.C75_det_saved",
    "Props.C75_reliability_all",
    "Props.C75_reliability_kept",
    "Props.C75_reliability_boot",
    "Props.C75_spread_skill",
    "Props.C75_spread_skill_boot",
    "Props.C75_corr",
    "Props.C75_corr_boot",
    "Props.C75_brier_decomp",
    "Props.C75_brier_decomp_values",
    "Props.C75_brier_decomp_boot",
    "Props.C75_roc",
    "Props.C75_iou_determ",
    "Props.C75_iou_determ_all"
   ],
   "note": "End-to-end composition of validation, the metric bodies, averaging/bootstrapping and saving. Metrics that build on f_determ(), cdf() or variance() are stated for all classes at once in terms of what those return; what these return is proved for VerifyDeterm and VerifyEnsemble. The score function of properscoring and roc_curve are parameters."
  },
  {
   "property": "C76",
   "status": "proved",
   "theorems": [
    "Props.C76_hurdle_probabilities",
    "Props.C76_hurdle_moments",
    "Props.C76_hurdle_crps",
    "Props.C76_hurdle_errors",
    "Props.C76_hurdle_no_sample",
    "Props.C76_pit",
    "Props.C76_gauss_probabilities",
    "Props.C76_gauss_errors",
    "Props.C76_gauss_crps",
    "Props.C76_gauss_crps_truncated",
    "Props.C76_gamma_probabilities",
    "Props.C76_gamma_errors",
    "Props.C76_gamma_crps",
    "Props.C76_prob_to_ens",
    "Props.C76_spread",
    "Props.C76_rank_hist"
   ],
   "note": "The integrations of the hurdle class are modelled on one core in memory; other modes give the same by C30. Gamma class: without truncation (with it crps() raises NotImplementedError). Special functions are parameters, the exact scores are over the real numbers."
  },
  {
   "property": "C77",
   "status": "partial",
   "theorems": [
    "Props.C77_partial",
    "Props.C77_false",
    "Props.C77_silent_false"
   ],
   "note": "Proved for the Gaussian and gamma classes. False for the hurdle class, whose _validate checks no shapes: C77_false gives a constructed verifier whose brier() raises ValueError, C77_silent_false one whose brier() silently returns a wrong number because column parameters broadcast."
  },
  {
   "property": "C78",
   "status": "partial",
   "theorems": [
    "Props.C78_values_partial",
    "Props.C78_outcomes_partial",
    "Props.C78_alone",
    "Props.C78_false",
    "Props.C78_read_false"
   ],
   "note": "False: two jobs saving the same result can leave zero bytes in the middle of the file for a moment, and a third job silently returns a wrong number (C78_false); a job reading a half-written file raises EOFError (C78_read_false). Proved for all interleavings in which no two jobs write the same file at once (values right, C78_values_partial) and no job reads a file being written (exceptions right too, C78_outcomes_partial). C78_alone: one job alone refines the sequential model of C43-C51."
  },
  {
   "property": "C79",
   "status": "proved",
   "theorems": [
    "Props.C79_values",
    "Props.C79_lengths",
    "Props.C79_missing",
    "Props.C79_number",
    "Props.C79_unreadable"
   ],
   "note": "Proved for all files, including those with an undecodable character variable (there open_dataset returns early). The names num_flts, num_parameters, num_test_times, num_search_times and num_times are excluded because open_dataset redefines them; so are variables of characters."
  },
  {
   "property": "C80",
   "status": "proved",
   "theorems": [
    "Props.C80_probability",
    "Props.C80_monotone",
    "Props.C80_brier",
    "Props.C80_brier_zero",
    "Props.C80_errors"
   ],
   "note": "Exponents are unbounded (no overflow or underflow); bootstrapping and the other metrics are not covered by the rounded model."
  },
  {
   "property": "C81",
   "status": "proved",
   "theorems": [
    "Props.C81_threshold",
    "Props.C81_rank",
    "Props.C81_iou",
    "Props.C81_construct_det",
    "Props.C81_construct_ens",
    "Props.C81_mean",
    "Props.C81_det",
    "Props.C81_ens",
    "Props.C81_ss",
    "Props.C81_corr"
   ],
   "note": "method moments for the threshold metrics (the KDE estimates are not invariant); argsort of numpy assumed to depend on comparisons only for the binned spread-skill"
  },
  {
   "property": "C82",
   "status": "proved",
   "theorems": [
    "Props.C82_last",
    "Props.C82_fresh",
    "Props.C82_order",
    "Props.C82_no_boot",
    "Props.C82_saved",
    "Props.C82_settled"
   ],
   "note": ""
  },
  {
   "property": "C83",
   "status": "proved",
   "theorems": [
    "Props.C83_history",
    "Props.C83_collapse",
    "Props.C83_crps",
    "Props.C83_kde"
   ],
   "note": ""
  },
  {
   "property": "C84",
   "status": "proved",
   "theorems": [
    "Props.C84_errors",
    "Props.C84_corr",
    "Props.C84_brier",
    "Props.C84_crps",
    "Props.C84_det_select",
    "Props.C84_det_reorder",
    "Props.C84_crps_select",
    "Props.C84_crps_reorder"
   ],
   "note": "C84_errors/C84_corr/C84_brier hold across classes; C84_det_select/reorder and C84_crps_select/reorder are the consequences for selections and permutations along an axis. The pointwise ensemble CRPS (properscoring) is a parameter."
  },
  {
   "property": "C85",
   "status": "partial",
   "theorems": [
    "Props.C85_errors",
    "Props.C85_brier",
    "Props.C85_corr",
    "Props.C85_accepted",
    "Props.C85_boot_partial",
    "Props.C85_false"
   ],
   "note": "False with bootstrapping (C85_false): repeated axes and surplus axes are silently taken as other axes. True without bootstrapping (C85_errors, C85_brier) and for corr and brier_decomp in any mode (C85_corr). C85_accepted gives exactly the axes the moving loop lets pass; C85_boot_partial: with bootstrapping non-existing axes raise if no more axes are given than the data have."
  },
  {
   "property": "C86",
   "status": "partial",
   "theorems": [
    "Props.C86_unsaved",
    "Props.C86_det",
    "Props.C86_ens_partial",
    "Props.C86_gaussian_partial",
    "Props.C86_gamma_partial",
    "Props.C86_hurdle_partial",
    "Props.C86_false",
    "Props.C86_data",
    "Props.C86_data_false"
   ],
   "note": "True without saving (C86_unsaved, for arbitrary changes of what the library computes). With saving from scratch: C86_det in full; C86_ens/gaussian/gamma/hurdle_partial for all metrics except spread, rank_hist and roc (for these while pyanen_skip_nan keeps its value). C86_false: spread computed with pyanen_skip_nan=False, then True: stored values give 2 instead of 1. C86_data: reuse of a directory for other data is fine from scratch; C86_data_false: without it the old data's score is returned."
  },
  {
   "property": "C87",
   "status": "partial",
   "theorems": [
    "Props.C87_partial",
    "Props.C87_unsaved",
    "Props.C87_default",
    "Props.C87_none",
    "Props.C87_false",
    "Props.C87_final_false"
   ],
   "note": "C87_partial under NoClash (no name for two results) and without names for corr and brier_decomp; C87_none, C87_unsaved, C87_default in full. C87_false: error and sq_error under one name. C87_final_false: corr(save_name=...) stored with bootstrapping is returned after disable_boot()."
  },
  {
   "property": "C88",
   "status": "proved",
   "theorems": [
    "Props.C88_crps",
    "Props.C88_crps_brier",
    "Props.C88_bounds",
    "Props.C88_single"
   ],
   "note": "properscoring's score on complete data is a parameter assumed to equal its documented formula mean|x-y| - mean|x-x'|/2 (IsEnergyScore); that this is the integral of the squared difference of distribution functions is proved. Exact real arithmetic."
  },
  {
   "property": "C89",
   "status": "proved",
   "theorems": [
    "Props.C89_errors",
    "Props.C89_rmse",
    "Props.C89_brier",
    "Props.C89_float64",
    "Props.C89_million"
   ],
   "note": "Overflow and underflow are not modelled: the exponent is unbounded. The root is assumed correctly rounded."
  },
  {
   "property": "C90",
   "status": "proved",
   "theorems": [
    "Props.C90_area",
    "Props.C90_one_class",
    "Props.C90_missing",
    "Props.C90_range",
    "Props.C90_order",
    "Props.C90_transform",
    "Props.C90_opposite",
    "Props.C90_roc",
    "Props.C90_roc_area",
    "Props.C90_over_below"
   ],
   "note": "scikit-learn's two functions are modelled from their published source (Model/Roc); everywhere else they are an arbitrary parameter. Real arithmetic."
  },
  {
   "property": "C91",
   "status": "proved",
   "theorems": [
    "Props.C91_average",
    "Props.C91_boot_arr",
    "Props.C91_errors"
   ],
   "note": "boot_vec's interval, for every draw; end to end for error, ab_error and sq_error"
  },
  {
   "property": "C92",
   "status": "partial",
   "theorems": [
    "Props.C92_curve_partial",
    "Props.C92_curve_false",
    "Props.C92_false",
    "Props.C92_corr_partial"
   ],
   "note": "False as stated: the code uses the 1-conf and conf quantiles. C92_curve_false refutes the share for every list of enough distinct replicates, C92_false gives a witness at the default confidence; what holds is the share 2*conf-1."
  },
  {
   "property": "C93",
   "status": "proved",
   "theorems": [
    "Props.C93_determ",
    "Props.C93_ensemble",
    "Props.C93_gauss",
    "Props.C93_gamma",
    "Props.C93_hurdle",
    "Props.C93_members"
   ],
   "note": "Without working_directory; what the constructor does to a working directory is C46 and C49. Entries of a list or tuple avg_axis are not checked by the constructor (C75_axis_type)."
  },
  {
   "property": "C94",
   "status": "proved",
   "theorems": [
    "Props.C94_iou",
    "Props.C94_iou_larger",
    "Props.C94_iou_determ",
    "Props.C94_ensemble",
    "Props.C94_prob"
   ],
   "note": "Thresholds given as Python lists are outside."
  },
  {
   "property": "C95",
   "status": "proved",
   "theorems": [
    "Props.C95_stations",
    "Props.C95_open",
    "Props.C95_times",
    "Props.C95_lead_times",
    "Props.C95_no_lead_times",
    "Props.C95_order",
    "Props.C95_needs",
    "Props.C95_no_file"
   ],
   "note": "Dimension coordinates other than num_stations agree between the files (xarray would otherwise arrange them on a grid); decode=False. xarray's combine_by_coords is transcribed, see DESIGN section 4."
  },
  {
   "property": "C96",
   "status": "partial",
   "theorems": [
    "Props.C96_kept_partial",
    "Props.C96_false",
    "Props.C96_false_names",
    "Props.C96_same"
   ],
   "note": "False: only the base name counts and of files with the same rank number the last one silently replaces the others (C96_false: directories a and b; C96_false_names: Rank12 and Rank1_Rank2). Proved for distinct rank numbers (C96_kept_partial); two files with equal rank and size raise ValueError (C96_same)."
  },
  {
   "property": "C97",
   "status": "partial",
   "theorems": [
    "Props.C97_values_partial",
    "Props.C97_false"
   ],
   "note": "False: open_mfdataset neither decodes names nor makes ParameterNames and Times coordinates (C97_false). Proved: values and dimensions of every variable without characters agree."
  },
  {
   "property": "C98",
   "status": "proved",
   "theorems": [
    "Props.C98_ens",
    "Props.C98_proper",
    "Props.C98_gauss",
    "Props.C98_gamma",
    "Props.C98_brier"
   ],
   "note": "Integral identity: the mean squared distance of a step function from the forecast splits at the mean step of the group. Missing values, bootstrapping and the sampled (hurdle) score are not covered."
  },
  {
   "property": "C99",
   "status": "proved",
   "theorems": [
    "Props.C99_flat",
    "Props.C99_errors",
    "Props.C99_probability",
    "Props.C99_spread_skill"
   ],
   "note": "Ties inside a group are excluded for the histogram, as the code breaks ties at random. The factor (n + 1)/(n - 1) comes from variance() dividing by n and from the error of the ensemble mean itself."
  },
  {
   "property": "C100",
   "status": "partial",
   "theorems": [
    "Props.C100_returns",
    "Props.C100_frame",
    "Props.C100_method",
    "Props.C100_again_partial",
    "Props.C100_again_false",
    "Props.C100_refused_false",
    "Props.C100_shared_false"
   ],
   "note": "False: C100_again_false is a transposed variance with a contiguous squared error, the second call pairs variances with other squared errors; C100_refused_false: a refused call has sorted the squared errors; C100_shared_false: one array given twice. True parts: the first call returns the right pieces for arrays that share no element (C100_returns), nothing else changes (C100_frame), the methods of the classes are not affected (C100_method), and a second call agrees when both arrays have the same layout and the sort leaves sorted columns alone (C100_again_partial)."
  },
  {
   "property": "C101",
   "status": "proved",
   "theorems": [
    "Props.C101_reliability_all",
    "Props.C101_reliability_kept",
    "Props.C101_spread_skill",
    "Props.C101_ens_spread_skill"
   ],
   "note": "Stated of the methods of an object. With kept axes the diagram must exist (numpy refuses rows of unequal length in some cases, see C63); with missing values the curves leave positions out, so no identity is claimed. The ensemble class is also treated from its constructor on."
  },
  {
   "property": "C102",
   "status": "proved",
   "theorems": [
    "Props.C102_errors",
    "Props.C102_brier",
    "Props.C102_crps",
    "Props.C102_det_cut",
    "Props.C102_crps_cut"
   ],
   "note": "C102_errors, C102_brier and C102_crps are about any three objects whose pools satisfy whole = part + part; C102_det_cut and C102_crps_cut start from the constructor and cut along an averaged axis. Both parts must be non-empty and no axis may have length zero (numpy would return NaN for the empty part with a warning)."
  },
  {
   "property": "C103",
   "status": "proved",
   "theorems": [
    "Props.C103_shows",
    "Props.C103_raises",
    "Props.C103_dir_none",
    "Props.C103_newline"
   ],
   "note": "The text is modelled character by character. The record Shown holds the attributes that __repr__ reads, after validation (avg_axis None or a tuple). C103_dir_none and C103_newline show that the two exclusions are needed. clip_member_to_zero and the integration settings of the hurdle class are not printed, nor are the data."
  },
  {
   "property": "C104",
   "status": "proved",
   "theorems": [
    "Props.C104_all",
    "Props.C104_kept",
    "Props.C104_general",
    "Props.C104_exact",
    "Props.C104_closed",
    "Props.C104_probability",
    "Props.C104_ensemble",
    "Props.C104_same"
   ],
   "note": "C104_general: any probabilities in [0,1]. C104_all/C104_kept: probabilities given by members. C104_exact: without rounding the rounded model is the exact one; C104_closed: the bins of exact arithmetic. C104_probability/C104_ensemble: from the members of an ensemble. C104_same: rounded against exact. Overflow and underflow are not modelled."
  },
  {
   "property": "C105",
   "status": "proved",
   "theorems": [
    "Props.C105_any",
    "Props.C105_history"
   ],
   "note": "C105_any covers every class through its deterministic forecast; C105_history carries it to whole sessions of ensembles with saving, provided the collapsed forecasts have the shape of the observations."
  },
  {
   "property": "C106",
   "status": "proved",
   "theorems": [
    "Props.C106_errors",
    "Props.C106_alone",
    "Props.C106_crps"
   ],
   "note": "Mean collapse and complete data; C106_crps is over the reals. The members can always be verified alone (C106_alone)."
  },
  {
   "property": "C107",
   "status": "proved",
   "theorems": [
    "Props.C107_murphy"
   ],
   "note": "The square root is any function with s(x)*s(x)=x and s(x)>=0; the case is over the reals with Real.sqrt."
  },
  {
   "property": "C108",
   "status": "proved",
   "theorems": [
    "Props.C108_errors",
    "Props.C108_spread",
    "Props.C108_mean",
    "Props.C108_brier",
    "Props.C108_crps",
    "Props.C108_jump"
   ],
   "note": "Every class for the deterministic errors, ensembles for the rest; crps over the real numbers with properscoring's kernel as its specification. Spec: NearArr and gap (Spec/Stable)."
  },
  {
   "property": "C109",
   "status": "proved",
   "theorems": [
    "Props.C109_score",
    "Props.C109_range",
    "Props.C109_crps",
    "Props.C109_numba",
    "Props.C109_energy"
   ],
   "note": "The source of properscoring is not in /repo: Model/ProperScoring transcribes its published algorithm (numba and numpy versions). Spec: memberScore. The theorems of C88, C98, C99, C106 and C108, which assume the documented formula, apply to it by C109_energy."
  },
  {
   "property": "C110",
   "status": "proved",
   "theorems": [
    "Props.C110_identity",
    "Props.C110_adds_up",
    "Props.C110_twenty",
    "Props.C110_slice",
    "Props.C110_rounded",
    "Props.C110_million",
    "Props.C110_float_twenty"
   ],
   "note": "C110_adds_up is end to end on constructed verifiers in exact arithmetic; C110_twenty the converse for every member count from 20 on. C110_rounded and C110_million are about the rounded model (Model/RoundingDecomp), without overflow. C110_float_twenty is one concrete witness with 53 binary digits for every order of summation."
  },
  {
   "property": "C111",
   "status": "partial",
   "theorems": [
    "Props.C111_values_partial",
    "Props.C111_ends",
    "Props.C111_distinct",
    "Props.C111_false"
   ],
   "note": "False for constant observations without an integration range (C111_false: three workers, EOFError and a wrong mean). True part C111_values_partial for distinct grid points, characterised by C111_distinct; C111_ends: all tasks end."
  },
  {
   "property": "C112",
   "status": "partial",
   "theorems": [
    "Props.C112_history_partial",
    "Props.C112_without_failure",
    "Props.C112_values",
    "Props.C112_false",
    "Props.C112_no_points",
    "Props.C112_no_workers"
   ],
   "note": "False (C112_false: failure on two workers, two workers again, good data raise RuntimeError). C112_history_partial describes every history exactly by the two-variable rules of Spec/RaySession; C112_without_failure and C112_values are the true parts."
  },
  {
   "property": "C113",
   "status": "proved",
   "theorems": [
    "Props.C113_dist",
    "Props.C113_point",
    "Props.C113_average",
    "Props.C113_float64"
   ],
   "note": "Relative error bounds for any rounding with relative error u and any order of summation; consequences for float64 end to end from the constructor. Sorting and comparisons are exact; overflow and underflow are not modelled. properscoring is modelled from its published source (C109)."
  },
  {
   "property": "C114",
   "status": "partial",
   "theorems": [
    "Props.C114_adds",
    "Props.C114_inside_partial",
    "Props.C114_plain",
    "Props.C114_same",
    "Props.C114_lost",
    "Props.C114_false",
    "Props.C114_clash_false"
   ],
   "note": "Partial because the claim is false: save_name='../x' or '/home/x' writes outside the working directory, and 'mine' and './mine' are one file. Proved: nothing existing is ever changed (C114_adds), inner names stay inside (C114_inside_partial), plain names behave as in the other claims (C114_plain), which names coincide (C114_same), missing directories (C114_lost)."
  },
  {
   "property": "C115",
   "status": "proved",
   "theorems": [
    "Props.C115_integral",
    "Props.C115_not_positive",
    "Props.C115_crps",
    "Props.C115_decomp"
   ],
   "note": "crps_gaussian of properscoring is modelled from its published formula (Model/PsGaussian); its gradient option is not used by the package and not modelled."
  },
  {
   "property": "C116",
   "status": "proved",
   "theorems": [
    "Props.C116_gauss",
    "Props.C116_gauss_best",
    "Props.C116_gamma",
    "Props.C116_gamma_best",
    "Props.C116_ens"
   ],
   "note": "Expected values are Lebesgue integrals over an arbitrary probability space; observations need a mean but no independence. Ties to the code through the end-to-end theorems C76, C88 and C115."
  },
  {
   "property": "C117",
   "status": "proved",
   "theorems": [
    "Props.C117_gauss",
    "Props.C117_gamma",
    "Props.C117_hurdle"
   ],
   "note": "The library distribution functions are assumed exact (truncated normal without upper bound: the code passes 1e7 standard deviations). Randomised draws are assumed uniform and independent of the observation at the same position."
  },
  {
   "property": "C118",
   "status": "proved",
   "theorems": [
    "Props.C118_crps",
    "Props.C118_honest",
    "Props.C118_errors"
   ],
   "note": "Proved end to end from construct through result for every draw; the mean distance of member and observation is computed by Fubini on the product of their laws. The hypothesis asks pairwise independence only. The case file has three independent normal numbers as observation and two members."
  },
  {
   "property": "C119",
   "status": "proved",
   "theorems": [
    "Props.C119_flat",
    "Props.C119_iid",
    "Props.C119_ties"
   ],
   "note": "C119_flat and C119_iid are the positive result end to end; C119_ties shows exactly when one position with ties departs from flatness, because the tie-breaking loop skips the least tie count (see C15). Case file: three normal numbers, and the same numbers with negative values set to zero."
  },
  {
   "property": "C120",
   "status": "proved",
   "theorems": [
    "Props.C120_gauss",
    "Props.C120_gamma",
    "Props.C120_hurdle",
    "Props.C120_ens",
    "Props.C120_ens_random"
   ],
   "note": "Spec/BrierChance.lean states the expected score; C120_gauss/gamma/hurdle give the mean, the least value and who attains it (BrierVerdict: over= rewards the true distribution, below= does exactly if the threshold is not an atom), C120_ens and C120_ens_random treat fixed and random members. Props/BrierChanceCase.lean: hurdle observations, brier(below=0) has mean 1/4 although 0 is attainable."
  },
  {
   "property": "C121",
   "status": "proved",
   "theorems": [
    "Props.C121_gauss",
    "Props.C121_gamma",
    "Props.C121_hurdle",
    "Props.C121_ens"
   ],
   "note": "ExpectedCurve (Spec/RelChance.lean) lists bins, counts, forecasts (not random) and the mean of each observed frequency; C121_gauss/gamma/hurdle/ens derive it from the constructor on; Props/RelChanceCase.lean: one bin, normal observations with mean a, on the diagonal iff a is the announced mean. Only the all-axes-averaged call is claimed: with kept axes the call may fail for some outcomes (see C63)."
  },
  {
   "property": "C122",
   "status": "proved",
   "theorems": [
    "Props.C122_gauss",
    "Props.C122_gamma"
   ],
   "note": "The draws of rvs are arbitrary numbers of the environment; that they are independent and have the library's distribution is a hypothesis (Spec.Sampled). The converse goes through the moments of the transformed observation: the probability of the highest rank among n members is the n-th moment."
  },
  {
   "property": "C123",
   "status": "proved",
   "theorems": [
    "Props.C123_gauss",
    "Props.C123_gamma",
    "Props.C123_ens",
    "Props.C123_truncated",
    "Props.C123_truncated_off_diagonal"
   ],
   "note": "Gaussian, gamma and ensemble class from the constructor on. What fails (C123_truncated_off_diagonal) is the diagonal for the truncated Gaussian class; C123_truncated is the general statement."
  },
  {
   "property": "C124",
   "status": "proved",
   "theorems": [
    "Props.C124_sign",
    "Props.C124_special",
    "Props.C124_one",
    "Props.C124_two"
   ],
   "note": "The power function of the criterion poly and the square root are parameters; C124_two is accepted data with a NaN result at h=2."
  },
  {
   "property": "C125",
   "status": "proved",
   "theorems": [
    "Props.C125_tails",
    "Props.C125_special",
    "Props.C125_order",
    "Props.C125_one"
   ],
   "note": "scipy.stats.t.cdf is taken to be the distribution function of Student's density, normalised by its integral."
  },
  {
   "property": "C126",
   "status": "proved",
   "theorems": [
    "Props.C126_repeat",
    "Props.C126_history",
    "Props.C126_members",
    "Props.C126_fresh"
   ],
   "note": "For requests that have a save name: corr and brier_decomp have none by default, nor have calls with large array arguments; the file must not be removed in between (setters with start_from_scratch=True remove it)."
  },
  {
   "property": "C127",
   "status": "proved",
   "theorems": [
    "Props.C127_history",
    "Props.C127_collapse",
    "Props.C127_crps",
    "Props.C127_kde",
    "Props.C127_guess",
    "Props.C127_guess_safe",
    "Props.C127_ranks"
   ],
   "note": "Twin argument as for C83 with the relation of equal shares; ensembles without positions are excluded."
  },
  {
   "property": "C128",
   "status": "proved",
   "theorems": [
    "Props.C128_gauss",
    "Props.C128_signs",
    "Props.C128_diagonal",
    "Props.C128_gamma",
    "Props.C128_gamma_censored"
   ],
   "note": "C128_gauss and C128_gamma give the expected values of error() and sq_error() exactly; C128_signs compares them with zero and with variance(); C128_diagonal does the same for a point of the spread-skill diagram (SkillPoint of C123); C128_gamma_censored is the gamma class with the distribution that crps() uses. No bootstrapping. Squared error of the censored case is compared with variance(), not given in closed form."
  },
  {
   "property": "C129",
   "status": "proved",
   "theorems": [
    "Props.C129_gauss",
    "Props.C129_gamma",
    "Props.C129_hurdle",
    "Props.C129_ens",
    "Props.C129_bias",
    "Props.C129_right",
    "Props.C129_useless"
   ],
   "note": "Whole calls without bootstrap, first computation (nothing saved). Gaussian (either truncated), gamma (truncated=False, thresholds not negative), hurdle (thresholds not negative) and ensemble (method other than kernel density). The three parts are slices for a list of averaging axes. C129_bias, C129_right and C129_useless draw the consequences for any such slice."
  },
  {
   "property": "C130",
   "status": "proved",
   "theorems": [
    "Props.C130_brier",
    "Props.C130_compare",
    "Props.C130_reliability",
    "Props.C130_band",
    "Props.C130_announces_gauss",
    "Props.C130_announces_gamma",
    "Props.C130_announces_hurdle",
    "Props.C130_announces_ens"
   ],
   "note": "C130_announces_gauss, _gamma, _hurdle and _ens derive from the constructor what probabilities a verifier announces; C130_brier, C130_compare, C130_reliability and C130_band then hold of any verifier that announces probabilities. Spec.Concentrated and Spec.IndependentAt are stated without the model."
  },
  {
   "property": "C131",
   "status": "proved",
   "theorems": [
    "Props.C131_crps_gauss",
    "Props.C131_crps_gamma",
    "Props.C131_crps_ens",
    "Props.C131_errors",
    "Props.C131_says_gauss",
    "Props.C131_says_gamma",
    "Props.C131_says_hurdle",
    "Props.C131_says_ens",
    "Props.C131_brier",
    "Props.C131_better",
    "Props.C131_best_crps",
    "Props.C131_best_brier",
    "Props.C131_best_gauss",
    "Props.C131_finite_gauss",
    "Props.C131_finite_fixed"
   ],
   "note": "Days are pairwise independent and identically distributed (Spec.SameDays); Spec.Settles, Spec.LawGiven and Spec.ProbGiven are stated without the model. C131_says_* derive from the constructor what a verifier says about a threshold; C131_finite_gauss and C131_finite_fixed give sufficient conditions for finite expected scores. LongRunCase shows an archive of signal plus noise on the infinite product space."
  },
  {
   "property": "C132",
   "status": "proved",
   "theorems": [
    "Props.C132_reliability",
    "Props.C132_diagonal",
    "Props.C132_decomp",
    "Props.C132_rel_zero",
    "Props.C132_corr"
   ],
   "note": "Days are pairwise independent and identically distributed (Spec.SameDays). Spec.trueRel, Spec.trueRes and Spec.trueCorr are stated with probabilities and integrals only. The diagram is treated for archives with the days as only axis, all other results at every position of the other axes. BinLimitsCase: signal plus noise, where the first of two bins settles on the diagonal, the reliability at 0 and corr() at 1/sqrt 2."
  },
  {
   "property": "C133",
   "status": "partial",
   "theorems": [
    "Props.C133_dates",
    "Props.C133_coordinates",
    "Props.C133_meant_partial",
    "Props.C133_numbers",
    "Props.C133_own",
    "Props.C133_durations",
    "Props.C133_texts",
    "Props.C133_succeeds",
    "Props.C133_frame",
    "Props.C133_early",
    "Props.C133_plain",
    "Props.C133_false_search",
    "Props.C133_false_units"
   ],
   "note": "decode_cf modelled for files whose variables carry no attribute but units; open_mfdataset(decode=True) not modelled. False: num_search_times is not decoded, foreign units are overwritten, early return."
  },
  {
   "property": "C134",
   "status": "proved",
   "theorems": [
    "Props.C134_iou_determ",
    "Props.C134_iou_prob",
    "Props.C134_ranks",
    "Props.C134_pit"
   ],
   "note": "Days pairwise independent; transforms: Gaussian class (the classes with an atom at zero are C117)."
  },
  {
   "property": "C135",
   "status": "proved",
   "theorems": [
    "Props.C135_power",
    "Props.C135_power_second",
    "Props.C135_normal",
    "Props.C135_size"
   ],
   "note": "C135_power / C135_power_second: the statistic exceeds every bound and the p-value falls below every bound almost surely, including the degenerate case of constant differences (infinite statistic). C135_normal: the distribution function of the statistic tends to Phi. C135_size: P(p-value < alpha) tends to alpha, with the actual Student distribution of n-1 degrees of freedom. Cases: constant forecasts of normal numbers, any h."
  },
  {
   "property": "C136",
   "status": "proved",
   "theorems": [
    "Props.C136_boot_vec",
    "Props.C136_nominal",
    "Props.C136_draws",
    "Props.C136_boot_arr",
    "Props.C136_errors",
    "Props.C136_metrics"
   ],
   "note": "Proved with a central limit theorem for the resampled means given the data (characteristic functions) on top of the central limit theorem of Mathlib for the data. The generator is modelled as independent fair draws; the limit is taken first in the repeats, then in the length of the archive. What holds for a fixed number of data and repeats is C24/C74."
  },
  {
   "property": "C137",
   "status": "proved",
   "theorems": [
    "Props.C137_int",
    "Props.C137_switch",
    "Props.C137_integration",
    "Props.C137_boot"
   ],
   "note": "int() on ASCII digits and blanks (Python also takes other Unicode digits and blanks); float() and os.path.expanduser are parameters. The readers are those used by the models of C32, C57 and C112."
  },
  {
   "property": "C138",
   "status": "proved",
   "theorems": [
    "Props.C138_boot_vec",
    "Props.C138_boot_arr",
    "Props.C138_errors",
    "Props.C138_metrics"
   ],
   "note": "Data and generator are random, independent of each other; the limits are taken in the order archive length, repeats (LongRunProb). Numbers exactly at a quantile (probability equal to (1 - confidence) / 2 on one side) are decided by neither part."
  },
  {
   "property": "C139",
   "status": "proved",
   "theorems": [
    "Props.C139_average",
    "Props.C139_boot",
    "Props.C139_needed"
   ],
   "note": "For verifiers that do not save (with saving see C45); both calls start from the same state of the generator, because spread() of the distribution classes may draw members."
  },
  {
   "property": "C140",
   "status": "proved",
   "theorems": [
    "Props.C140_roc",
    "Props.C140_order",
    "Props.C140_perfect",
    "Props.C140_no_skill"
   ],
   "note": "sklearn.metrics.roc_curve and auc are modelled (Model/Roc.lean) and the case c.rocCurve = skRoc is the one stated; one threshold, days the only axis; scores of all classes through C75_roc."
  },
  {
   "property": "C141",
   "status": "proved",
   "theorems": [
    "Props.C141_best",
    "Props.C141_strict",
    "Props.C141_half",
    "Props.C141_overtakes"
   ],
   "note": "The limits compared are those of C140; ProbGiven is the conditional probability stated by integrals over the sets of K."
  },
  {
   "property": "C142",
   "status": "proved",
   "theorems": [
    "Props.C142_roc",
    "Props.C142_one",
    "Props.C142_same",
    "Props.C142_places"
   ],
   "note": "The ROC limit for archives of any shape. The mixed law over positions is built explicitly and the pair statistic of C140 is applied to it. C142_places is the witness that pooling places creates area without skill. The curve routine is scikit-learn's, modelled as skRoc."
  },
  {
   "property": "C143",
   "status": "proved",
   "theorems": [
    "Props.C143_best",
    "Props.C143_strict",
    "Props.C143_overtakes"
   ],
   "note": "C141 for the area pooled over positions. Information may differ from position to position. Connects to the code through C142_roc."
  },
  {
   "property": "C144",
   "status": "proved",
   "theorems": [
    "Props.C144_reliability",
    "Props.C144_diagonal",
    "Props.C144_one",
    "Props.C144_places"
   ],
   "note": "C132 for archives of any shape averaged over all axes. C144_places is the witness that errors of places cancel. Averages over only some of the axes are covered by C132 for the single-axis case and not here."
  },
  {
   "property": "C145",
   "status": "proved",
   "theorems": [
    "Props.C145_brier",
    "Props.C145_decomp",
    "Props.C145_constant",
    "Props.C145_places"
   ],
   "note": "C131_brier and C132_decomp for averages over the days and any other axes. C145_places is the witness that pooling places creates resolution without skill. For brier_decomp the axes are a tuple that lists each axis once."
  },
  {
   "property": "C146",
   "status": "proved",
   "theorems": [
    "Props.C146_average",
    "Props.C146_cancel"
   ],
   "note": "Generic over the six metrics that average; missing numbers are excluded by the hypothesis, and the numbers with avg_axis=() are characterised for each class by the claims on those metrics. C146_cancel is an explicit pair of places."
  },
  {
   "property": "C147",
   "status": "proved",
   "theorems": [
    "Props.C147_corr",
    "Props.C147_one",
    "Props.C147_places"
   ],
   "note": "Missing pairs are excluded by the hypothesis that forecasts and observations are recorded; C147_places is an explicit pair of places."
  },
  {
   "property": "C148",
   "status": "proved",
   "theorems": [
    "Props.C148_rmse",
    "Props.C148_average",
    "Props.C148_places"
   ],
   "note": "Missing values are excluded by the hypothesis that forecasts and observations are recorded. C148_average compares the limits; C148_places is an explicit pair of places."
  },
  {
   "property": "C149",
   "status": "proved",
   "theorems": [
    "Props.C149_skip",
    "Props.C149_keep",
    "Props.C149_random",
    "Props.C149_places"
   ],
   "note": "Generic over the six metrics that average; presence may depend on the value. C149_places is an explicit pair of places, for both settings."
  }
 ]
}
