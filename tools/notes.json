{
 "C01": "All ranks, shapes, axis sets, populations and random outcomes; converse (every resample is reachable) and error branch also proved.",
 "C02": "False for lists mixing negative and non-negative axes (C02_false: (1,-1) on a 2x2x2 array samples the wrong axes). Proved whenever sorting the spellings sorts the axis numbers: all negative, all non-negative.",
 "C03": "Axes given as distinct non-negative numbers or None; probabilities NaN or non-negative (negative ones raise). With and without bootstrapping, with and without kept axes. C03_counts: the numbers of observed events per bin.",
 "C04": "Proved for distinct non-negative axes, every tie-breaking of the sort, with and without bootstrap; every drawn resample keeps pairs together.",
 "C05": "Distinct non-negative axes in any order (negative ones make the transpose raise); generic statistic, then corr and brier_decomp with and without bootstrap.",
 "C06": "boot_arr, spread-skill, corr and brier_decomp shapes for all ranks and axis sets.",
 "C07": "Average of averages over every kept position, for any axis set with equal-size groups and NaN-free data.",
 "C08": "At every output position of every averaging choice.",
 "C09": "Method 'moments'; every axis, worker count, scalar or array threshold; missing members counted in the denominator. C09_function is the same for the exported function ens_to_prob.",
 "C10": "At least one position required: with none, several workers raise while one returns an empty array (C10_empty). Errors agree too.",
 "C100": "False: C100_again_false is a transposed variance with a contiguous squared error, the second call pairs variances with other squared errors; C100_refused_false: a refused call has sorted the squared errors; C100_shared_false: one array given twice. True parts: the first call returns the right pieces for arrays that share no element (C100_returns), nothing else changes (C100_frame), the methods of the classes are not affected (C100_method), and a second call agrees when both arrays have the same layout and the sort leaves sorted columns alone (C100_again_partial).",
 "C101": "Stated of the methods of an object. With kept axes the diagram must exist (numpy refuses rows of unequal length in some cases, see C63); with missing values the curves leave positions out, so no identity is claimed. The ensemble class is also treated from its constructor on.",
 "C102": "C102_errors, C102_brier and C102_crps are about any three objects whose pools satisfy whole = part + part; C102_det_cut and C102_crps_cut start from the constructor and cut along an averaged axis. Both parts must be non-empty and no axis may have length zero (numpy would return NaN for the empty part with a warning).",
 "C103": "The text is modelled character by character. The record Shown holds the attributes that __repr__ reads, after validation (avg_axis None or a tuple). C103_dir_none and C103_newline show that the two exclusions are needed. clip_member_to_zero and the integration settings of the hurdle class are not printed, nor are the data.",
 "C104": "C104_general: any probabilities in [0,1]. C104_all/C104_kept: probabilities given by members. C104_exact: without rounding the rounded model is the exact one; C104_closed: the bins of exact arithmetic. C104_probability/C104_ensemble: from the members of an ensemble. C104_same: rounded against exact. Overflow and underflow are not modelled.",
 "C105": "C105_any covers every class through its deterministic forecast; C105_history carries it to whole sessions of ensembles with saving, provided the collapsed forecasts have the shape of the observations.",
 "C106": "Mean collapse and complete data; C106_crps is over the reals. The members can always be verified alone (C106_alone).",
 "C107": "The square root is any function with s(x)*s(x)=x and s(x)>=0; the case is over the reals with Real.sqrt.",
 "C108": "Every class for the deterministic errors, ensembles for the rest; crps over the real numbers with properscoring's kernel as its specification. Spec: NearArr and gap (Spec/Stable).",
 "C109": "The source of properscoring is not in /repo: Model/ProperScoring transcribes its published algorithm (numba and numpy versions). Spec: memberScore. The theorems of C88, C98, C99, C106 and C108, which assume the documented formula, apply to it by C109_energy.",
 "C11": "Range and zero characterisation proved for every conversion into [0,1]; perfect ensembles score 0 for over always, for below only when observation and threshold differ (C11_false: tie gives 1).",
 "C110": "C110_adds_up is end to end on constructed verifiers in exact arithmetic; C110_twenty the converse for every member count from 20 on. C110_rounded and C110_million are about the rounded model (Model/RoundingDecomp), without overflow. C110_float_twenty is one concrete witness with 53 binary digits for every order of summation.",
 "C111": "False for constant observations without an integration range (C111_false: three workers, EOFError and a wrong mean). True part C111_values_partial for distinct grid points, characterised by C111_distinct; C111_ends: all tasks end.",
 "C112": "False (C112_false: failure on two workers, two workers again, good data raise RuntimeError). C112_history_partial describes every history exactly by the two-variable rules of Spec/RaySession; C112_without_failure and C112_values are the true parts.",
 "C113": "Relative error bounds for any rounding with relative error u and any order of summation; consequences for float64 end to end from the constructor. Sorting and comparisons are exact; overflow and underflow are not modelled. properscoring is modelled from its published source (C109).",
 "C114": "Partial because the claim is false: save_name='../x' or '/home/x' writes outside the working directory, and 'mine' and './mine' are one file. Proved: nothing existing is ever changed (C114_adds), inner names stay inside (C114_inside_partial), plain names behave as in the other claims (C114_plain), which names coincide (C114_same), missing directories (C114_lost).",
 "C115": "crps_gaussian of properscoring is modelled from its published formula (Model/PsGaussian); its gradient option is not used by the package and not modelled.",
 "C116": "Expected values are Lebesgue integrals over an arbitrary probability space; observations need a mean but no independence. Ties to the code through the end-to-end theorems C76, C88 and C115.",
 "C117": "The library distribution functions are assumed exact (truncated normal without upper bound: the code passes 1e7 standard deviations). Randomised draws are assumed uniform and independent of the observation at the same position.",
 "C118": "Proved end to end from construct through result for every draw; the mean distance of member and observation is computed by Fubini on the product of their laws. The hypothesis asks pairwise independence only. The case file has three independent normal numbers as observation and two members.",
 "C119": "C119_flat and C119_iid are the positive result end to end; C119_ties shows exactly when one position with ties departs from flatness, because the tie-breaking loop skips the least tie count (see C15). Case file: three normal numbers, and the same numbers with negative values set to zero.",
 "C12": "False at ties of observation and threshold (C12_false) and for missing observations; proved elsewhere, for every conversion method.",
 "C120": "Spec/BrierChance.lean states the expected score; C120_gauss/gamma/hurdle give the mean, the least value and who attains it (BrierVerdict: over= rewards the true distribution, below= does exactly if the threshold is not an atom), C120_ens and C120_ens_random treat fixed and random members. Props/BrierChanceCase.lean: hurdle observations, brier(below=0) has mean 1/4 although 0 is attainable.",
 "C121": "ExpectedCurve (Spec/RelChance.lean) lists bins, counts, forecasts (not random) and the mean of each observed frequency; C121_gauss/gamma/hurdle/ens derive it from the constructor on; Props/RelChanceCase.lean: one bin, normal observations with mean a, on the diagonal iff a is the announced mean. Only the all-axes-averaged call is claimed: with kept axes the call may fail for some outcomes (see C63).",
 "C122": "The draws of rvs are arbitrary numbers of the environment; that they are independent and have the library's distribution is a hypothesis (Spec.Sampled). The converse goes through the moments of the transformed observation: the probability of the highest rank among n members is the n-th moment.",
 "C123": "Gaussian, gamma and ensemble class from the constructor on. What fails (C123_truncated_off_diagonal) is the diagonal for the truncated Gaussian class; C123_truncated is the general statement.",
 "C124": "The power function of the criterion poly and the square root are parameters; C124_two is accepted data with a NaN result at h=2.",
 "C125": "scipy.stats.t.cdf is taken to be the distribution function of Student's density, normalised by its integral.",
 "C126": "For requests that have a save name: corr and brier_decomp have none by default, nor have calls with large array arguments; the file must not be removed in between (setters with start_from_scratch=True remove it).",
 "C127": "Twin argument as for C83 with the relation of equal shares; ensembles without positions are excluded.",
 "C128": "C128_gauss and C128_gamma give the expected values of error() and sq_error() exactly; C128_signs compares them with zero and with variance(); C128_diagonal does the same for a point of the spread-skill diagram (SkillPoint of C123); C128_gamma_censored is the gamma class with the distribution that crps() uses. No bootstrapping. Squared error of the censored case is compared with variance(), not given in closed form.",
 "C129": "Whole calls without bootstrap, first computation (nothing saved). Gaussian (either truncated), gamma (truncated=False, thresholds not negative), hurdle (thresholds not negative) and ensemble (method other than kernel density). The three parts are slices for a list of averaging axes. C129_bias, C129_right and C129_useless draw the consequences for any such slice.",
 "C13": "At slice level for every number of bins and at array level for the 19 used; NaN-free forecasts and 0/1 observations. With skip_nan and missing forecasts the weights count the missing values (not claimed).",
 "C130": "C130_announces_gauss, _gamma, _hurdle and _ens derive from the constructor what probabilities a verifier announces; C130_brier, C130_compare, C130_reliability and C130_band then hold of any verifier that announces probabilities. Spec.Concentrated and Spec.IndependentAt are stated without the model.",
 "C131": "Days are pairwise independent and identically distributed (Spec.SameDays); Spec.Settles, Spec.LawGiven and Spec.ProbGiven are stated without the model. C131_says_* derive from the constructor what a verifier says about a threshold; C131_finite_gauss and C131_finite_fixed give sufficient conditions for finite expected scores. LongRunCase shows an archive of signal plus noise on the infinite product space.",
 "C132": "Days are pairwise independent and identically distributed (Spec.SameDays). Spec.trueRel, Spec.trueRes and Spec.trueCorr are stated with probabilities and integrals only. The diagram is treated for archives with the days as only axis, all other results at every position of the other axes. BinLimitsCase: signal plus noise, where the first of two bins settles on the diagonal, the reliability at 0 and corr() at 1/sqrt 2.",
 "C133": "decode_cf modelled for files whose variables carry no attribute but units; open_mfdataset(decode=True) not modelled. False: num_search_times is not decoded, foreign units are overwritten, early return.",
 "C134": "Days pairwise independent; transforms: Gaussian class (the classes with an atom at zero are C117).",
 "C135": "C135_power / C135_power_second: the statistic exceeds every bound and the p-value falls below every bound almost surely, including the degenerate case of constant differences (infinite statistic). C135_normal: the distribution function of the statistic tends to Phi. C135_size: P(p-value < alpha) tends to alpha, with the actual Student distribution of n-1 degrees of freedom. Cases: constant forecasts of normal numbers, any h.",
 "C136": "Proved with a central limit theorem for the resampled means given the data (characteristic functions) on top of the central limit theorem of Mathlib for the data. The generator is modelled as independent fair draws; the limit is taken first in the repeats, then in the length of the archive. What holds for a fixed number of data and repeats is C24/C74.",
 "C137": "int() on ASCII digits and blanks (Python also takes other Unicode digits and blanks); float() and os.path.expanduser are parameters. The readers are those used by the models of C32, C57 and C112.",
 "C138": "Data and generator are random, independent of each other; the limits are taken in the order archive length, repeats (LongRunProb). Numbers exactly at a quantile (probability equal to (1 - confidence) / 2 on one side) are decided by neither part.",
 "C139": "For verifiers that do not save (with saving see C45); both calls start from the same state of the generator, because spread() of the distribution classes may draw members.",
 "C14": "Every worker count, split axis and random outcome; with NaN skipping incomplete positions get NaN (only on numpy that still has np.float; otherwise the call always raises, C14_errors).",
 "C140": "sklearn.metrics.roc_curve and auc are modelled (Model/Roc.lean) and the case c.rocCurve = skRoc is the one stated; one threshold, days the only axis; scores of all classes through C75_roc.",
 "C141": "The limits compared are those of C140; ProbGiven is the conditional probability stated by integrals over the sets of K.",
 "C142": "The ROC limit for archives of any shape. The mixed law over positions is built explicitly and the pair statistic of C140 is applied to it. C142_places is the witness that pooling places creates area without skill. The curve routine is scikit-learn's, modelled as skRoc.",
 "C143": "C141 for the area pooled over positions. Information may differ from position to position. Connects to the code through C142_roc.",
 "C144": "C132 for archives of any shape averaged over all axes. C144_places is the witness that errors of places cancel. Averages over only some of the axes are covered by C132 for the single-axis case and not here.",
 "C145": "C131_brier and C132_decomp for averages over the days and any other axes. C145_places is the witness that pooling places creates resolution without skill. For brier_decomp the axes are a tuple that lists each axis once.",
 "C146": "Generic over the six metrics that average; missing numbers are excluded by the hypothesis, and the numbers with avg_axis=() are characterised for each class by the claims on those metrics. C146_cancel is an explicit pair of places.",
 "C147": "Missing pairs are excluded by the hypothesis that forecasts and observations are recorded; C147_places is an explicit pair of places.",
 "C148": "Missing values are excluded by the hypothesis that forecasts and observations are recorded. C148_average compares the limits; C148_places is an explicit pair of places.",
 "C149": "Generic over the six metrics that average; presence may depend on the value. C149_places is an explicit pair of places, for both settings.",
 "C15": "False (C15_false): positions with the smallest tie count are never randomised. Any joint choice of ranks is reachable at positions having more ties than some other position.",
 "C16": "",
 "C17": "The trailing extra bin (for values above 1+1e-8 and NaN) is shown empty for probabilities in [0,1].",
 "C18": "Groups complete, balanced and ordered for every tie-breaking (NaN last); spread non-decreasing over bins whenever both values are numbers, and numbers when variances are non-negative and NaN-free; too many bins is an AssertionError.",
 "C19": "False with avg_axis=None when no position shows the event: ZeroDivisionError instead of NaN (C19_false). Everything else proved, for iou_determ and the iou_prob helper.",
 "C20": "The ROC routine itself (scikit-learn) is a parameter.",
 "C21": "For any field with a square root. Degenerate and NaN cases are specified (NaN result).",
 "C24": "",
 "C25": "False in general (C25_false: mean above the interval at confidence 1/2). Proved at confidence 1.",
 "C26": "False (C26_false). The other metrics use quantiles [1-c, c], i.e. the interval of confidence 2c-1; ordered when c >= 1/2.",
 "C27": "Scale invariance and non-negativity proved; the zero-iff-flat clause is false (C27_false): the ideal frequencies used are 1/(i+2), so a flat histogram has a positive index.",
 "C30": "Guard: an empty file cannot be mapped (C30_empty). A failed run leaves the scratch file behind; only successful runs are claimed.",
 "C31": "Proved for complete, non-constant observations; false for constant observations, where the range degenerates and every CRPS is 0 (C31_false).",
 "C32": "Success case proved (C32_restored_partial); on an exception the settings stay suppressed (C32_false).",
 "C33": "Pointwise at every position with non-zero mean and standard deviation, for every Gamma CDF in [0,1] that is non-decreasing, every threshold array and worker setting.",
 "C34": "False (C34_false): the CDF is 1-pop on the whole negative axis. Exact excess proved for every grid extension below zero: (1-pop)^2 times its length.",
 "C35": "For any values the statistics library returns (they are clipped); NaN stays NaN. Parameters without axes are refused: the clipping assigns to items, which a scalar does not allow (C35_no_axes).",
 "C36": "False for the truncated Gamma (C36_false): in a pool the threshold is replaced by 3, so the result ignores it. Also false for parameter arrays of unequal but broadcastable shapes (C36_broadcast_false): the pool cuts the result to the shortest split. Proved for truncated and plain Gaussian, plain Gamma and Gamma hurdle for parameters of equal shape and all pool settings that can run.",
 "C37": "About the methods _argcheck, _cdf, _ppf, _rvs of truncgamma_gen, for any strictly increasing incomplete gamma function with inverse. False beyond the upper bound, where _cdf returns 0 (C37_false); the scipy wrapper around these methods is not modelled.",
 "C38": "scipy's normal pdf/cdf taken as the mathematical ones; exact real arithmetic. Integrability is part of the statement.",
 "C39": "Observations below zero with a negative shift are outside the identity: C39_negative_obs proves the code's value is then strictly too small.",
 "C40": "properscoring's per-point score is an arbitrary function. C40_no_rows shows the boundary: with zero rows the split path raises ValueError.",
 "C41": "Also shown: pit raises exactly when randomising meets a NaN probability at a zero observation.",
 "C42": "Layout and clipping for all axes, pools and draws. Spread uses the last axis whatever the setting: correct for the default, false otherwise (C42_false).",
 "C43": "All classes at once. 'Accepted setters' is needed (C64_false) and so is distinct printing (C65_false). Environment variables are taken as fixed during the history.",
 "C44": "C44_values: each reaggregating request returns the correct value or the error of a torn file; C44_completed: after completed runs it is always the correct value.",
 "C45": "Proved for start_from_scratch=True. False for start_from_scratch=False (C45_false: iou_determ is saved without avg_axis in its name).",
 "C46": "The scratch file of memory-efficient integration is outside this property (see C66).",
 "C47": "Printed arguments are assumed not to contain the separators _over_/_below_ etc. (class Plain; holds for numbers).",
 "C48": "Also the TypeError for 0-d arrays.",
 "C49": "C49_file_accepted shows the regular-file corner case.",
 "C50": "Crash points are all intermediate file-system states, including partially deleted directories and torn files.",
 "C51": "False: a torn pickle makes every later run raise (C51_false, C51_damaged in general). Undamaged entries are still used and start_from_scratch=True recovers.",
 "C52": "False: set_collapse_func and set_ensemble_axis keep the collapsed forecasts (C52_ignored for all inputs, C52_false witness). Only the constructor's function is used.",
 "C53": "All requests raise. 'No file is written' is false for iou_determ of Gaussian/gamma verifiers, which first save f_determ (C53_false_prob_iou).",
 "C54": "False (C54_false): the omitted argument is None, which fails an assertion. Works when the other argument is passed as (None, None).",
 "C55": "Both directions, including the IndexError of a 0-d forecast.",
 "C56": "C56_kept is over every history.",
 "C57": "str() of the two float defaults is given as text; float() is modelled on plain decimals.",
 "C58": "The number printer is a parameter with an inverse; prints_int shows integers satisfy the hypotheses.",
 "C59": "Crash between truncation and the final write leaves a torn file, as the trace part of C59_written shows.",
 "C60": "Exact arithmetic (station indices divided without rounding). Names with several rank numbers are joined and may collide (C60_false_joined).",
 "C61": "",
 "C62": "Averages and error metrics proved. NaN observations in Brier scores are binarised to False instead of being skipped (C62_false).",
 "C63": "False as stated: C63_false shows the multi-position call raising when positions fill different numbers of bins (numpy >= 1.24; older numpy builds an object array). Proved whenever the call succeeds, and success characterised. C63_counts_false: the same for the counts.",
 "C64": "False: the attribute is assigned before validation and the saved results are not removed (C64_false).",
 "C65": "False for arguments that print alike (C65_printed_alike for all inputs, C65_false witness with eight-digit printing).",
 "C66": "True when no two integrations share a scratch path (C66_isolated_partial, any number of processes, any interleaving). False for the same directory: the file name is fixed, so one integration silently returns a wrong value and the other fails (C66_same_directory_false), or one finds the file too short (C66_short_file_false). C66_leftover: an exception leaves the file behind.",
 "C67": "False: the coordinate is always stored as num_stations (C67_false, C67_ignored in general).",
 "C68": "False for num_search_times (C68_false) and after the early return on undecodable character variables (C68_false_early); proved for the five listed names.",
 "C69": "C69_coordinates: each of the five coordinates has the values of its source variable.",
 "C70": "False: TypeError for every input (C70_numbers_false). C70_partial: works as soon as mu is an array.",
 "C71": "False for every forecast with negative shift (strictly smaller, C71_negative_shift_false), because the formula censors at zero; true for shift >= 0 (C71_partial).",
 "C72": "Exact real arithmetic; CDF rows are hypotheses (the rows returned by the verifier's cdf at the grid points).",
 "C73": "False: negative for every threshold below min - 5*spread (members 10 and 11, threshold 0.1), above one for ensembles without spread and far thresholds (five zeros, threshold 30, default settings), about one half instead of one for ensembles without spread and near thresholds (C73_half_false). Proved: error bound 2*interval*k(0)/h against the smoothed probability between the first sampled point and the threshold, for thresholds in range. C73_errors: exactly which settings raise.",
 "C74": "np.random.choice is taken to draw positions independently and uniformly. Plain (non-negative, distinct) axes; see C02 for the others.",
 "C75": "End-to-end composition of validation, the metric bodies, averaging/bootstrapping and saving. Metrics that build on f_determ(), cdf() or variance() are stated for all classes at once in terms of what those return; what these return is proved for VerifyDeterm and VerifyEnsemble. The score function of properscoring and roc_curve are parameters.",
 "C76": "The integrations of the hurdle class are modelled on one core in memory; other modes give the same by C30. Gamma class: without truncation (with it crps() raises NotImplementedError). Special functions are parameters, the exact scores are over the real numbers.",
 "C77": "Proved for the Gaussian and gamma classes. False for the hurdle class, whose _validate checks no shapes: C77_false gives a constructed verifier whose brier() raises ValueError, C77_silent_false one whose brier() silently returns a wrong number because column parameters broadcast.",
 "C78": "False: two jobs saving the same result can leave zero bytes in the middle of the file for a moment, and a third job silently returns a wrong number (C78_false); a job reading a half-written file raises EOFError (C78_read_false). Proved for all interleavings in which no two jobs write the same file at once (values right, C78_values_partial) and no job reads a file being written (exceptions right too, C78_outcomes_partial). C78_alone: one job alone refines the sequential model of C43-C51.",
 "C79": "Proved for all files, including those with an undecodable character variable (there open_dataset returns early). The names num_flts, num_parameters, num_test_times, num_search_times and num_times are excluded because open_dataset redefines them; so are variables of characters.",
 "C80": "Exponents are unbounded (no overflow or underflow); bootstrapping and the other metrics are not covered by the rounded model.",
 "C81": "method moments for the threshold metrics (the KDE estimates are not invariant); argsort of numpy assumed to depend on comparisons only for the binned spread-skill",
 "C84": "C84_errors/C84_corr/C84_brier hold across classes; C84_det_select/reorder and C84_crps_select/reorder are the consequences for selections and permutations along an axis. The pointwise ensemble CRPS (properscoring) is a parameter.",
 "C85": "False with bootstrapping (C85_false): repeated axes and surplus axes are silently taken as other axes. True without bootstrapping (C85_errors, C85_brier) and for corr and brier_decomp in any mode (C85_corr). C85_accepted gives exactly the axes the moving loop lets pass; C85_boot_partial: with bootstrapping non-existing axes raise if no more axes are given than the data have.",
 "C86": "True without saving (C86_unsaved, for arbitrary changes of what the library computes). With saving from scratch: C86_det in full; C86_ens/gaussian/gamma/hurdle_partial for all metrics except spread, rank_hist and roc (for these while pyanen_skip_nan keeps its value). C86_false: spread computed with pyanen_skip_nan=False, then True: stored values give 2 instead of 1. C86_data: reuse of a directory for other data is fine from scratch; C86_data_false: without it the old data's score is returned.",
 "C87": "C87_partial under NoClash (no name for two results) and without names for corr and brier_decomp; C87_none, C87_unsaved, C87_default in full. C87_false: error and sq_error under one name. C87_final_false: corr(save_name=...) stored with bootstrapping is returned after disable_boot().",
 "C88": "properscoring's score on complete data is a parameter assumed to equal its documented formula mean|x-y| - mean|x-x'|/2 (IsEnergyScore); that this is the integral of the squared difference of distribution functions is proved. Exact real arithmetic.",
 "C89": "Overflow and underflow are not modelled: the exponent is unbounded. The root is assumed correctly rounded.",
 "C90": "scikit-learn's two functions are modelled from their published source (Model/Roc); everywhere else they are an arbitrary parameter. Real arithmetic.",
 "C91": "boot_vec's interval, for every draw; end to end for error, ab_error and sq_error",
 "C92": "False as stated: the code uses the 1-conf and conf quantiles. C92_curve_false refutes the share for every list of enough distinct replicates, C92_false gives a witness at the default confidence; what holds is the share 2*conf-1.",
 "C93": "Without working_directory; what the constructor does to a working directory is C46 and C49. Entries of a list or tuple avg_axis are not checked by the constructor (C75_axis_type).",
 "C94": "Thresholds given as Python lists are outside.",
 "C95": "Dimension coordinates other than num_stations agree between the files (xarray would otherwise arrange them on a grid); decode=False. xarray's combine_by_coords is transcribed, see DESIGN section 4.",
 "C96": "False: only the base name counts and of files with the same rank number the last one silently replaces the others (C96_false: directories a and b; C96_false_names: Rank12 and Rank1_Rank2). Proved for distinct rank numbers (C96_kept_partial); two files with equal rank and size raise ValueError (C96_same).",
 "C97": "False: open_mfdataset neither decodes names nor makes ParameterNames and Times coordinates (C97_false). Proved: values and dimensions of every variable without characters agree.",
 "C98": "Integral identity: the mean squared distance of a step function from the forecast splits at the mean step of the group. Missing values, bootstrapping and the sampled (hurdle) score are not covered.",
 "C99": "Ties inside a group are excluded for the histogram, as the code breaks ties at random. The factor (n + 1)/(n - 1) comes from variance() dividing by n and from the error of the ensemble mean itself."
}
