{"id": "C01", "title": "Bootstrap aggregation draws from the right entries", "statement": "With boot_samples set and avg_axis a set of distinct non-negative axes, every number in the result of an aggregated metric (crps, error, spread, sq_error, ab_error, brier) at a kept position k is a bootstrap statistic of exactly the raw-metric entries whose non-averaged coordinates equal k, each entry once; no entry of another position leaks in.", "quantifier": "every array rank and shape, every raw-metric array, every set of distinct non-negative axes, every random draw", "why_tests_cant": "the axis shuffling works for any rank; tests only try one 4-D shape and only compare shapes and loose inequalities", "anchors": ["PyAnEn/utils_verify.py: boot_arr, boot_vec", "PyAnEn/Verify.py: boot_or_avg"]}
{"id": "C02", "title": "Negative and positive spellings of an axis agree under bootstrapping", "statement": "Writing an averaging axis as a negative number selects the same entries in bootstrap mode as writing the equivalent non-negative axis, just as it does in non-bootstrap mode.", "quantifier": "every rank, every avg_axis tuple mixing negative and non-negative spellings of distinct axes", "why_tests_cant": "tests never use negative avg_axis; the failing combinations need rank at least three", "anchors": ["PyAnEn/utils_verify.py: boot_arr", "PyAnEn/Verify.py: _validate_avg_axis"]}
{"id": "C03", "title": "Reliability diagram splits the right samples", "statement": "reliability_diagram / reliability with sample axes S computes, for each kept position k, its bins from exactly the (forecast probability, binary observation) pairs whose kept coordinates equal k, with forecast and observation still paired.", "quantifier": "every rank, shape, set of distinct non-negative sample axes and every pair of arrays", "why_tests_cant": "pairing must survive arbitrary axis moves; tests try one shape with one axis", "anchors": ["PyAnEn/utils_verify.py: _reliability_create_split, _reliability_agg_no_boot"]}
{"id": "C04", "title": "Spread-skill splits the right samples and keeps pairs together", "statement": "binned_spread_skill computes each kept position's bins from exactly the (variance, squared error) pairs at that position; sorting by variance never separates a variance from its squared error.", "quantifier": "every rank, shape, axes, data and every tie-breaking order of the sort", "why_tests_cant": "argsort tie order is unspecified and axis handling is generic in rank", "anchors": ["PyAnEn/utils_ss.py: _binned_spread_skill_create_split"]}
{"id": "C05", "title": "corr and brier_decomp slice the right samples", "statement": "corr and brier_decomp with averaging axes A (in any order) apply their statistic, for each kept position k, to a list of aligned (forecast, observation) pairs that is a rearrangement of exactly the pairs whose kept coordinates equal k.", "quantifier": "every rank, shape, ordered list of distinct non-negative axes", "why_tests_cant": "order of axes is user-chosen; the set difference and transposition are generic in rank", "anchors": ["PyAnEn/utils_special_boot.py: _workflow"]}
{"id": "C06", "title": "Aggregated shapes", "statement": "Bootstrapped metrics have shape (3, *kept shape); bootstrapped corr and each brier_decomp component likewise; binned_spread_skill returns (*kept, nbins) without and (*kept, nbins, 3) with bootstrapping; corr without bootstrapping has the kept shape.", "quantifier": "every shape, axis set and bin count accepted by the calls", "why_tests_cant": "shape arithmetic must hold for all ranks, including reductions over all axes", "anchors": ["PyAnEn/utils_verify.py: boot_arr", "PyAnEn/utils_ss.py: _binned_spread_skill_agg_no_boot, _binned_spread_skill_agg_boot", "PyAnEn/utils_special_boot.py: _workflow, brier_decomp"]}
{"id": "C07", "title": "Averaging is consistent across axes", "statement": "Without NaN, averaging a metric over all axes equals averaging the per-position results obtained with any avg_axis.", "quantifier": "every shape with no empty dimension, data and axis set", "why_tests_cant": "an algebraic law over all arrays", "anchors": ["PyAnEn/Verify.py: boot_or_avg"]}
{"id": "C08", "title": "Error metrics are ordered", "statement": "For the same data and avg_axis, rmse() >= ab_error() >= |error()| at every kept position, sq_error() >= 0, and rmse() is the square root of sq_error().", "quantifier": "every forecast and observation array, shape and axis set, with and without NaN skipping", "why_tests_cant": "an inequality over all inputs", "anchors": ["PyAnEn/VerifyDeterm.py: _error, _sq_error, _ab_error", "PyAnEn/Verify.py: rmse"]}
{"id": "C09", "title": "Ensemble probability is the fraction of members at or below the threshold", "statement": "VerifyEnsemble.cdf(below=t) (method 'moments') at each position is the number of members <= t there divided by the number of members; it lies in [0,1], never decreases when t increases, and cdf(over=t) = 1 - cdf(below=t).", "quantifier": "every ensemble, ensemble axis, scalar or array threshold", "why_tests_cant": "holds for all member values, ties and shapes", "anchors": ["PyAnEn/utils_verify.py: ens_to_prob, ens_to_prob_moments", "PyAnEn/VerifyEnsemble.py: _cdf"]}
{"id": "C10", "title": "Ensemble probability does not depend on the number of workers", "statement": "ens_to_prob returns the same array for every value of pyanen_tqdm_workers, for both conversion methods.", "quantifier": "every ensemble with at least one position, threshold, worker count >= 1 and per-column conversion function", "why_tests_cant": "the parallel path reshapes, splits into columns and reassembles; tests try one shape", "anchors": ["PyAnEn/utils_verify.py: ens_to_prob"]}
{"id": "C11", "title": "Brier score range and perfect forecasts", "statement": "Every per-position Brier score is in [0,1]; it is 0 exactly when the forecast probability equals the binary observation; an ensemble whose members all equal the observation scores 0.", "quantifier": "all ensembles, observations and thresholds", "why_tests_cant": "includes values exactly on the threshold, where < and <= differ", "anchors": ["PyAnEn/VerifyEnsemble.py: _brier", "PyAnEn/utils_verify.py: binarize_obs, ens_to_prob_moments"]}
{"id": "C12", "title": "Brier scores of complementary events agree", "statement": "brier(over=t) equals brier(below=t) at every position.", "quantifier": "all ensembles / distributions, observations and thresholds", "why_tests_cant": "values on the threshold", "anchors": ["PyAnEn/VerifyEnsemble.py: _brier, _cdf", "PyAnEn/VerifyProb.py: _brier", "PyAnEn/utils_verify.py: binarize_obs"]}
{"id": "C13", "title": "Brier decomposition adds up", "statement": "brier_decomp returns reliability, resolution and uncertainty with reliability - resolution + uncertainty equal to the mean Brier score of the slice up to the within-bin spread of forecasts, exactly equal when forecasts are constant within bins; all three are non-negative, resolution <= uncertainty <= 1/4.", "quantifier": "every non-empty forecast slice in any range, every binary observation slice, every bin edges", "why_tests_cant": "algebraic identity over all samples", "anchors": ["PyAnEn/utils_special_boot.py: _func_brier_decomp"]}
{"id": "C14", "title": "Rank of the observation is always a possible rank", "statement": "rank_hist gives each position a rank between 1 + #(members < obs) and 1 + #(members <= obs), hence between 1 and members + 1, and exactly 1 + #(members < obs) when no member ties the observation, whatever the random tie-breaking does.", "quantifier": "every ensemble, observation, and every random outcome", "why_tests_cant": "random tie breaking; all outcomes must be covered", "anchors": ["PyAnEn/utils_verify.py: rankdata, rank_histogram"]}
{"id": "C15", "title": "Ties with the observation are randomised", "statement": "When members tie the observation, every rank between 1 + #(members < obs) and 1 + #(members <= obs) is reachable by some random outcome.", "quantifier": "every ensemble and observation having ties", "why_tests_cant": "reachability over all random outcomes and all tie patterns in the other positions", "anchors": ["PyAnEn/utils_verify.py: rankdata"]}
{"id": "C16", "title": "Rank histogram does not depend on the number of workers", "statement": "Without ties, rank_hist returns the same array for every worker count and every (negative) parallelisation axis; with ties every parallel result is still a possible rank array.", "quantifier": "every shape, ensemble axis, worker count, split axis", "why_tests_cant": "split and concatenate along arbitrary axes", "anchors": ["PyAnEn/utils_verify.py: rank_histogram"]}
{"id": "C17", "title": "Reliability diagram bins are a partition", "statement": "For probabilities in [0,1] every sample falls in exactly one of the nbins bins; the bin counts sum to the number of samples; each reported mean forecast lies inside its bin; each observed frequency is in [0,1]; count-weighted means of both curves reproduce the overall mean probability and base rate; the curves and the counts have one entry per non-empty bin, in increasing bin order.", "quantifier": "every list of probabilities and observations, every nbins >= 1", "why_tests_cant": "boundary values (0, 1, bin edges) and empty bins in every combination", "anchors": ["PyAnEn/utils_verify.py: _reliability_create_split, _reliability_agg_no_boot_slice"]}
{"id": "C18", "title": "Spread-skill bins are balanced, complete and ordered", "statement": "binned_spread_skill splits the samples of a position into nbins groups whose sizes differ by at most one, larger groups first, containing every sample once; every variance in a group is <= every variance in the next; hence the reported spread is non-decreasing over bins; it fails if nbins exceeds the number of samples.", "quantifier": "every variance/squared-error data set, nbins and sort tie order", "why_tests_cant": "all sizes, remainders and tie orders", "anchors": ["PyAnEn/utils_ss.py: _binned_spread_skill_create_split, _binned_spread_skill_agg_no_boot"]}
{"id": "C19", "title": "IOU is a similarity", "statement": "iou_determ and iou_prob are in [0,1] whenever some position satisfies the event in forecast or observation (NaN otherwise), are symmetric in forecast and observation, equal 1 exactly when the two event sets coincide, and 0 exactly when they are disjoint; NaN values count as non-events.", "quantifier": "all arrays, thresholds and axes", "why_tests_cant": "holds for all masks", "anchors": ["PyAnEn/utils_verify.py: _iou, iou_determ, iou_prob"]}
{"id": "C20", "title": "ROC input stays paired", "statement": "calculate_roc hands the ROC routine exactly the (probability, observation) pairs of the arrays in order, dropping a pair if and only if NaN skipping is on and one of its two values is NaN.", "quantifier": "all arrays and NaN patterns", "why_tests_cant": "every NaN pattern", "anchors": ["PyAnEn/utils_verify.py: calculate_roc"]}
{"id": "C21", "title": "Correlation is bounded and symmetric", "statement": "corr lies in [-1,1], is symmetric in forecast and observation, unchanged by positive affine rescaling of either and by reordering samples.", "quantifier": "all slices with non-constant forecast and observation", "why_tests_cant": "Cauchy-Schwarz over all samples", "anchors": ["PyAnEn/utils_special_boot.py: _func_corr"]}
{"id": "C22", "title": "Diebold-Mariano test is antisymmetric", "statement": "Swapping the two forecasts negates the test statistic and leaves the p-value unchanged; for MSE and MAD the statistic is unchanged when all three series are shifted by a constant; for MSE and MAD it is unchanged when they are scaled by a positive constant.", "quantifier": "all series lengths, horizons, criteria and values", "why_tests_cant": "algebraic symmetry", "anchors": ["PyAnEn/utils_significance.py: diebold_mariano_test"]}
{"id": "C23", "title": "Diebold-Mariano result is well defined", "statement": "For every accepted h (1 <= h < n) the small-sample adjustment is the square root of a positive number below one, so it only shrinks the statistic; with h=1 the variance estimate is non-negative; the p-value is in [0,1] whenever the statistic is defined.", "quantifier": "all n, h, series", "why_tests_cant": "all lengths and horizons", "anchors": ["PyAnEn/utils_significance.py: diebold_mariano_test, autocovariance"]}
{"id": "C24", "title": "Bootstrap intervals are ordered and within the data", "statement": "The bootstrap [low, mean, high] of a metric satisfies low <= high for any confidence in [0,1], all three lie between the smallest and largest sampled value, and all equal c when every value is c.", "quantifier": "every population, number of samples, repeats, confidence and every random draw", "why_tests_cant": "random; all outcomes", "anchors": ["PyAnEn/utils_verify.py: boot_vec"]}
{"id": "C25", "title": "The bootstrap mean lies inside its own interval", "statement": "The reported mean of a bootstrap is between the reported low and high ends.", "quantifier": "every population, confidence and random draw", "why_tests_cant": "needs skewed draws", "anchors": ["PyAnEn/utils_verify.py: boot_vec"]}
{"id": "C26", "title": "Confidence means the same thing everywhere", "statement": "For the same confidence setting and the same bootstrap replicates, reliability, binned_spread_skill, corr and brier_decomp report the same interval as crps, error and the other averaged metrics, with low <= high.", "quantifier": "every confidence level in [0,1] and every replicate list", "why_tests_cant": "tests use a single confidence level and check no coverage", "anchors": ["PyAnEn/utils_verify.py: boot_vec, _reliability_agg_boot_slice", "PyAnEn/utils_ss.py: _binned_spread_skill_agg_boot", "PyAnEn/utils_special_boot.py: _func_corr"]}
{"id": "C27", "title": "Reliability index is scale free and zero for flat histograms", "statement": "reliability_index gives the same number for counts and for frequencies, is non-negative, and is zero for a flat rank histogram.", "quantifier": "every histogram with non-zero total and every number of bins", "why_tests_cant": "all lengths", "anchors": ["PyAnEn/Verify.py: reliability_index"]}
{"id": "C28", "title": "Numerically integrated moments are sane", "statement": "For a CDF sampled on an increasing grid the integrated CRPS is >= 0; if the CDF is non-decreasing with total increase at most one the integrated variance is >= 0, and with total increase one the integrated mean lies within the integration range.", "quantifier": "every grid size >= 2, every increasing grid and CDF values", "why_tests_cant": "all grids and distributions", "anchors": ["PyAnEn/utils_approximation.py: Integration._crps, _mean, _variance"]}
{"id": "C29", "title": "Parallel integration is schedule independent", "statement": "Whatever order the remote tasks finish in, every task's result is collected exactly once and Integration.crps/mean/variance return the same array as the single-core run.", "quantifier": "every number of bins and every completion order", "why_tests_cant": "schedules are nondeterministic", "anchors": ["PyAnEn/utils_approximation.py: _ray_to_iterator, Integration._crps, Integration._mean, Integration._variance"]}
{"id": "C30", "title": "Memory-efficient integration gives the same answer", "statement": "With less_memory on, for every interleaving of the workers' writes to the shared file, Integration returns the same values (exact arithmetic) as the in-memory mode, and the scratch file is gone afterwards.", "quantifier": "every grid, every set of row values, every interleaving of row/element writes", "why_tests_cant": "interleavings", "anchors": ["PyAnEn/utils_approximation.py: wrapper_cdf, wrapper_brier, _memmap_sum_mul, _initialize_memmap, _finalize_memmap"]}
{"id": "C31", "title": "Default integration range covers the observations", "statement": "With no integration_range the grid starts below and ends above every observation, so that the integrated CRPS sees the whole error of each forecast.", "quantifier": "every observation array", "why_tests_cant": "needs degenerate (constant) observations", "anchors": ["PyAnEn/utils_approximation.py: Integration._define_integration_range"]}
{"id": "C32", "title": "Integration restores the environment settings", "statement": "After Integration.crps/mean/variance returns, pyanen_tqdm_disable and pyanen_tqdm_workers parse to the same values as before the call and no other setting changed; this also holds if the computation raises.", "quantifier": "every initial environment, worker setting and outcome (success or exception)", "why_tests_cant": "exception paths and all spellings of booleans", "anchors": ["PyAnEn/utils_approximation.py: _suppress_sublevel_tqdm, _resume_sublevel_tqdm, _workflow"]}
{"id": "C33", "title": "Gamma hurdle CDF is a distribution function on the non-negative axis", "statement": "VerifyProbGammaHurdle.cdf(below=t) is in [0,1], equals 1 - pop for t <= 0, equals (1-pop) + pop*GammaCDF(t) for t > 0, and is non-decreasing in t.", "quantifier": "every pop in [0,1], mu, sigma and thresholds, any gamma CDF", "why_tests_cant": "all parameters and thresholds", "anchors": ["PyAnEn/utils_dist.py: cdf_gamma_hurdle, wrapper_gamma_hurdle_cdf"]}
{"id": "C34", "title": "Hurdle CRPS does not depend on integrating over impossible values", "statement": "For non-negative observations, extending the integration range further below zero does not change the CRPS of a Gamma hurdle forecast.", "quantifier": "every forecast, non-negative observation and grid extension", "why_tests_cant": "needs the whole class of ranges", "anchors": ["PyAnEn/utils_dist.py: cdf_gamma_hurdle", "PyAnEn/utils_approximation.py: _crps, _define_integration_range"]}
{"id": "C35", "title": "Distribution probabilities are probabilities", "statement": "cdf of every probabilistic verifier is in [0,1] at every position where it is not NaN, and cdf(over=t) = 1 - cdf(below=t).", "quantifier": "every distribution function, parameter array and threshold", "why_tests_cant": "for any values the statistics library may return", "anchors": ["PyAnEn/utils_dist.py: cdf_gaussian, cdf_gamma, cdf_gamma_hurdle", "PyAnEn/VerifyProbGaussian.py: _cdf", "PyAnEn/VerifyProbGamma.py: _cdf", "PyAnEn/VerifyProbGammaHurdle.py: _cdf"]}
{"id": "C36", "title": "Distribution CDF does not depend on the number of workers", "statement": "cdf_gaussian, cdf_gamma and cdf_gamma_hurdle return the same array for every worker count, truncated or not.", "quantifier": "every shape, parameter arrays, threshold, worker count and split axis", "why_tests_cant": "parallel split and concatenate along any axis; truncated gamma path is untested", "anchors": ["PyAnEn/utils_dist.py: _parallel_process, wrapper_truncgamma_cdf, wrapper_gamma_cdf, cdf_gamma"]}
{"id": "C37", "title": "Truncated gamma distribution is consistent", "statement": "The truncated gamma's cdf inverts its ppf, is 0 at the lower and 1 at the upper bound, non-decreasing, and every sample lies between the bounds, so samples of VerifyProbGamma with truncation are >= 0.", "quantifier": "every shape, bounds a < b, quantile in [0,1]", "why_tests_cant": "all parameters and quantiles", "anchors": ["PyAnEn/dist_truncgamma.py: truncgamma_gen", "PyAnEn/utils_dist.py: sample_dist_gamma"]}
{"id": "C38", "title": "Closed-form truncated-Gaussian CRPS", "statement": "crps_truncated_gaussian equals the integral of (F(x) - 1[x >= y])^2 for the normal distribution truncated to [l, inf); it is translation invariant, scales with the unit of measurement, and below the truncation point grows linearly with slope one.", "quantifier": "all real y, mu, l and scale > 0", "why_tests_cant": "real-valued identity", "anchors": ["PyAnEn/utils_crps.py: crps_truncated_gaussian"]}
{"id": "C39", "title": "Closed-form gamma CRPS", "statement": "crps_gamma equals the integral of (F(x) - 1[x >= y])^2 where F is the distribution function of the shifted gamma distribution with all negative values moved to zero, for non-negative observations; multiplying mu, sigma, shift and observation by c > 0 multiplies it by c.", "quantifier": "all real shifts, mu, sigma > 0, observations >= 0 and c > 0, arrays of any shape", "why_tests_cant": "real-valued identity", "anchors": ["PyAnEn/utils_crps.py: crps_gamma, _lbeta"]}
{"id": "C40", "title": "Splitting ensemble CRPS along the first axis changes nothing", "statement": "VerifyEnsemble.crps gives the same array whether or not pyanen_split_crps_ensemble_along_0 is set: at every position the score of the observation against its members.", "quantifier": "every shape with at least one row of observations, every ensemble axis, positive or negative, any per-point score", "why_tests_cant": "all shapes and axis positions", "anchors": ["PyAnEn/VerifyEnsemble.py: _crps"]}
{"id": "C41", "title": "PIT values", "statement": "pit() values are in [0,1]; for non-zero observations they equal the forecast CDF at the observation; for zero observations with randomisation they lie between 0 and the CDF at zero.", "quantifier": "every distribution, observation array and random outcome", "why_tests_cant": "random outcomes", "anchors": ["PyAnEn/VerifyProb.py: _pit"]}
{"id": "C42", "title": "Sampled ensembles have the requested layout and clipping", "statement": "prob_to_ens returns n_sample_members values per position with the member axis at move_sampled_ens_axis; with clip_member_to_zero = c every member is 0 or >= c; spread and rank_hist of a probabilistic verifier use the member axis.", "quantifier": "every shape, member count, axis position and random outcome", "why_tests_cant": "axis positions other than the default are untested by spread/rank_hist", "anchors": ["PyAnEn/utils_dist.py: sample_dist_gaussian, sample_dist_gamma", "PyAnEn/VerifyProbGaussian.py: _prob_to_ens", "PyAnEn/VerifyProb.py: _spread, _rank_hist"]}
{"id": "C43", "title": "Saving is transparent", "statement": "With start_from_scratch left at True, in every history of metric calls (default save names) and accepted setters on one verifier, each deterministic metric call returns what the same call returns on a verifier with the same settings and saving disabled, provided different arguments print differently.", "quantifier": "every finite history of calls and setters", "why_tests_cant": "histories are unbounded", "anchors": ["PyAnEn/Verify.py: _metric_workflow_1, _metric_workflow_2, _metric_workflow_3, _validate_saving, _save, _load"]}
{"id": "C44", "title": "Re-aggregation from saved data is correct", "statement": "With start_from_scratch False, metrics that are aggregated after loading (crps, error, spread, sq_error, ab_error, brier) stay correct when avg_axis or boot_samples change between calls, and across processes that reopen the directory with the same data, provided different arguments print differently.", "quantifier": "every history of calls, setters and reopenings with the same data", "why_tests_cant": "histories", "anchors": ["PyAnEn/Verify.py: _metric_workflow_2, boot_or_avg"]}
{"id": "C45", "title": "Changing avg_axis takes effect on the next call", "statement": "After set_avg_axis(x), every metric reflects the new axis, with saving on or off and for either value of start_from_scratch.", "quantifier": "every history", "why_tests_cant": "needs particular histories", "anchors": ["PyAnEn/Verify.py: set_avg_axis, iou_determ, reliability, binned_spread_skill"]}
{"id": "C46", "title": "Saving disabled means no file is touched", "statement": "While saving is disabled no metric call or setter creates, changes or deletes any file or directory (memory-efficient integration aside); while enabled, metric calls write only files <name>.pkl inside the working directory and never overwrite anything that exists.", "quantifier": "every history of calls and every file system", "why_tests_cant": "histories", "anchors": ["PyAnEn/Verify.py: _save, _load, _validate_saving, disable_saving"]}
{"id": "C47", "title": "Saved results of different requests never collide", "statement": "With default save names, two metric calls on the same verifier use the same file name only if they are the same metric with the same printed arguments (rmse shares sq_error).", "quantifier": "every pair of metrics and every pair of scalar arguments", "why_tests_cant": "all argument strings", "anchors": ["PyAnEn/Verify.py: to_name"]}
{"id": "C48", "title": "Only small arguments are saved by value", "statement": "to_name returns no name (so nothing is saved) when the base name is not a string or some argument has more than five elements, except that a base name starting with LITERAL_ is used verbatim without the prefix; names never contain spaces.", "quantifier": "every base name and argument list", "why_tests_cant": "all strings", "anchors": ["PyAnEn/Verify.py: to_name"]}
{"id": "C49", "title": "start_from_scratch empties the working directory", "statement": "A verifier accepted by the constructor or a validating setter has its working directory existing (or, with start_from_scratch False, whatever already was at that path); the directory is empty if start_from_scratch is True or it was new, and unchanged otherwise; nothing outside it is deleted; validation fails only if a regular file is in the way.", "quantifier": "every file system state and settings", "why_tests_cant": "all file system states", "anchors": ["PyAnEn/Verify.py: _validate_saving"]}
{"id": "C50", "title": "Crash while saving never yields a wrong result", "statement": "If the process dies at any point of a run, a later run with the same data and settings either returns correct metrics or raises, never a wrong value; with start_from_scratch True it returns correct metrics.", "quantifier": "every crash point in every history", "why_tests_cant": "crash points", "anchors": ["PyAnEn/Verify.py: _save, _load, _validate_saving"]}
{"id": "C51", "title": "A later run recovers from a crash while saving", "statement": "After a crash during a save, a later run with start_from_scratch False recomputes the damaged entry instead of failing.", "quantifier": "every crash point", "why_tests_cant": "crash points", "anchors": ["PyAnEn/Verify.py: _load"]}
{"id": "C52", "title": "Changing the collapse function takes effect", "statement": "After set_collapse_func(g) (or set_ensemble_axis), f_determ, error, sq_error and ab_error are computed with g (or the new axis).", "quantifier": "every ensemble and function", "why_tests_cant": "no test covers the setter", "anchors": ["PyAnEn/VerifyEnsemble.py: set_collapse_func, set_ensemble_axis, _collapse_ensembles, _validate"]}
{"id": "C53", "title": "Exactly one of over and below", "statement": "cdf, brier, sharpness, roc, reliability, iou_determ, brier_decomp raise AssertionError unless exactly one of over and below is given, when nothing is cached for that name; no file is written by such a call.", "quantifier": "every combination and class", "why_tests_cant": "all classes and argument combinations", "anchors": ["PyAnEn/VerifyEnsemble.py: _cdf", "PyAnEn/utils_verify.py: binarize_obs, iou_determ"]}
{"id": "C54", "title": "iou_prob can be called with only over or only below", "statement": "iou_prob(over=(t, p)) or iou_prob(below=(t, p)) returns the IOU of the event at threshold t with the forecast binarised at probability p.", "quantifier": "every threshold pair", "why_tests_cant": "no test calls it", "anchors": ["PyAnEn/Verify.py: iou_prob", "PyAnEn/VerifyEnsemble.py: _iou_prob"]}
{"id": "C55", "title": "Ensemble axis guess is sound", "statement": "A VerifyEnsemble is constructed without ensemble_axis exactly when dropping the last or the first axis of f gives the shape of o; the chosen axis is then the last if possible, else the first; with an explicit axis it is accepted exactly when it is the first or last and the remaining shape equals o's.", "quantifier": "every pair of shapes and axis argument", "why_tests_cant": "all shapes", "anchors": ["PyAnEn/VerifyEnsemble.py: _guess_ensemble_axis, _validate"]}
{"id": "C56", "title": "avg_axis is normalised once", "statement": "avg_axis given as an int, list or tuple is stored as a tuple of the same axes, None is stored as None, other types are rejected, and no later call other than set_avg_axis changes it.", "quantifier": "every avg_axis value", "why_tests_cant": "all values", "anchors": ["PyAnEn/Verify.py: _validate_avg_axis"]}
{"id": "C57", "title": "Default settings never override the user's", "statement": "Importing the package leaves every environment variable the user has set unchanged, sets every missing pyanen setting to its default (so that no later lookup fails), importing twice changes nothing more, and the defaults parse to the documented values.", "quantifier": "every initial environment", "why_tests_cant": "all environments", "anchors": ["PyAnEn/__init__.py: Defaults"]}
{"id": "C58", "title": "Matrix files round-trip", "statement": "A reader of the documented text format recovers from write_matrix's output the dimensions and every element (NaN included), for every matrix.", "quantifier": "every 2-D matrix of printable elements", "why_tests_cant": "all sizes and values", "anchors": ["PyAnEn/Grid.py: write_matrix"]}
{"id": "C59", "title": "write_matrix never clobbers", "statement": "write_matrix without overwrite raises and leaves the file unchanged if it exists; with overwrite, or if absent, the file holds exactly the new text; non-2-D input is rejected before anything is written.", "quantifier": "every file system and input", "why_tests_cant": "all states", "anchors": ["PyAnEn/Grid.py: write_matrix"]}
{"id": "C60", "title": "Station coordinates from several files do not collide", "statement": "The station coordinates assigned to a file are strictly increasing and lie in [r, r+1) for the rank number r in its name, so stations of different files (different rank numbers) never share a coordinate and sort by rank number; a name without a number is rejected.", "quantifier": "every number of stations and file names", "why_tests_cant": "all sizes and names", "anchors": ["PyAnEn/IO.py: __add_coords__"]}
{"id": "C61", "title": "Ensemble variance and spread", "statement": "variance() is the population variance of the members (non-negative, zero exactly when all members agree), spread() is max - min >= 0, and 4*variance <= spread^2.", "quantifier": "every ensemble", "why_tests_cant": "inequality over all members", "anchors": ["PyAnEn/VerifyEnsemble.py: _variance, _spread"]}
{"id": "C62", "title": "NaN skipping ignores exactly the missing values", "statement": "With pyanen_skip_nan on, an averaged metric at a position is the mean of the non-missing raw values there; a missing observation contributes nothing to brier, error and the other averaged metrics.", "quantifier": "every NaN pattern", "why_tests_cant": "all NaN patterns", "anchors": ["PyAnEn/Verify.py: boot_or_avg", "PyAnEn/utils_verify.py: binarize_obs"]}
{"id": "C63", "title": "A multi-position reliability diagram equals the per-position ones", "statement": "When sample axes leave kept positions, the returned arrays at each kept position equal what the call returns for that position's samples alone.", "quantifier": "all shapes and data", "why_tests_cant": "positions may have different sets of non-empty bins", "anchors": ["PyAnEn/utils_verify.py: _reliability_agg_no_boot"]}
{"id": "C64", "title": "A rejected setting has no effect", "statement": "If a setter raises because its argument is invalid, later metric calls return what they returned before.", "quantifier": "every verifier, setter and history", "why_tests_cant": "histories with failing calls", "anchors": ["PyAnEn/Verify.py: set_avg_axis, _validate, _validate_avg_axis"]}
{"id": "C65", "title": "Different thresholds never share a saved result", "statement": "With saving enabled, calls with different thresholds (scalars or small arrays) return the results for their own thresholds.", "quantifier": "every pair of thresholds", "why_tests_cant": "needs values that print alike", "anchors": ["PyAnEn/Verify.py: to_name, _load", "PyAnEn/VerifyEnsemble.py: _cdf"]}
{"id": "C66", "title": "Memory-efficient integrations can run at the same time", "statement": "Several processes may run Integration with less_memory at the same time (for example several verifiers in different processes). Whatever the interleaving of their file operations, each returns exactly what it returns when run alone, and a successful one leaves no scratch file behind.", "quantifier": "for all numbers of concurrent integrations, all their data, grids and kinds (CRPS, mean, variance), all interleavings of file operations, and all previous contents of the scratch paths", "why_tests_cant": "The outcome depends on the interleaving of file operations of several processes; a test runs one of astronomically many schedules.", "anchors": ["PyAnEn/utils_approximation.py:Integration._initialize_memmap", "PyAnEn/utils_approximation.py:Integration._finalize_memmap", "PyAnEn/utils_approximation.py:Integration._workflow", "PyAnEn/utils_approximation.py:wrapper_cdf", "PyAnEn/utils_approximation.py:wrapper_brier"]}
{"id": "C67", "title": "Station coordinates belong to the requested dimension", "statement": "__add_coords__(ds, dim_name) gives the dimension dim_name coordinates.", "quantifier": "every dataset and dimension name", "why_tests_cant": "all datasets", "anchors": ["PyAnEn/IO.py: __add_coords__"]}
{"id": "C68", "title": "Times carry their epoch", "statement": "After open_dataset every time variable and every time coordinate copied from one carries the units 'seconds since 1970-01-01', so that decode=True yields dates.", "quantifier": "every dataset", "why_tests_cant": "all combinations of variables", "anchors": ["PyAnEn/IO.py: open_dataset, coords_dict"]}
{"id": "C69", "title": "Opening a file preserves its data", "statement": "open_dataset keeps the values and dimensions of every variable (character matrices become lists of names), and the result never uses num_test_times without num_times.", "quantifier": "every dataset without undecodable character variables", "why_tests_cant": "all datasets", "anchors": ["PyAnEn/IO.py: open_dataset, _decode_name_matrix"]}
{"id": "C70", "title": "Default parameters of crps_truncated_gaussian", "statement": "crps_truncated_gaussian(y) with its default parameters mu=0, scale=1, l=0 returns the scores of the standard normal truncated at zero.", "quantifier": "all observation arrays", "why_tests_cant": "claim about every observation array", "anchors": ["PyAnEn/utils_crps.py: crps_truncated_gaussian"]}
{"id": "C71", "title": "VerifyProbGamma.crps scores the distribution that VerifyProbGamma.cdf reports", "statement": "The score of an untruncated gamma forecast is the CRPS of the distribution function that the class reports for it (gamma with the given mean and standard deviation, moved by the shift).", "quantifier": "all forecasts with positive mean and standard deviation, all shifts, all observations", "why_tests_cant": "real-valued identity between two formulas over all parameters", "anchors": ["PyAnEn/VerifyProbGamma.py: _crps, _cdf", "PyAnEn/utils_crps.py: crps_gamma", "PyAnEn/utils_dist.py: cdf_gamma"]}
{"id": "C72", "title": "Numerical integration is accurate to the bin width", "statement": "The CRPS, mean and variance returned by Integration differ from the exact integrals over the integration range by at most 2 bins, half a bin and 2 bins times the largest magnitude in the range; with the tails outside the range added, the same bounds hold for the exact CRPS and mean of the forecast.", "quantifier": "every monotone distribution function, observation, range and number of bins >= 2, on one core or with Ray, with or without less_memory", "why_tests_cant": "the claim compares with an exact real integral for all distributions and all grids", "anchors": ["PyAnEn/utils_approximation.py: Integration._crps, _mean, _variance, _define_integration_range"]}
{"id": "C73", "title": "Kernel density probabilities are probabilities", "statement": "With pyanen_ens_to_prob_method = 'kde', the value ens_to_prob_kde reports for a threshold is, up to the sampling interval, the probability below the threshold under the ensemble smoothed with the chosen kernel; in particular it lies between 0 and 1.", "quantifier": "every ensemble, threshold, bandwidth, number of samples and symmetric unimodal kernel", "why_tests_cant": "all ensembles and thresholds; needs degenerate ensembles and thresholds outside the sampled range, compared with an exact integral", "anchors": ["PyAnEn/utils_verify.py: ens_to_prob_kde"]}
{"id": "C74", "title": "The bootstrap mean estimates the mean", "statement": "Averaged over all equally likely outcomes of the random numbers, the middle number that boot_arr reports at a position is the mean of the data over that position, and its variance over the outcomes is the variance of the data divided by n_samples * repeats.", "quantifier": "every metric array without NaN over the position, all sample axes, sample sizes, repeats and confidence levels", "why_tests_cant": "a statement about the whole distribution of outcomes, not about any run", "anchors": ["PyAnEn/utils_verify.py: boot_vec, boot_arr"]}
{"id": "C75", "title": "The public methods return the documented scores, from the constructor on", "statement": "For every verifier that the constructor accepts: without bootstrapping error(), ab_error(), sq_error() and rmse() are the averages of f-o, |f-o|, (f-o)^2 over the positions collapsed by avg_axis (and the root of the last), brier(over/below=t) is the average of (p - 1{event})^2 with p what cdf(...) returns, brier_decomp its reliability, resolution and uncertainty, reliability/binned_spread_skill/corr/iou/roc the curves of the pairs of forecast and observation; with bootstrapping the same quantities of resamples. For ensembles cdf is the fraction of members, variance and spread those of the members, crps the average score of the members, and rank_histogram a possible rank. With saving from scratch the results are the same after any calls in any order.", "quantifier": "all forecasts, observations, shapes, axes, thresholds, missing values, member counts, random seeds, histories of metric calls", "why_tests_cant": "a test compares a handful of arrays; the claim is about every array and every call history, and crosses validation, argument conversion, saving, averaging and bootstrapping", "anchors": ["PyAnEn/Verify.py: Verify.error, Verify.brier, Verify.rmse", "PyAnEn/VerifyDeterm.py: VerifyDeterm", "PyAnEn/VerifyEnsemble.py: VerifyEnsemble"]}
{"id": "C76", "title": "The probabilistic verifiers return the documented scores, from the constructor on", "statement": "For every Gaussian, gamma or gamma hurdle verifier that the constructor accepts: cdf(below=t) is the distribution function of the library with the parameters of the position (for the hurdle 1-pop+pop*gamma above zero and 1-pop up to zero), cdf(over=t) one minus it, brier(...) the average of (p - 1{event})^2; f_determ and variance are f['mu'] and f['sigma']^2 (for the hurdle the moments of the distribution function on the integration grid) and the errors are averages of their differences from the observations; crps() is the average of the exact scores of the truncated normal or censored gamma distributions (hurdle: of the trapezoidal rule for the Brier scores); pit() is the distribution function at the observation, randomised for zeros; prob_to_ens() has n_sample_members draws for every position along move_sampled_ens_axis, spread() and rank_hist() are those of fresh draws.", "quantifier": "all parameter arrays, observations, shapes, averaging axes, thresholds, missing values, library functions with values in [0,1], random numbers", "why_tests_cant": "a test compares a handful of arrays; the claim crosses validation, distribution functions, worker pools, integration and averaging for all arrays", "anchors": ["PyAnEn/VerifyProb.py: VerifyProb", "PyAnEn/VerifyProbGaussian.py: VerifyProbGaussian", "PyAnEn/VerifyProbGamma.py: VerifyProbGamma", "PyAnEn/VerifyProbGammaHurdle.py: VerifyProbGammaHurdle"]}
{"id": "C77", "title": "Constructed probabilistic verifiers have parameters that fit the observations", "statement": "If the constructor of a probabilistic verifier returns, every array in f has the shape of o and the parameters of the distribution are in f.", "quantifier": "all dictionaries f, observations and settings", "why_tests_cant": "the constructor would have to be tried with every malformed dictionary", "anchors": ["PyAnEn/VerifyProbGaussian.py: VerifyProbGaussian._validate", "PyAnEn/VerifyProbGamma.py: VerifyProbGamma._validate", "PyAnEn/VerifyProbGammaHurdle.py: VerifyProbGammaHurdle._validate"]}
{"id": "C78", "title": "Jobs that share a working directory get right results", "statement": "Several processes verify the same data with start_from_scratch=False and the same working_directory. Whatever the interleaving of their file operations, and if any of them is killed, a metric call that ends returns what it would return without saving.", "quantifier": "every class, data, set of jobs, requests, interleaving and pickle format", "why_tests_cant": "races: all interleavings of the file operations of any number of processes", "anchors": ["PyAnEn/Verify.py: _save, _load, _metric_workflow_1"]}
{"id": "C79", "title": "Station coordinates are the file's own arrays, x before y, of one length", "statement": "read_station_coordinates(file, var_x, var_y) returns the arrays of the two named variables exactly as the file stores them, x first and y second, whatever else open_dataset renames, decodes or adds. Two arrays of different lengths are refused with AssertionError, a name that the file does not have with KeyError, and an error while opening is passed on.", "quantifier": "all files (any list of variables, dimensions and contents), all pairs of variable names other than the five coordinate names that open_dataset may define", "why_tests_cant": "A test opens one file; whether some combination of renamed dimensions, decoded names and added coordinates changes, swaps or replaces the arrays depends on all files.", "anchors": ["PyAnEn/Grid.py: read_station_coordinates", "PyAnEn/IO.py: open_dataset"]}
{"id": "C80", "title": "Rounding never pushes probabilities and Brier scores out of range", "statement": "When every operation is rounded and sums are taken in any order (as numpy does), ensemble probabilities from cdf stay in [0,1], are exactly 1 if and only if all members are at or below the threshold and exactly 0 if and only if none is, and never decrease with the threshold; brier values and their averages over any axes stay in [0,1], and are exactly 0 for an ensemble that lies wholly on the observation's side; mean absolute and squared errors are never negative.", "quantifier": "all roundings that are monotone and exact on small integers (proved for p-digit binary rounding), all orders of summation, all arrays, axes, thresholds, workers, up to 2^53 values", "why_tests_cant": "Rounding errors depend on the data and on the order in which numpy adds; a test sees one of them.", "anchors": ["PyAnEn/utils_verify.py: ens_to_prob_moments, ens_to_prob, binarize_obs", "PyAnEn/VerifyEnsemble.py: _brier, _cdf", "PyAnEn/Verify.py: boot_or_avg"]}
{"id": "C81", "title": "Metrics respond to a change of units as they should", "statement": "If forecasts and observations of an ensemble verifier, and the threshold of the call, go through the same strictly increasing conversion, then cdf, sharpness, brier, brier_decomp, roc, reliability, rank_hist and iou_determ return exactly the same result (value or exception, averaged or bootstrapped with the same random numbers). If the conversion is a*x+b with a>0, error, ab_error, rmse, spread and both curves of binned_spread_skill are multiplied by a, sq_error and variance by a^2, and corr does not change, even if forecasts and observations are converted differently. Building the verifier from converted data raises the same exception or gives the converted verifier.", "quantifier": "for all arrays with or without NaN, all conversions, thresholds (numbers or arrays), averaging axes, bootstrap settings and random numbers; deterministic and ensemble class, no saving", "why_tests_cant": "a test can try a few conversions of a few arrays; invariance under every increasing function and every data set is a statement about comparisons and sums only", "anchors": ["PyAnEn/Verify.py: boot_or_avg", "PyAnEn/VerifyDeterm.py: VerifyDeterm", "PyAnEn/VerifyEnsemble.py: VerifyEnsemble", "PyAnEn/utils_verify.py: ens_to_prob", "PyAnEn/utils_verify.py: rank_histogram", "PyAnEn/utils_verify.py: binarize_obs", "PyAnEn/utils_ss.py: _binned_spread_skill_create_split", "PyAnEn/utils_special_boot.py: corr"]}
{"id": "C82", "title": "Settings: the last accepted value is in force, and history leaves no other trace", "statement": "After any sequence of metric calls and setter calls of the base class (set_avg_axis, set_boot_samples, disable_boot, enable_saving, disable_saving) in which the setters return normally, every setting has the value it was last given (axes as tuples), disable_boot and disable_saving included; the data are untouched; and the verifier is the one that the constructor makes from these values, so that every metric returns what a new verifier would return. Order and overwritten values do not matter.", "quantifier": "for all classes, data, settings, histories of any length and file systems", "why_tests_cant": "a test tries a few call sequences; the claim is about all of them", "anchors": ["PyAnEn/Verify.py: set_avg_axis", "PyAnEn/Verify.py: set_boot_samples", "PyAnEn/Verify.py: disable_boot", "PyAnEn/Verify.py: enable_saving", "PyAnEn/Verify.py: disable_saving", "PyAnEn/Verify.py: _validate"]}
{"id": "C83", "title": "The order of ensemble members does not matter", "statement": "Give the ensemble verifier the same members in another order, possibly a different order at every position. The constructor accepts it with the same effects on the working directory, and after any common history of metric calls and setters (averaging axes, bootstrap, saving) every metric returns the same value or raises the same error, writes the same files and consumes the same random numbers. This covers probabilities, Brier scores and their decomposition, ROC, reliability, spread, variance, binned spread skill, rank histograms (with the same random tie breaking), IoU, CRPS, correlation and all errors, for one or several workers and with NaN members. The collapsing function, the ensemble CRPS of one observation and the density estimate must not look at the order themselves; the mean, variance, extremes and the kernel density estimate do not.", "quantifier": "all ensembles, shapes, ensemble axes, permutations per position, settings, histories of calls and states of the file system and random generator", "why_tests_cant": "the statement is about every permutation at every position combined with every history of calls; tests try a few shuffles of one array", "anchors": ["PyAnEn/VerifyEnsemble.py: VerifyEnsemble", "PyAnEn/utils_verify.py: ens_to_prob", "PyAnEn/utils_verify.py: rank_histogram", "PyAnEn/utils_verify.py: ens_to_prob_kde"]}
{"id": "C84", "title": "A number depends on the data pooled in it and on nothing else", "statement": "Without bootstrapping, the value of error, ab_error, sq_error, rmse, corr, brier and ensemble crps at a kept position is determined by the collection of forecasts, observations (and members, thresholds) averaged there, whatever the shapes, the averaging axes, the classes and the rest of the data; their order does not matter. Hence selecting stations, lead times etc. along a kept axis before verification (one at a time, a subset, reordered or repeated) gives exactly the corresponding part of the result for the full data, and reordering the data along an averaged axis changes nothing.", "quantifier": "all arrays of any shape, averaging axes, pools, selections and permutations, NaN included, with and without skipping NaN", "why_tests_cant": "tests compare a few subsets; the statement is about every selection and every permutation on arrays of every shape", "anchors": ["PyAnEn/Verify.py: _average_axis", "PyAnEn/Verify.py: error", "PyAnEn/Verify.py: rmse", "PyAnEn/Verify.py: corr", "PyAnEn/Verify.py: brier", "PyAnEn/VerifyEnsemble.py: crps"]}
{"id": "C85", "title": "Averaging axes that do not exist or are given twice raise", "statement": "If avg_axis names an axis the data do not have, or names one twice, then every metric raises (numpy's AxisError, or ValueError for repeated axes) instead of returning numbers for other axes.", "quantifier": "all classes, shapes, lists of axes (negative spellings included), with and without bootstrapping", "why_tests_cant": "tests try single wrong axes; the claim is about every list of axes and every shape", "anchors": ["PyAnEn/Verify.py: boot_or_avg", "PyAnEn/utils_verify.py: boot_arr", "PyAnEn/utils_verify.py: _reliability_create_split", "PyAnEn/utils_ss.py: _binned_spread_skill_create_split", "PyAnEn/utils_special_boot.py: _workflow"]}
{"id": "C86", "title": "Results are for the data and the environment in force", "statement": "A metric call gives the result for the verifier's own data and for the values that pyanen_skip_nan, pyanen_boot_repeats and pyanen_boot_confidence have at the moment of the call, whatever was computed and stored before under other values. Without saving this holds for every setting. With saving and start_from_scratch=True it holds for all metrics of deterministic verifiers, and for all other classes except that spread, rank_hist and roc keep the treatment of missing values under which they were first computed. Without start_from_scratch a directory with results of other data answers with those.", "quantifier": "All classes, data, histories of calls and setters with arbitrary changes of the three variables in between, file system contents, requests.", "why_tests_cant": "The result depends on what was stored earlier under another environment; a test sees one order of changes.", "anchors": ["PyAnEn/Verify.py: boot_or_avg", "PyAnEn/Verify.py: to_name", "PyAnEn/Verify.py: _metric_workflow_1", "PyAnEn/VerifyEnsemble.py: _spread", "PyAnEn/VerifyProb.py: _spread", "PyAnEn/utils_verify.py: rank_histogram"]}
{"id": "C87", "title": "The save name does not change the result", "statement": "The optional argument save_name of the public metrics only says under which file name the intermediate result is kept. Without saving it has no effect. With saving and start_from_scratch=True, save_name=None is always safe, and names of one's own give the results without saving, provided that no name is used for two different results and corr and brier_decomp are not given a name. Two metrics under one name answer with the first one's values, and a stored corr survives disable_boot.", "quantifier": "All classes, data, settings, histories of calls with default or own save names and setters, requests.", "why_tests_cant": "The file a call finds depends on all names used before; tests use the default names.", "anchors": ["PyAnEn/Verify.py: to_name", "PyAnEn/Verify.py: _metric_workflow_1", "PyAnEn/Verify.py: corr", "PyAnEn/Verify.py: disable_boot"]}
{"id": "C88", "title": "An ensemble's CRPS is the sum of its Brier scores over all thresholds", "statement": "For a VerifyEnsemble with complete data and without bootstrapping, the value of crps() at every kept position equals the integral over all thresholds t of brier(over=t), and also of brier(below=t), of the same verifier at that position; it is never negative, it is zero exactly when every member equals its observation, it is at most the mean distance of the members from the observations, a member that misses its observation by d costs at least d/n^2/m (n members, m pooled positions), and for one-member ensembles crps() and ab_error() return the same array.", "quantifier": "All forecasts and observations of any shape without missing values, any ensemble axis, any averaging axes, all real thresholds, with or without splitting along axis 0.", "why_tests_cant": "The statement is about a continuum of thresholds and relates two metrics computed by different code (one in properscoring, one in PyAnEn); tests compare a few numbers.", "anchors": ["PyAnEn/VerifyEnsemble.py: _crps", "PyAnEn/VerifyEnsemble.py: _cdf", "PyAnEn/Verify.py: _brier"]}
{"id": "C89", "title": "Averaged errors and Brier scores are accurate in floating point", "statement": "Computed with every operation rounded (relative error at most u, e.g. 2^-53) and summed in any order, error() and ab_error() without bootstrapping differ from the exact averages by at most ((1+u)^(d+2)-1) times the exact mean absolute error, sq_error() by ((1+u)^(d+4)-1) times the exact mean squared error, rmse() by ((1+u)^(d+5)-1) times the exact value, and ensemble brier() by (1+u)^(d+8)-1, where d is the number of additions on the longest way from a value to the sum; missing values are missing in both. With 53 binary digits and at most a million pooled values the errors are right to nine digits.", "quantifier": "All forecasts and observations of any shape with any missing values, all averaging axes, both settings of pyanen_skip_nan, all orders of summation, all roundings with relative error u.", "why_tests_cant": "The error of a long computation depends on all its inputs and on the order of summation; tests see a few inputs and one machine.", "anchors": ["PyAnEn/VerifyDeterm.py: _ab_error", "PyAnEn/VerifyEnsemble.py: _brier", "PyAnEn/Verify.py: boot_or_avg", "PyAnEn/Verify.py: rmse"]}
{"id": "C90", "title": "Area under the ROC curve", "statement": "If scikit-learn's roc_curve and auc behave as published, the area that roc(over=t) or roc(below=t) returns is the probability that a position where the event happened had a higher forecast probability than a position where it did not, ties counted one half. It is between 0 and 1, equal to 1 exactly under perfect separation, unchanged by the order of the data and by any strictly increasing recalibration of the probabilities, and the same for over and below when no observation is missing or equal to the threshold. The curve goes from (0,0) to (1,1), increases, and passes through the pair of rates of every threshold although collinear points are left out. Missing probabilities are left out or raise, depending on pyanen_skip_nan; with only one class the area is missing.", "quantifier": "all verifiers of all probabilistic classes, all data, thresholds and environment settings", "why_tests_cant": "A test compares the area for a few data sets; the equality with the pairwise probability, the invariances and the statement about left-out points hold for every list of forecasts.", "anchors": ["PyAnEn/utils_verify.py: calculate_roc", "PyAnEn/Verify.py: Verify.roc"]}
{"id": "C91", "title": "A bootstrap interval of an average holds the requested share of the replicates", "statement": "When boot_samples is set, error, ab_error and sq_error (and every other average made by boot_arr) return low, mean and high at each position.  Whenever low and high are numbers, more than conf*(R-1) - 1 of the R bootstrap means lie between them (ends included), and at most conf*(R-1) + 1 if no two means are equal; this for every confidence in [0, 1], every draw, every number of samples and repeats.", "quantifier": "all arrays, axes, confidences in [0,1], numbers of samples and repeats, draws", "why_tests_cant": "Tests fix a seed and a few repeats; the claim counts replicates for every draw, with ties, and for every position of the interpolated quantile.", "anchors": ["PyAnEn/utils_verify.py: boot_vec", "PyAnEn/utils_verify.py: boot_arr", "PyAnEn/Verify.py: _workflow"]}
{"id": "C92", "title": "A bootstrap interval of a curve or a correlation holds the requested share of the replicates", "statement": "When boot_samples is set, reliability, ss, corr and brier_decomp return low, mean and high.  The claim that the interval holds the share conf of the replicates is false: the code takes the 1-conf and conf quantiles, so it holds the share 2*conf - 1 (90 % at the default 0.95), and with at least 41 distinct replicates at 0.95 never 95 % up to one replicate.", "quantifier": "all lists of replicates, confidences in [1/2, 1]; for corr all data, axes and draws", "why_tests_cant": "A test would have to know which share is intended and count replicates for many draws; the deficit is visible only in the count, the interval itself looks plausible.", "anchors": ["PyAnEn/utils_special_boot.py: _func_corr", "PyAnEn/utils_special_boot.py: _func_brier_decomp", "PyAnEn/utils_verify.py: _reliability_agg_boot_slice", "PyAnEn/utils_ss.py: _binned_spread_skill_agg_boot"]}
{"id": "C93", "title": "The constructors accept exactly the documented arguments", "statement": "Without a working directory, constructing a deterministic, Gaussian, gamma or hurdle verifier succeeds exactly when avg_axis is None, an integer, a list or a tuple, boot_samples is None or an integer, and the data pass the documented checks of the class (shapes, keys of the parameters, settings); every other call raises AssertionError. The ensemble verifier succeeds exactly when in addition an ensemble axis fits and the collapse function works. A negative number of sampled members passes the constructor and raises ValueError in prob_to_ens and spread.", "quantifier": "all arguments of all five constructors, all file systems", "why_tests_cant": "acceptance for all argument values, not for listed ones", "anchors": ["PyAnEn/Verify.py: __init__, _validate", "PyAnEn/VerifyDeterm.py: _validate", "PyAnEn/VerifyEnsemble.py: _validate, _validate_ensemble_axis", "PyAnEn/VerifyProb.py: _validate", "PyAnEn/VerifyProbGaussian.py: _validate", "PyAnEn/VerifyProbGamma.py: _validate", "PyAnEn/VerifyProbGammaHurdle.py: _validate"]}
{"id": "C94", "title": "Thresholds of another shape", "statement": "iou_determ with a threshold array that has fewer axes or axes of length one returns what the threshold array repeated to the full shape gives, and a larger threshold array repeats forecasts and observations instead. All other metrics of an event (cdf, sharpness, brier, brier_decomp, roc, reliability) of the ensemble, Gaussian and gamma verifiers raise AssertionError when the threshold array does not have the shape of the observations.", "quantifier": "all shapes, all threshold arrays, over and below", "why_tests_cant": "all pairs of shapes that numpy would silently broadcast", "anchors": ["PyAnEn/utils_verify.py: iou_determ, ens_to_prob", "PyAnEn/utils_dist.py: cdf_gaussian, cdf_gamma", "PyAnEn/Verify.py: iou_determ", "PyAnEn/VerifyEnsemble.py: _cdf", "PyAnEn/VerifyProb.py: cdf"]}
{"id": "C95", "title": "Several files opened as one keep stations and values together", "statement": "open_mfdataset on the files of a run (each name with its own rank number, the same variables, different stations) returns all stations ordered by rank number, whatever the order in which the files are given or found; every array with stations holds the values of all files in that same order, locations missing in the group are taken from the root groups in the same order, lead times are those of the first file, times carry the epoch units. No file, a name without rank number or missing lead times raise.", "quantifier": "all lists of files, all numbers of stations, all variables and shapes, all orders of the paths", "why_tests_cant": "all sets of files and all orders, sizes and shapes", "anchors": ["PyAnEn/IO.py: open_mfdataset, __add_coords__"]}
{"id": "C96", "title": "Opening several files loses no station", "statement": "Every station of every file given to open_mfdataset is in the result, with its values.", "quantifier": "all lists of files", "why_tests_cant": "all sets of files, including name clashes between directories", "anchors": ["PyAnEn/IO.py: open_mfdataset, __add_coords__"]}
{"id": "C97", "title": "One file opened either way", "statement": "open_mfdataset of a single file and open_dataset of that file give the same variables.", "quantifier": "all files", "why_tests_cant": "all datasets", "anchors": ["PyAnEn/IO.py: open_mfdataset, open_dataset"]}
{"id": "C98", "title": "crps() and brier() are proper scores", "statement": "For complete data, crps() of an ensemble, truncated Gaussian or gamma verifier equals, at every kept position, reliability minus resolution plus uncertainty over the pooled positions: the mean squared distance between the forecast distribution function and that of the observations made when the same distribution was forecast, minus the mean squared distance between the latter and that of all pooled observations, plus half the mean absolute difference of the pooled observations. An ensemble verifier that issues the same members everywhere never scores below the uncertainty and reaches it exactly when the members are distributed like the observations. The same holds for brier() with event frequencies: a constant probability q scores (q - b)^2 + b (1 - b) for the frequency b of the event.", "quantifier": "All shapes, member counts, observations, parameters, averaged axes and thresholds; every probabilistic class for brier()", "why_tests_cant": "That no other forecast could score better is a statement about all forecasts and all samples; a test compares finitely many.", "anchors": ["PyAnEn/VerifyEnsemble.py: _crps", "PyAnEn/VerifyProbGaussian.py: _crps", "PyAnEn/VerifyProbGamma.py: _crps", "PyAnEn/utils_crps.py: crps_truncated_gaussian, crps_gamma", "PyAnEn/VerifyProb.py: _brier", "PyAnEn/VerifyEnsemble.py: _brier"]}
{"id": "C99", "title": "What the metrics say of a perfectly consistent ensemble", "statement": "Take an ensemble verifier and pooled positions whose cases are exchangeable: they fall into groups of n + 1 values in each of which every value is the observation once and the others are the n members. Then rank_hist() gives every rank from 1 to n + 1 to the same number of positions (if no group has ties), error() is zero with the mean as collapse function, and the mean of cdf(over=t) is the frequency of the event. But sq_error() is (n + 1) / (n - 1) times the mean of variance(), so binned_spread_skill(nbins=1) puts such an ensemble off the diagonal by the square root of that factor.", "quantifier": "All numbers of members and groups, all values, shapes, averaged axes, thresholds, settings of workers", "why_tests_cant": "A test with random draws only sees a rough histogram and a rough ratio, and cannot separate a flaw of the code from chance.", "anchors": ["PyAnEn/VerifyEnsemble.py: _rank_hist, _error, _sq_error, _variance, _binned_spread_skill, _cdf", "PyAnEn/utils_verify.py: rank_histogram, ens_to_prob", "PyAnEn/utils_ss.py: _binned_spread_skill_create_split, _binned_spread_skill_agg_no_boot"]}
{"id": "C100", "title": "Binning by spread uses the values the arrays held, and changes no other array", "statement": "_binned_spread_skill_create_split(variance, sq_error, nbins, sample_axis) sorts the two arrays by assignment to their columns, through views or copies made by reshape. For any two arrays that share no element, in any memory layout, the pieces returned are those of the values before the call, and no other array in memory changes, also when the call fails. binned_spread_skill of the verifiers therefore leaves forecasts, observations and earlier results as they were. Calling the function again with the same two arrays returns the same pieces.", "quantifier": "every memory, every layout of the two arrays, every decision of reshape to copy or not, every tie-breaking of the sort, every nbins and sample_axis", "why_tests_cant": "whether reshape copies depends on strides, which differ between arrays a test builds and arrays a user slices or transposes", "anchors": ["PyAnEn/utils_ss.py: _binned_spread_skill_create_split", "PyAnEn/VerifyEnsemble.py: _binned_spread_skill", "PyAnEn/VerifyProb.py: _binned_spread_skill"]}
{"id": "C101", "title": "The points of the reliability and spread-skill curves add up to the averages", "statement": "Without missing values: the counts returned by reliability(nbins, over/below) sum to the number of positions averaged; weighted with the counts, the forecast probabilities of the points add up to the sum of cdf(over/below) and the observed frequencies to the number of observed events; and the weighted mean squared distance of the points from the diagonal is never larger than brier(over/below) of the same object. For binned_spread_skill(nbins) there are bin sizes, differing by at most one and decreasing, such that the weighted squares of the spread values add up to the sum of variance() and the weighted squares of the error values to the number of positions times the square of rmse(). The same holds at every kept position.", "quantifier": "every verifier class, forecasts, observations, threshold, nbins >= 1 (for the spread-skill curve at most the number of positions), sample axes and kept position", "why_tests_cant": "an identity over all data sets and binnings; examples only test the ones tried", "anchors": ["PyAnEn/utils_verify.py: _reliability_create_split, _reliability_agg_no_boot", "PyAnEn/utils_ss.py: _binned_spread_skill_agg_no_boot", "PyAnEn/Verify.py: rmse", "PyAnEn/VerifyProb.py: _brier"]}
{"id": "C102", "title": "The scores of two periods combine to the score of both", "statement": "Cut the data of a verifier in two along an averaged axis, in any way (first and second half, odd and even days, any interleaving), and verify each part. The error, absolute error, squared error, Brier score and CRPS of the whole are the averages of the parts' values, weighted with the numbers of complete pairs (positions with a probability; positions with a CRPS); the squared rmse is the weighted average of the squared rmse's. If missing values are skipped, a part with nothing in it (NaN) leaves the other part's value; if they are not skipped, a NaN in either part makes the whole NaN. More generally this holds of any three verifiers whose pools of data behind three numbers satisfy whole = first + second, whatever their classes, shapes and averaged axes.", "quantifier": "for all data, all shapes, all averaged axes, all ways to cut an averaged axis in two non-empty parts, with and without missing values, all objects that the constructors accept", "why_tests_cant": "A test cuts one data set at one place. The claim is about every cut of every array, about the weights being the numbers of complete pairs (equal halves hide a wrong weight), and about every combination of missing values.", "anchors": ["PyAnEn/Verify.py: _metric_workflow_2, error, ab_error, sq_error, rmse, brier, crps", "PyAnEn/VerifyEnsemble.py: _crps, _brier", "PyAnEn/VerifyProb.py: _brier"]}
{"id": "C103", "title": "The printed description of a verifier tells its settings", "statement": "print(verifier) / repr(verifier) shows class, shapes of forecasts (for distributions: the keys and the shape of each parameter) and observations, avg_axis, boot_samples, working_directory, start_from_scratch, and for ensembles the ensemble axis and the name of the collapsing function, for distributions n_sample_members, move_sampled_ens_axis, truncated and pit_randomize_zero_ranks. Two verifiers that print the same text agree in all of these, unless a working directory is called None (which is printed like no directory) or a name contains a line break. Printing fails in exactly one case: an ensemble verifier whose collapsing function has no __name__ (functools.partial) raises AttributeError, although the verifier itself works.", "quantifier": "for all classes, shapes of any number of dimensions, tuples of axes, integers, directory names, dictionaries and function names", "why_tests_cant": "Injectivity of a text over all settings is about pairs of verifiers; tests compare a few printed texts.", "anchors": ["PyAnEn/Verify.py: __repr__, _format", "PyAnEn/VerifyEnsemble.py: __repr__", "PyAnEn/VerifyProb.py: __repr__"]}
{"id": "C104", "title": "Rounding moves no forecast of an ensemble to another reliability bin", "statement": "In floating-point arithmetic with relative error u (2^-53 for float64) and any number n of bins with u*n <= 1e-10, the edges numpy computes for the reliability diagram increase strictly from 0 to above 1, so np.digitize never raises and every probability in [0,1] falls in one of the n bins. For an ensemble of m members with m*n <= 1e7, a forecast predicted by k members is put into bin b exactly when b/n < k/m <= (b+1)/n (k = 0 in the first bin), in exact arithmetic as well as after all roundings: a forecast of exactly b/n counts to the bin below the edge. Hence the counts are those of exact arithmetic, the observed frequencies are the exact ones rounded once, the mean forecasts stay in [0,1] and are accurate to ((1+u)^(N+1)-1)+8u.", "quantifier": "for all monotone roundings that are exact on integers and have relative error u, all numbers of bins and members in the stated range, all forecasts, observations, thresholds, axes", "why_tests_cant": "Whether 3/10 falls left or right of the computed edge 3*step depends on the last bit; a test tries a few combinations of members and bins, not all of them.", "anchors": ["PyAnEn/utils_verify.py: _reliability_create_split", "PyAnEn/utils_verify.py: _reliability_agg_no_boot_slice", "PyAnEn/VerifyEnsemble.py: _cdf, _reliability"]}
{"id": "C105", "title": "The deterministic metrics of every verifier are those of its deterministic forecast", "statement": "For every verifier (ensemble, Gaussian, Gamma, hurdle, calibrated): if f_determ() returns the array d, then f_determ, error, ab_error, sq_error, rmse, corr and iou_determ return exactly what VerifyDeterm(d, o) with the same avg_axis and boot_samples returns: the same arrays, the same bootstrap intervals and the same exceptions. For ensembles this holds for whole sessions: VerifyEnsemble(f, o) and VerifyDeterm(collapsed f, o) constructed with the same settings have the same effect on the working directory, and any common sequence of these metrics and of set_avg_axis, set_boot_samples, disable_boot, enable_saving and disable_saving gives the same results and leaves the same files.", "quantifier": "for all classes, forecasts, observations, averaging axes, bootstrap settings, file systems and call sequences of any length", "why_tests_cant": "It compares two classes over all inputs and call histories, including exceptions and pickled files; tests compare a handful of values of one class.", "anchors": ["PyAnEn/VerifyDeterm.py: _error, _sq_error, _ab_error, _iou_determ, _f_determ, _corr", "PyAnEn/VerifyEnsemble.py: _f_determ, _corr, _error, _sq_error, _ab_error, _iou_determ", "PyAnEn/VerifyProb.py: _error, _sq_error, _ab_error, _iou_determ"]}
{"id": "C106", "title": "An ensemble and its members verified alone", "statement": "For an ensemble of complete forecasts and observations collapsed by the mean, verified with VerifyEnsemble, and its members verified one by one with VerifyDeterm over the same avg_axis: error() of the ensemble is the mean of the errors of the members; sq_error() plus the averaged variance() is the mean of the squared errors of the members, so the ensemble mean is at least as good as the average member; ab_error() and rmse() are at most the means of those of the members. crps() plus half of the mean distance between two members is the mean absolute error of the members, hence crps() is at most that mean, with equality exactly when all members agree everywhere.", "quantifier": "for all complete ensembles of any shape, member counts, ensemble axes and averaging axes", "why_tests_cant": "Identities and inequalities between n+1 verifiers over all ensembles (Jensen, Minkowski, and the equality case) cannot be settled by examples.", "anchors": ["PyAnEn/VerifyEnsemble.py: _error, _sq_error, _ab_error, _variance, _crps", "PyAnEn/VerifyDeterm.py: _error, _sq_error, _ab_error"]}
{"id": "C107", "title": "Correlation, bias and squared error fit together", "statement": "For complete forecasts and observations and every class of verifier, let at a kept position e = error(), q = sq_error(), r = corr() and sf, so the standard deviations of the deterministic forecasts and of the observations averaged there. corr() is NaN exactly when the forecasts or the observations are constant there. Otherwise -1 <= r <= 1 and q = e^2 + sf^2 + so^2 - 2 r sf so, hence q >= e^2 + (sf - so)^2 with equality exactly when r = 1. r is 1 (-1) exactly when the forecasts are a rising (falling) linear function of the observations.", "quantifier": "for all classes, complete forecasts and observations of any shape, averaging axes, without bootstrapping", "why_tests_cant": "An identity between three methods implemented in different files, and the exact characterisation of extreme and undefined correlations, hold for all data sets or not at all; tests see a few.", "anchors": ["PyAnEn/utils_special_boot.py: corr, _func_corr", "PyAnEn/VerifyDeterm.py: _error, _sq_error, _corr", "PyAnEn/VerifyEnsemble.py: _corr", "PyAnEn/Verify.py: boot_or_avg"]}
{"id": "C108", "title": "Small changes of the data make small changes of the scores", "statement": "Take two verifiers built with the same settings whose forecasts differ by at most d and whose observations differ by at most e everywhere, all complete. For every class, error(), ab_error() and rmse() differ by at most d+e (d measured on the deterministic forecasts) and sq_error() by at most (d+e) times the sum of the two rmse(). For ensembles, spread() differs by at most 2d, the mean forecast by at most d, and crps(), which is the mean over pairs of members of the distance of the observation from the interval between the two, by at most d+e. cdf(), brier() do not change at all when no member is within d and no observation within e of the threshold; without that condition there is no bound: for every d > 0 there are ensembles within d of each other with Brier scores 0 and 1.", "quantifier": "for all complete data of any shape, all d and e, averaging axes and histories, without bootstrapping", "why_tests_cant": "A Lipschitz bound relates every pair of data sets; a test compares a few pairs, and cannot show that the Brier score has no bound for any d.", "anchors": ["PyAnEn/VerifyDeterm.py: _error, _sq_error, _ab_error", "PyAnEn/VerifyEnsemble.py: _crps, _spread, _cdf, _brier", "PyAnEn/Verify.py: rmse"]}
{"id": "C109", "title": "The ensemble CRPS, from the sorted members to the average", "statement": "crps() of an ensemble scores every observation by properscoring.crps_ensemble with equal weights: a single pass over the sorted members when numba is installed, a formula on arrays otherwise. Both give, for every order of the members, every position of the observation among, below or above them, ties, and missing values, the mean distance of the members from the observation minus half the mean distance between two members, taken over the members that are present. The score is missing exactly when the observation or all members are, is never negative and at most the mean distance of the members from the observation. crps() is the average of these scores over avg_axis, the same with and without numba and with and without splitting along the first axis.", "quantifier": "for all observations, member counts, orders, ties and missing values; for all shapes, ensemble axes, averaging axes and NaN settings", "why_tests_cant": "Two implementations, one of them a loop with state over sorted members, agree on all inputs or not; the branches depend on where the observation falls among the members and on where the missing values are.", "anchors": ["PyAnEn/VerifyEnsemble.py: _crps", "PyAnEn/Verify.py: crps"]}
{"id": "C110", "title": "The Brier decomposition of an ensemble adds up for up to 19 members, and not from 20 on", "statement": "For an ensemble of at most 19 members, brier_decomp() returns reliability, resolution and uncertainty with one cell per number of members that predict the event, and brier() is exactly reliability minus resolution plus uncertainty at every kept position. The same holds in floating point, where bin edges and probabilities are rounded: no two vote counts share a bin, each term is the exact one up to rounding, and with 53 binary digits and up to a million pooled forecasts the sum agrees with brier() to eight digits in whatever order the averages are added up. The limit is sharp: for every number of members from 20 on there are data for which brier() is strictly less than the sum of the terms, and with 20 members in floating point even 2 and 3 votes, which exact arithmetic keeps apart, fall into one bin.", "quantifier": "for all ensembles of up to 19 members (any shape, ensemble axis, threshold, missing values, averaging axis, summation order, workers), without bootstrapping; for every member count of at least 20 in the converse", "why_tests_cant": "The bins are half-open with rounded edges on which the probabilities of an ensemble may fall exactly; whether any of the data puts two vote counts into one bin is a question about all of them and about all rounding errors.", "anchors": ["PyAnEn/utils_special_boot.py: _func_brier_decomp", "PyAnEn/utils_special_boot.py: brier_decomp", "PyAnEn/VerifyEnsemble.py: _brier, _brier_decomp"]}
{"id": "C111", "title": "Worker processes of an integration may save at the same time", "statement": "When a gamma hurdle verifier with a working directory integrates the CRPS, the mean or the variance with several Ray workers, every worker saves its CDFs and Brier scores into the same directory while the others run. If the points of the grid are distinct the workers never touch each other's files: for every interleaving of their file operations, every completion order and any earlier results in the directory, the integral is the one that a single process gives that saves nothing, and an exception appears only if that raises one; no worker waits for another one. The points are distinct exactly if the given range is not a single point, or, without a range, the observations are not constant. For constant observations the claim is false: all workers share one file, and an EOFError or a wrong mean is possible.", "quantifier": "for all data, grids, working directories with earlier results, interleavings of the file operations and completion orders", "why_tests_cant": "A race between processes depends on the interleaving; a test sees a few of them, and a mistake shows up as a rare exception or a wrong number that is then saved.", "anchors": ["PyAnEn/utils_approximation.py: wrapper_cdf", "PyAnEn/utils_approximation.py: wrapper_brier", "PyAnEn/utils_approximation.py: Integration._crps", "PyAnEn/Verify.py: _metric_workflow_1", "PyAnEn/VerifyProbGammaHurdle.py: _crps"]}
{"id": "C112", "title": "An integration is not affected by integrations that failed before it", "statement": "Whatever integrations ran or failed earlier in the process, and however often pyanen_tqdm_workers was changed, an integration gives what it gives in a fresh process. This is true as long as nothing raises, for every number of workers, and any number that comes out is right even after failures. It is false after an integration that failed in parallel: Ray is left running and pyanen_tqdm_workers is left at 1, so later integrations silently run on one core, and once the setting is raised again every integration raises a RuntimeError, sets the number of workers to 1 and succeeds on the next attempt, and so on for the rest of the process.", "quantifier": "for all sequences of integrations and changes of the number of workers (any data, memory modes, completion orders, failures)", "why_tests_cant": "The effect appears only after a certain sequence of failures and settings, while every test starts from a fresh process.", "anchors": ["PyAnEn/utils_approximation.py: Integration._workflow", "PyAnEn/utils_approximation.py: Integration._crps", "PyAnEn/utils_approximation.py: Integration._suppress_sublevel_tqdm"]}
{"id": "C113", "title": "crps of an ensemble is accurate in floating point", "statement": "Computed with a rounding after every operation, the score of one observation from the pass over the sorted members (numba) equals the exact one up to the effect of 2n²+n+6 roundings relative to the score itself, n being the number of members present; the formula on arrays (no numba) is exact up to as many roundings as additions on the longest way plus five, relative to twice the mean distance of the members from the observation, which is at most 2n times the score. Hence crps() in float64, for up to a thousand members and a million averaged positions, has nine (without numba: six) correct digits in any order of summation, is never negative and is zero only if the exact value is; missing scores are missing in both.", "quantifier": "all observations and members with missing values, all roundings with relative error u, orders of summation, axes, with and without numba, split or not", "why_tests_cant": "Rounding errors depend on the data and on the summation order chosen by numpy; a test sees a few of them and compares with a tolerance that nothing justifies.", "anchors": ["PyAnEn/VerifyEnsemble.py: _crps", "PyAnEn/Verify.py: crps"]}
{"id": "C114", "title": "A metric saves only inside the working directory and never touches other files", "statement": "Whatever save_name a public metric is given, the call changes and removes nothing that exists, makes no directories, and adds only complete pickles ending in .pkl in existing directories. The files are in the working directory or below it if the name is relative and does not lead upwards; otherwise they may be anywhere. Names without a slash behave as plain file names in the directory that working_directory leads to from the current directory. Two inner names share a file exactly if they agree up to empty parts and dots, and a name in a directory that does not exist makes the call raise after computing.", "quantifier": "All classes, metrics, arguments, save names, working directory texts, current directories and file systems.", "why_tests_cant": "Tests use plain names in a fresh directory; names with slashes, dots or a leading slash interact with os.path.join and with what is on disk, in endlessly many ways.", "anchors": ["PyAnEn/Verify.py: _save", "PyAnEn/Verify.py: _load", "PyAnEn/Verify.py: to_name"]}
{"id": "C115", "title": "crps() of an untruncated Gaussian verifier is the exact score of the normal distributions", "statement": "For VerifyProbGaussian without truncation, crps() is the average over the requested axes of the integral over all x of (F(x) - 1[y <= x])^2, where F is the normal distribution function with mean f['mu'] and standard deviation f['sigma'] and y the observation; the integral converges. Positions with a missing observation or parameter are missing. The number splits into reliability minus resolution plus uncertainty. Standard deviations that are not positive are not caught: zero gives NaN, and a negative one the negative of the score of its absolute value.", "quantifier": "All observations, means and positive standard deviations (and all others for the last sentence), shapes and averaging axes.", "why_tests_cant": "The closed form in properscoring and the integral that defines the score agree for every real argument; tests compare finitely many values up to a tolerance.", "anchors": ["PyAnEn/VerifyProbGaussian.py: _crps"]}
{"id": "C116", "title": "Announcing the true distribution is the best and the only best way to a small crps()", "statement": "When the observations are drawn by chance, every number that crps() returns has a mean (given that the observations have one). It is the average over the pooled positions of the squared distance between the announced distribution function and the true one, plus an amount that depends on the truth only. So no forecast has a smaller expected crps() than the true distribution, and another one reaches it only if it announces the true distribution at every pooled position: the same mu and sigma for the Gaussian class (with or without truncation), the same unshifted_mu, sigma and shift for the gamma class, members whose empirical distribution is the truth for the ensemble class.", "quantifier": "All probability spaces, joint distributions of the observations (any dependence between positions), parameter arrays and ensembles, shapes and averaging axes; for the gamma class observations that are not negative.", "why_tests_cant": "A statement about expectations over all distributions of observations; tests draw finite samples and see neither the mean nor the inequality.", "anchors": ["PyAnEn/VerifyProbGaussian.py: _crps", "PyAnEn/VerifyProbGamma.py: _crps", "PyAnEn/VerifyEnsemble.py: _crps", "PyAnEn/utils_crps.py: crps_gamma"]}
{"id": "C117", "title": "pit() is uniform exactly when the announced distribution is the true one", "statement": "When the observations are drawn by chance from the announced distribution, the number that pit() returns at a position (and rank_hist() when there are no members to sample) is uniformly distributed between 0 and 1: for the Gaussian class whether or not pit_randomize_zero_ranks is set; for the gamma class (distribution censored at zero) and the hurdle class if it is set and the numbers drawn for zero observations are uniform and independent of the observations. Conversely a uniform pit() means that the observations have the announced distribution (untruncated Gaussian class without randomising; the other cases for observations that are not negative). Without randomising, the gamma and hurdle classes give for the true distribution no values below the announced probability of zero, and uniform ones above it.", "quantifier": "All probability spaces, joint distributions of the observations, parameter arrays with positive sigma (positive mean for gamma; 0 < pop <= 1 for the hurdle), shapes, worker counts.", "why_tests_cant": "Uniformity is a statement about a distribution; a test with finitely many draws can only fail to reject it, and no test establishes the converse.", "anchors": ["PyAnEn/VerifyProb.py: _pit", "PyAnEn/VerifyProb.py: _rank_hist", "PyAnEn/VerifyProbGaussian.py: _cdf", "PyAnEn/VerifyProbGamma.py: _cdf", "PyAnEn/VerifyProbGammaHurdle.py: _cdf"]}
{"id": "C118", "title": "Expected crps(), error(), sq_error() and variance() of an ensemble whose members are drawn by chance", "statement": "Let the n members and the observation at a position be drawn by chance, any two of them independent, the members with distribution function F, mean m and variance v, the observation with G, m' and v'. Then the expected value of crps() is the average over the pooled positions of the squared distance of F and G, plus the spread of G, plus the spread of F divided by n; so drawing the members from the true distribution makes the least possible expected score larger by the factor 1 + 1/n. The expected error() is the average of m - m', the expected sq_error() the average of (m - m')^2 + v' + v/n, and the expected variance() at a position is v - v/n (the code divides by n, so it underestimates the variance of a member).", "quantifier": "All probability spaces, joint distributions with pairwise independence at each position and any dependence between positions, numbers of members, shapes, ensemble axes, avg_axis choices; complete numeric arrays; both implementations of the ensemble CRPS.", "why_tests_cant": "An expectation over all draws of members and observations is not reached by finitely many samples; the dependence on n in the finite-ensemble bias is visible only as a limit of averages.", "anchors": ["PyAnEn/VerifyEnsemble.py: _crps", "PyAnEn/VerifyEnsemble.py: _error", "PyAnEn/VerifyEnsemble.py: _sq_error", "PyAnEn/VerifyEnsemble.py: _variance", "PyAnEn/Verify.py: crps"]}
{"id": "C119", "title": "rank_hist() is flat when chance does not tell the observation from the members", "statement": "If the joint distribution of the observation and the n members at a position does not change when they are permuted, and they are almost surely different from each other, then rank_hist() gives the position every rank from 1 to n + 1 with the same probability 1/(n+1), and in a histogram over any choice of positions each rank has the same expected frequency, whatever the dependence between positions and whatever the tie breaking. This holds in particular when observation and members are drawn independently from one continuous distribution. For values that can coincide the histogram need not be flat: with a single position the first rank is more likely than 1/(n+1) exactly if the least value is attained twice with positive probability.", "quantifier": "All probability spaces, exchangeable joint distributions, numbers of members, shapes, worker counts, random outcomes of the tie breaking.", "why_tests_cant": "Equality of probabilities over all joint distributions cannot be settled by sampling; a test can only fail to reject flatness for the distributions it draws from.", "anchors": ["PyAnEn/utils_verify.py: rankdata", "PyAnEn/utils_verify.py: rank_histogram", "PyAnEn/VerifyEnsemble.py: _rank_hist"]}
{"id": "C120", "title": "Expected Brier score when the observations are random", "statement": "Let the observations be random and the announced parameters fixed, with no missing values and no bootstrapping. Then every number brier(over=t) or brier(below=t) returns has the mean: average over the pooled positions of (announced probability of the event - its true probability)^2 + q(1-q), where q is the true probability. For the Gaussian, gamma (t >= 0, not truncated) and hurdle (t >= 0) classes, over=t is minimal exactly when the announced distribution is right at t at every pooled position. below=t announces P(X <= t) but the event is observation < t: the true distribution gets the least expected score there exactly if no observation equals the threshold with positive probability, so brier(below=0) of the gamma and hurdle classes does not reward honesty. For the ensemble class with fixed members the announced probability is the fraction of members above (over) or at most (below) the threshold; with n members drawn independently from F the mean is larger by F(t)(1-F(t))/n.", "quantifier": "all probability spaces, observation laws and thresholds (scalar or array), all shapes without empty axis, all averaging axes, all parameters with positive spread, any library whose distribution functions are exact", "why_tests_cant": "An expectation over all outcomes of a continuous random experiment is not observable by running the code, and optimality among all announcements is a statement about infinitely many forecasts.", "anchors": ["PyAnEn/VerifyProb.py: _brier", "PyAnEn/VerifyProbGaussian.py: _cdf", "PyAnEn/VerifyProbGamma.py: _cdf", "PyAnEn/VerifyProbGammaHurdle.py: _cdf", "PyAnEn/VerifyEnsemble.py: _brier"]}
{"id": "C121", "title": "The reliability diagram of right forecasts is on the diagonal on average", "statement": "Let the observations be random, the announced parameters fixed, all axes averaged, no missing values and no bootstrapping. Then reliability(nbins, over=t / below=t) succeeds for every outcome; the bins it shows, their counts and their mean forecasts are the same for every outcome; the mean over the outcomes of a bin's observed frequency is the average true probability of the events at the positions of the bin. So if the announced probability of the event is the true one at every position, every point lies on the diagonal on average; if in a bin they differ on average, the point is off by that difference. Proved for the Gaussian, gamma and hurdle (thresholds >= 0) classes and for ensembles with fixed members.", "quantifier": "all probability spaces, observation laws, thresholds (scalar or array), numbers of bins >= 1, shapes, parameters with positive spread, any library with exact distribution functions", "why_tests_cant": "An expectation over all outcomes cannot be observed in finitely many runs; a diagram of one sample is off the diagonal even for perfect forecasts.", "anchors": ["PyAnEn/utils_verify.py: _reliability_create_split", "PyAnEn/utils_verify.py: _reliability_agg_no_boot_slice", "PyAnEn/VerifyProb.py: _reliability", "PyAnEn/VerifyEnsemble.py: _reliability"]}
{"id": "C122", "title": "Sampled members give a flat rank histogram exactly for observations of the announced distribution", "statement": "Let rank_hist() of VerifyProbGaussian or VerifyProbGamma draw n_sample_members members independently from the announced distribution (member axis last, nothing clipped, no missing values). Where the observation is independent of them and has the announced distribution, every rank from 1 to n+1 has probability 1/(n+1), and over any set of such positions every rank has the same expected count. Conversely, if the highest rank has probability 1/(n+1) for every n, the observation has the distribution the members are drawn from. For the gamma class that is the shifted gamma distribution, not the one that cdf() announces, which is censored at zero: for precipitation that has the censored distribution and is zero with probability p, the highest rank has probability (1 + n p^(n+1))/(n+1).", "quantifier": "All constructor states of the two classes, any parameters, any number of members and positions, one worker or a pool, every joint law of observation and draws that meets the hypotheses", "why_tests_cant": "A histogram over finitely many seeds cannot show that a probability is exactly 1/(n+1), nor that only one distribution has all of these", "anchors": ["PyAnEn/VerifyProb.py: _rank_hist", "PyAnEn/VerifyProbGaussian.py: _prob_to_ens", "PyAnEn/VerifyProbGamma.py: _prob_to_ens", "PyAnEn/utils_dist.py: sample_dist_gaussian", "PyAnEn/utils_dist.py: sample_dist_gamma"]}
{"id": "C123", "title": "Right means and variances put the spread-skill diagram on the diagonal in the mean square", "statement": "Let the observations be random with means mu_i and variances v_i, in any joint law. For VerifyProbGaussian, VerifyProbGamma and VerifyEnsemble (members fixed), binned_spread_skill(nbins) puts the same positions in each bin whatever the outcome, with the same spread, and the square of the rmse of a bin is on average the mean over its positions of (f_determ - mu_i)^2 + v_i; the rmse itself is on average at most the root of that. So with right means and variances each point is on the diagonal in the mean square, and with right variances only then. What fails: with truncated=True the Gaussian class announces a distribution cut off at zero while f_determ() and variance() belong to the distribution before the cut; where mu <= -sigma, observations with exactly the announced distribution put every point above the diagonal.", "quantifier": "All constructor states of the three classes, any parameters or members without missing values, any shape without empty axis, avg_axis None or any non-negative axes, every nbins from one to the number of pooled positions, every sort numpy may use, every joint law of the observations with second moments", "why_tests_cant": "The statement is about expectations over all outcomes and about every way of breaking ties; a test sees a few outcomes of one sort", "anchors": ["PyAnEn/VerifyProb.py: _binned_spread_skill", "PyAnEn/utils_ss.py: _binned_spread_skill_create_split", "PyAnEn/utils_ss.py: _binned_spread_skill_agg_no_boot", "PyAnEn/VerifyProbGaussian.py: _variance", "PyAnEn/VerifyProbGamma.py: _variance"]}
{"id": "C124", "title": "The sign of the Diebold-Mariano statistic names the worse forecast", "statement": "For complete data, every criterion and every accepted horizon: a statistic that is not NaN is positive exactly if the first forecast has the larger total loss, negative exactly if it has the smaller, zero exactly if both agree. It is NaN exactly if the variance estimate is negative, or zero with equal total losses; infinite (p-value 0) exactly if the estimate is zero and the total losses differ. With h=1 this means: NaN exactly for equal losses everywhere, infinite exactly for a constant non-zero gap of the losses, a number otherwise; with h=2 accepted data can give NaN.", "quantifier": "all series, criteria and horizons; for MAPE actual values that are not zero", "why_tests_cant": "the degenerate cases depend on exact cancellation in the variance estimate over all series", "anchors": ["PyAnEn/utils_significance.py: diebold_mariano_test, autocovariance"]}
{"id": "C125", "title": "The p-value of the Diebold-Mariano test is a two-sided tail probability", "statement": "With scipy's Student distribution the p-value of a finite statistic x of n positions is the probability that a number from Student's distribution with n-1 degrees of freedom is at least as far from 0 as x; it is in (0,1]. Of two tests of the same length the one with the statistic farther from 0 has the smaller p-value. The p-value is 1 exactly for the statistic 0, that is for equal total losses; it is 0 exactly for infinite statistics, NaN exactly for NaN statistics, and 0 is the limit of the p-values of growing statistics.", "quantifier": "all series, criteria, horizons accepted by the function", "why_tests_cant": "statements about a continuous distribution for all degrees of freedom", "anchors": ["PyAnEn/utils_significance.py: diebold_mariano_test"]}
{"id": "C126", "title": "With saving, an answer once given stays, and random members are drawn once", "statement": "Once a metric of a verifier that saves has answered, repeating the call computes nothing: it touches no file and, unless it bootstraps a stored array, uses no random number and returns the same answer, also for rank_hist, pit and prob_to_ens, whose first answer was random, and whatever metric calls of this or other verifiers on the directory came between. Once prob_to_ens() has answered, rank_hist() and spread() are those of the very members it returned. Without saving every call draws members of its own.", "quantifier": "all classes, data, settings, requests, random numbers and histories of metric calls", "why_tests_cant": "all histories of calls and all random numbers", "anchors": ["PyAnEn/Verify.py: _metric_workflow_1, _load, _save", "PyAnEn/VerifyProb.py: _rank_hist, _spread, prob_to_ens"]}
{"id": "C127", "title": "Copies of the members change nothing but the ranks", "statement": "Two ensemble verifiers with a stated ensemble_axis, the same observations and ensembles in which every value is held by the same share of the members at every position - for example one with every member given twice - cannot be told apart: the constructor behaves the same and after any common history of calls and setters every metric except rank_hist returns or raises the same, with the same files and random numbers. This holds for collapsing by mean, nanmean, var, max and min, for properscoring's CRPS with and without numba, split or not, and for both ways of computing probabilities. rank_hist does see the number of members; and if ensemble_axis is left to be guessed, doubling the members can move the guess to another axis, but not when the members are last.", "quantifier": "all ensemble verifiers with at least one position, all pairs of ensembles with equal shares (also different multiplicities at different positions and missing members), all histories of metric calls and common setters, all settings", "why_tests_cant": "A test doubles the members of a few arrays and compares a few metrics; equality of all metrics after all histories and all equal-share ensembles is a statement about every array.", "anchors": ["PyAnEn/VerifyEnsemble.py: VerifyEnsemble._variance", "PyAnEn/VerifyEnsemble.py: VerifyEnsemble._spread", "PyAnEn/VerifyEnsemble.py: VerifyEnsemble._crps", "PyAnEn/VerifyEnsemble.py: VerifyEnsemble._guess_ensemble_axis", "PyAnEn/utils_verify.py: ens_to_prob"]}
{"id": "C128", "title": "What error(), sq_error() and the spread-skill diagram say of exactly right forecasts of the distribution classes", "statement": "For a Gaussian verifier whose observations have exactly the announced distributions, error() is on average zero and sq_error() is on average the average of variance(), if truncated is off. If truncated is on, error() is on average minus the average of sigma*phi(mu/sigma)/Phi(mu/sigma), so right forecasts always look too low; sq_error() is on average that of sigma^2*(1 - mu/sigma*phi/Phi), which is smaller than variance() where mu is positive, equal where mu is zero and larger where mu is negative, and the points of the spread-skill diagram lie accordingly. For a gamma verifier whose observations have the distributions of cdf(), error() is on average the average of mu - unshifted_mu - shift and sq_error() the average of the square of that plus sigma^2. For the distributions its crps() uses (everything below zero put to zero) and mu = unshifted_mu + shift, error() is on average zero if no shift is negative and negative as soon as one is; then sq_error() is smaller than variance() on average if no mu is negative.", "quantifier": "all shapes without an empty axis, all finite parameters with positive sigma (and unshifted_mu), all averaging axes, all probability spaces and random observations with the stated distributions, dependent across positions or not", "why_tests_cant": "an expectation over all draws, for all parameters; a test sees a few draws and cannot tell a small bias from noise", "anchors": ["PyAnEn/VerifyProbGaussian.py: _f_determ", "PyAnEn/VerifyProbGaussian.py: _variance", "PyAnEn/VerifyProbGamma.py: _f_determ", "PyAnEn/VerifyProbGamma.py: _variance", "PyAnEn/Verify.py: error", "PyAnEn/Verify.py: sq_error"]}
{"id": "C129", "title": "What the Brier decomposition of random observations is on average", "statement": "If the observations at the positions are random and independent, and forecast parameters or members are not random, every slice of brier_decomp(over=...) or brier_decomp(below=...) of VerifyProbGaussian, VerifyProbGamma, VerifyProbGammaHurdle and VerifyEnsemble has these expected values. Reliability: the mean squared difference, over the positions, between the mean forecast probability and the mean true probability of the events in the bin, plus the variance of the observed frequency of the bin. Resolution: the same for the mean true probability of the bin and that of all events, plus the variance of the frequency of the bin, minus that of the frequency of all events. Uncertainty: q(1-q) for the mean true probability q, minus the variance of the frequency of all events. So reliability and resolution are never too small on average and uncertainty never too large; with 20 bins the excess is at most 5 over the number of positions; exactly right forecasts have positive expected reliability unless no event depends on chance; and forecasts of events that all have the same probability have positive expected resolution unless they all fall in one bin or the events do not depend on chance.", "quantifier": "all probability measures, all observations independent between positions with any distributions, all shapes without zero lengths, all averaging axes, thresholds and parameters, all positions of the result", "why_tests_cant": "the claim is about expectations over random observations and an equality of means; a test sees one draw and would need a tolerance larger than the bias that the claim is about", "anchors": ["PyAnEn/utils_special_boot.py: _func_brier_decomp", "PyAnEn/utils_special_boot.py: brier_decomp", "PyAnEn/VerifyEnsemble.py: _brier_decomp", "PyAnEn/VerifyProb.py: _brier_decomp"]}
{"id": "C130", "title": "How close the Brier score and the reliability diagram of N independent observations are to the truth", "statement": "If the observations at the positions are random and independent, and the announced probabilities are not random, then every number of brier(over=...) or brier(below=...) without bootstrapping of VerifyProbGaussian, VerifyProbGamma, VerifyProbGammaHurdle and VerifyEnsemble that averages N positions differs from its expected value by eps or more with a probability of at most 2 exp(-2 N eps^2). Of two verifiers of the same observations, of the same class or not, that announce probabilities with mean squared difference delta, the one with the expected score that is lower by gamma > 0 gets the higher or equal score with a probability of at most exp(-N gamma^2 / (2 delta)); if it announces the true probabilities, with at most exp(-N delta / 2). Every observed frequency of reliability(nbins, ...) is within eps of the mean true probability of its bin of n forecasts except with a probability of at most 2 exp(-2 n eps^2). If the announced probabilities are the true ones, all points of the diagram are at the same time closer to the diagonal than sqrt(log(2 nbins / alpha) / (2 n)), with the n that the diagram shows for the bin, with a probability of at least 1 - alpha.", "quantifier": "all probability measures, all observations independent between positions with any distributions, all shapes without zero lengths, all averaging axes, thresholds and parameters, all positions of the result, all numbers of bins, all eps, alpha", "why_tests_cant": "the claim bounds probabilities over random observations, for all N and all distributions; a test sees one draw, and a large deviation in it refutes nothing", "anchors": ["PyAnEn/Verify.py: brier", "PyAnEn/Verify.py: reliability", "PyAnEn/VerifyEnsemble.py: _brier", "PyAnEn/VerifyProb.py: _brier", "PyAnEn/VerifyEnsemble.py: _reliability", "PyAnEn/VerifyProb.py: _reliability", "PyAnEn/utils_verify.py: _reliability_agg_no_boot_slice"]}
{"id": "C131", "title": "In the long run the scores settle at their expected values and tell which forecasts are better", "statement": "An archive grows day by day along one axis, over which the verifier averages; forecasts and observations are random, and what happens on one day is independent of any other day and has the same probabilities. Then, with probability one, every number of crps() of VerifyProbGaussian (truncated or not), VerifyProbGamma and VerifyEnsemble, of brier(over=t) or brier(below=t) and of error(), ab_error(), sq_error() and rmse() without bootstrapping converges to its expected value of a single day, if that is finite. The verifier whose expected value is smaller has, with probability one, the smaller score from some day on. A verifier that announces the distributions (or probabilities) that follow from all that is known is such a verifier, compared with any other that knows nothing more, unless both announce the same with probability one; in particular of two Gaussian verifiers of the same observations the one with the right parameters gets the smaller crps() from some day on, unless the parameters agree.", "quantifier": "all sequences of archives, all shapes of the other axes and numbers of the day axis, all positions, all probability spaces, all joint laws of forecasts and observations of a day, all thresholds", "why_tests_cant": "A limit over archives of unbounded length, with probability one over infinite sequences of days; finite tests only see finitely many days and drawn numbers", "anchors": ["PyAnEn/Verify.py: crps", "PyAnEn/Verify.py: brier", "PyAnEn/Verify.py: error", "PyAnEn/Verify.py: ab_error", "PyAnEn/Verify.py: sq_error", "PyAnEn/Verify.py: rmse", "PyAnEn/VerifyProbGaussian.py: _crps", "PyAnEn/VerifyProbGamma.py: _crps", "PyAnEn/VerifyEnsemble.py: _crps"]}
{"id": "C132", "title": "In the long run reliability diagram, Brier decomposition and correlation estimate what they are named after", "statement": "An archive grows day by day along one axis, over which the verifier averages; forecasts and observations are random, and what happens on one day is independent of any other day and has the same probabilities. Then, with probability one and without bootstrapping: (a) in reliability(nbins, over=t) or (below=t) of an archive with the days as only axis, a bin that the forecast probability hits with positive probability shows up from some day on and stays, its count divided by the number of days converges to the probability of the bin, its mean forecast to the conditional mean of the forecast given the bin, and its observed frequency to the conditional probability of the event given the bin; a bin of probability zero never shows up; (b) the three numbers of brier_decomp(over=t) or (below=t) converge to the reliability, resolution and uncertainty computed from the true probabilities of the 20 bins; (c) corr() is a number from some day on and converges to the correlation of forecast and observation, if both have a finite variance that is not zero. If the forecast probability is the probability of the event for someone who knows what the forecast is based on, the points of the diagram converge to the diagonal and the reliability term to zero; conversely a reliability term that converges to zero means that in every bin with positive probability the mean forecast is the conditional probability of the event.", "quantifier": "all sequences of archives, for (b) and (c) all shapes of the other axes, numbers of the day axis and positions, all probability spaces, all joint laws of forecasts and observations of a day, all thresholds, all numbers of bins of the diagram", "why_tests_cant": "A limit over archives of unbounded length, with probability one over infinite sequences of days; finite tests only see finitely many days and drawn numbers", "anchors": ["PyAnEn/Verify.py: reliability", "PyAnEn/Verify.py: brier_decomp", "PyAnEn/Verify.py: corr", "PyAnEn/utils_verify.py: _reliability_create_split", "PyAnEn/utils_verify.py: _reliability_agg_no_boot_slice", "PyAnEn/utils_special_boot.py: _func_brier_decomp", "PyAnEn/utils_special_boot.py: _func_corr"]}
{"id": "C133", "title": "decode=True turns the times of a file into the dates they mean", "statement": "open_dataset(file, decode=True): every element of the variables test_times, search_times and Times, and of the coordinate of the time dimension (num_times), is the date that many seconds after the beginning of 1970, missing values are NaT, and the order and shape of the values are those of the file. Variables with units such as 'K' or without units keep their numbers, variables with units '<unit> since <date>' of their own become the dates these units say, and names, coordinates and dimensions are those of decode=False. The call fails exactly if decode=False fails or some units with 'since' cannot be read. FALSE in three respects, with witnesses: the coordinate num_search_times stays numbers (or follows the units of the file) while search_times is dates; the units a file gives its times are replaced without warning, so that times in hours since 2000 become seconds since 1970 (the dates are those meant exactly if the file's units applied to its values give seconds since 1970); and a file with an undecodable character variable is returned with nothing decoded.", "quantifier": "every dataset, every set of variables, values, dimensions and units, every reader of units that reads 'seconds since 1970-01-01', xarray versions with and without decoding of durations", "why_tests_cant": "all combinations of variables, units and values; a test file has one kind of units", "anchors": ["PyAnEn/IO.py: open_dataset, coords_dict"]}
{"id": "C134", "title": "Intersection over union, ranks and transforms of growing archives", "statement": "Over archives with more and more days that have nothing to do with each other: iou_determ and iou_prob settle, with probability one, at the probability that forecast and observed event both happen divided by the probability that one of them happens, and stay missing if neither has a chance; the share of days with a given rank settles at the probability of that many members below the observation, 1/(members+1) for every rank if chance does not tell observation and members apart; the share of days whose pit() is at most u settles at u for every u if the announced Gaussian distributions are right given their parameters, even if parameters change from day to day and days are not alike.", "quantifier": "every class (iou), every ensemble size, every joint distribution of forecasts and observations, every threshold, every number of other axes, all days beyond any bound, worker counts for which the pool splits, randomised transforms or not", "why_tests_cant": "a test has a finite archive; the claim is about the limit of infinitely many archives and about probabilities", "anchors": ["PyAnEn/Verify.py: iou_determ, iou_prob, rank_hist", "PyAnEn/utils_verify.py: iou_determ", "PyAnEn/utils_verify.py: iou_prob", "PyAnEn/VerifyEnsemble.py: _rank_hist", "PyAnEn/VerifyProb.py: _pit"]}
{"id": "C135", "title": "Power and false alarms of the Diebold-Mariano test", "statement": "If the differences of the daily losses of two forecasts are independent, identically distributed and square integrable, then diebold_mariano_test on the first n days, for every criterion and every fixed h, (power) finds every difference of the mean losses: with probability one the statistic grows beyond every bound, with the sign of the worse forecast, and the p-value falls below every bound; (size) raises false alarms as often as announced: if the mean losses agree and the differences vary, the statistic is asymptotically standard normal and the probability of a p-value below alpha tends to alpha.", "quantifier": "every joint distribution of the losses with finite variance of the difference, every criterion including any power function, every horizon h >= 1, every level alpha between 0 and 1, all numbers of days beyond any bound", "why_tests_cant": "a test has one finite sample; the claims are about limits of probabilities, and a wrong variance, a wrong factor or a one-sided p-value gives plausible numbers in every sample", "anchors": ["PyAnEn/utils_significance.py: diebold_mariano_test", "PyAnEn/utils_significance.py: autocovariance"]}
{"id": "C136", "title": "A bootstrap interval holds the truth as often as promised only with as many draws as data", "statement": "Let the numbers averaged at a position (by crps, error, spread, sq_error, ab_error or brier, or the data given to boot_vec / boot_arr) be independent, equally distributed, with a finite positive variance, and let the number of draws boot_samples be about c times their number. Then, for long archives and many repeats, the interval [lo, hi] returned by the bootstrap holds the expectation with a probability as close as one likes to 1 - 2 Phi(-z / sqrt(c)), Phi(z) = (1 + confidence) / 2. With as many draws as data (c = 1) that is exactly the requested confidence; with fewer draws the interval holds the truth more often than requested, with more draws less often.", "quantifier": "All square integrable distributions of the data, all fair generators, all sequences of boot_samples, all confidences strictly between 0 and 1, all classes, shapes, averaged axes and kept positions.", "why_tests_cant": "The claim is about the probability over all archives and all seeds in a double limit; a test sees a single interval of a single archive, which holds the truth or not.", "anchors": ["PyAnEn/utils_verify.py: boot_vec", "PyAnEn/utils_verify.py: boot_arr", "PyAnEn/Verify.py: error", "PyAnEn/Verify.py: ab_error", "PyAnEn/Verify.py: sq_error", "PyAnEn/Verify.py: crps", "PyAnEn/Verify.py: spread", "PyAnEn/Verify.py: brier"]}
{"id": "C137", "title": "What the text of an environment setting means, and who wins: argument or setting", "statement": "A setting that is a number (workers, chunk size, repeats, draws, ...) is accepted exactly if its text is an integer as Python writes them: blanks around it, at most one sign, groups of digits with single underscores between them; then it has that value. A switch is accepted exactly if its text is one of y, yes, t, true, on, 1 / n, no, f, false, off, 0, in small or capital letters. Every other text raises ValueError. Integration(...) and the bootstrap use the argument where there is one and the setting elsewhere, so an unreadable setting does no harm to who passes the argument; only pyanen_integrate_wdir must always be there. The directory of an integration is the argument, else the setting if not empty, else the verifier's, else the current directory.", "quantifier": "All texts, all environments, all combinations of given and missing arguments.", "why_tests_cant": "Unit tests try a few words and numbers; the property is about the whole language of accepted texts and all combinations of arguments and settings.", "anchors": ["PyAnEn/utils_approximation.py: Integration.__init__", "PyAnEn/utils_verify.py: boot_vec", "PyAnEn/utils_verify.py: boot_arr", "PyAnEn/__init__.py"]}
{"id": "C138", "title": "With a fixed number of draws a bootstrap interval never shrinks to the truth", "statement": "Let the numbers averaged at a position (by crps, error, spread, sq_error, ab_error or brier, or the data given to boot_vec / boot_arr) be independent and equally distributed with an expectation, and let boot_samples = n stay the same while the archive grows. Then the interval [lo, hi] becomes that of an average of n data: with long archives and many repeats it holds, with a probability as close to 1 as one likes, every number that averages of n data are below and above with more than (1 - confidence) / 2 probability each, and with a probability as close to 0 as one likes any number for which one of these two falls short. In particular it does not become shorter with more data.", "quantifier": "All distributions of the data with an expectation, all fair generators, all positive boot_samples, all confidences from 0 to 1, all numbers tested, all classes, shapes, averaged axes and kept positions.", "why_tests_cant": "The claim is about probabilities over all archives and seeds in a double limit; a test sees a single interval.", "anchors": ["PyAnEn/utils_verify.py: boot_vec", "PyAnEn/utils_verify.py: boot_arr", "PyAnEn/Verify.py: error", "PyAnEn/Verify.py: ab_error", "PyAnEn/Verify.py: sq_error", "PyAnEn/Verify.py: crps", "PyAnEn/Verify.py: spread", "PyAnEn/Verify.py: brier"]}
{"id": "C139", "title": "avg_axis=() shows exactly the numbers that are averaged and resampled", "statement": "Let crps(), error(), spread(), sq_error(), ab_error() or brier(...) of a verifier with avg_axis=() and without bootstrapping return the array m. Then with any other legal averaging axes the same metric returns, at every kept position, the average (NaN handled as configured) of the numbers of m at the averaged positions, and with boot_samples every interval is the summary of resamples of exactly these numbers. Conversely, whenever the metric returns something for some axes and draws, it returns an array with avg_axis=(). So nothing but the averaging depends on avg_axis and boot_samples.", "quantifier": "All classes, data, thresholds, averaging axes, numbers of draws and states of the random generator; verifiers that do not save.", "why_tests_cant": "A unit test compares some axes for one data set; the relation is between all pairs of settings for all data and all six metrics.", "anchors": ["PyAnEn/Verify.py: boot_or_avg", "PyAnEn/Verify.py: crps", "PyAnEn/Verify.py: error", "PyAnEn/Verify.py: spread", "PyAnEn/Verify.py: sq_error", "PyAnEn/Verify.py: ab_error", "PyAnEn/Verify.py: brier"]}
{"id": "C140", "title": "The area under the ROC curve of a growing archive estimates the discrimination of the forecasts", "statement": "Let the archive grow day by day, forecast probability and event of different days having nothing to do with each other and the same probabilities, and let event and non-event both have a chance. As soon as both are recorded roc(...) returns a curve and an area; with probability one both are recorded from some day on, and the area converges to the probability that, of two independent days one with the event and one without, the one with the event had the higher forecast, ties counted one half. This limit depends only on the order of the forecasts, is 1 if forecasts are higher on all days with the event than on all days without, and is one half for forecasts that have nothing to do with the event. No assumption is made on the distribution of the forecast probabilities: they may have densities, atoms, or both.", "quantifier": "All probability spaces, all joint distributions of forecast and observation of a day, all classes whose cdf gives the probabilities, all thresholds over and below; one threshold, days as the only axis.", "why_tests_cant": "The statement is about the limit of infinitely many days for all distributions; a test sees one finite archive.", "anchors": ["PyAnEn/Verify.py: roc", "PyAnEn/VerifyProb.py: _roc"]}
{"id": "C141", "title": "In the long run nobody discriminates better than the honest probabilities", "statement": "Let p be the probability of the event given all that is known, and e any other forecast made from what is known. The limit of the area returned by roc(...) for p is at least that for e; it is strictly larger unless e puts almost all pairs of days with different probabilities in the same order; it is at least one half, and more than one half unless p is almost surely the same. If it is strictly larger then with probability one, from some day on, the area of the archive with p is larger than that of the archive with e.", "quantifier": "All probability spaces, events, information K, probabilities given K and measurable functions of K.", "why_tests_cant": "An inequality between limits for all distributions and all competing forecasts.", "anchors": ["PyAnEn/Verify.py: roc", "PyAnEn/VerifyProb.py: _roc"]}
{"id": "C142", "title": "One ROC area for many places, in the long run", "statement": "Let roc(over=t) or roc(below=t) be called on a verifier of any class, whose archive holds any number of places, lead times or other positions besides its days, and let the days at each position be independent with the same probabilities (whatever the positions have to do with each other). As soon as one event and one non-event are recorded anywhere, roc returns a curve and an area. As days are added the area settles at the probability that, of an event at some position and a non-event at some position on independent days, the event had the higher forecast (ties one half), positions weighed by how often events and non-events happen there. With one position this is the area of C140. It is not an average of the areas of the positions: there is a two-place archive whose forecasts are the same every day, so that each place has area 1/2, but whose returned area settles at Phi(1) > 1/2.", "quantifier": "for every class, prior state, shape, position of the day axis, threshold, direction and probability law of forecasts and observations", "why_tests_cant": "The limit is an almost-sure statement over all laws and all archive shapes, and tests see finite archives; a user who reads a pooled area above one half as skill is misled only in archives that mix places, which no single-place test shows.", "anchors": ["PyAnEn/Verify.py: roc", "PyAnEn/VerifyProb.py: _roc"]}
{"id": "C143", "title": "Over many places, honest probabilities have the largest ROC area in the long run", "statement": "Let something be known at each position of the archive before the day, and let p be the probability of the event at each position given what is known there. Of all forecasts made from what is known, position by position, none has a larger limit of the area returned by roc(...) over all positions (C142) than p. The limit for p is strictly larger as soon as the other forecasts do not order days at some two positions (or at one) as p does, and then with probability one the area returned for p is larger from some day on.", "quantifier": "for every probability law, every finite list of positions, every measurable information and every measurable competing forecast", "why_tests_cant": "An inequality between limits over all laws, shapes and competitors; finite archives can show any order.", "anchors": ["PyAnEn/Verify.py: roc", "PyAnEn/VerifyProb.py: _roc"]}
{"id": "C144", "title": "One reliability diagram for many places, in the long run", "statement": "Let reliability(nbins, over=t) or (nbins, below=t) be called on a verifier of any class and shape that averages over all axes (avg_axis=None or every axis once), and let the days at each position be independent with the same probabilities, whatever the positions have to do with each other. As days are added, the share of each bin settles at its probability at a position drawn at random; where that is not zero the bin is shown for good and its mean forecast and observed frequency settle at those of all positions together. If at each position the probability given what is known there is announced, the points settle on the diagonal. The converse fails: there is a two-place archive, 1/2 announced every day at both, whose only point settles at (1/2, 1/2) although the event is rarer than that at one place and more frequent at the other.", "quantifier": "for every class, prior state, shape, position of the day axis, number of bins, threshold, direction and probability law", "why_tests_cant": "Almost-sure limits over all laws and archive shapes; a diagram that is on the diagonal because errors of places cancel cannot be told from a right one by any finite archive averaged over all axes.", "anchors": ["PyAnEn/Verify.py: reliability", "PyAnEn/utils_verify.py: _reliability_create_split", "PyAnEn/utils_verify.py: _reliability_agg_no_boot_slice"]}
{"id": "C145", "title": "Brier scores and decompositions over days and any other axes, in the long run", "statement": "Let brier(over=t) and brier_decomp(over=t) (or below=t) be called on a verifier of any class and shape whose avg_axis names the day axis and any other axes (brier also with avg_axis=None), and let the days at each position be independent with the same probabilities. As days are added, each number of the Brier score settles at the average, over the positions averaged for it, of the expected scores there. The three numbers of the decomposition settle at reliability, resolution and uncertainty of these positions together, which are not the averages of those of the positions: there is a two-place archive whose forecasts are the same every day at each place, so that the resolution of each place is 0, but whose resolution over both places settles above 0.", "quantifier": "for every class, prior state, shape, set of averaged axes with the day axis, threshold, direction and probability law", "why_tests_cant": "Almost-sure limits over all laws, shapes and choices of axes; resolution that comes from differences between places looks like skill in any finite archive.", "anchors": ["PyAnEn/Verify.py: brier", "PyAnEn/Verify.py: brier_decomp", "PyAnEn/utils_special_boot.py: _func_brier_decomp"]}
{"id": "C146", "title": "Averages of any metric over days and any other axes, in the long run", "statement": "Let one of error, ab_error, sq_error, crps, spread and brier be called on a verifier of any class whose avg_axis names the day axis and any other axes (or is None), and let the numbers the same metric returns with avg_axis=() be present, independent and equally distributed over the days at each position, with an expected value. As days are added, the metric returns an array without the averaged axes, and each of its numbers settles at the average, over the positions averaged for it, of the expected values there. Averages over places can hide errors: there are forecasts that are 1 too low at one place and 1 too high at another whose error over days and places settles at 0, while the error over days alone settles at -1 and 1.", "quantifier": "for every class, prior state, shape, set of averaged axes with the day axis, metric that averages, and probability law", "why_tests_cant": "Almost-sure limits over all laws, shapes, metrics and choices of axes; any finite archive shows one sample.", "anchors": ["PyAnEn/Verify.py: error", "PyAnEn/Verify.py: crps", "PyAnEn/Verify.py: spread", "PyAnEn/Verify.py: _metric_workflow_2"]}
{"id": "C147", "title": "Correlations over days and any other axes, in the long run", "statement": "Let corr() be called on a verifier of any class and shape whose avg_axis names the day axis and any other axes, and let the pairs of deterministic forecast and observation at each position be independent and equally distributed over the days, with finite variances. If forecasts and observations at a position drawn at random from those averaged are not constant, then with probability one each number of the result is present from some day on and settles at their correlation, which for one position is the correlation there. Differences between positions count as skill: there is a two-place archive with forecasts and observations that have nothing to do with each other at each place, whose corr() over days settles at 0 at both places and whose corr() over days and places settles at 1/2.", "quantifier": "for every class, prior state, shape, set of averaged axes with the day axis and probability law with finite variances", "why_tests_cant": "Almost-sure limits over all laws, shapes and choices of axes; correlation that comes from differences between places looks like skill in any finite archive.", "anchors": ["PyAnEn/Verify.py: corr", "PyAnEn/utils_special_boot.py: corr"]}
{"id": "C148", "title": "Root mean square errors over days and any other axes, in the long run", "statement": "Let rmse() be called on a verifier of any class and shape whose avg_axis names the day axis and any other axes (or is None), and let the pairs of deterministic forecast and observation at each position be independent and equally distributed over the days, with finite expected squared error. As days are added, each number of the result settles at the root of the average, over the positions averaged for it, of the expected squared errors there. That is at least the average of the root mean square errors of the positions, and more if one of these differs from their average: with two places of root mean square errors 1 and 3, rmse() settles at the root of 5 and not at 2.", "quantifier": "for every class, prior state, shape, set of averaged axes with the day axis and probability law with finite expected squared errors", "why_tests_cant": "Almost-sure limits over all laws, shapes and choices of axes, and a strict inequality for all numbers of positions.", "anchors": ["PyAnEn/Verify.py: rmse", "PyAnEn/Verify.py: boot_or_avg"]}
{"id": "C149", "title": "Averages of growing archives with missing values, in the long run", "statement": "Let one of error, ab_error, sq_error, crps, spread and brier be called on a verifier of any class whose avg_axis names the day axis and any other axes (or is None), and let the numbers it returns with avg_axis=() be missing at random: presence and value at each position are independent and equally distributed over the days. With pyanen_skip_nan each number of the result is, with probability one, present from some day on and settles at the expected value of what is present, so that positions count by how often they have a value, if any of the averaged positions ever has one. If the gaps are independent of the values and equally frequent at all averaged positions, that is the limit of the complete archive. Without the setting, each number that averages over a position where values can be missing is, with probability one, missing from some day on. Forecasts 1 too low at one place and 1 too high at another that misses every second day have an error over both that settles at -1/3, although the average of the two errors is 0.", "quantifier": "for every class, prior state, shape, set of averaged axes with the day axis, metric that averages, probability law and law of missing values", "why_tests_cant": "Almost-sure limits over all laws of values and gaps; a finite archive shows one pattern of gaps.", "anchors": ["PyAnEn/Verify.py: boot_or_avg", "PyAnEn/Verify.py: _metric_workflow_2"]}
