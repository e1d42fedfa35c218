# Formal model of PyAnEn in Lean 4: design

## 1. What is modelled, and how

The model is a shallow, executable transcription of `/repo/PyAnEn/*.py` in Lean 4.
Exceptions are values (`Except Err α`), a function that mutates an argument returns the new
value, loops are folds or structural recursion, and every random draw, task schedule, crash
point and library routine we do not own is a parameter over which theorems quantify.

| layer | directory | content |
|---|---|---|
| numpy fragment | `Verif/Np` | n-d arrays as C-order lists with a shape; index arithmetic, `transpose`, `moveaxis`, `reshape`, `split`, `concatenate`, NaN-aware scalars, `mean`/`nanmean`, `quantile`, `digitize`, `bincount`, `linspace`, `array_split` |
| model of the package | `Verif/Model` | one file per Python module; each definition cites file and lines |
| specifications | `Verif/Spec` | small definitions used to state the properties, independent of the model |
| helper lemmas | `Verif/Lemmas` | proofs |
| property theorems | `Verif/Props` | one theorem (or a few) per property `Cxx`, with satisfiability examples |

Numbers are elements of an arbitrary linearly ordered field `K` (so theorems hold for ℚ and ℝ);
floating-point rounding is modelled only for C80, C89, C104, C110 and C113 (`Model/Rounding`, `Model/RoundingBins`, `Model/RoundingDecomp`, `Model/RoundingCrps`); overflow and infinities are **not** modelled. A missing value (NaN) is
`none : Option K`, with IEEE comparison behaviour (every comparison with NaN is false) and
propagation through arithmetic. Square roots and special functions are ℝ-valued or parameters.

## 2. Plan per property

| id | model | method |
|---|---|---|
| C01, C02 | `boot_arr`: sort axes, repeated `moveaxis`, reshape, per-column bootstrap | invariant over the axis loop: label list = sample axes ++ kept axes; row-major index algebra. C02 is false for mixed signs: witness + partial (all axes non-negative, or all negative) |
| C03, C04, C05 | split functions | same axis invariant; sort is a permutation of pairs |
| C06 | all reshapes | shape computations |
| C07 | mean over axes | re-indexing of finite sums |
| C08 | error metrics | Jensen / Cauchy–Schwarz on lists |
| C09, C10 | `ens_to_prob` | counting; column split/reassembly |
| C11, C12 | Brier | case analysis; false at ties for `below` (witness), proved otherwise |
| C13 | `_func_brier_decomp` | grouping sums by bin |
| C14–C16 | `rankdata`, `rank_histogram` | oracle for random integers; counting; C15 is false when no position is tie-free: witness + partial |
| C17, C63 | reliability diagram | `digitize` on a strictly increasing grid; regrouping of sums |
| C18 | spread-skill bins | `array_split` sizes, sortedness |
| C19 | IOU | counting |
| C20 | ROC input | list filter/zip |
| C21 | correlation | Cauchy–Schwarz over ℝ |
| C22, C23 | Diebold–Mariano | algebra over ℝ, abstract Student-t CDF |
| C24–C26 | bootstrap intervals | linear-interpolation quantile: monotone, bounded. C25, C26 false in general: witnesses + partial |
| C27 | reliability index | algebra; the flat-histogram clause is false: refuted for every length ≥ 2 |
| C28 | trapezoid sums | sums, Jensen |
| C29 | ray collection | induction over schedules |
| C30 | memmap rows | writes to distinct cells commute |
| C31 | default range | false for constant observations: exact characterisation |
| C32 | environment | state transformer with exceptions; false on the exception path |
| C33–C35 | CDF functions | pointwise case analysis; C34 false: exact excess computed |
| C36 | parallel CDF | split/concatenate identity; truncated gamma refuted |
| C37 | truncated gamma | monotone inverse pair |
| C38 | truncated Gaussian CRPS | explicit antiderivative and improper integral over ℝ |
| C39 | gamma CRPS | homogeneity |
| C40 | CRPS split | stack of slices |
| C41, C42 | PIT and sampled ensembles | oracle for draws |
| C43–C51 | save/load state machine | file system as a map from paths; invariant by induction over histories; crash = prefix of atomic effects |
| C52–C56 | class API | branch-by-branch |
| C57 | import-time defaults | finite map |
| C58–C60 | `Grid`, `IO` | formatter/parser round trip; order of fractions |
| C61 | ensemble variance/spread | inequalities |
| C62 | NaN skipping | filter; refuted for observations in `brier` |
| C64, C65 | setters, `to_name` | step function of the object; injectivity of the name up to the printed text of each argument; refuted for arguments printed alike |
| C66 | scratch file of `Integration` | small-step processes over a shared path; simulation under any interleaving when paths differ; witness for equal paths |
| C67–C69 | `IO` | dataset as a list of variables; frame properties |
| C70, C71 | CRPS formulas | all branches of the broadcasting block; comparison with the integral of the reported CDF over ℝ |
| C72 | trapezoid error | monotone CDF: the sum is within bin width times total variation of the integral |
| C73 | KDE probabilities | Riemann sum against the integral of the kernel; three refutations |
| C74 | bootstrap mean | average over all draws, by induction on the sample length |
| C75 | deterministic and ensemble classes | composition of the class model with the numeric model; constructor to result, plain, bootstrapped and saved |
| C76, C77 | probabilistic classes | the same for Gaussian, gamma and hurdle verifiers |
| C78 | jobs sharing a working directory | small-step interleaving with files written piece by piece; invariant over all schedules; the sequential model is refined by one job alone; refuted for simultaneous writers |
| C79 | `read_station_coordinates` | composition of `postOpen` with the coordinate lookup; every error branch |
| C80 | rounded arithmetic | the metrics recomputed with an arbitrary monotone rounding after every operation and an arbitrary summation tree; induction over the tree; instantiated at 53-bit binary rounding |
| C81 | change of units | every array operation commutes with an elementwise map (`Lemmas/Natural`); comparisons do not see strictly increasing maps (`Lemmas/Ordinal`), sums, quantiles and square roots scale (`Lemmas/Scale`); lifted to metric calls by a simulation between two runs (`Lemmas/Same`) |
| C82 | last value of a setting | induction over the history with the invariant "the object has the last accepted values"; the constructor run on those values gives the same object |
| C83 | order of the members | the scalar reductions are invariant under permutations; shuffled verifiers run the same programs, so by induction no history of calls tells them apart |
| C84 | pools | each value is characterised by the list pooled in it (C75), the characterisation is unique and invariant under permutations; multi-indices over a kept position of the selected array map onto those of the full array |
| C85 | wrong axes | case analysis of numpy's axis normalisation; induction over the axis-moving loop gives exactly the accepted lists; counting shows that the transposition of the special bootstrap accepts only distinct existing axes |
| C86 | environment changes | the stored part of every metric is the same under all environments except for spread, rank_hist and roc; the directory invariant of C43 is therefore kept by calls under changing environments |
| C87 | save names | the directory invariant with names assigned by the calls of the history instead of the default ones |
| C88 | CRPS and Brier scores | squared error of an average = average squared error minus half the average squared difference, integrated step by step |
| C89 | rounding errors | closeness relation with a count of roundings, composed through sums, products, quotients and roots |
| C90 | ROC area | induction over the sorted list with a pending run of ties; collinear points do not change the area; the curve is determined by its set of points |
| C91 | share of an averaged interval | counting below and above an interpolated order statistic; the three counts add up |
| C92 | share of a curve's interval | the same count with the other quantiles; false for the requested share, refuted for every list of enough distinct replicates |
| C93 | what the constructors accept | exact iff for each class, branch by branch through the constructors; negative member counts fail when used |
| C94 | thresholds of another shape | `iou_determ` repeats the threshold along the missing or length-1 axes (spec `Repeats`, stated with aligned positions); the event metrics of the ensemble and the distribution classes raise `AssertionError` |
| C95 | `open_mfdataset` | order of the files by rank number as a sorted permutation of the paths; spec `SideBySide`/`Joined` says where each entry of each file is found |
| C96 | no station is lost | false for equal rank numbers (witness: same name in two directories); partial for distinct ones: every file has an offset at which all its stations are found |
| C97 | one file, two functions | false (names, coordinates); partial: values of variables without characters |
| C98 | proper scores | squared distances split at group averages (cross terms cancel within groups), integrated over thresholds; distance zero forces equal step functions by right-continuity |
| C99 | consistent ensembles | sums over groups of values taking turns; sorting a group shows every rank once |
| C100 | sorting in place | refinement: the loop over a memory of buffers computes what the loop over values does, for arrays that share no place; frame by the places each assignment touches; false for a second call (witness: transposed layout) |
| C101 | curves and averages | sums over the groups of a partition, Jensen within each group; balanced bin sizes are positive |
| C102 | scores of two parts | the average over a permutation of `l₁ ++ l₂`; the fibers of a cut axis are a disjoint union |
| C103 | printed description | the text is split at its line breaks, each line loses its label, each value is read back (`int(str(i)) = i`) |
| C104 | rounded reliability bins | the computed edges are within 7u of the equidistant ones, fractions of m members are 1/(mn) apart, and the edges are stretched by 1e-8: so a comparison of a rounded fraction with a rounded edge has the answer of integer arithmetic |
| C105 | deterministic metrics | the slots of the deterministic metrics of every class read the forecasts only through `f_determ`; for ensembles a simulation between the two objects over any history |
| C106 | members alone | averaging over members and over positions commute; sums of squares split about the mean; Minkowski for rmse; the CRPS kernel form for the equality case |
| C107 | correlation and error | sums of squares of `dx - a dy`; Cauchy-Schwarz with its case of equality; the Pearson specification of `corr()` gives the covariance |
| C108 | stability | averages are 1-Lipschitz in the largest difference; root mean squares by Minkowski; the CRPS kernel as the mean over pairs of members of the distance of the observation from the interval between them; a witness for every bound that the Brier score has none |
| C109 | properscoring | loop invariant of the pass over sorted members before and after the observation is passed: the integral so far is the sum over pairs of members of the distance of the observation from the interval between them; sorting puts missing members last; the formula on arrays reduces to the same sum |
| C110 | Brier decomposition of ensembles | twenty cells on [0,1] separate fractions that are at least 1/19 apart, with 5u to spare for the edges; the identity by summing over vote counts; an error calculus through the loop over the bins; machine numbers of the relevant fractions computed for the witness |
| C111 | workers of an integration that save | isolation: a job that uses its own names only does what it does alone on its own files, whatever the others do; names of different grid points differ; then the sequential theorem about saved results; kernel computation for the race on constant observations |
| C112 | integrations after a failed one | refinement of the process state (environment, files, Ray) to two variables, step by step over arbitrary histories; the settings left behind by an exception |
| C113 | rounded CRPS | simulation of the rounded loop by the exact one: every term is a gap times a squared share, so errors stay relative; the share from above loses a factor of at most n (Bernoulli); the formula on arrays by the calculus of C89; the diagonal pairs bound the mean distance by n times the score |
| C114 | save names with slashes | path resolution as a walk over the directories, which saving does not change; a run adds only pickles where its names lead; without slashes refinement to the file system of the other claims; kernel computation for names that lead outside |
| C115 | crps_gaussian | symmetry of the normal distribution; antiderivatives of `Phi²` and `(1 - Phi)²` on the two half lines; then the end-to-end theorem for the class |
| C116 | honest forecasts | Fubini: the expected integrand at a threshold is a squared difference plus the variance of the indicator; right-continuous functions at distance zero are equal; parameters recovered from the distribution (log densities for the truncated normal, growth of the log density at infinity for the gamma) |
| C117 | uniform PIT | right-continuity and the intermediate value theorem give the level sets; the atom at zero is filled by an independent uniform draw; converse from strict monotonicity |
| C118 | random ensembles | mean distance of two independent numbers by Fubini on the product law; second moments of averages of pairwise independent members; then the end-to-end theorems per draw |
| C119 | flat rank histogram | the numbers of values below each value are a permutation of 0..n when the values differ; swapping two values carries one rank event into the other; product measures for independent draws |
| C120 | expected Brier score | bias-variance split of the indicator of the event; the distribution values of C117 at the threshold; the ensemble score as squared error of averaged votes |
| C121 | expected reliability curve | the bins depend on the forecasts only; linearity of the mean over the positions of a bin |
| C122 | flat rank histogram of sampled members | exchangeability as for C119; conversely the highest rank among n members has the n-th moment of the transformed observation as probability, and the moments determine a distribution on the unit interval (complex moment generating function) |
| C123 | expected spread-skill diagram | the groups in terms of the sort, which sees the variances only, so they are groups of positions; bias-variance split per position; the mean of a root by non-negativity of a variance |
| C124 | sign of the Diebold-Mariano statistic | case analysis of the sign of the variance estimate, which is a textbook sum; sums of list differences by induction |
| C125 | p-value of the Diebold-Mariano test | integrability of the Student density by the Japanese bracket; symmetry by substitution; strict growth from a positive density |
| C126 | repeated calls | a call run to its end leaves its array on disk, postprocessing is at most one draw; what is on disk stays by induction over the calls |
| C127 | copies of the members | equal shares are equal multiples; every reduction ignores order and copying; simulation over histories |
| C128 | errors of right forecasts | equal distribution functions are equal laws; tail moments of the normal density by its antiderivatives; gamma moments by shifting the shape |
| C129 | expected Brier decomposition | second moments of weighted sums of pairwise independent indicators; averages over the bins are averages over all; bins counted by their index |
| C130 | closeness to the expected values | Hoeffding inequality for sums of independent bounded variables; the difference of two Brier scores is such a sum; union bound over the bins |
| C131 | scores in the long run | strong law of large numbers for pairwise independent, identically distributed days; joint measurability of the score in the parameters and the observation; Fubini and conditional probabilities for the comparison |
| C132 | diagrams, decompositions and correlations in the long run | strong law for the indicator of a bin times forecast or event; quotients of limits; squares divided by bin frequencies, including bins of probability zero; regrouping averages over positions into sums over bins |
| C133 | opening with `decode=True` | per-variable model of `decode_cf` with the reading of units as a parameter; lookup through the loop of C69, units of C68 |
| C134 | IOU, ranks and PIT of growing archives | strong law for counts of days; transforms of right forecasts via the conditional distribution (`condDistrib`) of the observation given the parameters |
| C135 | power and size of the Diebold-Mariano test | strong law for products of numbers a fixed lag apart (classes of remainders), so that the variance estimate settles for every `h`; central limit theorem and Slutsky; Student densities converge with a common bound |
| C136 | coverage of bootstrap intervals | central limit theorem for the resampled means given the data, by characteristic functions, uniform enough to be combined with the strong law for the repeats and the central limit theorem for the data; counts of repeats on both sides of the truth decide the coverage |
| C137 | texts of settings | the recursive readers are shown equal to a grammar (groups of digits joined by underscores, value by `Nat.ofDigits`); constructor options as a decision table |
| C138 | bootstrap with a fixed number of draws | characteristic functions of the resampled means converge, for all arguments at once and almost all data, to that of an average of n data; portmanteau bounds on half lines, combined with the strong law for the repeats |
| C139 | what is averaged | the private methods of six metrics do not read avg_axis and boot_samples; averaging over no axes is the identity, so the public call with avg_axis=() exposes their array; lifted to the long-run coverage of C136 and C138 |
| C140 | ROC area in the long run | empirical pair averages converge almost surely for any distribution: the line is cut into finitely many cells that hold little mass but one point, pair averages over cells are polynomials in shares of days (strong law), the remainder is bounded by the mass beside those points; linked to the area by C90 |
| C141 | the best ROC area | the probability given what is known replaces the event under the integral over pairs; exchanging the two days turns the difference of two areas into the mean of a nonnegative gain |
| C142 | one ROC area pooled over positions, long run | two-sample pair limit of C140 applied to the mixture over positions; explicit two-place witness |
| C143 | best ROC area over many positions | C141 for pairs of days at two positions; summing over all ordered pairs of positions and exchanging them gives half the total of nonnegative gains |
| C144 | reliability diagram pooled over positions, long run | limits of C132 at each position, averaged; explicit two-place witness for the converse |
| C145 | Brier score and decomposition over days and other axes, long run | the averaged positions are all days at the places with the same kept coordinates; limits at each place, averaged; explicit two-place witness |
| C146 | averages of any metric over days and other axes, long run | C139 (averages are those of the numbers with `avg_axis=()`), then the strong law at each place as in C145; explicit two-place witness |
| C147 | correlation over days and other axes, long run | correlation as a function of five averages, each with a limit as in C145; explicit two-place witness |
| C148 | root mean square error over days and other axes, long run | C75 for the values, limits as in C145, continuity of the root; variance of a list for the comparison |
| C149 | averages with missing values, long run | C139 for what is averaged; shares of present values and their sums settle, then their quotient; explicit two-place witness |

## 3. Coverage

Every function of the package is listed here with the Lean file that models it.

| Python | Lean | left out or simplified |
|---|---|---|
| `Verify.py` constructor, setters, `_validate*`, `_save`, `_load`, `_metric_workflow_*`, `to_name`, all public metrics | `Model/Api`, `Model/SaveName`, `Model/SavePath`, `Model/Cache`, `Model/Jobs`, `Model/Repr` | the printed messages; `__repr__` before validation has finished; pickles are abstract values, whole or torn; symbolic links |
| `Verify.boot_or_avg`, `post_*`, `rmse`, `reliability_index` | `Model/Average`, `Model/Reliability`, `Model/SpreadSkill`, `Model/ApiInst` | |
| `VerifyDeterm.py` | `Model/Average`, `Model/ApiInst` | |
| `VerifyEnsemble.py` | `Model/Ensemble`, `Model/Rank`, `Model/Crps`, `Model/Iou`, `Model/ApiInst`, `Model/Repr` | `_crps` uses `properscoring.crps_ensemble`, an arbitrary pointwise function `pt` in the model; `Model/ProperScoring` gives properscoring's published algorithm (C109), `Model/RoundingCrps` the same in rounded arithmetic (C113) |
| `VerifyProb.py` | `Model/Dist`, `Model/ApiProb`, `Model/Repr` | |
| `VerifyProbGaussian.py`, `VerifyProbGamma.py`, `VerifyProbGammaHurdle.py` | `Model/ApiProb`, `Model/Crps`, `Model/PsGaussian`, `Model/Dist`, `Model/Integration` | the integrations of the hurdle class run with one worker and in memory inside `ApiProb`; the other modes are in `Model/Integration` and proved equal there (C29, C30); workers that save are in `Model/Workers` (C111), where the results are fetched after all tasks have ended |
| `utils_verify.py` | `Model/Rank`, `Model/Kde`, `Model/Ensemble`, `Model/Boot`, `Model/Reliability`, `Model/Iou` | progress bars; `sklearn` kernel density as an arbitrary kernel; `roc_curve` as an arbitrary function (`Model/Roc` gives scikit-learn's published algorithm, used by C90 only) |
| `utils_ss.py` | `Model/SpreadSkill`, `Model/InPlace` | progress bars; `Model/InPlace` has the sorting in place, whether `reshape` copies is an arbitrary function of the layout |
| `utils_special_boot.py` | `Model/SpecialBoot`, `Model/MoveLoop` | progress bars |
| `utils_significance.py` | `Model/Significance` | the Student distribution is a parameter, instantiated by its density in C125 |
| `utils_dist.py` | `Model/Dist` | scipy distributions are parameters; parameters of unequal shapes broadcast as in numpy |
| `dist_truncgamma.py` | `Model/Dist` | the `rv_continuous` wrapper |
| `utils_crps.py` | `Model/Crps` | special functions are parameters, instantiated at ℝ for the integral theorems |
| `utils_approximation.py` | `Model/Integration`, `Model/Workers`, `Model/RaySession`, `Model/Scratch` | ray's scheduler is an arbitrary completion order; the memory map is a finite map from cells to values |
| `Grid.py` | `Model/Grid`, `Model/IO` | netCDF reading is a lookup in a dataset |
| `IO.py` | `Model/IO`, `Model/Decode`, `Model/OpenMany` | xarray datasets as lists of variables; `decode=True` in `open_mfdataset` and attributes other than `units` in `open_dataset(decode=True)`; in `open_mfdataset`, files that differ in dimension coordinates other than `num_stations` or in their variables; character codes other than UTF-8 |
| `__init__.py` | `Model/Init`, `Model/Settings` | the warning filters |

### Semantics chosen for the Python and numpy primitives

* Integers are unbounded; `int(text)` and `strtobool` are transcribed (`Model/Settings`).
* `np.random.choice`/`randint` are arbitrary functions of the call, constrained only to their documented range.
* `np.quantile` is linear interpolation of the sorted sample.
* `np.moveaxis`, `transpose`, `reshape`, `split`, `concatenate` are index maps on C-order lists; out-of-range axes are `AxisError`.
* A result without axes is a numpy scalar. Assigning to its items is a `TypeError`; this is modelled where the code does
  so (the clipping in the `cdf_*` functions).
* Division by zero gives NaN, as infinities are not modelled. Where an infinity matters (Diebold–Mariano) the extended type `Ext` is used.
* Elementwise expressions of two arrays follow numpy's broadcasting rule (`NDArr.zipWith`, `bcShape`, `bcIdx`): shapes are
  aligned at the last axis, axes of length 1 are repeated, anything else is a `ValueError`. A threshold given as a
  Python list is refused by the model wherever it is compared; numpy would accept it in `iou_determ`.
* `isinstance` tests are matches on tagged values (`PyVal`, `Arg`, `Thr`, `PyAxis`, `PyBoot`, `PyDir`, `PySet`).
  numpy integer scalars as `avg_axis` or `boot_samples` are not modelled.
* The environment is a map from names to texts; a missing name is `KeyError`.
* The file system maps paths to a directory or file content. A crash cuts the list of atomic effects; writing a pickle
  consists of truncation and completion.

## 4. Trusted base

* Lean 4.33 kernel and the Mathlib modules imported.
* Axioms: `propext`, `Classical.choice`, `Quot.sound` only. `AXIOMS.txt` lists them for every theorem in `Verif/Props`;
  it is produced by `tools/axioms.py`.
* The reading of the Python source and of the numpy/scipy/xarray/ray/os primitives listed in section 3.
* `Model/OpenMany.combineStations` is a transcription of what `xr.open_mfdataset(combine='by_coords', data_vars='minimal', coords='minimal', compat='override')` does with files along `num_stations` (xarray itself is not part of the repository).
* Statements are about exact arithmetic in a linearly ordered field, except C80, C89, C104, C110 and C113, which redo the ensemble
  probabilities, Brier score, errors, averages, reliability diagrams, Brier decompositions and ensemble CRPS in `Model/Rounding`, `Model/RoundingBins`, `Model/RoundingDecomp` and `Model/RoundingCrps` with every operation rounded (any monotone rounding that
  keeps small integers, e.g. 53-bit binary). Overflow, infinities and subnormal underflow are not modelled anywhere.

## 5. Tests of the theorems

`seeded/LOG.jsonl` records wrong programs: one definition of the model is changed, the project is rebuilt in a copy, and
the theorems that no longer check are listed. A change that no theorem notices leads to a new or tightened theorem.

Limits of this log. An entry says that a proof no longer checks, which is weaker than saying that the theorem is false of
the wrong program: a proof can also break, or run out of time, where its statement still holds. One such case was found
(`reliabilityDiagramBoot` with the draws of the first column for all columns); it is logged as a survivor and led to
`C03_draws`. The other entries were not searched for such cases.
