import Verif.Np.Bins
import Verif.Np.Reduce

/-!
# Probabilities from a kernel density estimate (utils_verify.py:93-119)

`ens_to_prob_kde` fits scikit-learn's `KernelDensity` to the members and sums its density over sampled points.
The estimator itself (sklearn.neighbors.KernelDensity) is outside the repository; its documented meaning is used:
`exp(score_samples(x))` is the mean over the members `e` of `k((x - e) / h) / h`, where `k` is the normalised
one-dimensional kernel; `fit` and `score_samples` raise `ValueError` for NaN, for no sample and for a bandwidth
that is not positive.  The tolerances with which its trees may truncate the sum are zero by default.
-/

set_option linter.unusedSectionVars false

namespace Model
open Np

variable {K : Type} [Field K] [LinearOrder K] [IsStrictOrderedRing K]

/-- the settings read in utils_verify.py:96-99 -/
structure KdePar (K : Type) where
  bandwidth : K
  kernel : K → K
  samples : Int
  multiplier : Int

/-- `np.exp(kde.score_samples([[x]]))` for members `ms` -/
def kdeDensity (P : KdePar K) (ms : List K) (x : K) : K :=
  (ms.map fun e => P.kernel ((x - e) / P.bandwidth) / P.bandwidth).sum / (ms.length : K)

/-- scikit-learn's input validation -/
def numOrNan : Fl K → Except Err K
  | some v => .ok v
  | none => .error .value

/-- utils_verify.py:101-119 on one column: the threshold, then the members.  Lines 105-106 validate, lines 108-112
lay out the points (`np.linspace` refuses a negative number of points and `x[1]` needs two), line 119 sums. -/
def kdeCol (P : KdePar K) (col : List (Fl K)) : Except Err K :=
  match col with
  | [] => .error .index
  | below :: ens => do
    if P.bandwidth ≤ 0 then .error .value
    let ms ← mapE numOrNan ens
    match ms with
    | [] => .error .value
    | m :: rest =>
      let vmin := rest.foldl min m
      let vmax := rest.foldl max m
      let lo := vmin - (vmax - vmin) * (P.multiplier : K)
      if P.samples < 0 then .error .value
      if P.samples < 2 then .error .index
      match below with
      | none => .error .value
      | some b =>
        let x := linspace lo b P.samples.toNat
        let interval := x.getD 1 0 - x.getD 0 0
        pure ((x.map (kdeDensity P ms)).sum * interval)

end Model
