import Verif.Model.ProperScoring
import Verif.Model.Rounding
import Verif.Model.Crps

/-!
# `properscoring.crps_ensemble` in rounded arithmetic

The two versions of Model/ProperScoring with a rounding after every operation (VerifyEnsemble.py:86-105 calls them).
Comparisons and sorting are exact.
-/

namespace Model
open Np

variable {K : Type} [Field K] [LinearOrder K]

/-- the first loop of `_crps_ensemble_gufunc`: `total_weight += weight` up to the first NaN -/
def psTotalR (R : Rounding K) : K → List (Fl K) → K
  | t, some _ :: l => psTotalR R (R.rnd (t + 1)) l
  | t, _ => t

/-- `integral + (b - a) * p ** 2` -/
def psAddR (R : Rounding K) (integral a b p : K) : K := R.rnd (integral + R.rnd (R.rnd (b - a) * R.rnd (p * p)))

/-- the second loop of `_crps_ensemble_gufunc`, arguments as for `psLoop` -/
def psLoopR (R : Rounding K) (obs total : K) : Bool → List (Fl K) → K → K → K → K → Fl K
  | first, [], c, _, prev, integral =>
    if first then none else some (if c = 0 then R.rnd (integral + R.rnd (obs - prev)) else integral)
  | first, none :: _, c, _, prev, integral =>
    if first then none else some (if c = 0 then R.rnd (integral + R.rnd (obs - prev)) else integral)
  | _, some x :: l, c, cdf, prev, integral =>
    let cdf' := R.rnd (cdf + R.rnd (1 / total))
    if c = 0 ∧ obs < x then
      psLoopR R obs total false l 1 cdf' x (psAddR R (psAddR R integral prev obs cdf) obs x (R.rnd (cdf - 1)))
    else psLoopR R obs total false l c cdf' x (psAddR R integral prev x (R.rnd (cdf - c)))

/-- `_crps_ensemble_gufunc` on the sorted members -/
def psOnePassR (R : Rounding K) (obs : Fl K) (ms : List (Fl K)) : Fl K :=
  match obs with
  | none => none
  | some y => psLoopR R y (psTotalR R 0 (npSort ms)) true (npSort ms) 0 0 0 0

/-- `_crps_ensemble_vectorized` on the sorted members, all weights being 1 -/
def psFormulaR (R : Rounding K) (S : SumOrder) (obs : Fl K) (ms : List (Fl K)) : Fl K :=
  let f := npSort ms
  -- weights = np.where(~np.isnan(forecasts), weights, np.nan); weights = weights / np.nanmean(weights)
  let w := f.map fun x => x.map fun _ => (1 : K)
  let w := w.map fun a => rop R (· / ·) a (nanmeanR R S w)
  -- np.nanmean(weights * abs(forecasts - observations))
  let score := nanmeanR R S (List.zipWith (fun a x => rop R (· * ·) a (Fl.abs (rop R (· - ·) x obs))) w f)
  -- -0.5 * np.nanmean(weights_matrix * abs(forecasts_diff), axis=(-2, -1))
  let pairs := (w.zip f).flatMap fun p => (w.zip f).map fun q =>
    rop R (· * ·) (rop R (· * ·) p.1 q.1) (Fl.abs (rop R (· - ·) p.2 q.2))
  rop R (· + ·) score (rop R (· * ·) (some (-1 / 2)) (nanmeanR R S pairs))

/-- VerifyEnsemble.py:86-105 with either version, and the average of Verify.py:103-115 without bootstrapping -/
def ensCrpsR (R : Rounding K) (S : SumOrder) (numba split skipNan : Bool) (avgAxis : Option (List Int)) (ensembleAxis : Int)
    (o f : NDArr (Fl K)) : Except Err (NDArr (Fl K)) := do
  let r ← ensembleCrps (if numba then psOnePassR R else psFormulaR R S) split ensembleAxis o f
  averageR R S skipNan avgAxis r

end Model
