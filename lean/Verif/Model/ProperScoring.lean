import Verif.Np.Stat

/-!
# `properscoring.crps_ensemble` for one observation

PyAnEn/VerifyEnsemble.py:95 and 105 hand observations and members to this function, with equal weights.  Its source is
not in /repo; the definitions below follow its published source: the members are sorted (`np.sort`, NaN last), then, if
numba is installed, `_crps_ensemble_gufunc` makes one pass over them, otherwise `_crps_ensemble_vectorized` evaluates a
formula on arrays.  Elsewhere in the model the score of one observation is an arbitrary function `pt`
(`Model.psCrpsEnsemble`).

Simplified: the score of no members at all is NaN (numba: a variable is read before it is assigned).
-/

namespace Model
open Np

variable {K : Type} [Field K] [LinearOrder K]

/-- the order of `np.sort`: NaN is last -/
def nanLe : Fl K → Fl K → Prop
  | _, none => True
  | none, some _ => False
  | some x, some y => x ≤ y

instance : DecidableRel (nanLe (K := K)) := fun a b => by
  cases a <;> cases b <;> unfold nanLe <;> infer_instance

/-- `np.sort` -/
def npSort (ms : List (Fl K)) : List (Fl K) := ms.insertionSort nanLe

/-- `total_weight` of `_crps_ensemble_gufunc`, all weights being 1: counts up to the first NaN -/
def psTotal : List (Fl K) → K
  | some _ :: l => 1 + psTotal l
  | _ => 0

/-- the second loop of `_crps_ensemble_gufunc`; `first` says that no member has been read, the other arguments are
`obs_cdf`, `forecast_cdf`, `prev_forecast` and `integral` -/
def psLoop (obs total : K) : Bool → List (Fl K) → K → K → K → K → Fl K
  | first, [], c, _, prev, integral =>
    if first then none else some (if c = 0 then integral + (obs - prev) else integral)
  | first, none :: _, c, _, prev, integral =>
    if first then none else some (if c = 0 then integral + (obs - prev) else integral)
  | _, some x :: l, c, cdf, prev, integral =>
    if c = 0 ∧ obs < x then
      psLoop obs total false l 1 (cdf + 1 / total) x (integral + (obs - prev) * cdf ^ 2 + (x - obs) * (cdf - 1) ^ 2)
    else psLoop obs total false l c (cdf + 1 / total) x (integral + (x - prev) * (cdf - c) ^ 2)

/-- `_crps_ensemble_gufunc` on the sorted members -/
def psOnePass (obs : Fl K) (ms : List (Fl K)) : Fl K :=
  match obs with
  | none => none
  | some y => psLoop y (psTotal (npSort ms)) true (npSort ms) 0 0 0 0

/-- `_crps_ensemble_vectorized` on the sorted members, all weights being 1 -/
def psFormula (obs : Fl K) (ms : List (Fl K)) : Fl K :=
  let f := npSort ms
  -- weights = np.where(~np.isnan(forecasts), weights, np.nan); weights = weights / np.nanmean(weights)
  let w := f.map fun x => x.map fun _ => (1 : K)
  let w := w.map fun a => Fl.div a (nanmean w)
  -- np.nanmean(weights * abs(forecasts - observations))
  let score := nanmean (List.zipWith (fun a x => Fl.mul a (Fl.abs (Fl.sub x obs))) w f)
  -- -0.5 * np.nanmean(weights_matrix * abs(forecasts_diff), axis=(-2, -1))
  let pairs := (w.zip f).flatMap fun p => (w.zip f).map fun q => Fl.mul (Fl.mul p.1 q.1) (Fl.abs (Fl.sub p.2 q.2))
  Fl.add score (Fl.mul (some (-1 / 2)) (nanmean pairs))

end Model
