import Verif.Np.Stat
import Verif.Np.Except

/-!
# `sklearn.metrics.roc_curve` and `sklearn.metrics.auc`

PyAnEn/utils_verify.py:213-214 hands the pairs of probability and event to these two functions of scikit-learn, with
their default arguments.  Their source is not in /repo; the definitions below follow scikit-learn's published
`_binary_clf_curve`, `roc_curve(drop_intermediate=True)` and `auc`.  Elsewhere in the model the two functions are an
arbitrary parameter (`Cfg.rocCurve`); only the theorems of C90 assume that the parameter is `skRoc`.

Simplified: the counts are exact numbers (scikit-learn: floats of 64 bits, exact below 2^53), warnings are not
modelled, and an empty input is a `ValueError` (scikit-learn: an exception whose type depends on the version).
-/

namespace Model
open Np

variable {K : Type} [Field K] [LinearOrder K]

/-- one step of the two cumulative sums of `_binary_clf_curve`: non-events and events so far -/
def countOne (n : Nat × Nat) (event : Bool) : Nat × Nat := if event then (n.1, n.2 + 1) else (n.1 + 1, n.2)

/-- `_binary_clf_curve`: pairs in decreasing order of the score; the cumulative counts are kept where the next score is
different, and at the end -/
def cutPoints : List (K × Bool) → Nat × Nat → List (Nat × Nat)
  | [], _ => []
  | [a], n => [countOne n a.2]
  | a :: b :: l, n =>
    if a.1 = b.1 then cutPoints (b :: l) (countOne n a.2) else countOne n a.2 :: cutPoints (b :: l) (countOne n a.2)

/-- the sum of the two neighbours of a point is twice the point: the second differences vanish in both coordinates -/
def midpoint (p c n : Nat × Nat) : Bool := p.1 + n.1 = 2 * c.1 ∧ p.2 + n.2 = 2 * c.2

/-- the part of `keepCorners` behind the point `p` -/
def cornersFrom : Nat × Nat → List (Nat × Nat) → List (Nat × Nat)
  | _, [] => []
  | _, [c] => [c]
  | p, c :: n :: l => if midpoint p c n then cornersFrom c (n :: l) else c :: cornersFrom c (n :: l)

/-- `drop_intermediate`: the first and the last point, and those with a second difference that is not zero -/
def keepCorners : List (Nat × Nat) → List (Nat × Nat)
  | [] => []
  | c :: l => c :: cornersFrom c l

/-- `np.diff` -/
def diffs : List (Fl K) → List (Fl K)
  | a :: b :: l => Fl.sub b a :: diffs (b :: l)
  | _ => []

/-- `x[1:] + x[:-1]` -/
def pairSums : List (Fl K) → List (Fl K)
  | a :: b :: l => Fl.add b a :: pairSums (b :: l)
  | _ => []

/-- `np.trapezoid(y, x)` -/
def trapezoid (x y : List (Fl K)) : Fl K :=
  fsum (List.zipWith (fun d s => Fl.div (Fl.mul d s) (some 2)) (diffs x) (pairSums y))

/-- `sklearn.metrics.auc` -/
def skAuc (x y : List (Fl K)) : Except Err (Fl K) :=
  if x.length ≠ y.length then .error .value
  else if x.length < 2 then .error .value
  else if (diffs x).any fun d => Fl.lt d (some 0) then
    if (diffs x).all fun d => Fl.le d (some 0) then .ok (Fl.mul (some (-1)) (trapezoid x y)) else .error .value
  else .ok (trapezoid x y)

/-- `fps / fps[-1]`, or NaN everywhere when the last count is zero -/
def rates (cs : List Nat) : List (Fl K) :=
  cs.map fun c : Nat => if cs.getLast?.getD 0 = 0 then none else some ((c : K) / (cs.getLast?.getD 0 : Nat))

/-- `sklearn.metrics.roc_curve` on complete scores: false and true positive rates -/
def skCurve (q : List (K × Bool)) : List (Fl K) × List (Fl K) :=
  let pts := (0, 0) :: keepCorners (cutPoints (q.insertionSort fun a b => b.1 ≤ a.1) (0, 0))
  (rates (pts.map Prod.fst), rates (pts.map Prod.snd))

/-- utils_verify.py:213-214: `metrics.roc_curve(y_true=o_binary, y_score=f_prob)` followed by `metrics.auc(fpr, tpr)`;
scikit-learn rejects missing scores.  The events come from a boolean array, so they are 0 or 1. -/
def skRoc (f o : List (Fl K)) : Except Err (List (Fl K) × List (Fl K) × Fl K) :=
  if f.length ≠ o.length then .error .value
  else if none ∈ f ∨ none ∈ o then .error .value
  else if f = [] then .error .value
  else
    let q := (f.filterMap id).zip ((o.filterMap id).map fun v => decide (v = 1))
    let r := skCurve q
    (skAuc r.1 r.2).map fun a => (r.1, r.2, a)

end Model
