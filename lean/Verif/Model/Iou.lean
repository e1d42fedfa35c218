import Verif.Model.Ensemble

/-!
# Intersection over union and ROC input
(utils_verify.py:202-216 and 501-539, VerifyEnsemble.py:157-169)
-/

set_option linter.unusedSectionVars false

namespace Model
open Np NDArr

variable {K : Type} [Field K] [LinearOrder K]

/-- `np.count_nonzero` of booleans -/
def countTrue (l : List Bool) : Nat := l.countP id

/-- utils_verify.py:501-510.  The NaN assertion is trivially true for boolean arrays.  Without an axis,
`np.count_nonzero` returns Python integers, so an empty union is a `ZeroDivisionError` (`generic`);
with an axis tuple it returns numpy integers and `0/0` is NaN. -/
def iou (fb ob : NDArr Bool) (axis : Option (List Int)) : Except Err (NDArr (Fl K)) := do
  let inter ← zipWith (fun a b => a && b) fb ob
  let union ← zipWith (fun a b => a || b) fb ob
  match axis with
  | none =>
    if countTrue union.data = 0 then .error .generic
    else pure (full [] (some ((countTrue inter.data : K) / (countTrue union.data : K))))
  | some l => do
    let i ← reduceAxes countTrue inter (some l)
    let u ← reduceAxes countTrue union (some l)
    zipWith (fun (a b : Nat) => Fl.div (some (a : K)) (some (b : K))) i u

/-- utils_verify.py:513-524 -/
def iouDeterm (f o : NDArr (Fl K)) (axis : Option (List Int)) (over below : Option (Thr K)) :
    Except Err (NDArr (Fl K)) :=
  if f.shape = o.shape then
    match over, below with
    | none, some b => do
      let fb ← cmpThr Fl.lt f b
      let ob ← cmpThr Fl.lt o b
      iou fb ob axis
    | some t, none => do
      let fb ← cmpThr (fun x v => Fl.lt v x) f t
      let ob ← cmpThr (fun x v => Fl.lt v x) o t
      iou fb ob axis
    | _, _ => .error .assertion
  else .error .assertion

/-- utils_verify.py:531-536, the assertion `0 <= p <= 1`: an array of one element is tested like a number, other arrays
have no truth value, and a list cannot be compared with a number -/
def probThr : Thr K → Except Err Unit
  | .scalar v => if Fl.le (some 0) v && Fl.le v (some 1) then .ok () else .error .assertion
  | .array a => match a.data with
    | [v] => if Fl.le (some 0) v && Fl.le v (some 1) then .ok () else .error .assertion
    | _ => .error .value
  | .other => .error .type

/-- utils_verify.py:527-539 -/
def iouProb (p : NDArr (Fl K)) (ob : NDArr Bool) (axis : Option (List Int))
    (over below : Option (Thr K)) : Except Err (NDArr (Fl K)) :=
  if p.shape = ob.shape then
    match over, below with
    | none, some b => do
      probThr b
      let fb ← cmpThr Fl.lt p b
      iou fb ob axis
    | some t, none => do
      probThr t
      let fb ← cmpThr (fun x v => Fl.lt v x) p t
      iou fb ob axis
    | _, _ => .error .assertion
  else .error .assertion

/-- element `i` of a Python sequence; `IndexError` if it is too short -/
def seqGet {α : Type} (l : List α) (i : Nat) : Except Err α :=
  match l[i]? with
  | some x => .ok x
  | none => .error .index

/-- VerifyEnsemble.py:160-169 and VerifyProb.py (same text): `none` is Python's `None`, `some l` a tuple
or list with elements `l` (each `None` or a threshold).  The forecast probability and the binary
observation come from `cdf` and `binarize_obs` with the first elements. -/
def iouProbMetric (cdf : Option (Thr K) → Option (Thr K) → Except Err (NDArr (Fl K)))
    (o : NDArr (Fl K)) (axis : Option (List Int)) (over below : Option (List (Option (Thr K)))) :
    Except Err (NDArr (Fl K)) :=
  match over, below with
  | some ov, some be =>
    if ov.length = 2 ∨ be.length = 2 then do
      let o0 ← seqGet ov 0
      let b0 ← seqGet be 0
      let p ← cdf o0 b0
      let ob ← binarizeObs o o0 b0
      let o1 ← seqGet ov 1
      let b1 ← seqGet be 1
      iouProb p ob axis o1 b1
    else .error .assertion
  | _, _ => .error .assertion

/-- boolean-mask indexing `x[~mask]` -/
def dropMasked {α : Type} (x : List α) (mask : List Bool) : List α :=
  (x.zip mask).filterMap fun p => if p.2 then none else some p.1

/-- utils_verify.py:202-216; `roc` stands for `metrics.roc_curve` followed by `metrics.auc` -/
def calculateRoc {R : Type} (roc : List (Fl K) → List (Fl K) → Except Err R) (skip : Bool)
    (fProb oBinary : NDArr (Fl K)) : Except Err R :=
  let f := fProb.data
  let o := oBinary.data
  if skip then
    if f.length = o.length then
      let mask := List.zipWith (fun x y => Option.isNone x || Option.isNone y) f o
      roc (dropMasked f mask) (dropMasked o mask)
    else .error .value
  else roc f o

end Model
