import Verif.Np.Reduce
import Verif.Np.Sort

/-!
# Ensembles to probabilities, binary observations, Brier scores
(utils_verify.py:122-199, VerifyEnsemble.py:116-118 and 171-221)

Settings are passed as already parsed values: `workers` is `int(os.environ['pyanen_tqdm_workers'])`,
`method` is `os.environ['pyanen_ens_to_prob_method']`.  The kernel density estimate of one column
(utils_verify.py:93-119, scikit-learn) is an arbitrary function `kde` of the column.
-/

set_option linter.unusedSectionVars false

namespace Np.NDArr

/-- `np.expand_dims(a, ax)`; the axis is normalised against the new rank -/
def expandDims {α : Type} (a : NDArr α) (ax : Int) : Except Err (NDArr α) := do
  let n ← normAxis (a.ndim + 1) ax
  a.reshape (a.shape.insertIdx n 1)

/-- `np.concatenate(chunks, axis=ax)` with a possibly negative axis -/
def concatAx {α : Type} [Inhabited α] (ax : Int) (chunks : List (NDArr α)) : Except Err (NDArr α) :=
  match chunks with
  | [] => .error .value
  | c :: cs => do
    let n ← normAxis c.ndim ax
    concat n (c :: cs)

end Np.NDArr

namespace Model
open Np NDArr

variable {K : Type} [Field K] [LinearOrder K]

/-- a threshold argument: a scalar, a numpy array, or something else that has a length (a list) -/
inductive Thr (K : Type) where
  | scalar (v : Fl K)
  | array (a : NDArr (Fl K))
  | other

/-- values of `pyanen_ens_to_prob_method` -/
inductive Method where
  | kde | moments | unknown
  deriving DecidableEq

/-- column `k` of an array: the entries `c[:, k]`, first axis free -/
def column {α : Type} [Inhabited α] (c : NDArr α) (k : List Nat) : List α :=
  (List.range (c.shape.getD 0 0)).map fun j => c.get (j :: k)

/-- utils_verify.py:122-124 for one column: the first entry is the threshold, the others are members -/
def momentsCol (col : List (Fl K)) : Fl K :=
  Fl.div (some ((col.tail.countP fun x => Fl.le x (col.getD 0 none) : Nat) : K))
    (some ((col.length - 1 : Nat) : K))

/-- utils_verify.py:131-145: the array whose first row is the threshold and whose other rows are the
members -/
def mergeThreshold (f : NDArr (Fl K)) (ax : Int) (below : Thr K) : Except Err (NDArr (Fl K)) := do
  let n ← normAxis f.ndim ax
  let b ← match below with
    | .array a => if a.shape = f.shape.eraseIdx n then pure a else .error .assertion
    | .scalar v => pure (full (f.shape.eraseIdx n) v)
    | .other => .error .assertion
  let b1 ← b.expandDims ax
  let c ← concatAx ax [b1, f]
  c.moveaxis ax 0

/-- utils_verify.py:127-194.  With one worker every column is converted in place (`moments` is
vectorised, `kde` goes through `apply_along_axis`); with several, the array is flattened to
`(members + 1, -1)`, split into one-column pieces which `process_map` converts (keeping their order),
and the results are reshaped. -/
def ensToProbBelow (workers : Nat) (method : Method) (kde : List (Fl K) → Fl K)
    (f : NDArr (Fl K)) (ax : Int) (below : Thr K) : Except Err (NDArr (Fl K)) := do
  let c ← mergeThreshold f ax below
  let conv ← match method with
    | .kde => pure kde
    | .moments => pure momentsCol
    | .unknown => Except.error Err.generic
  if workers = 1 then
    if method = .kde ∧ c.shape.tail.prod = 0 then .error .value
    else pure (ofFn c.shape.tail fun k => conv (column c k))
  else do
    let flat ← c.reshapeInfer [c.shape.getD 0 0] []
    if flat.shape.getD 1 0 = 0 then .error .generic
    else
      let pieces := flat.splitOnes 1
      let res := pieces.map fun p => conv (column p [0])
      (⟨[res.length], res, by simp⟩ : NDArr (Fl K)).reshape c.shape.tail

/-- utils_verify.py:127-129 -/
def ensToProb (workers : Nat) (method : Method) (kde : List (Fl K) → Fl K)
    (f : NDArr (Fl K)) (ax : Int) (over below : Option (Thr K)) : Except Err (NDArr (Fl K)) :=
  match over, below with
  | none, some b => ensToProbBelow workers method kde f ax b
  | some t, none => do
    let p ← ensToProbBelow workers method kde f ax t
    pure (p.map fun x => Fl.sub (some 1) x)
  | _, _ => .error .assertion

/-- comparison of an array with a threshold; an array threshold is broadcast against `o`.  A list threshold, which numpy
would turn into an array, is rejected: the callers reject it first (`cdf` of the same threshold), except
`iou_determ`. -/
def cmpThr (cmp : Fl K → Fl K → Bool) (o : NDArr (Fl K)) : Thr K → Except Err (NDArr Bool)
  | .scalar v => .ok (o.map fun x => cmp x v)
  | .array a => zipWith cmp o a
  | .other => .error .value

/-- utils_verify.py:197-199 -/
def binarizeObs (o : NDArr (Fl K)) (over below : Option (Thr K)) : Except Err (NDArr Bool) :=
  match over, below with
  | none, some b => cmpThr Fl.lt o b
  | some t, none => cmpThr (fun x v => Fl.lt v x) o t
  | _, _ => .error .assertion

/-- VerifyEnsemble.py:171-174 (the inner cached call `self.cdf(below=over)` returns `_cdf(below=over)`) -/
def ensCdf (workers : Nat) (method : Method) (kde : List (Fl K) → Fl K)
    (f : NDArr (Fl K)) (ax : Int) (over below : Option (Thr K)) : Except Err (NDArr (Fl K)) :=
  match over, below with
  | none, some b => ensToProb workers method kde f ax none (some b)
  | some t, none => do
    let p ← ensToProb workers method kde f ax none (some t)
    pure (p.map fun x => Fl.sub (some 1) x)
  | _, _ => .error .assertion

/-- VerifyEnsemble.py:116-118, VerifyProb.py:115-117: `(probability - binary observation)²` -/
def brierArr (prob : NDArr (Fl K)) (ob : NDArr Bool) : Except Err (NDArr (Fl K)) :=
  zipWith (fun p b => Fl.sq (Fl.sub p (some (if b then 1 else 0)))) prob ob

/-- VerifyEnsemble.py:116-118 -/
def ensBrier (workers : Nat) (method : Method) (kde : List (Fl K) → Fl K)
    (f : NDArr (Fl K)) (ax : Int) (o : NDArr (Fl K)) (over below : Option (Thr K)) :
    Except Err (NDArr (Fl K)) := do
  let p ← ensCdf workers method kde f ax over below
  let b ← binarizeObs o over below
  brierArr p b

/-- `list.pop(i)`: `IndexError` outside `-len ≤ i < len` -/
def popAt (l : List Nat) (i : Int) : Except Err (List Nat) :=
  if -(l.length : Int) ≤ i ∧ i < l.length then
    .ok (l.eraseIdx (if i < 0 then i + l.length else i).toNat)
  else .error .index

/-- VerifyEnsemble.py:178-192 -/
def guessEnsembleAxis (fShape oShape : List Nat) : Except Err Int := do
  let a ← popAt fShape (-1)
  if a = oShape then pure (-1)
  else do
    let b ← popAt fShape 0
    if b = oShape then pure 0 else .error .generic

/-- VerifyEnsemble.py:194-215: the ensemble axis after validation -/
def validateEnsembleAxis (fShape oShape : List Nat) (axis : Option Int) : Except Err Int := do
  let ax ← match axis with
    | none => guessEnsembleAxis fShape oShape
    | some a => pure a
  if ax = 0 ∨ ax = -1 ∨ ax = -(fShape.length : Int) ∨ ax = (fShape.length : Int) - 1 then
    let rest ← popAt fShape ax
    if rest = oShape then pure ax else .error .assertion
  else .error .assertion

end Model
