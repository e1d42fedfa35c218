import Verif.Model.Settings
import Verif.Model.Ensemble
import Verif.Np.Bins
import Verif.Np.Reduce

/-!
# Numerical integration (utils_approximation.py)

`row x` stands for what a task computes for the grid value `x`: `verifier.cdf(below=x)` (line 34) or
`verifier._brier(over=None, below=x)` (line 46), possibly raising.  Remote tasks (Ray) run in other
processes and finish in any order; that order is an oracle.  The scratch file is a flat list of floats;
numpy's broadcasting against `(n, 1, ..., 1)` arrays is written as multiplication of each row by its number.
-/

set_option linter.unusedSectionVars false

namespace Model
open Np NDArr

variable {K : Type} [Field K] [LinearOrder K] [IsStrictOrderedRing K]

/-- utils_approximation.py:279-293.  `rangeMulti` is `int(os.environ['pyanen_integrate_range_multiplier'])`;
NaN in the observations makes the grid NaN, which the model rejects as a value error further on. -/
def integrationRange (given : Option (K × K)) (rangeMulti : Int) (o : NDArr (Fl K)) :
    Except Err (Fl K × Fl K) :=
  match given with
  | some r => .ok (some r.1, some r.2)
  | none =>
    if rangeMulti > 0 then do
      let vmin ← npMin o.data
      let vmax ← npMax o.data
      let vrange := Fl.sub vmax vmin
      pure (Fl.sub vmin (Fl.mul (some (rangeMulti : K)) vrange),
        Fl.add vmax (Fl.mul (some (rangeMulti : K)) vrange))
    else .error .assertion

/-- `_ray_to_iterator` (utils_approximation.py:49-53): wait until some pending task is done, take it out of
the pending list, yield it.  `pick` chooses which of the pending tasks that is at every step; `n` is the number
of pending tasks. -/
def rayIter {α : Type} (pick : Nat → Nat) : Nat → List α → List α
  | 0, _ => []
  | n + 1, l => match l[pick n % l.length]? with
    | some a => a :: rayIter pick n (l.eraseIdx (pick n % l.length))
    | none => []

/-- utils_approximation.py:109-126, 148-164, 187-203: collect the remote results in completion order (an exception in a task is
raised when its result is fetched), then put them back in grid order -/
def rayRows {α : Type} (pick : Nat → Nat) (tasks : List (Nat × Except Err α)) : Except Err (List α) := do
  let got ← mapE (fun t => match t.2 with
    | .ok v => .ok (t.1, v)
    | .error e => .error e) (rayIter pick tasks.length tasks)
  let ordered := got.foldl (fun acc t => acc.set t.1 (some t.2)) (List.replicate got.length none)
  -- a hole would make `np.array` an object array, which fails in the arithmetic
  mapE (fun x => match x with
    | some v => .ok v
    | none => .error .type) ordered

/-- the rows of one integration: lines 103-107 on one core, lines 109-126 with Ray -/
def gridRows (cores : Int) (pick : Nat → Nat) (row : K → Except Err (NDArr (Fl K))) (seq : List K) :
    Except Err (List (NDArr (Fl K))) :=
  if cores = 1 then mapE row seq
  else rayRows pick (seq.zipIdx.map fun p => (p.2, row p.1))

/-- what is integrated -/
inductive Kind where
  | crps | mean | variance
  deriving DecidableEq

/-- `0.5 * np.sum(g(a[1:], a[:-1]) * w, axis=0)` over rows `a` with one number `w i` per interval -/
def sumAxis0 (s : List Nat) (A : NDArr (Fl K)) (n : Nat) (g : Fl K → Fl K → Fl K) (w : Nat → K) :
    NDArr (Fl K) :=
  ofFn s fun k => Fl.mul (some (1 / 2)) (fsum ((List.range (n - 1)).map fun i =>
    Fl.mul (g (A.get ((i + 1) :: k)) (A.get (i :: k))) (some (w i))))

/-- utils_approximation.py:128-135, 166-174, 205-222 without `less_memory` -/
def combineRows (kind : Kind) (seq : List K) (s : List Nat) (rows : List (NDArr (Fl K))) :
    Except Err (NDArr (Fl K)) := do
  let A ← stack0 rows
  let n := seq.length
  let x := fun i => seq.getD i 0
  if A.shape = n :: s then
    match kind with
    | .crps => pure (sumAxis0 s A n Fl.add fun i => x (i + 1) - x i)
    | .mean => pure (sumAxis0 s A n Fl.sub fun i => x (i + 1) + x i)
    | .variance =>
      let m := sumAxis0 s A n Fl.sub fun i => x (i + 1) + x i
      let q := sumAxis0 s A n Fl.sub fun i => x (i + 1) * x (i + 1) + x i * x i
      zipWith Fl.sub q (m.map Fl.sq)
  else .error .value

/-! ### the memory efficient mode -/

/-- the element writes of task `i` (`memmap_arr[x[0]] = ...`, line 34 and 46) -/
def rowWrites (size : Nat) (i : Nat) (r : NDArr (Fl K)) : List (Nat × Fl K) :=
  r.data.zipIdx.map fun p => (i * size + p.2, p.1)

/-- apply element writes to the file -/
def applyWrites (file : List (Fl K)) (ev : List (Nat × Fl K)) : List (Fl K) :=
  ev.foldl (fun m e => m.set e.1 e.2) file

/-- row `i` of the read-only view of the file (lines 245-247) -/
def fileRow (s : List Nat) (file : List (Fl K)) (i : Nat) : Except Err (NDArr (Fl K)) :=
  let d := (file.drop (i * s.prod)).take s.prod
  if h : d.length = s.prod then .ok ⟨s, d, h⟩ else .error .index

/-- `_memmap_sum_mul` (utils_approximation.py:295-305) on the rows `start, start+1, ...` of the file -/
def memmapSumMul (s : List Nat) (file : List (Fl K)) (start : Nat) (mul : List K) :
    Except Err (NDArr (Fl K)) :=
  (mul.zipIdx).foldl (fun acc p => do
    let out ← acc
    let r ← fileRow s file (start + p.2)
    zipWith (fun a b => Fl.add a (Fl.mul b (some p.1))) out r) (.ok (full s (some 0)))

/-- `0.5 * (sum_mul(arr[1:]) ± sum_mul(arr[:-1]))` -/
def memmapPair (s : List Nat) (file : List (Fl K)) (op : Fl K → Fl K → Fl K) (mul : List K) :
    Except Err (NDArr (Fl K)) := do
  let a ← memmapSumMul s file 1 mul
  let b ← memmapSumMul s file 0 mul
  zipWith (fun x y => Fl.mul (some (1 / 2)) (op x y)) a b

/-- utils_approximation.py:131-133, 170-172, 212-216 with `less_memory` -/
def combineFile (kind : Kind) (seq : List K) (s : List Nat) (file : List (Fl K)) :
    Except Err (NDArr (Fl K)) := do
  let n := seq.length
  let x := fun i => seq.getD i 0
  let grid := List.range (n - 1)
  match kind with
  | .crps => memmapPair s file Fl.add (grid.map fun i => x (i + 1) - x i)
  | .mean => memmapPair s file Fl.sub (grid.map fun i => x (i + 1) + x i)
  | .variance =>
    let m ← memmapPair s file Fl.sub (grid.map fun i => x (i + 1) + x i)
    let q ← memmapPair s file Fl.sub (grid.map fun i => x (i + 1) * x (i + 1) + x i * x i)
    zipWith Fl.sub q (m.map Fl.sq)

/-! ### the workflow -/

/-- the part of the outside world an integration touches -/
structure IWorld (K : Type) where
  env : Env
  files : String → Option (List (Fl K))

/-- create, replace or remove a file -/
def IWorld.setFile (w : IWorld K) (p : String) (c : Option (List (Fl K))) : IWorld K :=
  { w with files := fun q => if q = p then c else w.files q }

/-- the attributes of an `Integration` object (utils_approximation.py:57-90), the shape of the observations,
and the oracles: `pick` for the completion order, `order` for the interleaving of element writes -/
structure Integ (K : Type) where
  cores : Int
  lessMemory : Bool
  seq : List K
  shape : List Nat
  scratch : String
  row : K → Except Err (NDArr (Fl K))
  pick : Nat → Nat
  order : List (Nat × Fl K) → List (Nat × Fl K)

/-- utils_approximation.py:100-135, 137-174, 176-222: the body `func()`.  In the memory efficient mode the tasks write to the
scratch file instead of returning their row (broadcasting a row of another shape is an error here). -/
def integBody (I : Integ K) (kind : Kind) (w : IWorld K) : Except Err (NDArr (Fl K)) × IWorld K :=
  match gridRows I.cores I.pick I.row I.seq with
  | .error e => (.error e, w)
  | .ok rows =>
    if I.lessMemory then
      if ∀ r ∈ rows, r.shape = I.shape then
        match w.files I.scratch with
        | none => (.error .generic, w)
        | some file =>
          let file' := applyWrites file
            (I.order (rows.zipIdx.flatMap fun p => rowWrites I.shape.prod p.2 p.1))
          (combineFile kind I.seq I.shape file', w.setFile I.scratch (some file'))
      else (.error .value, w)
    else (combineRows kind I.seq I.shape rows, w)

/-- `_suppress_sublevel_tqdm` (utils_approximation.py:258-271): the backup and the changed environment -/
def suppress (cores : Int) (e : Env) : Except Err ((Nat × Int) × Env) := do
  let d ← e.read "pyanen_tqdm_disable"
  let db ← strtobool d
  let v ← e.read "pyanen_tqdm_workers"
  let wb ← pyInt v
  let e1 := e.write "pyanen_tqdm_disable" "True".toList
  pure ((db, wb), if cores > 1 then e1.write "pyanen_tqdm_workers" "1".toList else e1)

/-- `_resume_sublevel_tqdm` (utils_approximation.py:273-277) -/
def resume (b : Nat × Int) (e : Env) : Env :=
  (e.write "pyanen_tqdm_disable" (natStr b.1)).write "pyanen_tqdm_workers" (intStr b.2)

/-- `_workflow` (utils_approximation.py:224-232): result and the world afterwards.  An exception in the body
skips the two last steps.  Mapping an empty file fails (`np.memmap`). -/
def integrate (I : Integ K) (kind : Kind) (w : IWorld K) : Except Err (NDArr (Fl K)) × IWorld K :=
  match suppress I.cores w.env with
  | .error e => (.error e, w)
  | .ok (b, env1) =>
    if I.lessMemory ∧ I.seq.length * I.shape.prod = 0 then (.error .value, { w with env := env1 })
    else
      let w1 : IWorld K := { w with env := env1 }
      let w2 := if I.lessMemory then
        w1.setFile I.scratch (some (List.replicate (I.seq.length * I.shape.prod) (some 0))) else w1
      match integBody I kind w2 with
      | (.error e, w3) => (.error e, w3)
      | (.ok r, w3) =>
        let w4 := if I.lessMemory then w3.setFile I.scratch none else w3
        (.ok r, { w4 with env := resume b w4.env })

/-- VerifyProb.py:115-117 called with `below=x`: the row of a CRPS integration -/
def brierRow (cdf : K → Except Err (NDArr (Fl K))) (o : NDArr (Fl K)) (x : K) :
    Except Err (NDArr (Fl K)) := do
  let c ← cdf x
  let b ← binarizeObs o none (some (.scalar (some x)))
  brierArr c b

end Model
