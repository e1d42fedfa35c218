import Verif.Model.Ensemble

/-!
# Rank histograms (utils_verify.py:30-90)

Ranks are natural numbers or NaN (`none`).  `np.random.randint(lo, hi, n)[0]` is `lo + d % (hi - lo)`
for an arbitrary number `d`: the oracle is indexed by the piece (worker task), the position of the tie
count in `unique_tie` and the position within the tied group.
-/

set_option linter.unusedSectionVars false

namespace Model
open Np NDArr

variable {K : Type} [Field K] [LinearOrder K]

/-- `scipy.stats.rankdata(col, method='min')` at the value `x` of the column -/
def minRank (col : List (Fl K)) (x : Fl K) : Nat := 1 + col.countP fun y => Fl.lt y x

/-- `ranks[0]` of one column (utils_verify.py:31-33); a NaN anywhere makes all ranks of the column NaN
(scipy's default `nan_policy='propagate'`) -/
def rankCol (col : List (Fl K)) : Option Nat :=
  if none ∈ col then none else some (minRank col (col.getD 0 none))

/-- number of members with the rank of the observation (utils_verify.py:36); NaN ranks are unequal -/
def tiesCol (col : List (Fl K)) : Nat :=
  if none ∈ col then 0
  else col.tail.countP fun y => minRank col (col.getD 0 none) = minRank col y

/-- `np.unique` of a list of counts: the distinct values in increasing order -/
def npUniqueNat (l : List Nat) : List Nat := (List.range (l.foldr max 0 + 1)).filter (· ∈ l)

/-- one iteration of the loop utils_verify.py:43-45 for the tie count `u`: the positions tied `u` times
take the draws in order.  (`randint(..., size=u)[0]` exists because `u ≥ 1`: the tie counts are
increasing and the loop starts at the second one.) -/
def tieStep (u : Nat) (d : Nat → Nat) : List (Nat × Option Nat) → List (Nat × Option Nat)
  | [] => []
  | (t, r) :: rest =>
    if t = u then (t, r.map fun x => x + d 0 % (u + 1)) :: tieStep u (fun j => d (j + 1)) rest
    else (t, r) :: tieStep u d rest

/-- the loop utils_verify.py:41-45 over the remaining tie counts -/
def tieLoop : List Nat → (Nat → Nat → Nat) → List (Nat × Option Nat) → List (Nat × Option Nat)
  | [], _, zs => zs
  | u :: us, d, zs => tieLoop us (fun i => d (i + 1)) (tieStep u (d 0) zs)

theorem length_tieStep (u : Nat) (d : Nat → Nat) (zs : List (Nat × Option Nat)) :
    (tieStep u d zs).length = zs.length := by
  induction zs generalizing d with
  | nil => rfl
  | cons z zs ih =>
    obtain ⟨t, r⟩ := z
    simp only [tieStep]
    split <;> simp [ih]

theorem length_tieLoop (us : List Nat) (d : Nat → Nat → Nat) (zs : List (Nat × Option Nat)) :
    (tieLoop us d zs).length = zs.length := by
  induction us generalizing d zs with
  | nil => rfl
  | cons u us ih => simp only [tieLoop, ih, length_tieStep]

/-- tie count and rank of every position, in storage order -/
def rankPairs (x : NDArr (Fl K)) : List (Nat × Option Nat) :=
  (allIdx x.shape.tail).map fun k => (tiesCol (column x k), rankCol (column x k))

/-- utils_verify.py:30-47; the loop starts at the *second* distinct tie count -/
def rankdata (d : Nat → Nat → Nat) (x : NDArr (Fl K)) : NDArr (Option Nat) :=
  ⟨x.shape.tail,
    (tieLoop (npUniqueNat ((rankPairs x).map Prod.fst)).tail d (rankPairs x)).map Prod.snd,
    by simp [length_tieLoop, rankPairs]⟩

/-- `np.atleast_2d` -/
def atleast2d {α : Type} (a : NDArr α) : Except Err (NDArr α) :=
  match a.shape with
  | [] => a.reshape [1, 1]
  | [n] => a.reshape [1, n]
  | _ => .ok a

/-- `np.vstack((a, b))` -/
def vstack {α : Type} [Inhabited α] (a b : NDArr α) : Except Err (NDArr α) := do
  let a' ← atleast2d a
  let b' ← atleast2d b
  concat 0 [a', b']

/-- utils_verify.py:63-65: the observation row on top of the member rows -/
def mergeObs (f o : NDArr (Fl K)) (ax : Int) : Except Err (NDArr (Fl K)) := do
  let e ← o.expandDims 0
  let m ← f.moveaxis ax 0
  vstack e m

/-- utils_verify.py:70-84.  `draw piece i j` is the randomness of worker task `piece` (task 0 when there
is a single worker).  `process_map` keeps the order of its inputs. -/
def rankAll (workers : Nat) (mapAxis : Int) (draw : Nat → Nat → Nat → Nat) (c : NDArr (Fl K)) :
    Except Err (NDArr (Option Nat)) :=
  if workers = 1 then .ok (rankdata (draw 0) c)
  else if mapAxis < 0 then
    if -(c.ndim : Int) ≤ mapAxis then
      let n := (mapAxis + c.ndim).toNat
      if c.shape.getD n 0 = 0 then .error .generic
      else
        let pieces := c.splitOnes n
        concatAx mapAxis (pieces.zipIdx.map fun p => rankdata (draw p.2) p.1)
    else .error .index
  else .error .assertion

/-- utils_verify.py:50-90.  `npFloat` says whether numpy still has `np.float` (removed in 1.24); without
it the NaN-skipping branch raises `AttributeError`. -/
def rankHistogram (skip npFloat : Bool) (workers : Nat) (mapAxis : Int)
    (draw : Nat → Nat → Nat → Nat) (f o : NDArr (Fl K)) (ax : Int) :
    Except Err (NDArr (Option Nat)) :=
  if skip then do
    let s ← reduceAxes fsum f (some [ax])
    let mask ← zipWith (fun x y => x.isNone || y.isNone) o s
    let c ← mergeObs f o ax
    let r ← rankAll workers mapAxis draw c
    if npFloat then zipWith (fun x b => if b then none else x) r mask else .error .attribute
  else
    if none ∈ f.data then .error .assertion
    else if none ∈ o.data then .error .assertion
    else do
      let c ← mergeObs f o ax
      rankAll workers mapAxis draw c

end Model
