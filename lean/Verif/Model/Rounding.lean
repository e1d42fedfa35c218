import Verif.Model.Ensemble
import Mathlib.Data.Int.Log

/-!
# The same scores in rounded arithmetic

The other files compute in exact arithmetic.  Here ensemble probabilities (utils_verify.py:122-194, method `moments`),
the Brier score (VerifyEnsemble.py:116-118), the absolute and squared errors (VerifyEnsemble.py:80-84) and their
averages (Verify.py:103-115) are computed with an arbitrary rounding after every operation, and sums are taken in an
arbitrary order.  `binary` is rounding to a binary significand of `p + 1` bits (`p = 52` for numpy's `float64`), with an
unbounded exponent: overflow and underflow are not modelled.
-/

set_option linter.unusedSectionVars false

namespace Model
open Np NDArr

variable {K : Type} [Field K] [LinearOrder K] [IsStrictOrderedRing K]

/-- a rounding that is exact for small integers -/
structure Rounding (K : Type) [Field K] [LinearOrder K] where
  /-- the nearest machine number -/
  rnd : K → K
  mono : Monotone rnd
  /-- integers up to this size are machine numbers -/
  size : Nat
  exact_int : ∀ z : ℤ, |z| ≤ size → rnd (z : K) = z
  /-- one part of `n` does not round to zero -/
  part_pos : ∀ n : ℕ, 0 < n → n ≤ size → 0 < rnd (1 / (n : K))
  /-- `n - 1` parts of `n` do not round to one -/
  part_lt : ∀ n : ℕ, 0 < n → n ≤ size → rnd (((n : K) - 1) / n) < 1

/-- the positive numbers, rounded to `p + 1` binary digits by a rounding `r` to the integers -/
noncomputable def binaryPos [FloorSemiring K] (p : ℕ) (r : K → ℤ) (x : K) : K :=
  (r (x / 2 ^ (Int.log 2 x - p)) : K) * 2 ^ (Int.log 2 x - p)

/-- rounding to `p + 1` binary digits, symmetric around zero -/
noncomputable def binary [FloorSemiring K] (p : ℕ) (r : K → ℤ) (x : K) : K :=
  if x = 0 then 0 else if 0 < x then binaryPos p r x else -binaryPos p r (-x)

/-- an order of summation: a tree whose leaves are the positions in the list -/
inductive Order where
  | leaf (i : Nat)
  | node (l r : Order)

def Order.leaves : Order → List Nat
  | .leaf i => [i]
  | .node l r => l.leaves ++ r.leaves

/-- an operation followed by rounding -/
def rop (R : Rounding K) (op : K → K → K) : Fl K → Fl K → Fl K
  | some x, some y => some (R.rnd (op x y))
  | _, _ => none

/-- the sum of the entries of a list in a given order -/
def sumR (R : Rounding K) (l : List (Fl K)) : Order → Fl K
  | .leaf i => l.getD i none
  | .node a b => rop R (· + ·) (sumR R l a) (sumR R l b)

/-- an order of summation for every length, using every entry once -/
structure SumOrder where
  tree : Nat → Order
  all : ∀ n, (tree (n + 1)).leaves.Perm (List.range (n + 1))

/-- `np.mean` -/
def meanR (R : Rounding K) (S : SumOrder) (l : List (Fl K)) : Fl K :=
  if l = [] then none else (sumR R l (S.tree l.length)).map fun s => R.rnd (s / (l.length : K))

/-- `np.nanmean`: missing values are replaced by zero before summing, and not counted -/
def nanmeanR (R : Rounding K) (S : SumOrder) (l : List (Fl K)) : Fl K :=
  let c := l.countP Option.isSome
  if c = 0 then none
  else (sumR R (l.map fun x => some (x.getD 0)) (S.tree l.length)).map fun s => R.rnd (s / (c : K))

/-- utils_verify.py:122-124 for one column -/
def momentsColR (R : Rounding K) (col : List (Fl K)) : Fl K :=
  if col.length - 1 = 0 then none
  else some (R.rnd (((col.tail.countP fun x => Fl.le x (col.getD 0 none) : Nat) : K) / ((col.length - 1 : Nat) : K)))

/-- utils_verify.py:127-194 with the method `moments`: the threshold and the members are brought together as in
`ensToProbBelow`, only the conversion of a column is the rounded one.  (Arrays without positions raise here for one
worker; they are excluded below.) -/
def ensToProbBelowR (R : Rounding K) (workers : Nat) (f : NDArr (Fl K)) (ax : Int) (below : Thr K) :
    Except Err (NDArr (Fl K)) :=
  ensToProbBelow workers .kde (momentsColR R) f ax below

/-- VerifyEnsemble.py:171-174 -/
def ensCdfR (R : Rounding K) (workers : Nat) (f : NDArr (Fl K)) (ax : Int) (over below : Option (Thr K)) :
    Except Err (NDArr (Fl K)) :=
  match over, below with
  | none, some b => ensToProbBelowR R workers f ax b
  | some t, none => do
    let p ← ensToProbBelowR R workers f ax t
    pure (p.map fun x => rop R (· - ·) (some 1) x)
  | _, _ => .error .assertion

/-- `(p - o) ** 2` for one element -/
def brierElemR (R : Rounding K) (p : Fl K) (b : Bool) : Fl K :=
  let d := rop R (· - ·) p (some (if b then 1 else 0))
  rop R (· * ·) d d

/-- VerifyEnsemble.py:116-118 -/
def ensBrierR (R : Rounding K) (workers : Nat) (f : NDArr (Fl K)) (ax : Int) (o : NDArr (Fl K))
    (over below : Option (Thr K)) : Except Err (NDArr (Fl K)) := do
  let p ← ensCdfR R workers f ax over below
  let b ← binarizeObs o over below
  zipWith (brierElemR R) p b

/-- Verify.py:103-115 without bootstrapping -/
def averageR (R : Rounding K) (S : SumOrder) (skipNan : Bool) (avgAxis : Option (List Int)) (metric : NDArr (Fl K)) :
    Except Err (NDArr (Fl K)) :=
  reduceAxes (if skipNan then nanmeanR R S else meanR R S) metric avgAxis

/-- VerifyDeterm.py:45-46, VerifyEnsemble.py:83-84 -/
def abErrorR (R : Rounding K) (f o : NDArr (Fl K)) : Except Err (NDArr (Fl K)) := do
  let d ← zipWith (rop R (· - ·)) f o
  pure (d.map Fl.abs)

/-- VerifyDeterm.py:42-43, VerifyEnsemble.py:80-81 -/
def sqErrorR (R : Rounding K) (f o : NDArr (Fl K)) : Except Err (NDArr (Fl K)) := do
  let d ← zipWith (rop R (· - ·)) f o
  pure (d.map fun x => rop R (· * ·) x x)

/-- VerifyDeterm.py:39-40, VerifyEnsemble.py:77-78 -/
def errorR (R : Rounding K) (f o : NDArr (Fl K)) : Except Err (NDArr (Fl K)) := zipWith (rop R (· - ·)) f o

/-- Verify.py:84 without bootstrapping: the root of the average squared error, rounded -/
def rmseR (R : Rounding K) (S : SumOrder) (sqrt : K → K) (skipNan : Bool) (avgAxis : Option (List Int))
    (f o : NDArr (Fl K)) : Except Err (NDArr (Fl K)) := do
  let q ← sqErrorR R f o
  let m ← averageR R S skipNan avgAxis q
  pure (m.map fun x => (Fl.sqrt sqrt x).map R.rnd)

end Model
