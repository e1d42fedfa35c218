import Verif.Np.Stat
import Verif.Np.Sort

/-!
# Diebold-Mariano test (utils_significance.py:22-114)

The arrays are given by their flattened elements (`ravel`, lines 68-70).  The Student distribution
function (scipy) is a parameter.  The statistic can be infinite, so results are extended numbers.
-/

set_option linter.unusedSectionVars false

namespace Model
open Np

variable {K : Type} [Field K] [LinearOrder K]

/-- a float with infinities -/
inductive Ext (K : Type) where
  | num (v : K) | nan | pinf | ninf
  deriving DecidableEq

namespace Ext

/-- `-x` -/
def neg : Ext K → Ext K
  | num v => num (-v)
  | nan => nan
  | pinf => ninf
  | ninf => pinf

/-- `x / y` for finite or NaN operands; `y` is not a negative zero -/
def divFl : Fl K → Fl K → Ext K
  | some x, some y =>
    if y = 0 then (if 0 < x then pinf else if x < 0 then ninf else nan) else num (x / y)
  | _, _ => nan

/-- `a * x` for a finite or NaN `a` -/
def mulFl : Fl K → Ext K → Ext K
  | none, _ => nan
  | some _, nan => nan
  | some a, num v => num (a * v)
  | some a, pinf => if 0 < a then pinf else if a < 0 then ninf else nan
  | some a, ninf => if 0 < a then ninf else if a < 0 then pinf else nan

/-- `np.abs(x)` -/
def abs : Ext K → Ext K
  | num v => num |v|
  | nan => nan
  | pinf => pinf
  | ninf => pinf

end Ext

/-- utils_significance.py:22-23, for `0 ≤ k ≤ len(d)` -/
def autocov (d : List (Fl K)) (k : Nat) : Fl K :=
  mean (List.zipWith Fl.mul ((d.drop k).map fun x => Fl.sub x (mean d))
    ((d.take (d.length - k)).map fun x => Fl.sub x (mean d)))

/-- utils_significance.py:101-104 -/
def dmVariance (d : List (Fl K)) (n h : Nat) : Fl K :=
  let gamma := (List.range h).map (autocov d)
  Fl.div (Fl.add (gamma.getD 0 none) (Fl.mul (some 2) (fsum gamma.tail))) (some (n : K))

/-- utils_significance.py:108, without the square root -/
def harveyTerm (n h : Nat) : K :=
  ((n : K) + 1 - 2 * (h : K) + (h : K) * ((h : K) - 1) / (n : K)) / (n : K)

/-- utils_significance.py:105, before the adjustment -/
def dmRaw (s : K → K) (d : List (Fl K)) (n h : Nat) : Ext K :=
  Ext.divFl (mean d) (Fl.sqrt s (dmVariance d n h))

/-- utils_significance.py:105-109 -/
def dmStat (s : K → K) (d : List (Fl K)) (n h : Nat) : Ext K :=
  Ext.mulFl (Fl.sqrt s (some (harveyTerm n h))) (dmRaw s d n h)

/-- `2 * t.cdf(x, df)` (utils_significance.py:112) -/
def twiceCdf (tcdf : Nat → K → K) (df : Nat) : Ext K → Ext K
  | .num v => .num (2 * tcdf df v)
  | .nan => .nan
  | .pinf => .num 2
  | .ninf => .num 0

/-- the `crit` argument -/
inductive Crit where
  | mse | mad | mape | poly | unsupported
  deriving DecidableEq

/-- utils_significance.py:82-96: the loss of one prediction; `pw` is `x ** power`.  In `MAPE` a zero
actual value gives an infinite or NaN loss for both predictions, whose difference is NaN; the model
gives NaN at once. -/
def loss (crit : Crit) (pw : K → Fl K) (a p : Fl K) : Fl K :=
  match crit with
  | .mse => Fl.sq (Fl.sub a p)
  | .mad => Fl.abs (Fl.sub a p)
  | .mape => Fl.abs (Fl.div (Fl.sub a p) a)
  | .poly => (Fl.sub a p).bind pw
  | .unsupported => none

/-- utils_significance.py:98 -/
def lossDiff (crit : Crit) (pw : K → Fl K) (actual pred1 pred2 : List (Fl K)) : List (Fl K) :=
  List.zipWith Fl.sub (List.zipWith (loss crit pw) actual pred1)
    (List.zipWith (loss crit pw) actual pred2)

/-- utils_significance.py:26-114: the statistic and the p-value -/
def dieboldMariano (s : K → K) (tcdf : Nat → K → K) (crit : Crit) (pw : K → Fl K) (h : Int)
    (actual pred1 pred2 : List (Fl K)) : Except Err (Ext K × Ext K) :=
  let n := actual.length
  if n = pred1.length ∧ pred1.length = pred2.length then
    if h ≥ 1 then
      if h < n then
        if crit = .unsupported then .error .assertion
        else
          let stat := dmStat s (lossDiff crit pw actual pred1 pred2) n h.toNat
          .ok (stat, twiceCdf tcdf (n - 1) (Ext.neg (Ext.abs stat)))
      else .error .assertion
    else .error .assertion
  else .error .assertion

end Model
