import Verif.Model.Significance

/-!
# What the sign of the Diebold-Mariano statistic is compared with
-/

namespace Spec
open Model

variable {K : Type} [Field K] [LinearOrder K]

/-- the loss of the prediction `p` of the value `a` (the docstring of `diebold_mariano_test`); `f` is the power
function of the criterion `poly` -/
def lossVal (f : K → K) : Crit → K → K → K
  | .mse, a, p => (a - p) ^ 2
  | .mad, a, p => |a - p|
  | .mape, a, p => |(a - p) / a|
  | .poly, a, p => f (a - p)
  | .unsupported, _, _ => 0

/-- the total loss of the predictions `p` of the values `a` -/
def totalLoss (f : K → K) (crit : Crit) (a p : List K) : K := (List.zipWith (lossVal f crit) a p).sum

/-- a positive result, possibly infinite -/
def Positive : Ext K → Prop
  | .num v => 0 < v
  | .pinf => True
  | _ => False

/-- a negative result, possibly infinite -/
def Negative : Ext K → Prop
  | .num v => v < 0
  | .ninf => True
  | _ => False

/-- an infinite result -/
def IsInfinite : Ext K → Prop
  | .pinf => True
  | .ninf => True
  | _ => False

/-- how much more the first predictions lose than the second at every position -/
def lossGaps (f : K → K) (crit : Crit) (a p q : List K) : List K :=
  List.zipWith (· - ·) (List.zipWith (lossVal f crit) a p) (List.zipWith (lossVal f crit) a q)

end Spec
