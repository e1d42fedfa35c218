import Verif.Model.Rounding

/-! Specification of accuracy in rounded arithmetic. -/

namespace Spec
open Np Model

variable {K : Type} [Field K] [LinearOrder K]

/-- every operation is exact up to the relative error `u` (2⁻⁵³ for `float64`, rounding to nearest) -/
def Accurate (R : Rounding K) (u : K) : Prop := 0 ≤ u ∧ ∀ x, |R.rnd x - x| ≤ u * |x|

/-- `x` is the computed value, `e` the exact one, and they differ by at most what `j` roundings in a row can do to numbers
of size `a`; missing values are missing in all three -/
def Near (u : K) (j : Nat) (a e x : Fl K) : Prop :=
  (a = none ∧ e = none ∧ x = none) ∨
    ∃ a' e' x', a = some a' ∧ e = some e' ∧ x = some x' ∧ |e'| ≤ a' ∧ |x' - e'| ≤ ((1 + u) ^ j - 1) * a'

/-- number of additions on the longest way from a value to the sum -/
def depth : Order → Nat
  | .leaf _ => 0
  | .node l r => max (depth l) (depth r) + 1

end Spec
