import Mathlib.Algebra.BigOperators.Group.Finset.Basic
import Mathlib.Algebra.Order.Field.Basic

/-! # What numerical integration is meant to compute -/

namespace Spec
variable {K : Type} [Field K]

/-- trapezoidal rule for a function with values `g i` at the grid points `x i`, `i < n` -/
def trapezoid (x g : ℕ → K) (n : ℕ) : K :=
  ∑ i ∈ Finset.range (n - 1), (g (i + 1) + g i) / 2 * (x (i + 1) - x i)

/-- `∫ p dF` with the increments of `F` placed half on each end of their interval -/
def stieltjes (p : K → K) (x F : ℕ → K) (n : ℕ) : K :=
  ∑ i ∈ Finset.range (n - 1), (p (x (i + 1)) + p (x i)) / 2 * (F (i + 1) - F i)

end Spec
