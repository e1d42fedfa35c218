import Mathlib.Algebra.BigOperators.Ring.Finset
import Mathlib.Algebra.Order.Field.Basic
import Mathlib.Data.Fintype.BigOperators

/-! Equally likely outcomes. -/

namespace Spec

variable {K : Type} [Field K]

/-- average over all (equally likely) outcomes -/
def expect {Ω : Type} [Fintype Ω] (X : Ω → K) : K := (∑ w, X w) / (Fintype.card Ω : K)

/-- mean of a list of numbers -/
def listMean (l : List K) : K := l.sum / (l.length : K)

/-- variance of a list of numbers -/
def listVar (l : List K) : K := listMean (l.map fun x => (x - listMean l) ^ 2)

end Spec
