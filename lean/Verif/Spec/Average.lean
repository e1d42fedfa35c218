import Verif.Spec.Pairs

/-! Specification of averages with missing values. -/

namespace Spec
open Np

variable {K : Type} [Field K] [LinearOrder K]

/-- the values that are present -/
def present (l : List (Fl K)) : List K := l.filterMap id

/-- `v` is the average of `l`: missing if a value is missing and missing values are not skipped, or if
no value is present; otherwise the arithmetic mean of the present values. -/
def IsAvg (skip : Bool) (l : List (Fl K)) (v : Fl K) : Prop :=
  if (skip = false ∧ none ∈ l) ∨ present l = [] then v = none else v = some (avg (present l))

end Spec
