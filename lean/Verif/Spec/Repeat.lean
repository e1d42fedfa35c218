import Verif.Model.Api

/-!
# What a repeated call is
-/

namespace Spec
open Model

variable {A V : Type}

/-- the result a request is computed from: `rmse()` shares the squared errors of `sq_error()` (Verify.py:84) -/
def reqSlot : Req A → Slot A
  | .slot s => s
  | .rmse => .sqError

/-- metrics that bootstrap after loading, so that a repeated call draws a new bootstrap sample -/
def Resampled : Req A → Prop
  | .slot .crps | .slot .error | .slot .spread | .slot .sqError | .slot .abError | .slot (.brier _ _)
  | .slot (.reliability _ _ _) | .slot (.ss _) | .rmse => True
  | _ => False

/-- no file was touched, not even for a moment -/
def Untouched (w w' : World V) : Prop := w'.fs = w.fs ∧ w'.trace = w.trace

end Spec
