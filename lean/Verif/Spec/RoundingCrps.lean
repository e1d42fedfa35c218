import Verif.Spec.ProperScoring
import Verif.Spec.RoundingError

/-! What the accuracy of the score is measured by. -/

namespace Spec
open Np Model

variable {K : Type} [Field K] [LinearOrder K]

/-- mean distance of the members that are present from the observation -/
def memberDist (y : Fl K) (ms : List (Fl K)) : Fl K :=
  match y with
  | none => none
  | some y => if present ms = [] then none else some (avg ((present ms).map fun x => |x - y|))

/-- additions on the longest way in a mean over `m` members and a mean over all pairs of them -/
def formulaDepth (S : SumOrder) (m : Nat) : Nat := max (depth (S.tree m)) (depth (S.tree (m * m)))

end Spec
