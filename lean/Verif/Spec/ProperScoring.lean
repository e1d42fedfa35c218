import Verif.Spec.Average
import Verif.Spec.Pairs

/-! The score of one observation and its members when some may be missing. -/

namespace Spec
open Np

variable {K : Type} [Field K] [LinearOrder K]

/-- mean distance of the members that are present from the observation, minus half the mean distance between two of them;
missing without observation or without members -/
def memberScore (y : Fl K) (ms : List (Fl K)) : Fl K :=
  match y with
  | none => none
  | some y => if present ms = [] then none else
    some (avg ((present ms).map fun x => |x - y|) -
      avg ((present ms).map fun x => avg ((present ms).map fun x' => |x - x'|)) / 2)

end Spec
