import Verif.Spec.History

/-! # The settings after a history of calls -/

namespace Spec
open Np Model

variable {X A : Type}

/-- the last element, or what was there before -/
def lastOr {α : Type} (l : List α) (a : α) : α := l.getLast?.getD a

/-- values given to `set_avg_axis` -/
def avgCalls (ops : List (Op X A)) : List PyAxis := ops.filterMap fun
  | .setAvg a => some a
  | _ => none

/-- values given to `set_boot_samples`; `disable_boot` counts as `None` -/
def bootCalls (ops : List (Op X A)) : List PyBoot := ops.filterMap fun
  | .setBoot b => some b
  | .disableBoot => some .none
  | _ => none

/-- directories given to `enable_saving`; `disable_saving` counts as `None` -/
def dirCalls (ops : List (Op X A)) : List PyDir := ops.filterMap fun
  | .enableSaving d _ => some d
  | .disableSaving => some .none
  | _ => none

/-- values of `start_from_scratch` given to `enable_saving` -/
def scratchCalls (ops : List (Op X A)) : List (Option Bool) := ops.filterMap fun
  | .enableSaving _ s => some s
  | _ => none

/-- numbers and lists of axes are kept as tuples -/
def asTuple : PyAxis → PyAxis
  | .int i => .tuple [i]
  | .list l => .tuple l
  | a => a

/-- no call of a setter of the classes (`set_ensemble_axis` and the like) -/
def CommonOnly : Op X A → Prop
  | .setExt _ => False
  | _ => True

/-- the arguments the constructor would need to start with the settings after the history -/
def withLast (ops : List (Op X A)) (oi : Obj X) : Obj X where
  avg := lastOr (avgCalls ops) oi.avg
  boot := lastOr (bootCalls ops) oi.boot
  dir := lastOr (dirCalls ops) oi.dir
  scratch := lastOr (scratchCalls ops) oi.scratch
  ext := oi.ext

end Spec
