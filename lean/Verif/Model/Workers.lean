import Verif.Model.Api
import Verif.Model.Jobs
import Verif.Model.Integration

/-!
# Integrations with several worker processes and a working directory (utils_approximation.py:28-46, 109-126, 148-164, 187-203)

Every Ray task works with its own copy of the verifier, and all copies have the same working directory: the tasks are jobs in
the sense of `Verif.Model.Jobs`.  The number of workers only limits which interleavings occur; all of them are allowed.
Simplification: the main process fetches the results after all tasks have ended.
-/

namespace Model
open Np

variable {X V A B : Type}

/-- `wrapper_brier` (utils_approximation.py:41-46) for the CRPS and `wrapper_cdf` (lines 28-35) for the other two integrals:
the name of the saved result and the private method, for one point of the grid -/
def task (C : Cls) (I : ArgInfo A) (P : Prims X V A) (x : X) (kind : Kind) (a : A) : Except Err (Option Name) × Prog V :=
  match kind with
  | .crps => (slotName I (.brier none (some a)), brierBody C I P x none (some a))
  | .mean | .variance => (slotName I (.cdf none (some a)), cdfBody C I P x none (some a))

/-- the whole task: `_metric_workflow_1` (Verify.py:246-253), and the row is returned -/
def taskProg (C : Cls) (I : ArgInfo A) (P : Prims X V A) (x : X) (kind : Kind) (a : A) : Prog V :=
  .callName (task C I P x kind a).1 (task C I P x kind a).2 fun v => .ret (.ok v)

/-- the tasks after some of their steps -/
def workers (F : Pickle V B) (wd : Option Path) (C : Cls) (I : ArgInfo A) (P : Prims X V A) (x : X) (kind : Kind)
    (pts : List A) (disk : Disk B) (seed : Nat → Nat → Nat) (sched : List (Fin pts.length)) : Jobs (Fin pts.length) V B :=
  Jobs.run F (fun _ => wd) sched (Jobs.start disk (fun i => taskProg C I P x kind pts[i]) fun i => seed i)

/-- a row or an exception, when the task has ended -/
def ended : JState V → Option (Except Err V)
  | .done r => some r
  | _ => none

/-- the results of all tasks with their numbers; `none` while one of them is running -/
def allEnded {n : Nat} (σ : Jobs (Fin n) V B) : Option (List (Nat × Except Err V)) :=
  (List.finRange n).mapM fun i => (ended (σ.job i).state).map fun r => (i.val, r)

/-- the sum over the rows: utils_approximation.py:128-135, 166-174, 205-222 -/
def sumRows (P : Prims X V A) (x : X) : Kind → List V → Except Err V
  | .crps => P.crpsOf x
  | .mean => P.meanOf x
  | .variance => P.varOf x

/-- utils_approximation.py:109-135, 148-174, 187-222: `none` while a task is running -/
def parallelIntegral (F : Pickle V B) (wd : Option Path) (C : Cls) (I : ArgInfo A) (P : Prims X V A) (x : X) (kind : Kind)
    (pts : List A) (disk : Disk B) (seed : Nat → Nat → Nat) (sched : List (Fin pts.length)) (pick : Nat → Nat) :
    Option (Except Err V) :=
  (allEnded (workers F wd C I P x kind pts disk seed sched)).map fun l => rayRows pick l >>= sumRows P x kind

end Model
