import Verif.Model.RaySession

/-!
# What a history of integrations gives, for the property about failed integrations

Two things are remembered: the number of workers in force, and whether Ray was left running by a failed integration.
-/

namespace Spec
open Np NDArr Model

variable {K : Type} [Field K] [LinearOrder K] [IsStrictOrderedRing K]

/-- the environment of a fresh process -/
def freshEnv : Env := fun k =>
  if k = "pyanen_tqdm_disable" then some ['0'] else if k = "pyanen_tqdm_workers" then some ['1'] else none

/-- the integral in a fresh process on one core and in memory; `none` if it raises -/
def fresh (I : Integ K) (kind : Kind) : Option (NDArr (Fl K)) :=
  match (integrate { I with cores := 1, lessMemory := false } kind ⟨freshEnv, fun _ => none⟩).1 with
  | .ok r => some r
  | .error _ => none

/-- the outcome of one step -/
inductive Outcome (K : Type)
  | set
  | value (r : NDArr (Fl K))
  | raises
  | rayError

/-- the rules -/
def ruleStep (workers : Int) (broken : Bool) : RayOp K → Outcome K × Int × Bool
  | .workers n => (.set, n, broken)
  | .integ I kind =>
    if workers = 1 then
      match fresh I kind with
      | some r => (.value r, 1, broken)
      | none => (.raises, 1, broken)
    else if broken then (.rayError, 1, true)
    else match fresh I kind with
      | some r => (.value r, workers, false)
      | none => (.raises, 1, true)

def rules (workers : Int) (broken : Bool) : List (RayOp K) → List (Outcome K)
  | [] => []
  | op :: ops =>
    let s := ruleStep workers broken op
    s.1 :: rules s.2.1 s.2.2 ops

/-- the outcome of the model is the one of the rules -/
def Matches : Option (Except Err (NDArr (Fl K))) → Outcome K → Prop
  | none, .set => True
  | some (.ok r), .value r' => r = r'
  | some (.error _), .raises => True
  | some (.error e), .rayError => e = .runtime
  | _, _ => False

/-- integrations of verifiers: the rows have the shape of the observations, there is a grid and data, and the numbers of
workers are positive; what the cells of the memory mapped file are written in is only an order -/
def OpOK : RayOp K → Prop
  | .workers n => 1 ≤ n
  | .integ I _ => I.seq ≠ [] ∧ I.shape.prod ≠ 0 ∧ (∀ x r, I.row x = .ok r → r.shape = I.shape) ∧
      ∀ l, (I.order l).Perm l

end Spec
