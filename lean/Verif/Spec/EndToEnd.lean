import Verif.Spec.Ensemble
import Verif.Spec.Boot
import Verif.Spec.Average
import Verif.Spec.Reliability
import Verif.Model.ApiInst

/-! What the end-to-end statements assume about a verifier object. -/

namespace Spec
open Np Model

variable {K : Type} {A : Type}

/-- the averaging axes named by the user's `avg_axis` -/
def axesOf : PyAxis → Option (List Int)
  | .none => none
  | .int i => some [i]
  | .list l => some l
  | .tuple l => some l
  | .other => none

/-- `to_name` can write this argument (everything except a zero-dimensional array) -/
def Printable (I : ArgInfo A) (a : A) : Prop := I.hasLen a = true → I.len a ≠ none

/-- the settings of a deterministic verifier after validation -/
structure DetReady (o : Obj (DetX K)) (axes : Option (List Int)) : Prop where
  avg : o.avg = match axes with
    | none => PyAxis.none
    | some l => PyAxis.tuple l
  shape : o.ext.f.shape = o.ext.o.shape

/-- the settings of an ensemble verifier after validation: `ax` is the ensemble axis, `fc` the collapsed
forecasts -/
structure EnsReady (o : Obj (EnsX K)) (axes : Option (List Int)) (ax : Int) (fc : NDArr (Fl K)) : Prop where
  avg : o.avg = match axes with
    | none => PyAxis.none
    | some l => PyAxis.tuple l
  axis : o.ext.axis = some ax
  coll : o.ext.fc = some fc
  axisOK : AxisOK o.ext.f.shape.length ax
  shape : o.ext.o.shape = posShape o.ext.f.shape ax

variable [Field K] [LinearOrder K]

/-- `g` of the two values of a pair, missing when one is -/
def both (g : K → K → K) (p : Fl K × Fl K) : Fl K :=
  match p with
  | (some x, some y) => some (g x y)
  | _ => none

/-- the event is observed at position `k`: strictly above the threshold for `over`, strictly below it for
`below` -/
def Event (isOver : Bool) (t : Thr K) (o : NDArr (Fl K)) (k : List Nat) : Prop :=
  if isOver then LtP (thrAt t k) (o.get k) else LtP (o.get k) (thrAt t k)

/-- the Brier scores of the positions over kept position `k` -/
noncomputable def brierAt (isOver : Bool) (t : Thr K) (p o : NDArr (Fl K)) (axes k : List Nat) : List (Fl K) :=
  (fiberIdx o.shape axes k).map fun i => (p.get i).map fun v => (v - indicator (Event isOver t o i)) ^ 2

/-- `over=a` or `below=a` -/
def overArg (isOver : Bool) (a : A) : Option A := if isOver then some a else none
def belowArg (isOver : Bool) (a : A) : Option A := if isOver then none else some a

/-- axes for which bootstrapping works: all, or legal, distinct and either all non-negative or all negative -/
def BootAxes (n : Nat) : Option (List Int) → Prop
  | none => True
  | some l => ((∀ x ∈ l, 0 ≤ x ∧ x < n) ∨ ∀ x ∈ l, -(n : Int) ≤ x ∧ x < 0) ∧ l.Nodup

end Spec
