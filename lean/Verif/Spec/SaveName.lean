import Verif.Model.SaveName
import Verif.Spec.History

/-!
# Which file names a history uses
-/

namespace Spec
open Np Model

variable {X V A : Type}

/-- the result that a request stores -/
def stored : Req A → Slot A
  | .slot s => s
  | .rmse => .sqError

/-- the result `s` may be stored under `n`: by default, or through a call in the list -/
def StoredAs (I : ArgInfo A) (calls : List (Option (List Char) × Req A)) (s : Slot A) (n : Name) : Prop :=
  slotName I s = .ok (some n) ∨ ∃ q ∈ calls, stored q.2 = s ∧ slotNameAs I q.1 s = .ok (some n)

/-- no two results are stored under one name -/
def NoClash (I : ArgInfo A) (calls : List (Option (List Char) × Req A)) : Prop :=
  ∀ s s' n, StoredAs I calls s n → StoredAs I calls s' n → s = s'

/-- results that are final, i.e. already averaged or bootstrapped: `corr` and `brier_decomp`; not stored by default -/
def IsFinal : Slot A → Prop
  | .corr | .brierDecomp _ _ => True
  | _ => False

def CallOf (calls : List (Option (List Char) × Req A)) : NOp X A → Prop
  | .plain _ => True
  | .named name r => (name, r) ∈ calls

def NFromScratch : NOp X A → Prop
  | .plain op => FromScratch op
  | .named _ _ => True

/-- all setters return -/
def NSettersReturn (C : Cls) (I : ArgInfo A) (P : Prims X V A) (mids : FS V → Path → List (FS V)) :
    List (NOp X A) → Obj X → World V → Prop
  | [], _, _ => True
  | op :: l, o, w =>
    (match op with
      | .plain op => IsMetric op ∨ (step C I P mids op o w).1 = .ok none
      | .named _ _ => True) ∧
      NSettersReturn C I P mids l (stepN C I P mids op o w).2.1 (stepN C I P mids op o w).2.2

/-- the result of a metric call with `save_name=name` -/
def resultAs (C : Cls) (I : ArgInfo A) (P : Prims X V A) (mids : FS V → Path → List (FS V)) (name : Option (List Char))
    (r : Req A) (o : Obj X) (w : World V) : Except Err (Option V) :=
  (stepN C I P mids (.named name r) o w).1

end Spec
