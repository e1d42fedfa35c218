import Verif.Spec.Ensemble
import Verif.Spec.Reliability

/-! Specification of intersection over union. -/

namespace Spec
open Np

variable {K : Type} [Field K] [LinearOrder K]

open Classical in
/-- number of elements with the property -/
noncomputable def numOf {α : Type} (l : List α) (p : α → Prop) : Nat :=
  (l.filter fun x => decide (p x)).length

/-- `v` is the intersection over union of two events over the list of positions `l` -/
def IsIou {α : Type} (l : List α) (E F : α → Prop) (v : Fl K) : Prop :=
  ((∀ x ∈ l, ¬ E x ∧ ¬ F x) → v = none) ∧
  ((∃ x ∈ l, E x ∨ F x) →
    v = some ((numOf l (fun x => E x ∧ F x) : K) / (numOf l (fun x => E x ∨ F x) : K)))

end Spec
