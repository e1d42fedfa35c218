import Verif.Spec.Ensemble

/-! Specification of observation ranks. -/

namespace Spec
open Np NDArr

/-- a legal way of evaluating: one worker, or several with a legal map axis and at least one slab -/
def MapOK (workers : Nat) (mapAxis : Int) (D : List Nat) : Prop :=
  workers = 1 ∨ (mapAxis < 0 ∧ -(D.length : Int) ≤ mapAxis ∧ D.getD (axisNum D.length mapAxis) 0 ≠ 0)

variable {K : Type} [Field K] [LinearOrder K]

open Classical in
/-- number of members below the observation -/
noncomputable def numLt (M : List (Fl K)) (x : Fl K) : Nat := (M.filter fun y => decide (LtP y x)).length

open Classical in
/-- number of members at or below the observation -/
noncomputable def numLe (M : List (Fl K)) (x : Fl K) : Nat := (M.filter fun y => decide (LeP y x)).length

/-- `r` is a possible rank of the observation `x` among the members `M` -/
def PossibleRank (M : List (Fl K)) (x : Fl K) (r : Nat) : Prop :=
  1 + numLt M x ≤ r ∧ r ≤ 1 + numLe M x

end Spec
