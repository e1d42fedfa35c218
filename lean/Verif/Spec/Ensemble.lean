import Verif.Model.Ensemble
import Verif.Spec.Axes

/-! Specification of ensemble probabilities and thresholds. -/

namespace Spec
open Np NDArr Model

variable {K : Type} [Field K] [LinearOrder K]

/-- the threshold value at position `k` -/
def thrAt (t : Thr K) (k : List Nat) : Fl K :=
  match t with
  | .scalar v => v
  | .array a => a.get k
  | .other => none

/-- a usable threshold for positions of shape `D` -/
def ThrOK (t : Thr K) (D : List Nat) : Prop :=
  match t with
  | .scalar _ => True
  | .array a => a.shape = D
  | .other => False

/-- `x ≤ y` for two present values -/
def LeP (x y : Fl K) : Prop := ∃ a b, x = some a ∧ y = some b ∧ a ≤ b

open Classical in
/-- fraction of the members that are at or below `t`; missing members (and a missing threshold) compare
as false but are counted in the denominator; no members at all gives NaN -/
noncomputable def fractionLe (members : List (Fl K)) (t : Fl K) : Fl K :=
  if members = [] then none
  else some (((members.filter fun x => decide (LeP x t)).length : K) / (members.length : K))

/-- `x < y` for two present values -/
def LtP (x y : Fl K) : Prop := ∃ a b, x = some a ∧ y = some b ∧ a < b

open Classical in
/-- 1 if the event holds, else 0 -/
noncomputable def indicator (p : Prop) : K := if p then 1 else 0

/-- the shape of the positions: the ensemble axis dropped -/
def posShape (s : List Nat) (ax : Int) : List Nat := s.eraseIdx (axisNum s.length ax)

/-- the members at position `k` -/
def membersAt (f : NDArr (Fl K)) (ax : Int) (k : List Nat) : List (Fl K) :=
  fiber f [axisNum f.shape.length ax] k

end Spec
