import Verif.Np.Array

/-!
# Specification vocabulary: selecting entries by coordinates

Independent of how the code moves axes around: `fiber a axes k` is the list of the entries of `a`
whose coordinates on the axes *not* in `axes` are `k`.
-/

namespace Spec
open Np

/-- The components of `l` (a shape or a multi-index) on axes **not** in `axes`, in axis order. -/
def dropAxes (axes l : List Nat) : List Nat :=
  ((List.range l.length).filter fun a => a ∉ axes).map (l.getD · 0)

/-- The components of `l` on the axes in `axes`, in axis order. -/
def takeAxes (axes l : List Nat) : List Nat :=
  ((List.range l.length).filter fun a => a ∈ axes).map (l.getD · 0)

/-- All multi-indices whose coordinates off `axes` are `k`. -/
def fiberIdx (shape axes k : List Nat) : List (List Nat) :=
  (allIdx shape).filter fun i => dropAxes axes i = k

/-- The entries of `a` whose coordinates off `axes` are `k`. -/
def fiber {α : Type} [Inhabited α] (a : NDArr α) (axes k : List Nat) : List α :=
  (fiberIdx a.shape axes k).map a.get

/-- The non-negative number of the axis that Python spells `ax` in an array of rank `n`. -/
def axisNum (n : Nat) (ax : Int) : Nat := (if ax < 0 then ax + n else ax).toNat

/-- `ax` is a legal axis spelling for rank `n`. -/
def AxisOK (n : Nat) (ax : Int) : Prop := -(n : Int) ≤ ax ∧ ax < n

/-- legal, distinct axes -/
structure AxesOK (n : Nat) (l : List Int) : Prop where
  ok : ∀ x ∈ l, AxisOK n x
  nodup : (l.map (axisNum n)).Nodup

/-- the axis numbers meant by an `axis=` argument -/
def nums (n : Nat) : Option (List Int) → List Nat
  | none => List.range n
  | some l => l.map (axisNum n)

/-- `axis=None`, or legal and distinct axes -/
def OptOK (n : Nat) : Option (List Int) → Prop
  | none => True
  | some l => AxesOK n l

end Spec
