import Verif.Np.Array

/-!
# Arrays that stand for larger ones
-/

namespace Spec
open Np

/-- shape `s` fits into shape `t`: aligned at the last axes, every axis has length one or the length it has in `t` -/
def FitsInto (s t : List Nat) : Prop :=
  s.length ≤ t.length ∧ ∀ i < s.length, s.getD i 0 = 1 ∨ s.getD i 0 = t.getD (t.length - s.length + i) 0

/-- the position in an array of shape `s` that belongs to position `k` of a larger array -/
def alignedPos (s k : List Nat) : List Nat :=
  (List.range s.length).map fun i => if s.getD i 0 = 1 then 0 else k.getD (k.length - s.length + i) 0

/-- `e` is `a` repeated to fill shape `t` -/
def Repeats {α : Type} [Inhabited α] (a e : NDArr α) (t : List Nat) : Prop :=
  e.shape = t ∧ ∀ k, InB t k → e.get k = a.get (alignedPos a.shape k)

end Spec
