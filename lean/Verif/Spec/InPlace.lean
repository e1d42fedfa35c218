import Verif.Model.InPlace

/-!
# Arrays in memory

`Fits h v`: the array lies inside its buffer and no two of its elements share a place (every array that is not the result
of broadcasting).  `Apart v e`: the two arrays share no place.
-/

namespace Spec
open Np NDArr Model

variable {α : Type}

/-- the array lies inside its buffer, every element at its own place -/
structure Fits (h : Mem α) (v : View) : Prop where
  buf : v.buf < h.length
  inside : ∀ p ∈ v.pos.data, ∃ q, p = some q ∧ q < (h.getD v.buf []).length
  nodup : v.pos.data.Nodup

/-- no place belongs to both arrays -/
def Apart (v e : View) : Prop := v.buf ≠ e.buf ∨ ∀ p ∈ v.pos.data, p ∉ e.pos.data

/-- the place belongs to the array -/
def View.holds (v : View) (b q : Nat) : Prop := b = v.buf ∧ some q ∈ v.pos.data

end Spec
