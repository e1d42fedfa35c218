import Verif.Spec.EndToEnd

/-! # Selecting and reordering along an axis; pools of data behind one number -/

namespace Spec
open Np NDArr Model

/-- the multi-index with coordinate `n` looked up in `σ` -/
def lookAt (n : Nat) (σ i : List Nat) : List Nat := i.set n (σ.getD (i.getD n 0) 0)

/-- `np.take(a, σ, axis=n)`: the hyperplanes of axis `n` named by `σ`, in that order -/
def takeAlong {α : Type} [Inhabited α] (a : NDArr α) (n : Nat) (σ : List Nat) : NDArr α :=
  ofFn (a.shape.set n σ.length) fun i => a.get (lookAt n σ i)

/-- the number that axis `n` has after the axes `A` are removed -/
def keptPos (A : List Nat) (n : Nat) : Nat := ((List.range n).filter fun a => decide (a ∉ A)).length

variable {K : Type}

/-- the observations and members of the positions that are averaged over kept position `k` -/
def memberPool (f o : NDArr (Fl K)) (ax : Int) (axes k : List Nat) : List (Fl K × List (Fl K)) :=
  (fiberIdx o.shape axes k).map fun i => (o.get i, membersAt f ax i)

/-- probabilities, observations and thresholds of the positions that are averaged over kept position `k` -/
def eventPool (p o : NDArr (Fl K)) (t : Thr K) (axes k : List Nat) : List (Fl K × Fl K × Fl K) :=
  (fiberIdx o.shape axes k).map fun i => (p.get i, o.get i, thrAt t i)

/-- the same selection of thresholds; one number is a threshold for every position -/
def takeThr (t : Thr K) (n : Nat) (σ : List Nat) : Thr K :=
  match t with
  | .array a => .array (takeAlong a n σ)
  | t => t

end Spec
