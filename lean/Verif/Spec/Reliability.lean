import Verif.Spec.Axes
import Verif.Np.Stat

/-! Specification of a reliability diagram in terms of (probability, observation) pairs. -/

namespace Spec
open Np

variable {K : Type} [Field K] [LinearOrder K]

/-- edge `j` of `nbins` equal bins over `[0, 1 + 1e-8]` -/
def relEdge (nbins j : Nat) : K := (j : K) * ((1 + 1 / 10 ^ 8) / (nbins : K))

/-- `x` belongs to bin `b`: `edge b ≤ x < edge (b+1)`.  Values at or beyond the last edge, and NaN,
go to an extra bin number `nbins`. -/
def inRelBin (nbins b : Nat) : Fl K → Bool
  | none => decide (b = nbins)
  | some x => decide (relEdge nbins b ≤ x) && (decide (b = nbins) || decide (x < relEdge nbins (b + 1)))

/-- the pairs whose probability is in bin `b` -/
def relGroup (nbins b : Nat) (pairs : List (Fl K × Bool)) : List (Fl K × Bool) :=
  pairs.filter fun p => inRelBin nbins b p.1

/-- the bins that contain at least one pair, in increasing order -/
def relNonEmpty (nbins : Nat) (pairs : List (Fl K × Bool)) : List Nat :=
  (List.range (nbins + 1)).filter fun b => relGroup nbins b pairs ≠ []

/-- 1 for an event, 0 for a non-event -/
def ind (b : Bool) : Fl K := some (if b then 1 else 0)

/-- the pairs of forecast and observation over kept position `k` -/
def pairsAt {α β : Type} [Inhabited α] [Inhabited β] (f : NDArr α) (o : NDArr β)
    (axes k : List Nat) : List (α × β) :=
  (fiberIdx f.shape axes k).map fun i => (f.get i, o.get i)

end Spec
