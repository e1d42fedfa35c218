import Verif.Spec.Average
import Verif.Spec.Axes

/-! Data that differ by little, and the distance of a number from an interval. -/

namespace Spec
open Np NDArr

variable {K : Type} [Field K] [LinearOrder K]

/-- complete arrays of the same shape whose entries differ by at most `δ` -/
def NearArr (δ : K) (f g : NDArr (Fl K)) : Prop :=
  f.shape = g.shape ∧ ∀ i, InB f.shape i → ∃ x y, f.get i = some x ∧ g.get i = some y ∧ |x - y| ≤ δ

/-- the distance of `y` from the interval between `a` and `b` -/
def gap (a b y : K) : K := max 0 (max (min a b - y) (y - max a b))

end Spec
