import Verif.Spec.Axes
import Verif.Np.Except

/-! # Averaging axes that make no sense -/

namespace Spec
open Np

/-- what numpy raises for bad axes of an array with `n` axes: `AxisError` if an axis does not exist, else `ValueError` if
one is given twice -/
def axisFault (n : Nat) (l : List Int) (e : Err) : Prop :=
  ((∃ x ∈ l, ¬ AxisOK n x) ∧ e = .axis) ∨ ((∀ x ∈ l, AxisOK n x) ∧ ¬ (l.map (axisNum n)).Nodup ∧ e = .value)

end Spec
