import Verif.Spec.Normal
import Verif.Spec.Average

/-! The continuous ranked probability score of an ensemble. -/

namespace Spec
open Np

/-- empirical distribution function: the fraction of members at or below `t` -/
noncomputable def ecdf (ms : List ℝ) (t : ℝ) : ℝ := (ms.map fun x => if x ≤ t then (1 : ℝ) else 0).sum / ms.length

/-- mean distance of the members from the observation, minus half the mean distance between two members: the formula in
the documentation of `properscoring.crps_ensemble` -/
noncomputable def energyScore (ms : List ℝ) (y : ℝ) : ℝ :=
  avg (ms.map fun x => |x - y|) - avg (ms.map fun x => avg (ms.map fun x' => |x - x'|)) / 2

/-- the score function of `properscoring` on complete data -/
def IsEnergyScore (pt : Fl ℝ → List (Fl ℝ) → Fl ℝ) : Prop :=
  ∀ y ms, ms ≠ [] → pt (some y) (ms.map some) = some (energyScore ms y)

end Spec
