import Verif.Spec.EnsCrps

/-!
# Reliability, resolution and uncertainty of a score
-/

namespace Spec
open MeasureTheory

variable {α β : Type}

open Classical in
/-- the positions of `L` with the same forecast as position `i` -/
noncomputable def alike (F : α → β) (L : List α) (i : α) : List α := L.filter fun j => F j = F i

/-- mean distance between what was forecast and what was observed when it was forecast -/
noncomputable def crpsReliability (L : List α) (F : α → ℝ → ℝ) (Y : α → ℝ) : ℝ :=
  avg (L.map fun i => ∫ t, (F i t - ecdf ((alike F L i).map Y) t) ^ 2)

/-- mean distance between what was observed when the same was forecast and all that was observed -/
noncomputable def crpsResolution (L : List α) (F : α → ℝ → ℝ) (Y : α → ℝ) : ℝ :=
  avg (L.map fun i => ∫ t, (ecdf ((alike F L i).map Y) t - ecdf (L.map Y) t) ^ 2)

/-- half the mean absolute difference between two observations -/
noncomputable def crpsUncertainty (L : List α) (Y : α → ℝ) : ℝ :=
  avg (L.map fun i => avg (L.map fun j => |Y i - Y j|)) / 2

variable {K : Type} [Field K]

/-- mean squared difference between the probability and the frequency of the event when it was forecast -/
noncomputable def brierReliability (L : List α) (p e : α → K) : K :=
  avg (L.map fun i => (p i - avg ((alike p L i).map e)) ^ 2)

/-- mean squared difference between the frequency when the same was forecast and the overall frequency -/
noncomputable def brierResolution (L : List α) (p e : α → K) : K :=
  avg (L.map fun i => (avg ((alike p L i).map e) - avg (L.map e)) ^ 2)

/-- variance of an event of overall frequency `b` -/
def brierUncertainty (b : K) : K := b * (1 - b)

end Spec
