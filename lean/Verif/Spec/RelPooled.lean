import Verif.Spec.RocPooled
import Verif.Spec.BinLimits

/-!
# What one reliability diagram for many places estimates: C144
-/

namespace Spec
open MeasureTheory

variable {Ω κ : Type} [MeasurableSpace Ω]

/-- the probability of `B` at a place drawn at random -/
noncomputable def shareOver (P : Measure Ω) (ks : List κ) (B : κ → Set Ω) : ℝ := avg (ks.map fun k => P.real (B k))

/-- the mean of `f` where `B` is the case, at a place drawn at random -/
noncomputable def meanOver (P : Measure Ω) (ks : List κ) (B : κ → Set Ω) (f : κ → Ω → ℝ) : ℝ :=
  (ks.map fun k => ∫ ω in B k, f k ω ∂P).sum / (ks.map fun k => P.real (B k)).sum

end Spec
