import Verif.Spec.LongRun
import Verif.Spec.Ensemble
import Verif.Spec.Roc

/-!
# What the area under the ROC curve of growing archives estimates: C140
-/

namespace Spec
open MeasureTheory

variable {Ω : Type} [MeasurableSpace Ω]

/-- Two days that have nothing to do with each other, the event `A` on the first and not on the second: the probability that
the first had the higher forecast `D`, ties counted one half -/
noncomputable def trueArea (P : Measure Ω) (D : Ω → ℝ) (A : Set Ω) : ℝ :=
  (∫ z : Ω × Ω, (indicator (z.1 ∈ A ∧ z.2 ∉ A) : ℝ) * wins (D z.1) (D z.2) ∂(P.prod P)) / (P.real A * P.real Aᶜ)

end Spec
