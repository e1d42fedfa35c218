import Verif.Spec.Honest
import Verif.Spec.RankSample

/-! What right forecasts are charged by the average errors. -/

namespace Spec
open MeasureTheory Np NDArr

/-- how far cutting a normal distribution off at zero moves its mean, in standard deviations -/
noncomputable def cutGain (truncated : Bool) (mu sigma : ℝ) : ℝ :=
  if truncated then phi (mu / sigma) / Phi (mu / sigma) else 0

/-- The random average error `E` and average squared error `Q` at positions `L`: their means are the averages of `β` and
of `κ`. -/
structure ExpectedErrors {Ω : Type} [MeasurableSpace Ω] (P : Measure Ω) (E Q : Ω → ℝ) (L : List (List Nat))
    (β κ : List Nat → ℝ) : Prop where
  integrable : Integrable E P
  mean : ∫ ω, E ω ∂P = avg (L.map β)
  integrable_sq : Integrable Q P
  mean_sq : ∫ ω, Q ω ∂P = avg (L.map κ)

end Spec
