import Verif.Spec.PitUniform
import Verif.Spec.Average

/-! Brier scores of observations that depend on chance. -/

namespace Spec
open MeasureTheory

variable {Ω : Type} [MeasurableSpace Ω]

/-- the random number `Y` lies above the threshold `τ`, or below it -/
def Beyond (isOver : Bool) (τ : ℝ) (Y : Ω → ℝ) (ω : Ω) : Prop := if isOver then τ < Y ω else Y ω < τ

/-- how likely this is -/
noncomputable def eventChance (P : Measure Ω) (isOver : Bool) (τ : ℝ) (Y : Ω → ℝ) : ℝ := P.real {ω | Beyond isOver τ Y ω}

/-- The random score `S`, obtained at positions `L` with the forecast probabilities `p` when the events have the
probabilities `q`: its mean is the average of the squared difference of `p` and `q` plus an amount that depends on `q` only;
so this amount is the least expected score, and forecasting `q` is the only way to get it. -/
structure ExpectedBrier (P : Measure Ω) (S : Ω → ℝ) (L : List (List Nat)) (p q : List Nat → ℝ) : Prop where
  integrable : Integrable S P
  mean : ∫ ω, S ω ∂P = avg (L.map fun i => (p i - q i) ^ 2 + q i * (1 - q i))
  least : avg (L.map fun i => q i * (1 - q i)) ≤ ∫ ω, S ω ∂P
  honest : ∫ ω, S ω ∂P = avg (L.map fun i => q i * (1 - q i)) ↔ ∀ i ∈ L, p i = q i

end Spec
