import Verif.Spec.BrierChance
import Verif.Spec.Pairs

/-! Brier decompositions of observations that depend on chance. -/

namespace Spec
open MeasureTheory

variable {Ω : Type} [MeasurableSpace Ω]

open Classical in
/-- the positions whose forecast probability is in the bin of that of `i` -/
noncomputable def binMates (n : Nat) (p : List Nat → ℝ) (L : List (List Nat)) (i : List Nat) : List (List Nat) :=
  L.filter fun j => decide (sameBin n (p i) (p j))

/-- average over the positions of what `f` is on average in their bin -/
noncomputable def binMean (n : Nat) (p : List Nat → ℝ) (L : List (List Nat)) (f : List Nat → ℝ) (i : List Nat) : ℝ :=
  avg ((binMates n p L i).map f)

/-- what chance adds to reliability and resolution: the variance of the observed frequency of a bin, averaged over the
positions -/
noncomputable def binNoise (n : Nat) (p q : List Nat → ℝ) (L : List (List Nat)) : ℝ :=
  avg (L.map fun i => binMean n p L (fun j => q j * (1 - q j)) i / (binMates n p L i).length)

/-- the variance of the observed frequency of all events -/
noncomputable def allNoise (q : List Nat → ℝ) (L : List (List Nat)) : ℝ := avg (L.map fun j => q j * (1 - q j)) / L.length

/-- The random decomposition into reliability `R`, resolution `S` and uncertainty `U` at positions `L` with forecast
probabilities `p` of independent events with probabilities `q`. -/
structure ExpectedDecomp (P : Measure Ω) (n : Nat) (L : List (List Nat)) (p q : List Nat → ℝ) (R S U : Ω → ℝ) : Prop where
  integrable : Integrable R P ∧ Integrable S P ∧ Integrable U P
  reliability : ∫ ω, R ω ∂P = avg (L.map fun i => (binMean n p L p i - binMean n p L q i) ^ 2) + binNoise n p q L
  resolution : ∫ ω, S ω ∂P = avg (L.map fun i => (binMean n p L q i - avg (L.map q)) ^ 2) + binNoise n p q L - allNoise q L
  uncertainty : ∫ ω, U ω ∂P = avg (L.map q) * (1 - avg (L.map q)) - allNoise q L

end Spec
