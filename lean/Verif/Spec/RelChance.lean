import Verif.Spec.BrierChance
import Verif.Spec.Reliability

/-! Reliability curves of observations that depend on chance. -/

namespace Spec
open MeasureTheory

variable {Ω : Type} [MeasurableSpace Ω]

open Classical in
/-- the positions whose forecast probability `p` is in bin `b` -/
noncomputable def binPositions (nbins b : Nat) (p : List Nat → ℝ) (L : List (List Nat)) : List (List Nat) :=
  L.filter fun i => decide (relEdge nbins b ≤ p i ∧ p i < relEdge nbins (b + 1))

/-- The curve of the positions `L` with forecast probabilities `p` when the events have the probabilities `q`: `bs` are the
bins that hold a forecast; the mean forecasts `pp` and the counts `pc` of these bins do not depend on chance; the observed
frequency of a bin does, and its mean is the average probability of the events in the bin. -/
structure ExpectedCurve (P : Measure Ω) (nbins : Nat) (L : List (List Nat)) (p q : List Nat → ℝ) (bs : List Nat)
    (pp : List ℝ) (pt : Ω → List ℝ) (pc : List Nat) : Prop where
  increasing : bs.Pairwise (· < ·)
  bins : ∀ b, b ∈ bs ↔ b < nbins ∧ binPositions nbins b p L ≠ []
  forecast : pp = bs.map fun b => avg ((binPositions nbins b p L).map p)
  counts : pc = bs.map fun b => (binPositions nbins b p L).length
  points : ∀ ω, (pt ω).length = bs.length
  observed : ∀ j b : Nat, bs[j]? = some b → ∃ T : Ω → ℝ, (∀ ω, (pt ω)[j]? = some (T ω)) ∧ Integrable T P ∧
    ∫ ω, T ω ∂P = avg ((binPositions nbins b p L).map q)
  /-- forecasts that are right give points that are on the diagonal on average -/
  diagonal : (∀ i ∈ L, p i = q i) → ∀ (j : Nat) (x : ℝ) (T : Ω → ℝ), pp[j]? = some x → (∀ ω, (pt ω)[j]? = some (T ω)) →
    ∫ ω, T ω ∂P = x

end Spec
