import Verif.Spec.LongRun
import Verif.Spec.BrierChance
import Verif.Spec.Reliability

/-!
# What diagrams and decompositions of growing archives estimate: C132
-/

namespace Spec
open MeasureTheory

variable {Ω : Type} [MeasurableSpace Ω]

/-- the mean of `f` where `B` is the case -/
noncomputable def meanOn (P : Measure Ω) (B : Set Ω) (f : Ω → ℝ) : ℝ := (∫ ω in B, f ω ∂P) / P.real B

/-- `x` is in bin `b` of a reliability diagram with `nbins` bins -/
def InRelBin (nbins b : Nat) (x : ℝ) : Prop := relEdge nbins b ≤ x ∧ x < relEdge nbins (b + 1)

/-- `x` is in bin `b` of a decomposition with the inner edges `1/(n+1)`, ..., `n/(n+1)` -/
def InDecompBin (n b : Nat) (x : ℝ) : Prop :=
  (b = 0 ∨ (b : ℝ) / (n + 1) ≤ x) ∧ (b = n ∨ x < (b + 1 : ℝ) / (n + 1))

/-- reliability of the forecast probability `D` of the event `A` -/
noncomputable def trueRel (P : Measure Ω) (n : Nat) (D : Ω → ℝ) (A : Set Ω) : ℝ :=
  ∑ b ∈ Finset.range (n + 1), let B := {ω | InDecompBin n b (D ω)}
    P.real B * (meanOn P B D - P.real (B ∩ A) / P.real B) ^ 2

/-- resolution of the forecast probability `D` of the event `A` -/
noncomputable def trueRes (P : Measure Ω) (n : Nat) (D : Ω → ℝ) (A : Set Ω) : ℝ :=
  ∑ b ∈ Finset.range (n + 1), let B := {ω | InDecompBin n b (D ω)}
    P.real B * (P.real (B ∩ A) / P.real B - P.real A) ^ 2

/-- correlation of two random numbers -/
noncomputable def trueCorr (P : Measure Ω) (X Y : Ω → ℝ) : ℝ :=
  (∫ ω, X ω * Y ω ∂P - (∫ ω, X ω ∂P) * ∫ ω, Y ω ∂P) /
    Real.sqrt ((∫ ω, X ω ^ 2 ∂P - (∫ ω, X ω ∂P) ^ 2) * (∫ ω, Y ω ^ 2 ∂P - (∫ ω, Y ω ∂P) ^ 2))

end Spec
