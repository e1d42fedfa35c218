import Verif.Spec.RelChance
import Mathlib.Probability.Independence.Basic

/-! How far a score of finitely many random observations may be from its mean. -/

namespace Spec
open MeasureTheory Np NDArr

variable {Ω : Type} [MeasurableSpace Ω]

/-- A deviation of `ε` or more from the mean has a probability of at most `2 exp (-2 N ε²)`. -/
def Concentrated (P : Measure Ω) (S : Ω → ℝ) (N : Nat) : Prop :=
  ∀ ε, 0 ≤ ε → P.real {ω | ε ≤ |S ω - ∫ ω, S ω ∂P|} ≤ 2 * Real.exp (-(2 * N * ε ^ 2))

/-- the random numbers at the positions of an array of shape `sh` are independent -/
def IndependentAt (P : Measure Ω) (sh : List Nat) (Y : List Nat → Ω → ℝ) : Prop :=
  ProbabilityTheory.iIndepFun (fun i : {i // InB sh i} => Y i.1) P

end Spec
