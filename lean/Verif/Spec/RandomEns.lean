import Verif.Spec.Honest
import Verif.Spec.Ensemble
import Mathlib.Probability.Independence.Basic

/-! Ensembles whose members are drawn by chance. -/

namespace Spec
open MeasureTheory Np NDArr

/-- Observations and members depend on chance: at position `i` the observation is `Y i`, with the distribution function
`G i`, and the `n` members are `X i 0`, ..., `X i (n - 1)`, each with the distribution function `F i`. Any two of these
`n + 1` numbers are independent; nothing is asked about how positions depend on each other. -/
structure RandomEns {Ω : Type} [MeasurableSpace Ω] (P : Measure Ω) (sh : List Nat) (n : Nat) (o f : Ω → NDArr (Fl ℝ))
    (ax : Int) (Y : List Nat → Ω → ℝ) (X : List Nat → Nat → Ω → ℝ) (F G : List Nat → ℝ → ℝ) : Prop
    extends Drawn P sh o Y G where
  members : ∀ ω i, InB sh i → membersAt (f ω) ax i = (List.range n).map fun j => some (X i j ω)
  measX : ∀ i, InB sh i → ∀ j, j < n → Measurable (X i j)
  meanX : ∀ i, InB sh i → ∀ j, j < n → Integrable (X i j) P
  lawX : ∀ i, InB sh i → ∀ j, j < n → ∀ x, P.real {ω | X i j ω ≤ x} = F i x
  indepY : ∀ i, InB sh i → ∀ j, j < n → ProbabilityTheory.IndepFun (X i j) (Y i) P
  indepX : ∀ i, InB sh i → ∀ j l, j < n → l < n → j ≠ l → ProbabilityTheory.IndepFun (X i j) (X i l) P

end Spec
