import Verif.Spec.Honest
import Verif.Spec.GammaDist
import Verif.Model.Dist
import Mathlib.Probability.Independence.Basic

/-! Probability integral transforms of observations that depend on chance. -/

namespace Spec
open MeasureTheory Np NDArr Model

/-- the distribution functions of the statistics library are those of the distributions; the upper bound of the
truncated normal distribution is infinity -/
structure ExactLib (S : Scipy ℝ) : Prop where
  norm : ∀ x m s, 0 < s → S.norm (some x) (some m) (some s) = some (normalCdf m s x)
  truncnorm : ∀ x a m s, 0 < s → S.truncnorm (some x) (some a) (some m) (some s) = some (truncNormalCdf m s (m + s * a) x)
  gamma : ∀ x a l s, 0 < a → 0 < s → S.gamma (some x) (some a) (some l) (some s) = some (gammaCdf a ((x - l) / s))

/-- zero with probability `1 - p`, otherwise gamma distributed with mean `m` and standard deviation `s` -/
noncomputable def hurdleLaw (p m s x : ℝ) : ℝ :=
  if x < 0 then 0 else 1 - p + p * gammaCdf ((m / s) ^ 2) (x / (s ^ 2 / m))

variable {Ω : Type} [MeasurableSpace Ω]

/-- uniformly distributed between zero and one -/
def IsUniform (P : Measure Ω) (Z : Ω → ℝ) : Prop := ∀ u, 0 ≤ u → u ≤ 1 → P.real {ω | Z ω ≤ u} = u

/-- The array of observations `o ω` depends on chance: at every position `i` it holds the random number `Y i`, with the
distribution function `G i`. -/
structure Observed (P : Measure Ω) (sh : List Nat) (o : Ω → NDArr (Fl ℝ)) (Y : List Nat → Ω → ℝ)
    (G : List Nat → ℝ → ℝ) : Prop where
  shape : ∀ ω, (o ω).shape = sh
  value : ∀ i, InB sh i → ∀ ω, (o ω).get i = some (Y i ω)
  meas : ∀ i, InB sh i → Measurable (Y i)
  law : ∀ i, InB sh i → ∀ x, P.real {ω | Y i ω ≤ x} = G i x

/-- the numbers drawn for the positions are uniform between zero and one, and the one of a position has nothing to do with
the observation there -/
structure FreshDraws (P : Measure Ω) (sh : List Nat) (Y U : List Nat → Ω → ℝ) : Prop where
  uniform : ∀ i, InB sh i → IsUniform P (U i)
  indep : ∀ i, InB sh i → ProbabilityTheory.IndepFun (Y i) (U i) P

end Spec
