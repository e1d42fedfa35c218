import Verif.Spec.PsGaussian
import Verif.Np.Array
import Verif.Spec.Pairs
import Mathlib.MeasureTheory.Integral.Bochner.Basic

/-! Observations drawn from a distribution. -/

namespace Spec
open MeasureTheory Np NDArr

/-- `F` is the distribution function of `μ` -/
def HasLaw (μ : Measure ℝ) (F : ℝ → ℝ) : Prop := ∀ x, μ.real (Set.Iic x) = F x

/-- squared distance between two distribution functions -/
noncomputable def cdfDist (F G : ℝ → ℝ) : ℝ := ∫ x, (F x - G x) ^ 2

/-- what no forecast can avoid: half the mean distance of two independent observations -/
noncomputable def cdfSpread (G : ℝ → ℝ) : ℝ := ∫ x, G x * (1 - G x)

/-- what a Gaussian verifier announces: a normal distribution, cut off at zero when `truncated` is set -/
noncomputable def gaussLaw (truncated : Bool) (mu sigma : ℝ) : ℝ → ℝ :=
  if truncated then truncNormalCdf mu sigma 0 else normalCdf mu sigma

/-- The array of observations `o ω` depends on chance: at every position `i` it holds the random number `Y i`, which has
a mean and the distribution function `G i`. Nothing is asked about how positions depend on each other. -/
structure Drawn {Ω : Type} [MeasurableSpace Ω] (P : Measure Ω) (sh : List Nat) (o : Ω → NDArr (Fl ℝ))
    (Y : List Nat → Ω → ℝ) (G : List Nat → ℝ → ℝ) : Prop where
  shape : ∀ ω, (o ω).shape = sh
  value : ∀ i, InB sh i → ∀ ω, (o ω).get i = some (Y i ω)
  meas : ∀ i, InB sh i → Measurable (Y i)
  mean : ∀ i, InB sh i → Integrable (Y i) P
  law : ∀ i, InB sh i → ∀ x, P.real {ω | Y i ω ≤ x} = G i x

/-- The random score `S`, obtained at positions `L` for the announced distribution functions `F` when the observations
have the laws `G`: it has a mean, namely the average of the squared distance of announcement and law plus an amount that
depends on the law only; so this amount is the least expected score, and announcing the laws is the only way to get it. -/
structure ExpectedScore {Ω : Type} [MeasurableSpace Ω] (P : Measure Ω) (S : Ω → ℝ) (L : List (List Nat))
    (F G : List Nat → ℝ → ℝ) : Prop where
  integrable : Integrable S P
  mean : ∫ ω, S ω ∂P = avg (L.map fun i => cdfDist (F i) (G i) + cdfSpread (G i))
  least : avg (L.map fun i => cdfSpread (G i)) ≤ ∫ ω, S ω ∂P
  honest : ∫ ω, S ω ∂P = avg (L.map fun i => cdfSpread (G i)) ↔ ∀ i ∈ L, F i = G i

end Spec
