import Verif.Spec.Pairs
import Verif.Spec.Axes
import Mathlib.Probability.IdentDistrib

/-!
# Archives that get longer and longer: C131

An archive keeps one axis, number `t`, for the days. The other axes have the lengths `s`. Position `k` of the other axes and
day `d` together are the multi-index `k.insertIdx t d`.
-/

namespace Spec
open Np MeasureTheory ProbabilityTheory Filter Topology

variable {Ω : Type} [MeasurableSpace Ω]

/-- The arrays `a n` hold the first `n + 1` days of the random numbers `X`. -/
structure Recorded (s : List Nat) (t : Nat) (a : Nat → Ω → NDArr (Fl ℝ)) (X : List Nat → Ω → ℝ) : Prop where
  shape : ∀ n ω, (a n ω).shape = s.insertIdx t (n + 1)
  value : ∀ n ω i, InB (s.insertIdx t (n + 1)) i → (a n ω).get i = some (X i ω)

/-- What happens on one day has nothing to do with what happens on another day, and has the same probabilities. -/
structure SameDays {E : Type} [MeasurableSpace E] (P : Measure Ω) (R : Nat → Ω → E) : Prop where
  meas : ∀ d, Measurable (R d)
  indep : Pairwise fun d e => R d ⟂ᵢ[P] R e
  same : ∀ d, IdentDistrib (R d) (R 0) P P

/-- with probability one, the random numbers `S n` get as close to `l` as one likes and stay there -/
def Settles (P : Measure Ω) (S : Nat → Ω → ℝ) (l : ℝ) : Prop := ∀ᵐ ω ∂P, Tendsto (fun n => S n ω) atTop (𝓝 l)

/-- `p` is the probability of the event `A` for someone who knows `K` -/
def ProbGiven {E : Type} [MeasurableSpace E] (P : Measure Ω) (K : Ω → E) (A : Set Ω) (p : E → ℝ) : Prop :=
  ∀ B : Set E, MeasurableSet B → P.real (K ⁻¹' B ∩ A) = ∫ ω in K ⁻¹' B, p (K ω) ∂P

/-- `G` is the distribution function of `Y` for someone who knows `K` -/
def LawGiven {E : Type} [MeasurableSpace E] (P : Measure Ω) (K : Ω → E) (Y : Ω → ℝ) (G : E → ℝ → ℝ) : Prop :=
  ∀ x, ProbGiven P K {ω | Y ω ≤ x} fun e => G e x

end Spec
