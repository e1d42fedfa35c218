import Mathlib.Analysis.SpecialFunctions.JapaneseBracket
import Mathlib.MeasureTheory.Integral.IntegralEqImproper

/-!
# Student's distribution

The density is written up to the constant factor, which is the integral of the rest.
-/

namespace Spec
open MeasureTheory Set

/-- the density with `ν` degrees of freedom, without its constant factor -/
noncomputable def studentShape (ν : ℕ) (t : ℝ) : ℝ := (1 + t ^ 2 / ν) ^ (-((ν : ℝ) + 1) / 2)

/-- the distribution function: `scipy.stats.t.cdf(x, ν)` -/
noncomputable def studentCdf (ν : ℕ) (x : ℝ) : ℝ := (∫ t in Iic x, studentShape ν t) / ∫ t, studentShape ν t

/-- the probability of a value at least as far from 0 as `x` -/
noncomputable def studentTails (ν : ℕ) (x : ℝ) : ℝ :=
  (∫ t in {t : ℝ | |x| ≤ |t|}, studentShape ν t) / ∫ t, studentShape ν t

end Spec
