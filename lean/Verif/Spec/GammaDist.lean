import Mathlib.MeasureTheory.Integral.Bochner.Set
import Mathlib.Analysis.SpecialFunctions.Gamma.Basic
import Mathlib.MeasureTheory.Measure.Lebesgue.Basic
import Verif.Spec.Normal

/-!
# The gamma distribution
-/

namespace Spec
open MeasureTheory

/-- density of the gamma distribution with shape `k` and unit scale -/
noncomputable def gammaPdf (k x : ℝ) : ℝ := if 0 < x then x ^ (k - 1) * Real.exp (-x) / Real.Gamma k else 0

/-- distribution function of the gamma distribution with shape `k` and unit scale -/
noncomputable def gammaCdf (k x : ℝ) : ℝ := ∫ t in Set.Iic x, gammaPdf k t

/-- distribution function of a gamma distribution with mean `mu` and standard deviation `sigma`, moved by `shift`, with
all negative values replaced by zero -/
noncomputable def censoredGammaCdf (mu sigma shift x : ℝ) : ℝ :=
  if x < 0 then 0 else gammaCdf ((mu / sigma) ^ 2) ((x - shift) / (sigma ^ 2 / mu))

end Spec
