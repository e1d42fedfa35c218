import Mathlib.MeasureTheory.Integral.Bochner.Set
import Mathlib.Analysis.SpecialFunctions.Exp
import Mathlib.Analysis.Real.Pi.Bounds
import Mathlib.MeasureTheory.Measure.Lebesgue.Basic

/-!
# The normal distribution and the continuous ranked probability score
-/

namespace Spec
open MeasureTheory

/-- density of the standard normal distribution -/
noncomputable def phi (x : ℝ) : ℝ := Real.exp (-x ^ 2 / 2) / √(2 * Real.pi)

/-- distribution function of the standard normal distribution -/
noncomputable def Phi (x : ℝ) : ℝ := ∫ t in Set.Iic x, phi t

/-- distribution function of a normal distribution with mean `mu` and standard deviation `sigma`, conditioned on being
at least `l` -/
noncomputable def truncNormalCdf (mu sigma l x : ℝ) : ℝ :=
  if x < l then 0
  else (Phi ((x - mu) / sigma) - Phi ((l - mu) / sigma)) / (1 - Phi ((l - mu) / sigma))

/-- `(F(x) - 1[y <= x])^2` -/
noncomputable def crpsIntegrand (F : ℝ → ℝ) (y x : ℝ) : ℝ := (F x - if y ≤ x then 1 else 0) ^ 2

/-- the continuous ranked probability score of the distribution function `F` at the observation `y` -/
noncomputable def crpsOf (F : ℝ → ℝ) (y : ℝ) : ℝ := ∫ x, crpsIntegrand F y x

end Spec
