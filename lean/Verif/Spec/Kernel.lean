import Mathlib.MeasureTheory.Integral.Bochner.Set
import Mathlib.MeasureTheory.Measure.Lebesgue.Basic

/-! A smoothed ensemble: every member replaced by the distribution of a kernel of width `h` around it. -/

open MeasureTheory

namespace Spec

/-- symmetric probability densities that decrease away from zero (all of scikit-learn's kernels are) -/
structure IsKernel (k : ℝ → ℝ) : Prop where
  nonneg : ∀ u, 0 ≤ k u
  even : ∀ u, k (-u) = k u
  anti : ∀ u v, 0 ≤ u → u ≤ v → k v ≤ k u
  integrable : Integrable k
  total : ∫ u, k u = 1

/-- distribution function of the kernel -/
noncomputable def kernelCdf (k : ℝ → ℝ) (u : ℝ) : ℝ := ∫ s in Set.Iic u, k s

/-- distribution function of the smoothed ensemble -/
noncomputable def smoothCdf (k : ℝ → ℝ) (h : ℝ) (ms : List ℝ) (t : ℝ) : ℝ :=
  (ms.map fun e => kernelCdf k ((t - e) / h)).sum / ms.length

end Spec
