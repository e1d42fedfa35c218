import Verif.Spec.OverAxes

/-!
# What a correlation over days and other axes estimates: C147
-/

namespace Spec
open MeasureTheory

variable {Ω κ : Type} [MeasurableSpace Ω]

/-- the expected value of `f` at a place drawn at random -/
noncomputable def expectOver (P : Measure Ω) (ks : List κ) (f : κ → Ω → ℝ) : ℝ := avg (ks.map fun k => ∫ ω, f k ω ∂P)

/-- the covariance of `X` and `Y` at a place drawn at random; the differences between the places count -/
noncomputable def covOver (P : Measure Ω) (ks : List κ) (X Y : κ → Ω → ℝ) : ℝ :=
  expectOver P ks (fun k ω => X k ω * Y k ω) - expectOver P ks X * expectOver P ks Y

/-- the correlation of `X` and `Y` at a place drawn at random -/
noncomputable def corrOver (P : Measure Ω) (ks : List κ) (X Y : κ → Ω → ℝ) : ℝ :=
  covOver P ks X Y / Real.sqrt (covOver P ks X X * covOver P ks Y Y)

end Spec
