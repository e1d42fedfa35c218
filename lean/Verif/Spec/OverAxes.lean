import Verif.Spec.RelPooled
import Verif.Spec.Axes

/-!
# What averages over the days and other axes estimate: C145
-/

namespace Spec
open MeasureTheory Np

variable {Ω κ : Type} [MeasurableSpace Ω]

/-- the places of an archive with the shape `s`, into which the axis `t` of days is put, that are averaged for the position `k`
of the result when the axes `B` are averaged -/
def placesOf (s : List Nat) (t : Nat) (B k : List Nat) : List (List Nat) :=
  (allIdx s).filter fun p => decide (dropAxes B (p.insertIdx t 0) = k)

/-- reliability of the forecast probabilities `D` of the events `A` at the places `ks` together -/
noncomputable def relOver (P : Measure Ω) (ks : List κ) (n : Nat) (D : κ → Ω → ℝ) (A : κ → Set Ω) : ℝ :=
  ∑ b ∈ Finset.range (n + 1), let B := fun k => {ω | InDecompBin n b (D k ω)}
    shareOver P ks B * (meanOver P ks B D - shareOver P ks (fun k => B k ∩ A k) / shareOver P ks B) ^ 2

/-- resolution of the forecast probabilities `D` of the events `A` at the places `ks` together -/
noncomputable def resOver (P : Measure Ω) (ks : List κ) (n : Nat) (D : κ → Ω → ℝ) (A : κ → Set Ω) : ℝ :=
  ∑ b ∈ Finset.range (n + 1), let B := fun k => {ω | InDecompBin n b (D k ω)}
    shareOver P ks B * (shareOver P ks (fun k => B k ∩ A k) / shareOver P ks B - shareOver P ks A) ^ 2

end Spec
