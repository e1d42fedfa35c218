import Verif.Spec.Ensemble
import Mathlib.Probability.Independence.Basic

/-! Ensembles in which chance does not tell the observation from the members. -/

namespace Spec
open MeasureTheory Np NDArr

/-- at every position the observation is `Z i 0` and the `n` members are `Z i 1`, ..., `Z i n` -/
structure Chance {Ω : Type} [MeasurableSpace Ω] (sh : List Nat) (n : Nat) (o f : Ω → NDArr (Fl ℝ)) (ax : Int)
    (Z : List Nat → Fin (n + 1) → Ω → ℝ) : Prop where
  shape : ∀ ω, (o ω).shape = sh
  value : ∀ i, InB sh i → ∀ ω, (o ω).get i = some (Z i 0 ω)
  members : ∀ i, InB sh i → ∀ ω, membersAt (f ω) ax i = List.ofFn fun j : Fin n => some (Z i j.succ ω)
  meas : ∀ i, InB sh i → ∀ k, Measurable (Z i k)

/-- the joint distribution of the numbers does not change when they are permuted -/
def ExchLaw {Ω : Type} [MeasurableSpace Ω] (P : Measure Ω) {n : Nat} (Z : Fin n → Ω → ℝ) : Prop :=
  ∀ σ : Equiv.Perm (Fin n), P.map (fun ω k => Z (σ k) ω) = P.map fun ω k => Z k ω

/-- the numbers are almost surely different from each other -/
def Distinct {Ω : Type} [MeasurableSpace Ω] (P : Measure Ω) {n : Nat} (Z : Fin n → Ω → ℝ) : Prop :=
  ∀ j k, j ≠ k → P {ω | Z j ω = Z k ω} = 0

end Spec
