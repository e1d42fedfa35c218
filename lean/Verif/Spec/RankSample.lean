import Verif.Spec.PitUniform
import Verif.Spec.RankFlat

/-! Observations that depend on chance, and members drawn for them. -/

namespace Spec
open MeasureTheory Np NDArr

/-- At position `k` the observation is `Z k 0` and the members drawn are `Z k 1`, `Z k 2`, ...: independent, the
observation with distribution function `G k` and every member with `D k`. -/
structure Sampled {Ω : Type} [MeasurableSpace Ω] (P : Measure Ω) (sh : List Nat) (n : Nat) (o : Ω → NDArr (Fl ℝ))
    (draw : Ω → Nat → List Nat → Fl ℝ) (Z : List Nat → Fin (n + 1) → Ω → ℝ) (G D : List Nat → ℝ → ℝ) : Prop where
  shape : ∀ ω, (o ω).shape = sh
  value : ∀ k, InB sh k → ∀ ω, (o ω).get k = some (Z k 0 ω)
  member : ∀ k, InB sh k → ∀ (j : Fin n) ω, draw ω j k = some (Z k j.succ ω)
  meas : ∀ k, InB sh k → ∀ j, Measurable (Z k j)
  indep : ∀ k, InB sh k → ProbabilityTheory.iIndepFun (Z k) P
  law : ∀ k, InB sh k → ∀ x, P.real {ω | Z k 0 ω ≤ x} = G k x
  drawn : ∀ k, InB sh k → ∀ (j : Fin n) x, P.real {ω | Z k j.succ ω ≤ x} = D k x

/-- distribution function of a gamma distributed number with mean `m` and standard deviation `s`, to which `a` is added -/
noncomputable def shiftedGammaCdf (m s a x : ℝ) : ℝ := gammaCdf ((m / s) ^ 2) ((x - a) / (s ^ 2 / m))

end Spec
