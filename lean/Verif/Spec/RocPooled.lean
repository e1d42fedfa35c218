import Verif.Spec.RocLimit

/-!
# What the area under one ROC curve for many places estimates: C142
-/

namespace Spec
open MeasureTheory

variable {Ω κ : Type} [MeasurableSpace Ω]

/-- Among all places `ks`, an event at one place and a non-event at one place, on days that have nothing to do with each other:
the probability that the event had the higher forecast, ties counted one half -/
noncomputable def pooledArea (P : Measure Ω) (ks : List κ) (D : κ → Ω → ℝ) (A : κ → Set Ω) : ℝ :=
  (ks.map fun k => (ks.map fun l =>
    ∫ z : Ω × Ω, (indicator (z.1 ∈ A k ∧ z.2 ∉ A l) : ℝ) * wins (D k z.1) (D l z.2) ∂(P.prod P)).sum).sum /
  ((ks.map fun k => P.real (A k)).sum * (ks.map fun k => P.real (A k)ᶜ).sum)

/-- at each place `k` something is known, `K k`, and `p k` is the probability of the event there given that -/
structure Honest {E : Type} [MeasurableSpace E] (P : Measure Ω) (ks : List κ) (K : κ → Ω → E) (B : κ → Set Ω) (p : κ → E → ℝ) : Prop where
  event : ∀ k ∈ ks, MeasurableSet (B k)
  known : ∀ k ∈ ks, Measurable (K k)
  prob : ∀ k ∈ ks, Measurable (p k)
  unit : ∀ k ∈ ks, ∀ ω, 0 ≤ p k (K k ω) ∧ p k (K k ω) ≤ 1
  given : ∀ k ∈ ks, ProbGiven P (K k) (B k) (p k)

end Spec
