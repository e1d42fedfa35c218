import Verif.Spec.LongRun
import Verif.Spec.Boot
import Verif.Model.ApiInst
import Mathlib.Probability.Independence.Basic

/-!
# How often a bootstrap interval holds the truth: C136
-/

namespace Spec
open Np Model MeasureTheory ProbabilityTheory Filter

variable {Ω : Type} [MeasurableSpace Ω]

/-- `U r j` are the raw random numbers of repeat `r`, draw `j`: every one of the `N` positions is equally likely, what is
drawn has nothing to do with what was drawn before, neither in the same repeat nor in another one. -/
structure FairDraws (Q : Measure Ω) (N : ℕ) (U : ℕ → ℕ → Ω → ℕ) : Prop where
  rows : SameDays Q fun r ω j => U r j ω
  indep : iIndepFun (U 0) Q
  fair : ∀ j, ∀ i < N, Q.real {ω | U 0 j ω % N = i} = 1 / (N : ℝ)

/-- a triple `[lo, mean, hi]` of numbers with `μ` between its ends -/
def Covers (μ : ℝ) (res : Except Err (List (Fl ℝ))) : Prop :=
  ∃ lo m hi, res = .ok [some lo, some m, some hi] ∧ lo ≤ μ ∧ μ ≤ hi

/-- the mean of the `n` numbers drawn from the first `N` of the numbers `x` -/
noncomputable def drawMean (x : ℕ → ℝ) (N n : ℕ) (d : ℕ → ℕ) : ℝ := (∑ j ∈ Finset.range n, x (d j % N)) / n

/-- the three numbers of position `k`, with `μ` between the first and the last -/
def HoldsAt (μ : ℝ) (k : List ℕ) (r : NDArr (Fl ℝ)) : Prop :=
  ∃ lo m hi, r.get (0 :: k) = some lo ∧ r.get (1 :: k) = some m ∧ r.get (2 :: k) = some hi ∧ lo ≤ μ ∧ μ ≤ hi

/-- a call that returns an array, which holds `μ` at position `k` -/
def Returns (μ : ℝ) (k : List ℕ) (res : Except Err (Option (PyVal ℝ))) : Prop :=
  ∃ r, res = .ok (some (.num r)) ∧ HoldsAt μ k r

/-- for archives that are long enough, and then for enough repeats, the probability of `A` is as close to `p` as one likes -/
def LongRunProb (W : Measure Ω) (A : ℕ → ℕ → Set Ω) (p : ℝ) : Prop :=
  ∀ ε > 0, ∀ᶠ N in atTop, ∀ᶠ R in atTop, |W.real (A N R) - p| < ε

end Spec
