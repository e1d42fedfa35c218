import Verif.Model.Api
import Verif.Model.Jobs
import Verif.Model.Integration

/-!
# What the integrals are without workers and saved results, for the property about worker processes
-/

namespace Spec
open Np Model

variable {X V A B : Type}

/-- the result without saving -/
def memo (p : Prog V) (w : World V) : Except Err V := (p.run none w).1

/-- the metric method that integrates (VerifyProbGammaHurdle.py:70-71, 78-82) -/
def methodOf : Kind → Slot A
  | .crps => .crps
  | .mean => .fDeterm
  | .variance => .variance

/-- The working directory holds nothing under the names of the CDFs and Brier scores at the grid points, or what was saved
there for the same data. -/
def EarlierFiles (F : Pickle V B) (wd : Option Path) (I : ArgInfo A) (P : Prims X V A) (x : X) (pts : List A)
    (disk : Disk B) : Prop :=
  ∀ d a s n c, wd = some d → a ∈ pts → (s = .cdf none (some a) ∨ s = .brier none (some a)) →
    slotName I s = .ok (some n) → disk (filePath d n) = some c →
    ∃ v w, F.dec c = some v ∧ memo (slotBody .hurdle I P x .none .none s) w = .ok v

end Spec
