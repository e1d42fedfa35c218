import Verif.Spec.DmSign
import Verif.Spec.Student
import Verif.Spec.Normal

/-!
# The Diebold-Mariano test of growing archives: C135
-/

namespace Spec
open Np Model

variable {Ω : Type}

/-- the first `n` days of the random numbers `X`, as an array -/
def firstDays (X : ℕ → Ω → ℝ) (n : ℕ) (ω : Ω) : List (Fl ℝ) := (List.range n).map fun t => some (X t ω)

/-- how much more the first forecast loses on day `t` -/
noncomputable def dayGap (f : ℝ → ℝ) (crit : Crit) (a p q : ℕ → Ω → ℝ) (t : ℕ) (ω : Ω) : ℝ :=
  lossVal f crit (a t ω) (p t ω) - lossVal f crit (a t ω) (q t ω)

/-- a result greater than `M`, possibly infinite -/
def Above (M : ℝ) : Ext ℝ → Prop
  | .num v => M < v
  | .pinf => True
  | _ => False

/-- a result less than `M`, possibly infinite -/
def Below (M : ℝ) : Ext ℝ → Prop
  | .num v => v < M
  | .ninf => True
  | _ => False

end Spec
