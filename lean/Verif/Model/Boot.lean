import Verif.Model.MoveLoop
import Verif.Np.Stat
import Verif.Np.Except

/-!
# `utils_verify.boot_vec` and `boot_arr` (utils_verify.py:223-285)

Progress bars are not modelled.  `n_samples`, `repeats`, `confidence` are the already resolved
values (given, or parsed from the environment: lines 227-229 and 254-256).
-/

namespace Model
open Np NDArr

variable {K : Type} [Field K] [LinearOrder K] [FloorSemiring K]

/-- `np.random.choice(pop, size=n, replace=True)`.  The `j`-th random index is `draw j` reduced
modulo the population size; the population must not be empty unless nothing is drawn. -/
def choice {α : Type} [Inhabited α] (pop : List α) (n : Nat) (draw : Nat → Nat) :
    Except Err (List α) :=
  if pop = [] ∧ n ≠ 0 then .error .value
  else .ok ((List.range n).map fun j => pop.getD (draw j % pop.length) default)

/-- utils_verify.py:223-249.  `draw r j` is the raw random number of repeat `r`, sample `j`. -/
def bootVec (pop : List (Fl K)) (n reps : Nat) (conf : K) (skipNan : Bool)
    (draw : Nat → Nat → Nat) : Except Err (List (Fl K)) := do
  let means ← mapE (fun r => do
    let s ← choice pop n (draw r)
    pure (meanOf skipNan s)) (List.range reps)
  let sampleMean := mean means
  let delta := (1 - conf) / 2
  let lo ← quantile means delta
  let hi ← quantile means (1 - delta)
  pure [lo, sampleMean, hi]

/-- utils_verify.py:252-285.  `np.apply_along_axis(boot_vec, 0, metric, ...)` calls `boot_vec` on
every column in order and stacks the results as columns.  `draw c r j`: column, repeat, sample. -/
def bootArr (metric : NDArr (Fl K)) (sampleAxis : Option (List Int)) (n reps : Nat) (conf : K)
    (skipNan : Bool) (draw : Nat → Nat → Nat → Nat) : Except Err (NDArr (Fl K)) := do
  let (m, keep) ← moveSampleAxes metric sampleAxis
  let m2 ← m.reshapeInfer [] [keep.prod]
  let cols ← mapE (fun c => bootVec (m2.col c) n reps conf skipNan (draw c))
    (List.range (m2.shape.getD 1 0))
  let intervals : NDArr (Fl K) := ofFn [3, m2.shape.getD 1 0] fun idx =>
    (cols.getD (idx.getD 1 0) []).getD (idx.getD 0 0) none
  intervals.reshapeInfer [] keep

end Model
