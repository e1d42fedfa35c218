import Verif.Np.Array

/-!
# "Move sample axis to the beginning"

The loop shared verbatim by `utils_verify.boot_arr` (utils_verify.py:258-269),
`utils_verify._reliability_create_split` (utils_verify.py:298-313) and
`utils_ss._binned_spread_skill_create_split` (utils_ss.py:49-64).
-/

namespace Model
open Np NDArr

variable {α : Type} [Inhabited α]

/-- Loop body, utils_verify.py:264-267:
`if from_axis != to_axis: metric = np.moveaxis(metric, from_axis, to_axis)`; `to_axis += 1`.
Returns the array and the final `to_axis`. -/
def moveLoop : List Int → Nat → NDArr α → Except Err (NDArr α × Nat)
  | [], t, a => .ok (a, t)
  | ax :: axs, t, a =>
    if ax ≠ (t : Int) then
      match a.moveaxis ax t with
      | .error e => .error e
      | .ok a' => moveLoop axs (t + 1) a'
    else moveLoop axs (t + 1) a

/-- `np.sort` of a list of integers. -/
def npSortInt (l : List Int) : List Int := l.insertionSort (· ≤ ·)

/-- utils_verify.py:258-259: `sample_axis is None` means every axis. -/
def resolveAxes (ndim : Nat) : Option (List Int) → List Int
  | none => (List.range ndim).map Int.ofNat
  | some l => l

/-- utils_verify.py:258-269 (also utils_ss.py:49-64 and utils_verify.py:298-313): resolve, sort and
move the sample axes to the front.  Result: the moved array and `shape_to_keep`. -/
def moveSampleAxes (a : NDArr α) (axes : Option (List Int)) : Except Err (NDArr α × List Nat) :=
  match moveLoop (npSortInt (resolveAxes a.ndim axes)) 0 a with
  | .error e => .error e
  | .ok (m, t) => .ok (m, m.shape.drop t)

end Model
