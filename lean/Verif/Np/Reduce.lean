import Verif.Np.Stat
import Verif.Np.Except

/-!
# Reductions over a set of axes

`a.mean(axis=...)`, `np.nanmean`, `np.max`, `a.var`, `np.sum`, `np.any`, ... all share the same axis
semantics; `reduceAxes g` is the reduction whose scalar function is `g`.
-/

set_option linter.unusedSectionVars false

namespace Np
open NDArr

variable {α β : Type}

/-- numpy's `normalize_axis_tuple`: `None` is all axes; an illegal axis is an `AxisError`, a repeated
one a `ValueError`. -/
def normAxes (n : Nat) : Option (List Int) → Except Err (List Nat)
  | none => .ok (List.range n)
  | some l => do
    let A ← mapE (normAxis n) l
    if A.Nodup then pure A else .error .value

/-- the components of a shape or multi-index on the axes that survive a reduction over `A` -/
def offAxes (A l : List Nat) : List Nat :=
  ((List.range l.length).filter fun a => a ∉ A).map (l.getD · 0)

/-- the elements of `a` that are reduced into the output element `k` -/
def reduced [Inhabited α] (a : NDArr α) (A k : List Nat) : List α :=
  ((allIdx a.shape).filter fun i => offAxes A i = k).map a.get

/-- reduction `g(a, axis=axes)` where the scalar reduction may raise -/
def reduceAxesE [Inhabited α] [Inhabited β] (g : List α → Except Err β) (a : NDArr α)
    (axes : Option (List Int)) : Except Err (NDArr β) := do
  let A ← normAxes a.ndim axes
  let vals ← mapE (fun k => g (reduced a A k)) (allIdx (offAxes A a.shape))
  pure (ofFn (offAxes A a.shape) fun k => vals.getD (ravel (offAxes A a.shape) k) default)

/-- reduction `g(a, axis=axes)` -/
def reduceAxes [Inhabited α] [Inhabited β] (g : List α → β) (a : NDArr α)
    (axes : Option (List Int)) : Except Err (NDArr β) :=
  reduceAxesE (fun l => .ok (g l)) a axes

variable {K : Type} [Field K] [LinearOrder K]

/-- larger of two floats, NaN-propagating -/
def Fl.max : Fl K → Fl K → Fl K
  | some x, some y => some (Max.max x y)
  | _, _ => none

/-- smaller of two floats, NaN-propagating -/
def Fl.min : Fl K → Fl K → Fl K
  | some x, some y => some (Min.min x y)
  | _, _ => none

/-- `np.max`: `ValueError` on an empty input -/
def npMax : List (Fl K) → Except Err (Fl K)
  | [] => .error .value
  | x :: l => .ok (l.foldl Fl.max x)

/-- `np.min`: `ValueError` on an empty input -/
def npMin : List (Fl K) → Except Err (Fl K)
  | [] => .error .value
  | x :: l => .ok (l.foldl Fl.min x)

/-- `np.nanmax`: NaN (with a warning) if everything is NaN, `ValueError` on an empty input -/
def nanMax (l : List (Fl K)) : Except Err (Fl K) :=
  if l = [] then .error .value
  else match l.filter Option.isSome with
    | [] => .ok none
    | x :: r => .ok (r.foldl Fl.max x)

/-- `np.nanmin` -/
def nanMin (l : List (Fl K)) : Except Err (Fl K) :=
  if l = [] then .error .value
  else match l.filter Option.isSome with
    | [] => .ok none
    | x :: r => .ok (r.foldl Fl.min x)

/-- `np.var` (population variance, NaN-propagating) -/
def npVar (l : List (Fl K)) : Fl K :=
  mean (l.map fun x => Fl.sq (Fl.sub x (mean l)))

end Np
