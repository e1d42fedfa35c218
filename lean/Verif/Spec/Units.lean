import Verif.Model.ApiInst

/-! # Expressing data in another unit -/

namespace Spec
open Np Model

variable {K : Type}

/-- the array in another unit: `g` on every number, NaN stays NaN -/
def inUnit (g : K → K) (a : NDArr (Fl K)) : NDArr (Fl K) := a.map (Option.map g)

/-- a threshold in another unit -/
def thrInUnit (g : K → K) : Thr K → Thr K
  | .scalar v => .scalar (v.map g)
  | .array a => .array (inUnit g a)
  | .other => .other

/-- a result with every number multiplied by `a` -/
def scaled [Mul K] (a : K) : PyVal K → PyVal K
  | .num x => .num (inUnit (a * ·) x)
  | .pair x y => .pair (inUnit (a * ·) x) (inUnit (a * ·) y)
  | v => v

/-- a deterministic verifier with forecasts and observations in other units -/
def detUnit (g g' : K → K) (o : Obj (DetX K)) : Obj (DetX K) :=
  { o with ext := ⟨inUnit g o.ext.f, inUnit g' o.ext.o⟩ }

/-- an ensemble verifier with forecasts and observations in other units -/
def ensUnit (g g' : K → K) (o : Obj (EnsX K)) : Obj (EnsX K) :=
  { o with ext := { o.ext with f := inUnit g o.ext.f, o := inUnit g' o.ext.o, fc := o.ext.fc.map (inUnit g) } }

/-- collapsing the members commutes with the conversion (true of the mean for linear conversions) -/
def Converts (g : K → K) (collapse : NDArr (Fl K) → Int → Except Err (NDArr (Fl K))) : Prop :=
  ∀ f ax, collapse (inUnit g f) ax = (collapse f ax).map (inUnit g)

/-- `x` in the unit given by `a` and `b`, e.g. `9/5 * x + 32` -/
def linear [Mul K] [Add K] (a b x : K) : K := a * x + b

end Spec
