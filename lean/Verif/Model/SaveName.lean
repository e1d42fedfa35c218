import Verif.Model.Api

/-!
# The argument `save_name` of the public metrics (Verify.py:62-84)
-/

namespace Model
open Np

variable {X V A : Type}

/-- the arguments that become part of the name (Verify.py:62-82) -/
def slotArgs : Slot A → List (List Char × Option A)
  | .brierDecomp o b | .brier o b | .cdf o b | .roc o b | .sharpness o b | .iouDeterm o b | .iouProb o b => obArgs o b
  | .reliability n o b => ("nbins".toList, some n) :: obArgs o b
  | .ss n => [("nbins".toList, some n)]
  | _ => []

/-- `self.to_name(save_name, ...)`; `none` is `save_name=None`.  `prob_to_ens` and `pit` do not have the argument
(VerifyProb.py:47-51). -/
def slotNameAs (I : ArgInfo A) (name : Option (List Char)) (s : Slot A) : Except Err (Option Name) :=
  if s.probOnly then .error .type else toName I name (slotArgs s)

/-- a public metric call with `save_name=name` (Verify.py:62-84); `rmse` hands it to `sq_error` -/
def namedProg (C : Cls) (I : ArgInfo A) (P : Prims X V A) (x : X) (avg : PyAxis) (boot : PyBoot)
    (name : Option (List Char)) : Req A → Prog V
  | .slot s =>
    if s.probOnly = true ∧ (C = .determ ∨ C = .ensemble) then .ret (.error .attribute)
    else .callName (slotNameAs I name s) (slotBody C I P x avg boot s) (slotPost P avg boot s)
  | .rmse => .callName (slotNameAs I name (.sqError : Slot A)) (sqBody C I P x) (bootOrAvgP P avg boot P.sqrt)

/-- a call: one of the calls with default names, or a metric with `save_name=` -/
inductive NOp (X A : Type)
  | plain (op : Op X A)
  | named (name : Option (List Char)) (r : Req A)

/-- one public call -/
def stepN (C : Cls) (I : ArgInfo A) (P : Prims X V A) (mids : FS V → Path → List (FS V)) (op : NOp X A)
    (o : Obj X) (w : World V) : Except Err (Option V) × Obj X × World V :=
  match op with
  | .plain op => step C I P mids op o w
  | .named name r =>
    match (namedProg C I P o.ext o.avg o.boot name r).run o.wd w with
    | (.error e, w1) => (.error e, o, w1)
    | (.ok v, w1) => (.ok (some v), o, w1)

def runN (C : Cls) (I : ArgInfo A) (P : Prims X V A) (mids : FS V → Path → List (FS V)) :
    List (NOp X A) → Obj X → World V → Obj X × World V
  | [], o, w => (o, w)
  | op :: l, o, w => runN C I P mids l (stepN C I P mids op o w).2.1 (stepN C I P mids op o w).2.2

end Model
