import Verif.Spec.History
import Verif.Model.ApiInst

/-!
# Histories in which environment variables are changed between the calls
-/

namespace Spec
open Np Model

variable {X V A E K : Type}

/-- a history in which every call is made under the environment given with it; `P e` is how the library behaves under
the environment `e` -/
def runEnv (C : Cls) (I : ArgInfo A) (P : E → Prims X V A) (mids : FS V → Path → List (FS V)) :
    List (E × Op X A) → Obj X → World V → Obj X × World V
  | [], o, w => (o, w)
  | (e, op) :: l, o, w =>
    runEnv C I P mids l (step C I (P e) mids op o w).2.1 (step C I (P e) mids op o w).2.2

/-- all setters in the history return normally (metric calls may raise) -/
def EnvSettersReturn (C : Cls) (I : ArgInfo A) (P : E → Prims X V A) (mids : FS V → Path → List (FS V)) :
    List (E × Op X A) → Obj X → World V → Prop
  | [], _, _ => True
  | (e, op) :: l, o, w =>
    (IsMetric op ∨ (step C I (P e) mids op o w).1 = .ok none) ∧
      EnvSettersReturn C I P mids l (step C I (P e) mids op o w).2.1 (step C I (P e) mids op o w).2.2

/-- no call switches saving on -/
def NoSaving : Op X A → Prop
  | .enableSaving d _ => d = .none
  | _ => True

/-- `pyanen_skip_nan`, `pyanen_boot_repeats` and `pyanen_boot_confidence` (PyAnEn/__init__.py:22-34) -/
structure EnvVars (K : Type) where
  skipNan : Bool
  reps : Nat
  conf : K

/-- the configuration with these variables -/
def inEnv (c : Cfg K) (e : EnvVars K) : Cfg K := { c with skipNan := e.skipNan, reps := e.reps, conf := e.conf }

/-- metrics that treat missing values only after the intermediate result has been stored: all except `spread`,
`rank_hist` and `roc` -/
def NaNsLast : Req A → Prop
  | .slot .spread | .slot .rankHist | .slot (.roc _ _) => False
  | _ => True

end Spec
