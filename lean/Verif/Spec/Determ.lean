import Verif.Spec.Settings
import Verif.Spec.Ensemble

/-! What a verifier does with the deterministic form of its forecasts, and the single members of an ensemble. -/

namespace Spec
open Np NDArr Model

variable {X Y A : Type} {K : Type}

/-- the metrics of the deterministic forecast: `f_determ`, `error`, `ab_error`, `sq_error`, `rmse`, `corr`, `iou_determ` -/
def DetReq : Req A → Prop
  | .rmse => True
  | .slot .fDeterm => True
  | .slot .error => True
  | .slot .abError => True
  | .slot .sqError => True
  | .slot .corr => True
  | .slot (.iouDeterm _ _) => True
  | _ => False

/-- the same call on two verifiers: one of these metrics, or a setter that all verifiers have -/
inductive SameCall : Op X A → Op Y A → Prop
  | metric (r : Req A) (h : DetReq r) : SameCall (.metric r) (.metric r)
  | setAvg (a : PyAxis) : SameCall (.setAvg a) (.setAvg a)
  | setBoot (b : PyBoot) : SameCall (.setBoot b) (.setBoot b)
  | disableBoot : SameCall .disableBoot .disableBoot
  | enableSaving (d : PyDir) (s : Option Bool) : SameCall (.enableSaving d s) (.enableSaving d s)
  | disableSaving : SameCall .disableSaving .disableSaving

/-- `g` holds the `m`-th member of the ensemble `f` at every position -/
def IsMember (f : NDArr (Fl K)) (ax : Int) (m : Nat) (g : NDArr (Fl K)) : Prop :=
  g.shape = posShape f.shape ax ∧ ∀ i, InB (posShape f.shape ax) i → (membersAt f ax i)[m]? = some (g.get i)

end Spec
