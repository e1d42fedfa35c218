import Verif.Model.Api

/-!
# What is averaged: C139
-/

namespace Spec
open Model

variable {A X : Type}

/-- the metrics that average numbers of single positions: `crps`, `error`, `spread`, `sq_error`, `ab_error`, `brier` -/
inductive Averaged : Slot A → Prop
  | crps : Averaged .crps
  | error : Averaged .error
  | spread : Averaged .spread
  | sqError : Averaged .sqError
  | abError : Averaged .abError
  | brier (over below : Option A) : Averaged (.brier over below)

/-- the verifier with `avg_axis=()` and without bootstrapping -/
def plain (o : Obj X) : Obj X := { o with avg := .tuple [], boot := .none }

/-- the verifier with other axes and draws -/
def withAvg (o : Obj X) (avg : PyAxis) (boot : PyBoot) : Obj X := { o with avg := avg, boot := boot }

end Spec
