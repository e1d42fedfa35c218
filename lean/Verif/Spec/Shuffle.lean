import Verif.Spec.Ensemble
import Verif.Model.ApiInst

/-! # Ensembles with reordered members -/

namespace Spec
open Np Model

variable {K : Type} [Field K] [LinearOrder K]

/-- at every position the same members in another order; the order may change from position to position -/
structure Shuffled (ax : Int) (f g : NDArr (Fl K)) : Prop where
  shape : g.shape = f.shape
  members : ∀ k, InB (posShape f.shape ax) k → (membersAt g ax k).Perm (membersAt f ax k)

/-- a function of an ensemble that does not look at the order of the members -/
def OrderFree {β : Type} (F : NDArr (Fl K) → Int → β) : Prop :=
  ∀ f g ax, AxisOK f.shape.length ax → Shuffled ax f g → F g ax = F f ax

/-- a score of an ensemble that does not look at the order of the members, for observations at every position -/
def ScoreOrderFree (S : NDArr (Fl K) → NDArr (Fl K) → Int → Except Err (NDArr (Fl K))) : Prop :=
  ∀ o f g ax, AxisOK f.shape.length ax → o.shape = posShape f.shape ax → Shuffled ax f g → S o g ax = S o f ax

/-- the conversion of a threshold and the members at one position does not look at the order of the members -/
def TailOrderFree (F : List (Fl K) → Fl K) : Prop := ∀ t l m, l.Perm m → F (t :: l) = F (t :: m)

/-- an ensemble verifier with other forecasts -/
def withForecasts (g : NDArr (Fl K)) (o : Obj (EnsX K)) : Obj (EnsX K) := { o with ext := { o.ext with f := g } }

end Spec
