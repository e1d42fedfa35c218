import Verif.Spec.Shuffle

/-! # Ensembles with the same relative frequencies of members -/

namespace Spec
open Np Model

variable {K : Type} [Field K] [LinearOrder K]

/-- every value is held by the same share of the members -/
def SameShares (l m : List (Fl K)) : Prop := (l = [] ↔ m = []) ∧ ∀ x, l.count x * m.length = m.count x * l.length

/-- two ensembles of the same positions, maybe of different size, with the same shares of values at every position; for
example an ensemble and the same ensemble with every member given twice -/
structure SameFrequencies (ax : Int) (f g : NDArr (Fl K)) : Prop where
  rank : g.shape.length = f.shape.length
  positions : posShape g.shape ax = posShape f.shape ax
  members : ∀ k, InB (posShape f.shape ax) k → SameShares (membersAt f ax k) (membersAt g ax k)

/-- a function of an ensemble that looks at the shares only -/
def ShareFree {β : Type} (F : NDArr (Fl K) → Int → β) : Prop :=
  ∀ f g ax, AxisOK f.shape.length ax → (posShape f.shape ax).prod ≠ 0 → SameFrequencies ax f g → F g ax = F f ax

/-- a score of an ensemble that looks at the shares only -/
def ScoreShareFree (S : NDArr (Fl K) → NDArr (Fl K) → Int → Except Err (NDArr (Fl K))) : Prop :=
  ∀ o f g ax, AxisOK f.shape.length ax → o.shape = posShape f.shape ax → (posShape f.shape ax).prod ≠ 0 →
    SameFrequencies ax f g → S o g ax = S o f ax

/-- the conversion of a threshold and the members at one position looks at the shares only -/
def TailShareFree (F : List (Fl K) → Fl K) : Prop := ∀ t l m, SameShares l m → F (t :: l) = F (t :: m)

end Spec
