import Verif.Np.Stat

/-! The area under the receiver operating characteristic as a probability. -/

namespace Spec
open Np

variable {K : Type} [Field K] [LinearOrder K]

/-- one if the event has the higher probability, one half if the two are equal -/
def wins (e n : K) : K := if n < e then 1 else if n = e then 1 / 2 else 0

/-- the probabilities that were given to the events -/
def ofEvents (q : List (K × Bool)) : List K := (q.filter fun a => a.2).map Prod.fst
/-- the probabilities that were given to the non-events -/
def ofOthers (q : List (K × Bool)) : List K := (q.filter fun a => !a.2).map Prod.fst

/-- For an event and a non-event drawn at random: the probability that the event had the higher forecast, ties counted
one half (Mann and Whitney's statistic divided by the number of pairs) -/
def discrimination (q : List (K × Bool)) : K :=
  ((ofEvents q).map fun e => ((ofOthers q).map fun n => wins e n).sum).sum /
    ((ofEvents q).length * (ofOthers q).length : Nat)

/-- the fraction of `l` at or above `s` -/
def fractionGe (l : List K) (s : K) : K := ((l.filter fun x => s ≤ x).length : K) / l.length

/-- the point lies on the broken line through `pts` -/
def OnLine (pts : List (K × K)) (x : K × K) : Prop :=
  ∃ a b, [a, b] <:+: pts ∧ ∃ t, 0 ≤ t ∧ t ≤ 1 ∧ x = (a.1 + t * (b.1 - a.1), a.2 + t * (b.2 - a.2))

end Spec
