import Verif.Spec.RoundingBins
import Verif.Spec.Pairs

/-!
Specification of the decomposition of the Brier score of an ensemble with `m` members, without bins: every forecast is the
number of members that predict the event, together with whether the event happened.
-/

namespace Spec
open Np

variable {K : Type} [Field K] [LinearOrder K]

/-- how often the event happened after `k` members had predicted it -/
def voteRate (P : List (Nat × Bool)) (k : Nat) : K :=
  (hits (P.filter fun p => p.1 = k) : K) / ((P.filter fun p => p.1 = k).length : K)

/-- how often the event happened -/
def baseRate (P : List (Nat × Bool)) : K := (hits P : K) / (P.length : K)

/-- reliability: how far the predicted probabilities are from how often the event then happened -/
def voteRel (m : Nat) (P : List (Nat × Bool)) : K := avg (P.map fun p => ((p.1 : K) / m - voteRate P p.1) ^ 2)

/-- resolution: how far the frequencies after the various predictions are from the overall frequency -/
def voteRes (P : List (Nat × Bool)) : K := avg (P.map fun p => (voteRate P p.1 - baseRate P) ^ 2)

/-- uncertainty: the variance of the event -/
def voteUnc (P : List (Nat × Bool)) : K := baseRate P * (1 - baseRate P)

/-- the mean Brier score -/
def voteBrier (m : Nat) (P : List (Nat × Bool)) : K :=
  avg (P.map fun p => ((p.1 : K) / m - if p.2 then 1 else 0) ^ 2)

end Spec
