import Verif.Np.Stat

/-! Specification of a bootstrap statistic, independent of how the code lays out its arrays. -/

namespace Spec
open Np

variable {K : Type} [Field K] [LinearOrder K] [FloorSemiring K]

/-- `samples` is a legal bootstrap draw from `pop`: `reps` resamples of size `n`, every element taken
from `pop`. -/
def IsResample (pop : List (Fl K)) (n reps : Nat) (samples : List (List (Fl K))) : Prop :=
  samples.length = reps ∧ ∀ s ∈ samples, s.length = n ∧ ∀ x ∈ s, x ∈ pop

/-- `t = [low, mean, high]` is the percentile-bootstrap summary, at level `conf`, of the given
resamples: the means of the resamples are summarised by their `(1-conf)/2` quantile, their mean
and their `1-(1-conf)/2` quantile. -/
def IsBootSummary (samples : List (List (Fl K))) (conf : K) (skipNan : Bool) (t : List (Fl K)) :
    Prop :=
  let ms := samples.map (meanOf skipNan)
  ∃ lo hi, quantile ms ((1 - conf) / 2) = .ok lo ∧ quantile ms (1 - (1 - conf) / 2) = .ok hi ∧
    t = [lo, mean ms, hi]

/-- the same for an arbitrary population (for instance of pairs) -/
def IsResampleOf {α : Type} (pop : List α) (n reps : Nat) (samples : List (List α)) : Prop :=
  samples.length = reps ∧ ∀ s ∈ samples, s.length = n ∧ ∀ x ∈ s, x ∈ pop

/-- `t = [low, mean, high]` summarises the replicates `ms` by their `a` quantile, mean and `b`
quantile. -/
def IsSummary (ms : List (Fl K)) (a b : K) (t : List (Fl K)) : Prop :=
  ∃ lo hi, quantile ms a = .ok lo ∧ quantile ms b = .ok hi ∧ t = [lo, mean ms, hi]

end Spec
