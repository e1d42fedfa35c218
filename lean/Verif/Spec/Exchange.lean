import Verif.Spec.Rank
import Verif.Spec.Average
import Mathlib.Data.Multiset.MapFold

/-!
# Samples in which the observation cannot be told from the members
-/

namespace Spec

variable {K : Type} [LinearOrder K]

/-- The cases (observation, members) are those of a number of groups of `n + 1` values, in each of which every value is
the observation once while the others are the members, in any order. -/
def IsExchangeable (n : Nat) (groups : List (List K)) (cases : List (K × List K)) : Prop :=
  (∀ V ∈ groups, V.length = n + 1) ∧
  (cases.map fun p => (p.1, (p.2 : Multiset K))).Perm
    (groups.flatMap fun V => V.map fun v => (v, ((V.erase v : List K) : Multiset K)))

end Spec
