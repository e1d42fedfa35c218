import Verif.Spec.Reliability
import Verif.Np.Sort

/-! Specification of the spread-skill grouping of (variance, squared error) pairs. -/

namespace Spec
open Np

variable {K : Type} [Field K] [LinearOrder K]

/-- `gs` arranges the pairs `P` in `nbins` groups: every pair once, in increasing order of variance
(NaN last), group sizes differing by at most one with the larger groups first. -/
structure IsGrouping (nbins : Nat) (P : List (Fl K × Fl K)) (gs : List (List (Fl K × Fl K))) :
    Prop where
  count : gs.length = nbins
  complete : gs.flatten.Perm P
  ordered : (gs.flatten.map Prod.fst).Pairwise leNan
  balanced : gs.Pairwise fun g h => h.length ≤ g.length ∧ g.length ≤ h.length + 1

end Spec
