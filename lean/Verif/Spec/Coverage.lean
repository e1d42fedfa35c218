import Verif.Spec.Boot

/-! How many bootstrap replicates an interval holds. -/

namespace Spec
open Np

variable {K : Type} [Field K] [LinearOrder K]

/-- the number of replicates in the interval from `lo` to `hi`, ends included; missing replicates are not in it -/
def heldBy (lo hi : K) (ms : List (Fl K)) : Nat := ms.countP fun x => Fl.le (some lo) x && Fl.le x (some hi)

/-- The interval holds the share `p` of the `n - 1` gaps between replicates: more than `p (n - 1) - 1` replicates are in it
and, when no two replicates are equal, at most `p (n - 1) + 1`. -/
def HoldsShare (p lo hi : K) (ms : List (Fl K)) : Prop :=
  p * ((ms.length - 1 : Nat) : K) - 1 < heldBy lo hi ms ∧
    (ms.Nodup → (heldBy lo hi ms : K) ≤ p * ((ms.length - 1 : Nat) : K) + 1)

end Spec
