import Verif.Np.Stat
import Verif.Np.Except

/-! # Sorting with NaN last, `np.array_split`, square roots -/

set_option linter.unusedSectionVars false

namespace Np
open NDArr

variable {K : Type} [Field K] [LinearOrder K]

/-- numpy's sort order on floats: NaN is last -/
def leNan : Fl K → Fl K → Prop
  | some a, some b => a ≤ b
  | _, none => True
  | none, some _ => False

instance : DecidableRel (leNan (K := K)) := fun a b => by
  cases a <;> cases b <;> (unfold leNan; infer_instance)

/-- `idx` is a possible result of `np.argsort(l)` (default, unstable algorithm): a permutation of the
positions that arranges `l` in increasing order with NaN last.  Ties may be in any order. -/
def IsArgsort (l : List (Fl K)) (idx : List Nat) : Prop :=
  idx.Perm (List.range l.length) ∧ (idx.map (l.getD · none)).Pairwise leNan

/-- start of piece `b` of `np.array_split` -/
def splitStart (N n b : Nat) : Nat := b * (N / n) + min b (N % n)

/-- size of piece `b`: the first `N % n` pieces have one more element -/
def splitSize (N n b : Nat) : Nat := N / n + if b < N % n then 1 else 0

/-- `np.array_split(a, n, 0)`; `ValueError` when `n` is 0 -/
def arraySplit0 {α : Type} [Inhabited α] (a : NDArr α) (n : Nat) : Except Err (List (NDArr α)) :=
  if n = 0 then .error .value
  else .ok ((List.range n).map fun b =>
    ofFn (splitSize (a.shape.getD 0 0) n b :: a.shape.tail) fun idx =>
      a.get ((splitStart (a.shape.getD 0 0) n b + idx.getD 0 0) :: idx.tail))

/-- `np.sqrt`: NaN for negative numbers; `s` is the square root on non-negative numbers -/
def Fl.sqrt (s : K → K) : Fl K → Fl K
  | none => none
  | some x => if 0 ≤ x then some (s x) else none

/-- the only facts used about a square root function -/
structure IsSqrt (s : K → K) : Prop where
  nonneg : ∀ x, 0 ≤ x → 0 ≤ s x
  sq : ∀ x, 0 ≤ x → s x * s x = x

end Np
