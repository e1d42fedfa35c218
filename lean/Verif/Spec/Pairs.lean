import Verif.Np.Stat

/-! Specification of the Pearson correlation and of the Brier decomposition of a list of pairs. -/

namespace Spec
open Np

variable {K : Type} [Field K] [LinearOrder K]

/-- arithmetic mean of a non-empty list -/
def avg (l : List K) : K := l.sum / (l.length : K)

/-- the pairs with both values present -/
def complete (P : List (Fl K × Fl K)) : List (K × K) :=
  P.filterMap fun p => match p with
    | (some x, some y) => some (x, y)
    | _ => none

/-- sum of products of the deviations of `g` and `h` from their means over `P` -/
def codev {α : Type} (g h : α → K) (P : List α) : K :=
  (P.map fun p => (g p - avg (P.map g)) * (h p - avg (P.map h))).sum

/-- `r` is the Pearson correlation of the pairs: `r² Sxx Syy = Sxy²` and `r` has the sign of `Sxy`. -/
def IsPearson (P : List (K × K)) (r : K) : Prop :=
  r ^ 2 * (codev Prod.fst Prod.fst P * codev Prod.snd Prod.snd P) = codev Prod.fst Prod.snd P ^ 2 ∧
    0 ≤ r * codev Prod.fst Prod.snd P

/-- `v` is the correlation of the pairs `P`: NaN if a value is missing and missing values are not
skipped, or if one of the series of the complete pairs is constant. -/
def IsCorr (skip : Bool) (P : List (Fl K × Fl K)) (v : Fl K) : Prop :=
  if (skip = false ∧ ∃ p ∈ P, p.1 = none ∨ p.2 = none) ∨
      codev Prod.fst Prod.fst (complete P) = 0 ∨ codev Prod.snd Prod.snd (complete P) = 0 then
    v = none
  else ∃ r, v = some r ∧ IsPearson (complete P) r

/-- no inner edge `j/(n+1)`, `1 ≤ j ≤ n`, separates `x` and `y` (`x < e ≤ y` or `y < e ≤ x`) -/
def sameBin (n : Nat) (x y : K) : Prop :=
  ∀ j : Nat, 1 ≤ j → j ≤ n → (((j : K) / ((n : K) + 1) ≤ x) ↔ ((j : K) / ((n : K) + 1) ≤ y))

open Classical in
/-- the pairs in the bin of `p` -/
noncomputable def mates (n : Nat) (P : List (K × K)) (p : K × K) : List (K × K) :=
  P.filter fun q => sameBin n p.1 q.1

/-- mean forecast in the bin of `p` -/
noncomputable def binF (n : Nat) (P : List (K × K)) (p : K × K) : K := avg ((mates n P p).map Prod.fst)
/-- mean observation in the bin of `p` -/
noncomputable def binO (n : Nat) (P : List (K × K)) (p : K × K) : K := avg ((mates n P p).map Prod.snd)

/-- reliability, resolution and uncertainty of the pairs, as averages over the pairs -/
noncomputable def specRel (n : Nat) (P : List (K × K)) : K := avg (P.map fun p => (binF n P p - binO n P p) ^ 2)
noncomputable def specRes (n : Nat) (P : List (K × K)) : K :=
  avg (P.map fun p => (binO n P p - avg (P.map Prod.snd)) ^ 2)
def specUnc (P : List (K × K)) : K := avg (P.map Prod.snd) * (1 - avg (P.map Prod.snd))

/-- mean Brier score -/
def specBrier (P : List (K × K)) : K := avg (P.map fun p => (p.1 - p.2) ^ 2)

/-- the within-bin term: mean over the pairs of `(f - f̄)² - 2 (f - f̄)(o - ō)` -/
noncomputable def specWithin (n : Nat) (P : List (K × K)) : K :=
  avg (P.map fun p => (p.1 - binF n P p) ^ 2 - 2 * (p.1 - binF n P p) * (p.2 - binO n P p))

end Spec
