import Verif.Np.Stat
import Verif.Np.Except

/-! # `np.linspace`, `np.digitize`, `np.bincount`, `pd.value_counts` -/

set_option linter.unusedSectionVars false

namespace Np

variable {K : Type} [Field K] [LinearOrder K]

/-- `np.linspace(start, stop, num)`: `start + i*step` with `step = (stop-start)/(num-1)` and the last
point set to `stop`; a single point is `start`. -/
def linspace (start stop : K) (num : Nat) : List K :=
  if num ≤ 1 then List.replicate num start
  else (List.range num).map fun i =>
    if i = num - 1 then stop else start + (i : K) * ((stop - start) / ((num - 1 : Nat) : K))

/-- `np.digitize(x, bins)` for increasing bins: the number of edges `≤ x`; NaN sorts last. -/
def digitize (bins : List K) : Fl K → Nat
  | none => bins.length
  | some x => bins.countP fun e => decide (e ≤ x)

/-- `np.bincount(ids, minlength=m)`; negative ids raise `ValueError` -/
def bincount (ids : List Int) (minlength : Nat) : Except Err (List Nat) :=
  if ∃ i ∈ ids, i < 0 then .error .value
  else .ok ((List.range (max (ids.foldr (fun i m => max (i.toNat + 1) m) 0) minlength)).map fun (b : Nat) =>
    ids.count (b : Int))

/-- `np.bincount(ids, weights=w, minlength=m)` -/
def bincountW (ids : List Int) (w : List (Fl K)) (minlength : Nat) : Except Err (List (Fl K)) :=
  if ∃ i ∈ ids, i < 0 then .error .value
  else if ids.length ≠ w.length then .error .value
  else .ok ((List.range (max (ids.foldr (fun i m => max (i.toNat + 1) m) 0) minlength)).map fun (b : Nat) =>
    fsum (((ids.zip w).filter fun p => p.1 = (b : Int)).map Prod.snd))

/-- `pd.value_counts(ids).sort_index()`: distinct values in increasing order with their counts -/
def valueCounts (ids : List Int) : List (Int × Nat) :=
  (ids.dedup.insertionSort (· ≤ ·)).map fun v => (v, ids.count v)

end Np
