import Verif.Model.Rounding
import Verif.Model.Reliability

/-!
# Reliability diagrams in rounded arithmetic (utils_verify.py:296-382, 481-494)

`Model.Reliability` computes the edges of the bins, the sums and the fractions exactly.  Here every operation is followed
by a rounding, in the order in which numpy does them.  The edges are no longer known to increase, so the check of
`np.digitize` is modelled as well.
-/

set_option linter.unusedSectionVars false

namespace Model
open Np NDArr

variable {K : Type} [Field K] [LinearOrder K] [IsStrictOrderedRing K] [FloorSemiring K]

/-- `np.linspace(start, stop, num)`: the numbers `0, 1, …` are multiplied by the step, then `start` is added, then the
last one is replaced by `stop`.  (When the step rounds to zero numpy divides before it multiplies; the step is not zero
in what follows.) -/
def linspaceR (R : Rounding K) (start stop : K) (num : Nat) : List K :=
  if num ≤ 1 then List.replicate num start
  else
    let step := R.rnd (R.rnd (stop - start) / ((num - 1 : Nat) : K))
    (List.range num).map fun i => if i = num - 1 then stop else R.rnd (R.rnd ((i : K) * step) + start)

/-- utils_verify.py:320: `np.linspace(0.0, 1.0 + 1e-8, nbins + 1)` -/
def relBinsR (R : Rounding K) (nbins : Nat) : List K :=
  linspaceR R 0 (R.rnd (1 + R.rnd (1 / 10 ^ 8))) (nbins + 1)

/-- `np.digitize(x, bins)`: edges that neither increase nor decrease raise `ValueError`; for increasing edges the number
of those `≤ x`, for decreasing ones the number of those `> x`; NaN is above every edge -/
def digitizeR (bins : List K) (x : Fl K) : Except Err Nat :=
  if bins.Pairwise (· ≤ ·) then .ok (digitize bins x)
  else if bins.Pairwise (· ≥ ·) then
    .ok (match x with
      | none => 0
      | some x => bins.countP fun e => decide (x < e))
  else .error .value

/-- `np.bincount(ids, weights=w, minlength=m)`: the weights are added to the bins one after the other, starting from zero -/
def bincountWR (R : Rounding K) (ids : List Int) (w : List (Fl K)) (minlength : Nat) : Except Err (List (Fl K)) :=
  if ∃ i ∈ ids, i < 0 then .error .value
  else if ids.length ≠ w.length then .error .value
  else .ok ((List.range (max (ids.foldr (fun i m => max (i.toNat + 1) m) 0) minlength)).map fun (b : Nat) =>
    (((ids.zip w).filter fun p => p.1 = (b : Int)).map Prod.snd).foldl (rop R (· + ·)) (some 0))

/-- utils_verify.py:326-343 -/
def relNoBootSliceR (R : Rounding K) (binids : List Int) (yProb : List (Fl K)) (yTrue : List Bool) (bins : List K) :
    Except Err (RelSlice (Fl K)) := do
  let sums ← bincountWR R binids yProb bins.length
  let trues ← bincountWR R binids (yTrue.map b2k) bins.length
  let total ← bincount binids bins.length
  let keepIdx := (List.range total.length).filter fun b => total.getD b 0 ≠ 0
  let predOf (s : List (Fl K)) := keepIdx.map fun b => rop R (· / ·) (s.getD b none) (some (total.getD b 0 : K))
  pure ⟨predOf sums, predOf trues, valueCounts binids, valueCounts (yTrue.map b2i)⟩

/-- utils_verify.py:320-321 and 326-343 for one column -/
def relSliceR (R : Rounding K) (nbins : Nat) (yProb : List (Fl K)) (yTrue : List Bool) :
    Except Err (RelSlice (Fl K)) := do
  let ids ← mapE (digitizeR (relBinsR R nbins)) yProb
  relNoBootSliceR R (ids.map fun (i : Nat) => (i : Int) - 1) yProb yTrue (relBinsR R nbins)

/-- utils_verify.py:481-494 with `boot_samples is None`.  Simplified: the axes are moved as in `relCreateSplit`, but the
bin numbers are found column by column and not for the whole array at once. -/
def reliabilityDiagramR (R : Rounding K) (fProb : NDArr (Fl K)) (oBin : NDArr Bool) (nbins : Nat)
    (sampleAxis : Option (List Int)) : Except Err (RelOut (Fl K)) := do
  let s ← relCreateSplit fProb oBin nbins sampleAxis
  relAgg s fun _ _ p t => relSliceR R nbins p t

end Model
