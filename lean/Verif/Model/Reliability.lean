import Verif.Model.Boot
import Verif.Np.Bins

/-!
# Reliability diagram (utils_verify.py:296-494)

The observations are Boolean (they come from `binarize_obs`).  `np.array(list of arrays)` with
arrays of different lengths raises `ValueError` (numpy ≥ 1.24; older versions build an object
array).  Progress bars and the `name` attributes of the counts are not modelled.
-/

namespace Model
open Np NDArr

variable {K : Type} [Field K] [LinearOrder K] [FloorSemiring K]

/-- a Boolean used as a weight -/
def b2k (b : Bool) : Fl K := some (if b then 1 else 0)

/-- utils_verify.py:320: `np.linspace(0.0, 1.0 + 1e-8, nbins + 1)` -/
def relBins (nbins : Nat) : List K := linspace 0 (1 + 1 / 10 ^ 8) (nbins + 1)

/-- what `_reliability_create_split` returns -/
structure RelSplit (K : Type) where
  binids : NDArr Int
  fProb : NDArr (Fl K)
  oBin : NDArr Bool
  bins : List K

/-- utils_verify.py:296-323 -/
def relCreateSplit (fProb : NDArr (Fl K)) (oBin : NDArr Bool) (nbins : Nat)
    (sampleAxis : Option (List Int)) : Except Err (RelSplit K) :=
  -- line 301
  if fProb.shape ≠ oBin.shape then .error .assertion
  else do
    -- lines 298-299 and 305-313 (both arrays are moved with the same arguments)
    let axes := some (resolveAxes oBin.ndim sampleAxis)
    let (f, keep) ← moveSampleAxes fProb axes
    let (o, _) ← moveSampleAxes oBin axes
    -- lines 316-317
    let f ← f.reshapeInfer [] keep
    let o ← o.reshapeInfer [] keep
    -- lines 320-321
    let bins := relBins nbins
    let binids := f.map fun x => (digitize bins x : Int) - 1
    pure ⟨binids, f, o, bins⟩

/-- result of the aggregation of one slice; counts are value/count pairs as in the pandas series -/
structure RelSlice (P : Type) where
  probPred : List P
  probTrue : List P
  predCount : List (Int × Nat)
  trueCount : List (Int × Nat)

/-- `y_true.astype(int)` -/
def b2i (b : Bool) : Int := if b then 1 else 0

/-- utils_verify.py:326-343 -/
def relNoBootSlice (binids : List Int) (yProb : List (Fl K)) (yTrue : List Bool) (bins : List K) :
    Except Err (RelSlice (Fl K)) := do
  let sums ← bincountW binids yProb bins.length
  let trues ← bincountW binids (yTrue.map b2k) bins.length
  let total ← bincount binids bins.length
  -- nonzero mask, then the two divisions (the denominators kept are non-zero)
  let keepIdx := (List.range total.length).filter fun b => total.getD b 0 ≠ 0
  let predOf (s : List (Fl K)) := keepIdx.map fun b =>
    Fl.div (s.getD b none) (some (total.getD b 0 : K))
  pure ⟨predOf sums, predOf trues, valueCounts binids, valueCounts (yTrue.map b2i)⟩

/-- utils_verify.py:400-417 for one bin: the bootstrap of the samples `indices` of this bin -/
def relBootBin (indices : List Nat) (yProb : List (Fl K)) (yTrue : List Bool) (n reps : Nat)
    (conf : K) (skipNan : Bool) (draw : Nat → Nat → Nat) :
    Except Err (List (Fl K) × List (Fl K)) := do
  let reps' ← mapE (fun r => do
    let ri ← choice indices n (draw r)
    pure (meanOf skipNan (ri.map fun i => yProb.getD i none),
      meanOf skipNan (ri.map fun i => (b2k (yTrue.getD i false) : Fl K)))) (List.range reps)
  let sp := reps'.map Prod.fst
  let st := reps'.map Prod.snd
  let lo ← quantile sp (1 - conf)
  let hi ← quantile sp conf
  let lo' ← quantile st (1 - conf)
  let hi' ← quantile st conf
  pure ([lo, mean sp, hi], [lo', mean st, hi'])

/-- `np.where(binids == b)[0]` -/
def whereEq (binids : List Int) (b : Nat) : List Nat :=
  (List.range binids.length).filter fun i => binids.getD i (-1) = (b : Int)

/-- utils_verify.py:385-438.  Empty bins get the placeholder `[]` (lines 419-421) and are removed
afterwards by the `nonzero` mask (lines 423-427). `draw b r j`: bin, repeat, sample. -/
def relBootSlice (binids : List Int) (yProb : List (Fl K)) (yTrue : List Bool) (bins : List K)
    (n reps : Nat) (conf : K) (skipNan : Bool) (draw : Nat → Nat → Nat → Nat) :
    Except Err (RelSlice (List (Fl K))) := do
  let per ← mapE (fun b =>
    let indices := whereEq binids b
    if indices.length > 0 then relBootBin indices yProb yTrue n reps conf skipNan (draw b)
    else .ok ([], [])) (List.range bins.length)
  let total ← bincount binids bins.length
  let keepIdx := (List.range bins.length).filter fun b => total.getD b 0 ≠ 0
  pure ⟨keepIdx.map fun b => (per.getD b ([], [])).1, keepIdx.map fun b => (per.getD b ([], [])).2,
    valueCounts binids, valueCounts (yTrue.map b2i)⟩

/-- Python's `a.shape[1:]` and the 2-D view used by both multi-slice functions
(lines 355-360 and 451-456) -/
def relFlatten {α : Type} [Inhabited α] (a : NDArr α) : Except Err (NDArr α) :=
  a.reshapeInfer [] [a.shape.tail.prod]

/-- `np.array(rows).reshape(*keep, -1)` (and `(*keep, -1, 3)` for rows of triples): the rows must
have equal lengths, and `-1` needs a non-empty known size; there is at least one row. -/
def stackRows {P : Type} (rows : List (List P)) : Except Err (List (List P)) :=
  match rows with
  | [] => .ok []
  | r :: rs => if ∀ s ∈ rs, s.length = r.length then .ok (r :: rs) else .error .value

/-- the result of `_reliability_agg_*` -/
inductive RelOut (P : Type) where
  /-- no kept dimension: lines 348-349 / 444-445 -/
  | slice (s : RelSlice P)
  /-- kept dimensions: row `ravel keep k` of each array belongs to kept position `k`
  (`reshape(*shape_to_keep, -1)` only changes the shape) -/
  | multi (keep : List Nat) (probPred probTrue : List (List P)) (predCount trueCount : List (List Nat))

/-- shared driver of `_reliability_agg_no_boot` (lines 346-382) and `_reliability_agg_boot`
(lines 441-478); `f c` aggregates column `c` -/
def relAgg {P : Type} (s : RelSplit K)
    (f : Nat → List Int → List (Fl K) → List Bool → Except Err (RelSlice P)) :
    Except Err (RelOut P) :=
  if s.oBin.ndim = 1 then do
    let r ← f 0 s.binids.data s.fProb.data s.oBin.data
    pure (.slice r)
  else do
    let ids ← relFlatten s.binids
    let p ← relFlatten s.fProb
    let t ← relFlatten s.oBin
    let rs ← mapE (fun c => f c (ids.col c) (p.col c) (t.col c)) (List.range (ids.shape.getD 1 0))
    let pp ← stackRows (rs.map (·.probPred))
    let pt ← stackRows (rs.map (·.probTrue))
    let pc ← stackRows (rs.map fun r => r.predCount.map Prod.snd)
    let tc ← stackRows (rs.map fun r => r.trueCount.map Prod.snd)
    pure (.multi s.oBin.shape.tail pp pt pc tc)

/-- utils_verify.py:481-494 with `boot_samples is None` -/
def reliabilityDiagram (fProb : NDArr (Fl K)) (oBin : NDArr Bool) (nbins : Nat)
    (sampleAxis : Option (List Int)) : Except Err (RelOut (Fl K)) := do
  let s ← relCreateSplit fProb oBin nbins sampleAxis
  relAgg s fun _ ids p t => relNoBootSlice ids p t s.bins

/-- utils_verify.py:481-494 with `boot_samples = n`; `draw c b r j`: column, bin, repeat, sample -/
def reliabilityDiagramBoot (fProb : NDArr (Fl K)) (oBin : NDArr Bool) (nbins : Nat)
    (sampleAxis : Option (List Int)) (n reps : Nat) (conf : K) (skipNan : Bool)
    (draw : Nat → Nat → Nat → Nat → Nat) : Except Err (RelOut (List (Fl K))) := do
  let s ← relCreateSplit fProb oBin nbins sampleAxis
  relAgg s fun c ids p t => relBootSlice ids p t s.bins n reps conf skipNan (draw c)

end Model
