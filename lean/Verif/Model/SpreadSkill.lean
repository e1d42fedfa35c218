import Verif.Model.Boot
import Verif.Np.Sort

/-!
# Binned spread-skill (utils_ss.py:47-203)

`np.argsort` with the default (unstable) algorithm is a parameter `argsort c l` for column `c`; the
theorems assume only `IsArgsort`.  The square root is a parameter.  Warnings (line 82-83) and progress
bars are not modelled.  The in-place assignment of lines 73-74 may also change the caller's arrays
(when `reshape` returns a view); only the returned value is modelled here, `Model/InPlace` has the memory
as well and C100 relates the two.
-/

namespace Model
open Np NDArr

variable {K : Type} [Field K] [LinearOrder K] [FloorSemiring K]

/-- utils_ss.py:47-87.  Result: the pieces, each of shape `(n_b, 2, number of columns)`, and
`shape_to_keep`. -/
def ssCreateSplit (argsort : Nat → List (Fl K) → List Nat) (variance sqError : NDArr (Fl K))
    (nbins : Nat) (sampleAxis : Option (List Int)) :
    Except Err (List (NDArr (Fl K)) × List Nat) :=
  -- line 52
  if variance.shape ≠ sqError.shape then .error .assertion
  else do
    -- lines 49-64
    let axes := some (resolveAxes variance.ndim sampleAxis)
    let (v, keep) ← moveSampleAxes variance axes
    let (e, _) ← moveSampleAxes sqError axes
    -- lines 67-68
    let v ← v.reshapeInfer [] [keep.prod]
    let e ← e.reshapeInfer [] [keep.prod]
    -- lines 71-74: row `r` of column `i` becomes row `index_sort[r]`
    let order := fun i => argsort i (v.col i)
    let vs : NDArr (Fl K) := ofFn v.shape fun idx =>
      v.get [(order (idx.getD 1 0)).getD (idx.getD 0 0) 0, idx.getD 1 0]
    let es : NDArr (Fl K) := ofFn e.shape fun idx =>
      e.get [(order (idx.getD 1 0)).getD (idx.getD 0 0) 0, idx.getD 1 0]
    -- line 80
    if ¬ nbins ≤ es.shape.getD 0 0 then .error .assertion
    else
      -- line 85: `np.stack([variance, sq_error], axis=1)`, then `np.array_split(..., nbins, 0)`
      let stacked : NDArr (Fl K) := ofFn [vs.shape.getD 0 0, 2, vs.shape.getD 1 0] fun idx =>
        if idx.getD 1 0 = 0 then vs.get [idx.getD 0 0, idx.getD 2 0]
        else es.get [idx.getD 0 0, idx.getD 2 0]
      let pieces ← arraySplit0 stacked nbins
      pure (pieces, keep)

/-- `arr[:, c, i]` -/
def column3 (arr : NDArr (Fl K)) (c i : Nat) : List (Fl K) :=
  (List.range (arr.shape.getD 0 0)).map fun r => arr.get [r, c, i]

/-- utils_ss.py:101-118 for one of the two statistics: means (`np.array(variances)` of shape
`(nbins, columns)`), square root, reshape, `np.moveaxis(..., 0, -1)` -/
def ssStat (s : K → K) (skipNan : Bool) (pieces : List (NDArr (Fl K))) (keep : List Nat) (c : Nat) :
    Except Err (NDArr (Fl K)) := do
  let cols := ((pieces.head?.map (·.shape)).getD []).getD 2 0
  let means : NDArr (Fl K) := ofFn [pieces.length, cols] fun idx =>
    meanOf skipNan (column3 (pieces.getD (idx.getD 0 0) default) c (idx.getD 1 0))
  -- line 113
  if cols ≠ keep.prod then .error .assertion
  else do
    let r ← (means.map (Fl.sqrt s)).reshape (pieces.length :: keep)
    r.moveaxis 0 (-1)

/-- utils_ss.py:90-125 -/
def ssAggNoBoot (s : K → K) (skipNan : Bool) (pieces : List (NDArr (Fl K))) (keep : List Nat) :
    Except Err (NDArr (Fl K) × NDArr (Fl K)) := do
  let spread ← ssStat s skipNan pieces keep 0
  let rmse ← ssStat s skipNan pieces keep 1
  pure (spread, rmse)

/-- utils_ss.py:146-166 for one piece and one column; `draw r j` -/
def ssBootBin (arr : NDArr (Fl K)) (i : Nat) (n reps : Nat) (conf : K) (skipNan : Bool)
    (draw : Nat → Nat → Nat) : Except Err (List (Fl K) × List (Fl K)) :=
  let pop := arr.shape.getD 0 0
  -- `np.random.randint(0)` raises
  if pop = 0 ∧ reps ≠ 0 then .error .value
  else do
    let stats ← mapE (fun r => do
      let idx ← choice (List.range pop) n (draw r)
      pure (meanOf skipNan (idx.map fun j => arr.get [j, 0, i]),
        meanOf skipNan (idx.map fun j => arr.get [j, 1, i]))) (List.range reps)
    let vs := stats.map Prod.fst
    let ms := stats.map Prod.snd
    let lo ← quantile vs (1 - conf)
    let hi ← quantile vs conf
    let lo' ← quantile ms (1 - conf)
    let hi' ← quantile ms conf
    pure ([lo, mean vs, hi], [lo', mean ms, hi'])

/-- utils_ss.py:168-182 for one of the two statistics: `np.array` of all triples (row `b * cols + i`),
square root, reshape to `(nbins, *keep, 3)`, `np.moveaxis(..., 0, -2)` -/
def ssBootStat (s : K → K) (rows : List (List (Fl K))) (nbins : Nat) (keep : List Nat) :
    Except Err (NDArr (Fl K)) := do
  let cis : NDArr (Fl K) := ofFn [rows.length, 3] fun idx =>
    (rows.getD (idx.getD 0 0) []).getD (idx.getD 1 0) none
  -- line 172
  if rows.length ≠ keep.prod * nbins then .error .assertion
  else do
    let r ← (cis.map (Fl.sqrt s)).reshape (nbins :: keep ++ [3])
    r.moveaxis 0 (-2)

/-- utils_ss.py:128-184; `draw b i r j`: bin, column, repeat, sample -/
def ssAggBoot (s : K → K) (skipNan : Bool) (pieces : List (NDArr (Fl K))) (keep : List Nat)
    (n reps : Nat) (conf : K) (draw : Nat → Nat → Nat → Nat → Nat) :
    Except Err (NDArr (Fl K) × NDArr (Fl K)) := do
  let rows ← mapE (fun b =>
    let arr := pieces.getD b default
    mapE (fun i => ssBootBin arr i n reps conf skipNan (draw b i))
      (List.range (arr.shape.getD 2 0))) (List.range pieces.length)
  let spread ← ssBootStat s (rows.flatten.map Prod.fst) pieces.length keep
  let rmse ← ssBootStat s (rows.flatten.map Prod.snd) pieces.length keep
  pure (spread, rmse)

/-- utils_ss.py:187-203 with `boot_samples is None` -/
def spreadSkill (argsort : Nat → List (Fl K) → List Nat) (s : K → K) (skipNan : Bool)
    (variance sqError : NDArr (Fl K)) (nbins : Nat) (sampleAxis : Option (List Int)) :
    Except Err (NDArr (Fl K) × NDArr (Fl K)) := do
  let (pieces, keep) ← ssCreateSplit argsort variance sqError nbins sampleAxis
  ssAggNoBoot s skipNan pieces keep

/-- utils_ss.py:187-203 with `boot_samples = n` -/
def spreadSkillBoot (argsort : Nat → List (Fl K) → List Nat) (s : K → K) (skipNan : Bool)
    (variance sqError : NDArr (Fl K)) (nbins : Nat) (sampleAxis : Option (List Int))
    (n reps : Nat) (conf : K) (draw : Nat → Nat → Nat → Nat → Nat) :
    Except Err (NDArr (Fl K) × NDArr (Fl K)) := do
  let (pieces, keep) ← ssCreateSplit argsort variance sqError nbins sampleAxis
  ssAggBoot s skipNan pieces keep n reps conf draw

end Model
