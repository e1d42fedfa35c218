import Verif.Model.Boot
import Verif.Np.Bins
import Verif.Np.Sort

/-!
# Correlation and Brier decomposition (utils_special_boot.py)

`n_samples`, `repeats`, `confidence` and `skip_nan` are the already resolved values (lines 144-148).
Progress bars are not modelled.  Boolean observations are the numbers 0 and 1.
-/

set_option linter.unusedSectionVars false

namespace Np
namespace NDArr

/-- `a.transpose(axes)` with Python axis numbers: `ValueError` for a wrong number of axes or a
repeated axis, `AxisError` for an axis out of range. -/
def transposeAx {α : Type} [Inhabited α] (a : NDArr α) (axes : List Int) : Except Err (NDArr α) :=
  if axes.length ≠ a.ndim then .error .value
  else do
    let p ← mapE (normAxis a.ndim) axes
    if p.Nodup then pure (a.transpose p) else .error .value

/-- `np.array(rows)` for a list of equally long rows (a ragged list raises `ValueError`) -/
def ofRows {α : Type} (rows : List (List α)) : Except Err (NDArr α) :=
  match rows with
  | [] => .ok ⟨[0], [], rfl⟩
  | r :: rs =>
    if h : ∀ s ∈ rs, s.length = r.length then
      .ok ⟨[rs.length + 1, r.length], (r :: rs).flatten, by
        have : ∀ l : List (List α), (∀ s ∈ l, s.length = r.length) →
            l.flatten.length = l.length * r.length := by
          intro l hl
          induction l with
          | nil => simp
          | cons a l ih =>
            rw [List.flatten_cons, List.length_append, ih fun s hs => hl s (by simp [hs]),
              hl a (by simp), List.length_cons, Nat.add_mul]
            omega
        rw [this (r :: rs) (by simpa using h)]
        simp⟩
    else .error .value

end NDArr

variable {K : Type} [Field K] [LinearOrder K]

/-- `np.clip(x, -1, 1)`; NaN stays NaN -/
def clip1 (x : Fl K) : Fl K := x.map fun v => max (-1) (min v 1)

/-- `np.cov(x, y)[i, j]` for the series `u`, `v` (either of `x`, `y`): the sum of the products of the
deviations divided by `n - 1`; NaN (with a warning) for fewer than two samples. -/
def cov (u v : List (Fl K)) : Fl K :=
  if u.length ≤ 1 then none else Fl.div (fsum (List.zipWith (fun a b => Fl.mul (Fl.sub a (mean u)) (Fl.sub b (mean v))) u v))
    (some ((u.length : K) - 1))

/-- `np.corrcoef(x, y)[0, 1]`: the covariance divided by both standard deviations, clipped to
`[-1, 1]`; NaN if a standard deviation is 0. -/
def corrcoef (s : K → K) (x y : List (Fl K)) : Fl K :=
  clip1 (Fl.div (Fl.div (cov x y) (Fl.sqrt s (cov x x))) (Fl.sqrt s (cov y y)))

end Np

namespace Model
open Np NDArr

variable {K : Type} [Field K] [LinearOrder K] [FloorSemiring K]

/-- utils_special_boot.py:141-186.  `func i f o` is the statistic applied to slice `i` (the index only
selects the random numbers); its result is the flat list of numbers it returns.
`list(set(range(n)) - set(avg_axis))` is taken in increasing order (what CPython does for the small
integers occurring as axis numbers). -/
def specialWorkflow (func : Nat → List (Fl K) → List (Fl K) → Except Err (List (Fl K)))
    (f o : NDArr (Fl K)) (avgAxis : Option (List Int)) : Except Err (NDArr (Fl K)) :=
  -- line 150
  if f.shape ≠ o.shape then .error .assertion
  else do
    -- lines 154-158
    let avg := resolveAxes o.ndim avgAxis
    let out : List Int := ((List.range o.ndim).map Int.ofNat).filter fun a => a ∉ avg
    -- lines 160-161
    let o ← o.transposeAx (out ++ avg)
    let f ← f.transposeAx (out ++ avg)
    -- lines 164-165; `x[-0:]` is all of `x`
    let outShape := f.shape.take out.length
    let flatShape := if avg.length = 0 then f.shape else f.shape.drop (f.shape.length - avg.length)
    -- lines 167-168
    let o ← o.reshape [outShape.prod, flatShape.prod]
    let f ← f.reshape [outShape.prod, flatShape.prod]
    -- lines 174-179
    let rows ← mapE (fun i => func i (f.row i) (o.row i)) (List.range (f.shape.getD 0 0))
    -- lines 182-184
    let ret ← NDArr.ofRows rows
    let ret ← ret.reshapeInfer outShape []
    let ret ← ret.moveaxis (-1) 0
    pure (if ret.shape.getD 0 0 = 1 then ret.slice0 0 else ret)

/-- drop the pairs in which either value is NaN (lines 121-122) -/
def dropNanPairs (f o : List (Fl K)) : List (Fl K) × List (Fl K) :=
  ((f.zip o).filter fun p => p.1.isSome && p.2.isSome).unzip

/-- utils_special_boot.py:119-124 (`n_samples is None`) -/
def funcCorr (s : K → K) (skipNan : Bool) (f o : List (Fl K)) : Except Err (List (Fl K)) :=
  if skipNan then .ok [corrcoef s (dropNanPairs f o).1 (dropNanPairs f o).2]
  else .ok [corrcoef s f o]

/-- `[ci[0], mean, ci[1]]` with the quantiles `[1-confidence, confidence]`; the NaN-ignoring variants
under `skip_nan` (lines 98-114 and 133-138) -/
def summary (skipNan : Bool) (ms : List (Fl K)) (conf : K) : Except Err (List (Fl K)) :=
  if skipNan then do
    let lo ← nanquantile ms (1 - conf)
    let hi ← nanquantile ms conf
    pure [lo, nanmean ms, hi]
  else do
    let lo ← quantile ms (1 - conf)
    let hi ← quantile ms conf
    pure [lo, mean ms, hi]

/-- utils_special_boot.py:126-138 (bootstrap); NaN pairs are not dropped from a resample -/
def funcCorrBoot (s : K → K) (skipNan : Bool) (n reps : Nat) (conf : K) (draw : Nat → Nat → Nat)
    (f o : List (Fl K)) : Except Err (List (Fl K)) := do
  let corr ← mapE (fun r => do
    let idx ← choice (List.range f.length) n (draw r)
    pure (corrcoef s (idx.map (f.getD · none)) (idx.map (o.getD · none)))) (List.range reps)
  summary skipNan corr conf

/-- utils_special_boot.py:52: `np.linspace(0, 1, n_bins + 2)[1:-1]` -/
def decompBins (nBins : Nat) : List K := ((linspace 0 1 (nBins + 2)).drop 1).dropLast

/-- `a[mask]` with `mask = belongs == b` -/
def maskEq (belongs : List Nat) (b : Nat) (a : List (Fl K)) : List (Fl K) :=
  ((belongs.zip a).filter fun p => p.1 = b).map Prod.snd

/-- utils_special_boot.py:52-81 (`n_samples is None`).  `belongs.max()` of an empty slice raises
`ValueError`. -/
def funcBrierDecomp (skipNan : Bool) (nBins : Nat) (f o : List (Fl K)) :
    Except Err (List (Fl K)) :=
  -- lines 52-53
  let belongs := f.map (digitize (decompBins nBins))
  -- lines 55-58
  let oBar := meanOf skipNan o
  if belongs = [] then .error .value
  else
    -- lines 62-75: the loop over the bins, skipping empty ones
    let step (acc : Fl K × Fl K) (b : Nat) : Fl K × Fl K :=
      let nI : Nat := belongs.count b
      if nI ≠ 0 then
        let fM := meanOf skipNan (maskEq belongs b f)
        let oM := meanOf skipNan (maskEq belongs b o)
        (Fl.add acc.1 (Fl.mul (some (nI : K)) (Fl.sq (Fl.sub fM oM))),
         Fl.add acc.2 (Fl.mul (some (nI : K)) (Fl.sq (Fl.sub oM oBar))))
      else acc
    let tot := (List.range (belongs.foldr max 0 + 1)).foldl step (some 0, some 0)
    -- lines 77-81
    .ok [Fl.div tot.1 (some (f.length : K)), Fl.div tot.2 (some (f.length : K)),
      Fl.mul oBar (Fl.sub (some 1) oBar)]

/-- utils_special_boot.py:83-114 (bootstrap), flattened to the nine numbers of the 3 by 3 result -/
def funcBrierDecompBoot (skipNan : Bool) (nBins n reps : Nat) (conf : K) (draw : Nat → Nat → Nat)
    (f o : List (Fl K)) : Except Err (List (Fl K)) := do
  let rets ← mapE (fun r => do
    let idx ← choice (List.range f.length) n (draw r)
    funcBrierDecomp skipNan nBins (idx.map (f.getD · none)) (idx.map (o.getD · none)))
    (List.range reps)
  let rel ← summary skipNan (rets.map (·.getD 0 none)) conf
  let res ← summary skipNan (rets.map (·.getD 1 none)) conf
  let unc ← summary skipNan (rets.map (·.getD 2 none)) conf
  pure (rel ++ res ++ unc)

/-- `utils_special_boot.corr` (lines 25-26) without bootstrap -/
def corr (s : K → K) (skipNan : Bool) (f o : NDArr (Fl K)) (avgAxis : Option (List Int)) :
    Except Err (NDArr (Fl K)) :=
  specialWorkflow (fun _ => funcCorr s skipNan) f o avgAxis

/-- `utils_special_boot.corr` (lines 25-26) with bootstrap; `draw i r j`: slice, repeat, sample -/
def corrBoot (s : K → K) (skipNan : Bool) (f o : NDArr (Fl K)) (avgAxis : Option (List Int))
    (n reps : Nat) (conf : K) (draw : Nat → Nat → Nat → Nat) : Except Err (NDArr (Fl K)) :=
  specialWorkflow (fun i => funcCorrBoot s skipNan n reps conf (draw i)) f o avgAxis

/-- `utils_special_boot.brier_decomp` (lines 29-36) without bootstrap; 19 inner bin edges (line 50) -/
def brierDecomp (skipNan : Bool) (f o : NDArr (Fl K)) (avgAxis : Option (List Int)) :
    Except Err (NDArr (Fl K) × NDArr (Fl K) × NDArr (Fl K)) := do
  let ret ← specialWorkflow (fun _ => funcBrierDecomp skipNan 19) f o avgAxis
  if ret.shape.getD 0 0 = 3 then pure (ret.slice0 0, ret.slice0 1, ret.slice0 2)
  else .error .assertion

/-- `utils_special_boot.brier_decomp` (lines 38-43) with bootstrap -/
def brierDecompBoot (skipNan : Bool) (f o : NDArr (Fl K)) (avgAxis : Option (List Int))
    (n reps : Nat) (conf : K) (draw : Nat → Nat → Nat → Nat) :
    Except Err (NDArr (Fl K) × NDArr (Fl K) × NDArr (Fl K)) := do
  let ret ← specialWorkflow (fun i => funcBrierDecompBoot skipNan 19 n reps conf (draw i)) f o avgAxis
  if ret.shape.getD 0 0 = 9 then do
    let ret ← ret.reshape (3 :: 3 :: ret.shape.tail)
    pure (ret.slice0 0, ret.slice0 1, ret.slice0 2)
  else .error .assertion

end Model
