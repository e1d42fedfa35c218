import Verif.Model.RoundingBins
import Verif.Model.SpecialBoot

/-!
# The Brier decomposition in rounded arithmetic (utils_special_boot.py:29-36, 50-81)

As `Model.SpecialBoot`, but every operation is followed by a rounding and the averages are taken in an arbitrary order.
Only the case without bootstrapping is modelled.
-/

set_option linter.unusedSectionVars false

namespace Model
open Np NDArr

variable {K : Type} [Field K] [LinearOrder K] [IsStrictOrderedRing K]

/-- utils_special_boot.py:52: `np.linspace(0, 1, n_bins + 2)[1:-1]` -/
def decompBinsR (R : Rounding K) (nBins : Nat) : List K := ((linspaceR R 0 1 (nBins + 2)).drop 1).dropLast

/-- `np.nanmean` or `np.mean` (utils_special_boot.py:55-58, 67-72) -/
def meanOfR (R : Rounding K) (S : SumOrder) (skipNan : Bool) (l : List (Fl K)) : Fl K :=
  if skipNan then nanmeanR R S l else meanR R S l

/-- `n * (x - y) ** 2` -/
def weightedSqR (R : Rounding K) (n : Nat) (x y : Fl K) : Fl K :=
  let d := rop R (· - ·) x y
  rop R (· * ·) (some (n : K)) (rop R (· * ·) d d)

/-- utils_special_boot.py:52-81 (`n_samples is None`).  `belongs.max()` of an empty slice raises `ValueError`. -/
def funcBrierDecompR (R : Rounding K) (S : SumOrder) (skipNan : Bool) (nBins : Nat) (f o : List (Fl K)) :
    Except Err (List (Fl K)) := do
  -- lines 52-53
  let belongs ← mapE (digitizeR (decompBinsR R nBins)) f
  -- lines 55-58
  let oBar := meanOfR R S skipNan o
  if belongs = [] then .error .value
  else
    -- lines 62-75: the loop over the bins, skipping empty ones
    let step (acc : Fl K × Fl K) (b : Nat) : Fl K × Fl K :=
      let nI : Nat := belongs.count b
      if nI ≠ 0 then
        let fM := meanOfR R S skipNan (maskEq belongs b f)
        let oM := meanOfR R S skipNan (maskEq belongs b o)
        (rop R (· + ·) acc.1 (weightedSqR R nI fM oM), rop R (· + ·) acc.2 (weightedSqR R nI oM oBar))
      else acc
    let tot := (List.range (belongs.foldr max 0 + 1)).foldl step (some 0, some 0)
    -- lines 77-81
    .ok [rop R (· / ·) tot.1 (some (f.length : K)), rop R (· / ·) tot.2 (some (f.length : K)),
      rop R (· * ·) oBar (rop R (· - ·) (some 1) oBar)]

/-- `utils_special_boot.brier_decomp` (lines 29-36) without bootstrap; 19 inner bin edges (line 50) -/
def brierDecompR (R : Rounding K) (S : SumOrder) (skipNan : Bool) (f o : NDArr (Fl K)) (avgAxis : Option (List Int)) :
    Except Err (NDArr (Fl K) × NDArr (Fl K) × NDArr (Fl K)) := do
  let ret ← specialWorkflow (fun _ => funcBrierDecompR R S skipNan 19) f o avgAxis
  if ret.shape.getD 0 0 = 3 then pure (ret.slice0 0, ret.slice0 1, ret.slice0 2)
  else .error .assertion

end Model
