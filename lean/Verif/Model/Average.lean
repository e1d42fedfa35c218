import Verif.Np.Reduce
import Verif.Np.Sort
import Verif.Model.Boot

/-!
# Averaged metrics (Verify.py, VerifyDeterm.py, VerifyEnsemble.py)

`skipNan` is the parsed value of `os.environ['pyanen_skip_nan']`.
-/

set_option linter.unusedSectionVars false

namespace Model
open Np NDArr

variable {K : Type} [Field K] [LinearOrder K] [IsStrictOrderedRing K] [FloorSemiring K]

/-- VerifyDeterm.py:39-40, VerifyEnsemble.py:77-78 (`f` is then the collapsed forecast),
VerifyProb.py:90-91 -/
def errorArr (f o : NDArr (Fl K)) : Except Err (NDArr (Fl K)) := zipWith Fl.sub f o

/-- VerifyDeterm.py:42-43, VerifyEnsemble.py:80-81, VerifyProb.py:93-94 -/
def sqErrorArr (f o : NDArr (Fl K)) : Except Err (NDArr (Fl K)) := do
  let d ← zipWith Fl.sub f o
  pure (d.map Fl.sq)

/-- VerifyDeterm.py:45-46, VerifyEnsemble.py:83-84, VerifyProb.py:96-97 -/
def abErrorArr (f o : NDArr (Fl K)) : Except Err (NDArr (Fl K)) := do
  let d ← zipWith Fl.sub f o
  pure (d.map Fl.abs)

/-- Verify.py:103-115.  `boot` is `self.boot_samples`; `reps` and `conf` are the bootstrap settings
`boot_arr` reads from the environment. -/
def bootOrAvg (skipNan : Bool) (avgAxis : Option (List Int)) (boot : Option Nat) (reps : Nat) (conf : K)
    (draw : Nat → Nat → Nat → Nat) (metric : NDArr (Fl K)) : Except Err (NDArr (Fl K)) :=
  match boot with
  | none =>
    if skipNan then reduceAxes nanmean metric avgAxis
    else reduceAxes mean metric avgAxis
  | some n => bootArr metric avgAxis n reps conf skipNan draw

/-- Verify.py:84: `np.sqrt` of the (averaged or bootstrapped) squared error -/
def rmse (s : K → K) (skipNan : Bool) (avgAxis : Option (List Int)) (boot : Option Nat) (reps : Nat)
    (conf : K) (draw : Nat → Nat → Nat → Nat) (f o : NDArr (Fl K)) : Except Err (NDArr (Fl K)) := do
  let m ← sqErrorArr f o
  let a ← bootOrAvg skipNan avgAxis boot reps conf draw m
  pure (a.map (Fl.sqrt s))

/-- VerifyEnsemble.py:125-126 -/
def ensVariance (f : NDArr (Fl K)) (ensAxis : Int) : Except Err (NDArr (Fl K)) :=
  reduceAxes npVar f (some [ensAxis])

/-- VerifyEnsemble.py:110-114 (and VerifyProb.py:108-113 with `ensAxis = -1`) -/
def ensSpread (skipNan : Bool) (f : NDArr (Fl K)) (ensAxis : Int) : Except Err (NDArr (Fl K)) := do
  let hi ← reduceAxesE (if skipNan then nanMax else npMax) f (some [ensAxis])
  let lo ← reduceAxesE (if skipNan then nanMin else npMin) f (some [ensAxis])
  zipWith Fl.sub hi lo

/-- Verify.py:90-97.  The list is one-dimensional.  A zero sum divides by zero. -/
def reliabilityIndex (freqs : List (Fl K)) : Fl K :=
  let total := fsum freqs
  let fr := if total = some 1 then freqs else freqs.map fun x => Fl.div x total
  fsum ((fr.zip (List.range fr.length)).map fun p =>
    Fl.abs (Fl.sub p.1 (some (1 / ((p.2 + 2 : Nat) : K)))))

end Model
