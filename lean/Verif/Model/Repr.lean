import Verif.Model.Settings

/-!
# The printed description of a verifier (Verify.py:263-290, VerifyEnsemble.py:223-227, VerifyProb.py:203-209)

The values are those that a constructor or setter leaves behind: `avg_axis` is `None` or a tuple, the numbers are integers,
the forecasts are an array or a dictionary of arrays.
-/

namespace Model
open Np

/-- the characters of a text, written out when the file is compiled -/
macro "chars! " s:str : term => do
  let l ← s.getString.toList.toArray.mapM fun c => `($(Lean.Syntax.mkCharLit c))
  `([$l,*])

/-- `str` of a tuple of integers -/
def tupleStr (l : List Int) : List Char :=
  match l with
  | [] => (chars! "()")
  | [x] => '(' :: intStr x ++ (chars! ",)")
  | l => '(' :: ((chars! ", ")).intercalate (l.map intStr) ++ (chars! ")")

def boolStr (b : Bool) : List Char := if b then (chars! "True") else (chars! "False")

/-- `str` of `None` or a value -/
def optStr {α : Type} (f : α → List Char) : Option α → List Char
  | none => (chars! "None")
  | some a => f a

inductive FShown
  /-- an array of this shape -/
  | array (shape : List Nat)
  /-- the keys of a dictionary and the shapes of its arrays -/
  | dict (items : List (List Char × List Nat))
  deriving DecidableEq

inductive ProbKind
  | gaussian | gamma | hurdle
  deriving DecidableEq

/-- the class and its own attributes -/
inductive ClsShown
  | determ
  /-- `ensemble_axis`; `ensemble_collapse_func.__name__`, which an object such as `functools.partial` does not have -/
  | ensemble (axis : Int) (func : Option (List Char))
  /-- `n_sample_members`, `move_sampled_ens_axis`, `truncated`, `pit_randomize_zero_ranks` -/
  | prob (kind : ProbKind) (members : Option Int) (move : Int) (truncated randomize : Bool)
  deriving DecidableEq

/-- the attributes that `__repr__` reads -/
structure Shown where
  cls : ClsShown
  f : FShown
  o : List Nat
  avg : Option (List Int)
  boot : Option Int
  dir : Option (List Char)
  scratch : Bool
  deriving DecidableEq

/-- `type(self).__name__` -/
def className : ClsShown → List Char
  | .determ => (chars! "VerifyDeterm")
  | .ensemble _ _ => (chars! "VerifyEnsemble")
  | .prob .gaussian _ _ _ _ => (chars! "VerifyProbGaussian")
  | .prob .gamma _ _ _ _ => (chars! "VerifyProbGamma")
  | .prob .hurdle _ _ _ _ => (chars! "VerifyProbGammaHurdle")

/-- `'array {}'.format(obj.shape)` (Verify.py:285) -/
def arrayStr (s : List Nat) : List Char := (chars! "array ") ++ tupleStr (s.map Int.ofNat)

/-- `Verify._format` of a dictionary puts `'\n  - '` before each item and formats its array with the indent `' '`
(Verify.py:286-287) -/
def itemStr (kv : List Char × List Nat) : List Char := (chars! "  - ") ++ (kv.1 ++ ':' :: ' ' :: arrayStr kv.2)

/-- the lines of `Verify._format(self.f)` after `'\nForecast (f): '` -/
def fLines : FShown → List (List Char)
  | .array s => [(chars! "Forecast (f): ") ++ arrayStr s]
  | .dict items => ((chars! "Forecast (f): ") ++ (chars! " dict")) :: items.map itemStr

/-- Verify.py:272-275 -/
def baseLines (s : Shown) : List (List Char) :=
  [(chars! "Observations (o): ") ++ arrayStr s.o,
   (chars! "Average/Sample axis (avg_axis): ") ++ optStr tupleStr s.avg,
   (chars! "Bootstrap samples (boot_samples): ") ++ optStr intStr s.boot,
   (chars! "Save intermediate data at (working_directory): ") ++ optStr id s.dir,
   (chars! "Ignore saved intermediate data (start_from_scratch): ") ++ boolStr s.scratch]

/-- the lines that a class appends; a function without `__name__` raises an exception (VerifyEnsemble.py:226) -/
def clsLines : ClsShown → Except Err (List (List Char))
  | .determ => .ok []
  | .ensemble _ none => .error .attribute
  | .ensemble ax (some nm) =>
    .ok [(chars! "Ensemble axis (ensemble_axis): ") ++ intStr ax,
      (chars! "Ensemble collapsing function (ensemble_collapse_func): ") ++ nm]
  | .prob _ n m t r =>
    .ok [(chars! "Ensemble members to sample (n_sample_members): ") ++ optStr intStr n,
      (chars! "Move generated ensemble axis to (move_sampled_ens_axis): ") ++ intStr m,
      (chars! "Truncated (truncated): ") ++ boolStr t,
      (chars! "Randomize zero ranks (pit_randomize_zero_ranks): ") ++ boolStr r]

/-- Verify.py:264 -/
def titleLine (c : ClsShown) : List Char :=
  (chars! "=============== PyAnEn::") ++ className c ++ (chars! " ===============")

/-- `repr(verifier)` -/
def reprText (s : Shown) : Except Err (List Char) := do
  let extra ← clsLines s.cls
  .ok (['\n'].intercalate (titleLine s.cls :: (fLines s.f ++ (baseLines s ++ extra))))

end Model
