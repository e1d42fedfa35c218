import Verif.Np.Except
import Verif.Model.Settings
import Mathlib.Data.Rat.Defs

/-!
# Import of the package (PyAnEn/__init__.py)
-/

namespace Model
open Np

/-- the kinds of values in `Defaults`; for a float the text `str(v)` is given -/
inductive DefVal
  | text (t : List Char)
  | int (i : Int)
  | bool (b : Bool)
  | float (t : List Char)

/-- `str(v)` -/
def DefVal.str : DefVal → List Char
  | .text t => t
  | .int i => intStr i
  | .bool true => "True".toList
  | .bool false => "False".toList
  | .float t => t

/-- `__init__.py:16-36` -/
def defaults : List (String × DefVal) :=
  [("pyanen_ens_to_prob_method", .text "moments".toList),
   ("pyanen_kde_bandwidth", .float "0.01".toList),
   ("pyanen_kde_kernel", .text "gaussian".toList),
   ("pyanen_kde_samples", .int 1000),
   ("pyanen_kde_multiply_spread", .int 5),
   ("pyanen_boot_confidence", .float "0.95".toList),
   ("pyanen_boot_repeats", .int 1000),
   ("pyanen_boot_samples", .int 300),
   ("pyanen_tqdm_disable", .bool true),
   ("pyanen_tqdm_leave", .bool false),
   ("pyanen_tqdm_workers", .int 1),
   ("pyanen_tqdm_map_axis", .int (-1)),
   ("pyanen_tqdm_chunksize", .int 1),
   ("pyanen_use_tensorflow_math", .bool false),
   ("pyanen_skip_nan", .bool false),
   ("pyanen_split_crps_ensemble_along_0", .bool false),
   ("pyanen_integrate_range_multiplier", .int 5),
   ("pyanen_integrate_with_less_memory", .bool false),
   ("pyanen_integrate_wdir", .text [])]

/-- the loop `__init__.py:38-40` over any table -/
def applyDefaults (tab : List (String × DefVal)) (e : Env) : Env :=
  tab.foldl (fun e kv => match e kv.1 with
    | some _ => e
    | none => e.write kv.1 kv.2.str) e

/-- what importing the package does to the environment -/
def importPackage (e : Env) : Env := applyDefaults defaults e

/-- the lines printed by `print_settings` (`__init__.py:43-45`), as pairs (key, value) -/
def printSettings (e : Env) : Except Err (List (String × List Char)) :=
  mapE (fun kv => match e.read kv.1 with
    | .error er => .error er
    | .ok v => .ok (kv.1, v)) defaults

/-- an unsigned decimal number with a fractional part, as read by `float()` -/
def pyDecimal (v : List Char) : Except Err ℚ :=
  let a := v.takeWhile (· ≠ '.')
  let b := (v.dropWhile (· ≠ '.')).drop 1
  match unsignedVal a, unsignedVal b with
  | some x, some y => .ok (x + y / 10 ^ b.length)
  | _, _ => .error .value

end Model
