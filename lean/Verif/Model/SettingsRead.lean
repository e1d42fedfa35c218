import Verif.Model.Settings

/-!
# Settings of an integration and of a bootstrap (utils_approximation.py:56-92, utils_verify.py:227-229, 254-256)

`os.path.expanduser` and `float()` are parameters.  The range of the integration (utils_approximation.py:71) is part of
`Model/Integration.lean`.
-/

namespace Model
open Np

/-- the optional arguments of `Integration(…)`; `none` stands for `None` -/
structure IntegArgs where
  disable : Option Nat
  leave : Option Nat
  workers : Option Int
  chunk : Option Int
  lessMemory : Option Nat
  dir : Option (List Char)

/-- the attributes set by the constructor -/
structure IntegOptions where
  disable : Nat
  leave : Nat
  cores : Int
  chunk : Int
  lessMemory : Nat
  dir : List Char
deriving DecidableEq

/-- `read(os.environ[k]) if arg is None else arg` -/
def orSetting {α : Type} (read : List Char → Except Err α) (e : Env) (k : String) (arg : Option α) : Except Err α :=
  match arg with
  | some a => .ok a
  | none => e.read k >>= read

/-- `Integration.__init__` (utils_approximation.py:75-92): `vdir` is the working directory of the verifier -/
def integOptions (home : List Char → List Char) (vdir : Option (List Char)) (A : IntegArgs) (e : Env) :
    Except Err IntegOptions := do
  let disable ← orSetting strtobool e "pyanen_tqdm_disable" A.disable
  let leave ← orSetting strtobool e "pyanen_tqdm_leave" A.leave
  let cores ← orSetting pyInt e "pyanen_tqdm_workers" A.workers
  let chunk ← orSetting pyInt e "pyanen_tqdm_chunksize" A.chunk
  let less ← orSetting strtobool e "pyanen_integrate_with_less_memory" A.lessMemory
  let wdir ← e.read "pyanen_integrate_wdir"
  let dir := match A.dir with
    | some d => d
    | none => if wdir ≠ [] then home wdir else
      match vdir with
      | some d => d
      | none => ['.']
  pure ⟨disable, leave, cores, chunk, less, dir⟩

/-- `boot_vec` and `boot_arr` (utils_verify.py:227-229, 254-256): number of draws, of repeats, confidence -/
def bootOptions {α : Type} (float : List Char → Except Err α) (n reps : Option Int) (conf : Option α) (e : Env) :
    Except Err (Int × Int × α) := do
  let n ← orSetting pyInt e "pyanen_boot_samples" n
  let reps ← orSetting pyInt e "pyanen_boot_repeats" reps
  let conf ← orSetting float e "pyanen_boot_confidence" conf
  pure (n, reps, conf)

end Model
