import Verif.Model.OpenMany

/-!
# Dates out of numbers (IO.py:96-98, `decode=True`)

`xr.decode_cf` is transcribed for variables whose only attribute is `units`: a variable with units
`'<unit> since <date>'` becomes dates, one with a unit of time alone becomes durations in the versions of xarray that
decode these (the flag `deltas`), matrices of characters become texts along their last dimension.  Reading the text of
units is a parameter.  Attributes such as `_FillValue`, `scale_factor` or `calendar` and the bounds of `datetime64[ns]`
are outside.
-/

namespace Model
open Np NDArr

variable {K : Type} [Field K]

/-- numbers after decoding: still numbers, dates (as seconds since the beginning of 1970, missing is `NaT`) or durations
(in seconds) -/
inductive Decoded (K : Type)
  | plain (a : NDArr (Fl K))
  | dates (a : NDArr (Fl K))
  | spans (a : NDArr (Fl K))
deriving DecidableEq

/-- reading of the text of units: the length of the unit in seconds and the date after `since` in seconds since the
beginning of 1970; `none` if the text cannot be read -/
abbrev UnitReader (K : Type) := String → Option (K × K)

/-- `'since' in units` -/
def hasSince (u : String) : Bool := decide ("since".toList <:+: u.toList)

/-- xarray's `TIME_UNITS` with their lengths in seconds -/
def timeUnits : List (String × K) :=
  [("days", 86400), ("hours", 3600), ("minutes", 60), ("seconds", 1), ("milliseconds", 1 / 1000),
   ("microseconds", 1 / 1000000), ("nanoseconds", 1 / 1000000000)]

/-- `xr.decode_cf` on the numbers of a variable with units `u` -/
def cfNumbers (parse : UnitReader K) (deltas : Bool) (u : Option String) (a : NDArr (Fl K)) :
    Except Err (Option String × Decoded K) :=
  match u with
  | none => .ok (none, .plain a)
  | some u =>
    if hasSince u then
      match parse u with
      | none => .error .value
      | some (len, org) => .ok (none, .dates (a.map fun x => x.map fun x => org + len * x))
    else if deltas then
      match (timeUnits : List (String × K)).lookup u with
      | some len => .ok (none, .spans (a.map fun x => x.map fun x => len * x))
      | none => .ok (some u, .plain a)
    else .ok (some u, .plain a)

/-- `xr.decode_cf` on one variable -/
def cfVar (parse : UnitReader K) (deltas : Bool) (v : DVar (NDArr (Fl K))) : Except Err (DVar (Decoded K)) :=
  match v.data with
  | .other a => match cfNumbers parse deltas v.units a with
    | .error e => .error e
    | .ok r => .ok ⟨v.dims, r.1, .other r.2⟩
  | .names l => if (v.units.map hasSince) = some true then .error .value else .ok ⟨v.dims, v.units, .names l⟩
  | .chars m =>
    if (v.units.map hasSince) = some true then .error .value
    else .ok ⟨v.dims.dropLast, v.units, .names (decodeNames m)⟩

/-- `xr.decode_cf` -/
def decodeCf (parse : UnitReader K) (deltas : Bool) (ds : Block K) : Except Err (Dataset (Decoded K)) :=
  match mapE (fun kv : String × DVar (NDArr (Fl K)) => (cfVar parse deltas kv.2).map fun v => (kv.1, v)) ds.vars with
  | .error e => .error e
  | .ok vars => .ok ⟨vars, ds.coords⟩

/-- nothing decoded -/
def plainVar (v : DVar (NDArr (Fl K))) : DVar (Decoded K) :=
  ⟨v.dims, v.units, match v.data with
    | .other a => .other (.plain a)
    | .names l => .names l
    | .chars m => .chars m⟩

/-- nothing decoded -/
def plainSet (ds : Block K) : Dataset (Decoded K) := ⟨ds.vars.map fun kv => (kv.1, plainVar kv.2), ds.coords⟩

/-- the function returns at IO.py:72, before any decoding of times -/
def returnsEarly (ds : Block K) : Bool := ds.hasDim "num_chars" && (decodeVars ds.vars).2

/-- `open_dataset(file, decode=decode)` after reading the file (IO.py:53-100) -/
def openDataset (parse : UnitReader K) (deltas decode : Bool) (ds : Block K) : Except Err (Dataset (Decoded K)) :=
  match postOpen ds with
  | .error e => .error e
  | .ok d => if decode && !returnsEarly ds then decodeCf parse deltas d else .ok (plainSet d)

end Model
