import Verif.Np.Stat
import Verif.Model.Settings

/-!
# Opening files (IO.py)

A dataset is the list of its variables; coordinates are variables whose name is listed in `coords`.  The dimensions are
those of the variables (as in xarray).  `\d` and `int()` are modelled on ASCII digits.  Opening the NetCDF file itself is not modelled;
`xr.decode_cf` is in `Model/Decode`; `open_mfdataset` is in `Model/OpenMany`.
-/

namespace Model
open Np

variable {D : Type}

/-- contents of a variable: a matrix of characters (an empty list is a NUL byte), names, or anything else -/
inductive VData (D : Type)
  | chars (m : List (List (List Char)))
  | names (l : List (List Char))
  | other (d : D)
deriving DecidableEq

structure DVar (D : Type) where
  dims : List (String × Nat)
  units : Option String
  data : VData D
deriving DecidableEq

structure Dataset (D : Type) where
  vars : List (String × DVar D)
  coords : List String
deriving DecidableEq

/-- `ds.dims[d]` -/
def Dataset.size? (ds : Dataset D) (d : String) : Option Nat :=
  (ds.vars.flatMap fun v => v.2.dims).lookup d

/-- `d in ds.dims` -/
def Dataset.hasDim (ds : Dataset D) (d : String) : Bool := (ds.size? d).isSome

/-- `ds[v]` -/
def Dataset.get? (ds : Dataset D) (v : String) : Option (DVar D) := ds.vars.lookup v

/-- store a variable: in place if the name exists, at the end otherwise -/
def setVar (l : List (String × DVar D)) (k : String) (v : DVar D) : List (String × DVar D) :=
  match l with
  | [] => [(k, v)]
  | (k', v') :: r => if k' = k then (k, v) :: r else (k', v') :: setVar r k v

/-- `ds.coords[k] = v`: a coordinate named like a dimension must be one-dimensional along it, and fit -/
def Dataset.setCoord (ds : Dataset D) (k : String) (v : DVar D) : Except Err (Dataset D) :=
  match v.dims with
  | [(d, n)] =>
    if d = k ∧ (ds.size? k = none ∨ ds.size? k = some n) then
      .ok ⟨setVar ds.vars k v, if k ∈ ds.coords then ds.coords else ds.coords ++ [k]⟩
    else .error .value
  | _ => .error .value

/-! ### `__add_coords__` -/

/-- one match of `Rank(\d+)` at the beginning -/
def rankAt (s : List Char) : Option (List Char) :=
  if s.take 4 = "Rank".toList then
    match (s.drop 4).takeWhile Char.isDigit with
    | [] => none
    | ds => some ds
  else none

/-- `re.findall(r'Rank(\d+)', s)` (IO.py:38), the first argument counting the characters still inside a match -/
def ranksFrom : Nat → List Char → List (List Char)
  | _, [] => []
  | k + 1, _ :: s => ranksFrom k s
  | 0, c :: s => match rankAt (c :: s) with
    | some ds => ds :: ranksFrom (3 + ds.length) s
    | none => ranksFrom 0 s

/-- `os.path.basename` -/
def basename (p : List Char) : List Char := (p.reverse.takeWhile (· ≠ '/')).reverse

/-- IO.py:38-40 -/
def rankNumber (source : List Char) : Except Err Int :=
  let matched := ranksFrom 0 (basename source)
  if matched.length = 0 then .error .assertion else pyInt matched.flatten

variable {K : Type} [Field K]

/-- IO.py:47 -/
def stationCoords (start : Int) (total : Nat) : List K :=
  (List.range total).map fun i : Nat => (start : K) + (i : K) / (total : K)

/-- `__add_coords__` (IO.py:36-50); the coordinate is always called `num_stations` -/
def addCoords (emb : List K → D) (source : List Char) (dimName : String) (ds : Dataset D) :
    Except Err (Dataset D) :=
  match rankNumber source with
  | .error e => .error e
  | .ok start =>
    match ds.size? dimName with
    | none => .error .assertion
    | some total =>
      ds.setCoord "num_stations" ⟨[("num_stations", total)], none, .other (emb (stationCoords start total))⟩

/-! ### `open_dataset` -/

/-- IO.py:25-29 -/
def coordsDict : List (String × String) :=
  [("num_flts", "FLTs"), ("num_parameters", "ParameterNames"), ("num_test_times", "test_times"),
   ("num_search_times", "search_times"), ("num_times", "Times")]

/-- `_decode_name_matrix` (IO.py:32-33) -/
def decodeNames (m : List (List (List Char))) : List (List Char) := m.map List.flatten

def hasChars (v : DVar D) : Bool := v.dims.any fun d => d.1 = "num_chars"

/-- the loop IO.py:67-76; the flag tells that it has returned early -/
def decodeVars : List (String × DVar D) → List (String × DVar D) × Bool
  | [] => ([], false)
  | (k, v) :: r =>
    if hasChars v then
      if v.dims.length - 1 ≠ 1 then ((k, v) :: r, true)
      else
        let v' : DVar D := ⟨v.dims.filter fun d => d.1 ≠ "num_chars", none, match v.data with
          | .chars m => .names (decodeNames m)
          | d => d⟩
        let t := decodeVars r
        ((k, v') :: t.1, t.2)
    else
      let t := decodeVars r
      ((k, v) :: t.1, t.2)

/-- the loop IO.py:79-81 -/
def coordLoop : List (String × String) → Dataset D → Except Err (Dataset D)
  | [], ds => .ok ds
  | (k, v) :: r, ds =>
    if ds.hasDim k then
      match ds.get? v with
      | some dv => match ds.setCoord k dv with
        | .error e => .error e
        | .ok ds1 => coordLoop r ds1
      | none => coordLoop r ds
    else coordLoop r ds

/-- the epoch of all times -/
def epoch : String := "seconds since 1970-01-01"

/-- IO.py:84 -/
def timeVars : List String := ["test_times", "search_times", "Times", "num_test_times", "num_times"]

/-- the loop IO.py:84-86 -/
def unitLoop (l : List (String × DVar D)) : List (String × DVar D) :=
  l.map fun kv => if kv.1 ∈ timeVars then (kv.1, { kv.2 with units := some epoch }) else kv

def renDim (a b : String) (d : String) : String := if d = a then b else d

/-- `ds.rename(a=b)`: dimension and variable; raises if `b` is taken -/
def Dataset.rename (ds : Dataset D) (a b : String) : Except Err (Dataset D) :=
  if (ds.get? b).isSome ∨ ds.hasDim b = true then .error .value
  else .ok ⟨ds.vars.map fun kv => (renDim a b kv.1, { kv.2 with dims := kv.2.dims.map fun d => (renDim a b d.1, d.2) }),
    ds.coords.map (renDim a b)⟩

/-- `open_dataset` after reading the file (IO.py:61-100), with `decode=False` -/
def postOpen (ds : Dataset D) : Except Err (Dataset D) :=
  let r := if ds.hasDim "num_chars" then decodeVars ds.vars else (ds.vars, false)
  if r.2 then .ok ⟨r.1, ds.coords⟩
  else match coordLoop coordsDict ⟨r.1, ds.coords⟩ with
    | .error e => .error e
    | .ok d1 =>
      let d2 : Dataset D := ⟨unitLoop d1.vars, d1.coords⟩
      if d2.hasDim "num_times" = false ∧ d2.hasDim "num_test_times" = true then d2.rename "num_test_times" "num_times"
      else .ok d2

/-- Python's `len` of the array of a variable: its first dimension; a number has no length -/
def DVar.len (v : DVar D) : Except Err Nat :=
  match v.dims with
  | [] => .error .type
  | d :: _ => .ok d.2

/-- `read_station_coordinates` (Grid.py:8-25) after reading the file: the file is opened with `open_dataset`, the
arrays of both variables are taken and must have the same length.  xarray also makes up a variable `0, 1, ...` for the
name of a dimension without one; this is not modelled (such a name is a `KeyError` here). -/
def readStationCoordinates (ds : Dataset D) (varX varY : String) : Except Err (VData D × VData D) :=
  match postOpen ds with
  | .error e => .error e
  | .ok da =>
    match da.get? varX with
    | none => .error .key
    | some x =>
      match da.get? varY with
      | none => .error .key
      | some y =>
        match x.len with
        | .error e => .error e
        | .ok n =>
          match y.len with
          | .error e => .error e
          | .ok m => if n = m then .ok (x.data, y.data) else .error .assertion

end Model
