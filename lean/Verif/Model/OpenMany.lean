import Verif.Model.IO
import Verif.Np.Except
import Mathlib.Data.List.Lex
import Mathlib.Data.List.Sort

/-!
# Opening several files as one (IO.py:103-172)

The files of one run of the analog ensemble hold different stations.  `open_mfdataset` hands the opening and the
combination to `xr.open_mfdataset`; what that function does here (`combine='by_coords'`, `data_vars='minimal'`,
`coords='minimal'`, `compat='override'`) is transcribed from xarray's documentation and source for files whose
dimension coordinates other than `num_stations` agree and which have the same variables.  Files with other differing
coordinates, which xarray would arrange on a grid, are outside.  `decode=False` throughout.
-/

namespace Model
open Np NDArr

variable {K : Type} [Field K] [LinearOrder K]

/-- arrays of numbers as contents of variables -/
abbrev Block (K : Type) := Dataset (NDArr (Fl K))

/-- the text or the list of texts given as `paths` -/
inductive PyPaths
  | text (s : List Char)
  | list (l : List (List Char))

/-- IO.py:119-124: the texts `glob` finds, or those given, after `expanduser`, in the order of Python's `str` -/
def sortedPaths (expand : List Char → List Char) (glob : List Char → List (List Char)) (p : PyPaths) :
    List (List Char) :=
  (match p with
    | .text s => glob (expand s)
    | .list l => l.map expand).insertionSort (· ≤ ·)

/-- a list of numbers as array -/
def numArr (l : List K) : NDArr (Fl K) := ⟨[l.length], l.map some, by simp⟩

/-- `preprocess=__add_coords__`, the default (IO.py:103; `dim_name='num_stations'`, IO.py:36) -/
def addStations (path : List Char) (d : Block K) : Except Err (Block K) := addCoords numArr path "num_stations" d

/-- values of the coordinate `num_stations`; `none` if there is none (or it is not a list of numbers) -/
def stationIndex (ds : Block K) : Option (List (Fl K)) :=
  match ds.get? "num_stations" with
  | some v => match v.data with
    | .other a => some a.data
    | _ => none
  | none => none

/-- `dict[k] = d` -/
def dictPut {α β : Type} [DecidableEq α] : List (α × β) → α → β → List (α × β)
  | [], k, d => [(k, d)]
  | (k', d') :: r, k, d => if k' = k then (k, d) :: r else (k', d') :: dictPut r k d

/-- position of the dimension `num_stations` of a variable -/
def stationAxis (v : DVar D) : Nat := v.dims.findIdx fun d => d.1 = "num_stations"

def hasStations (v : DVar D) : Bool := v.dims.any fun d => d.1 = "num_stations"

/-- an array of numbers -/
def numbersOf : VData (NDArr (Fl K)) → Except Err (NDArr (Fl K))
  | .other a => .ok a
  | _ => .error .value

/-- a matrix of characters -/
def charsOf : VData (NDArr (Fl K)) → Except Err (List (List (List Char)))
  | .chars m => .ok m
  | _ => .error .value

/-- `ds[k]`; every file must have the variable -/
def varOf (k : String) (d : Block K) : Except Err (DVar (NDArr (Fl K))) :=
  match d.get? k with
  | some v => .ok v
  | none => .error .value

/-- the contents of all files along axis `ax`; rows of characters are appended -/
def catData (ax : Nat) (l : List (VData (NDArr (Fl K)))) : Except Err (VData (NDArr (Fl K))) :=
  match l with
  | .chars _ :: _ =>
    if ax = 0 then (mapE charsOf l).map fun ms => .chars ms.flatten else .error .value
  | .other _ :: _ => do
    let as ← mapE numbersOf l
    let a ← concat ax as
    pure (.other a)
  | _ => .error .value

/-- `xr.concat(dss, dim='num_stations', data_vars='minimal', coords='minimal', compat='override')`: a variable along
`num_stations` is the concatenation of those of all files, every other variable is that of the first file -/
def concatStations (dss : List (Block K)) : Except Err (Block K) :=
  match dss with
  | [] => .error .value
  | d0 :: _ => do
    let vars ← mapE (fun kv => if hasStations kv.2 then do
        let vs ← mapE (varOf kv.1) dss
        let c ← catData (stationAxis kv.2) (vs.map DVar.data)
        let total := (dss.map fun d => (d.size? "num_stations").getD 0).sum
        pure (kv.1, { kv.2 with dims := kv.2.dims.map (fun d => if d.1 = "num_stations" then (d.1, total) else d), data := c })
      else pure kv) d0.vars
    pure ⟨vars, d0.coords⟩

/-- the first station of a file: its position in the order of the files -/
def firstStation (ds : Block K) : Except Err (K × Block K) :=
  match stationIndex ds with
  | none => .error .value
  | some [] => .error .value
  | some (none :: _) => .error .value
  | some (some x :: _) => .ok (x, ds)

/-- `xr.combine_by_coords` along `num_stations`: no file is an `OSError`; one file is taken as it is; files that all
have the same stations cannot be ordered; otherwise the files are stored under the first of their stations (a later
file replaces an earlier one with the same first station) and concatenated in that order -/
def combineStations (dss : List (Block K)) : Except Err (Block K) :=
  match dss with
  | [] => .error .generic
  | [d] => .ok d
  | d0 :: rest => do
    let tiles ← mapE firstStation (d0 :: rest)
    if rest.all fun d => stationIndex d = stationIndex d0 then .error .value
    else
      let kept := tiles.foldl (fun l t => dictPut l t.1 t.2) []
      concatStations ((kept.insertionSort fun a b => a.1 ≤ b.1).map Prod.snd)

/-- `xr.open_mfdataset(paths, preprocess=pre)`; `read` opens one file -/
def openAll (read : List Char → Except Err (Block K)) (pre : List Char → Block K → Except Err (Block K))
    (paths : List (List Char)) : Except Err (Block K) := do
  let dss ← mapE (fun p => do let d ← read p; pre p d) paths
  combineStations dss

/-- `ds.coords[k] = array`: the array must be a list as long as the dimension -/
def setRaw (ds : Block K) (k : String) (a : VData (NDArr (Fl K))) : Except Err (Block K) :=
  match a with
  | .other x => match x.shape with
    | [n] => ds.setCoord k ⟨[(k, n)], none, .other x⟩
    | _ => .error .value
  | .names l => ds.setCoord k ⟨[(k, l.length)], none, .names l⟩
  | .chars _ => .error .value

/-- the loop IO.py:140-142: coordinates missing in the group are read from the root group of the first file -/
def fillCoords (root : Block K) : List (String × String) → Block K → Except Err (Block K)
  | [], ds => .ok ds
  | (k, s) :: r, ds =>
    if ds.hasDim k = true ∧ k ∉ ds.coords then
      match root.get? s with
      | none => .error .key
      | some v => match setRaw ds k v.data with
        | .error e => .error e
        | .ok ds1 => fillCoords root r ds1
    else fillCoords root r ds

/-- `ds.assign(k=v)`: every dimension must fit those that are there -/
def assignVar (ds : Block K) (k : String) (v : DVar (NDArr (Fl K))) : Except Err (Block K) :=
  if ∀ d ∈ v.dims, ds.size? d.1 = none ∨ ds.size? d.1 = some d.2 then
    .ok ⟨setVar ds.vars k ⟨v.dims, none, v.data⟩, ds.coords⟩
  else .error .value

/-- IO.py:147-153: locations missing in the group are read from the root groups of all files; `roots` is the outcome of
the second call of `xr.open_mfdataset` -/
def fillPlaces (roots : Except Err (Block K)) (ds : Block K) : Except Err (Block K) :=
  if (ds.get? "Xs").isSome then .ok ds
  else do
    let r ← roots
    match r.get? "Xs" with
    | none => .error .key
    | some x => match r.get? "Ys" with
      | none => .error .key
      | some y => do
        let ds1 ← assignVar ds "Xs" x
        assignVar ds1 "Ys" y

/-- `open_mfdataset(paths, group, decode=False, preprocess)` (IO.py:103-172).  `read` opens the group of a file, `root` its
root group.  Versions of xarray that refuse `concat_dim` together with `combine='by_coords'` fail at line 148; the model
is that of the versions that ignore it. -/
def openMany (expand : List Char → List Char) (glob : List Char → List (List Char))
    (read root : List Char → Except Err (Block K)) (pre : List Char → Block K → Except Err (Block K)) (p : PyPaths) :
    Except Err (Block K) := do
  let paths := sortedPaths expand glob p
  let ds ← openAll read pre paths
  match paths with
  | [] => .error .index
  | first :: _ => do
    let r ← root first
    let ds1 ← fillCoords r [("num_flts", "FLTs"), ("num_test_times", "test_times")] ds
    let ds2 ← fillPlaces (openAll root pre paths) ds1
    let ds3 : Block K := ⟨unitLoop ds2.vars, ds2.coords⟩
    if ds3.hasDim "num_times" = false ∧ ds3.hasDim "num_test_times" = true then ds3.rename "num_test_times" "num_times"
    else .ok ds3

end Model
