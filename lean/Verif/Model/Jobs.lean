import Verif.Model.Cache

/-!
# Several jobs with the same working directory (Verify.py:230-253)

Every job makes one request on a verifier that was constructed with `start_from_scratch=False`; a schedule interleaves the
jobs.  A job that makes several requests one after the other is the same as several jobs, each scheduled after the one
before it has ended.  A job that is killed is one that the schedule forgets.

A saved result is a list of pieces: what `pickle.dump` hands to the operating system in one `write`.  Simplifications:
looking for a file and reading it is one step; nobody removes files or directories, so the working directory exists.
-/

namespace Model
open Np

variable {V B : Type}

/-- the format of the saved results -/
structure Pickle (V B : Type) where
  /-- the pieces written one after the other -/
  enc : V → List B
  /-- `none`: unpickling raises -/
  dec : List B → Option V
  /-- what a hole in a file reads as -/
  zero : B

/-- the files by path -/
abbrev Disk (B : Type) := Path → Option (List B)

def Disk.set (f : Disk B) (q : Path) (c : List B) : Disk B := fun q' => if q' = q then some c else f q'

/-- write one piece at position `i`; a gap before it is filled with zeros -/
def writeAt (zero : B) (c : List B) (i : Nat) (b : B) : List B := (c ++ List.replicate (i + 1 - c.length) zero).set i b

/-- where a job is: the calls it is inside of, from the innermost one, wait for the value of the program -/
inductive JState (V : Type)
  | run (p : Prog V) (stack : List (Option Name × (V → Prog V)))
  /-- the file `<d>/<n>.pkl` is open, `i` pieces are written -/
  | writing (d : Path) (n : Name) (v : V) (i : Nat) (k : V → Prog V) (stack : List (Option Name × (V → Prog V)))
  | done (r : Except Err V)

/-- a job and its own random numbers -/
structure Job (V : Type) where
  state : JState V
  seed : Nat → Nat
  pos : Nat

/-- one step of a job with working directory `wd` -/
def Job.step (F : Pickle V B) (wd : Option Path) (disk : Disk B) (j : Job V) : Disk B × Job V :=
  match j.state with
  | .done _ => (disk, j)
  | .run (.ret (.error e)) _ => (disk, { j with state := .done (.error e) })
  | .run (.ret (.ok v)) [] => (disk, { j with state := .done (.ok v) })
  | .run (.ret (.ok v)) ((name, k) :: st) =>
    -- `_save`, lines 230-233: `open(path, 'wb')` truncates
    match wd, name with
    | some d, some n => (disk.set (filePath d n) [], { j with state := .writing d n v 0 k st })
    | _, _ => (disk, { j with state := .run (k v) st })
  | .run (.draw k) st => (disk, { j with state := .run (k (j.seed j.pos)) st, pos := j.pos + 1 })
  | .run (.call name body k) st =>
    -- `_load`, lines 236-244
    match wd, name with
    | some d, some n =>
      match disk (filePath d n) with
      | none => (disk, { j with state := .run body ((name, k) :: st) })
      | some c =>
        match F.dec c with
        | some v => (disk, { j with state := .run (k v) st })
        | none => (disk, { j with state := .done (.error .eof) })
    | _, _ => (disk, { j with state := .run body ((name, k) :: st) })
  | .writing d n v i k st =>
    -- line 234
    match (F.enc v)[i]? with
    | some b =>
      (disk.set (filePath d n) (writeAt F.zero ((disk (filePath d n)).getD []) i b),
        { j with state := .writing d n v (i + 1) k st })
    | none => (disk, { j with state := .run (k v) st })

/-- all files and all jobs -/
structure Jobs (ι V B : Type) where
  disk : Disk B
  job : ι → Job V

variable {ι : Type} [DecidableEq ι]

/-- job `i` makes one step -/
def Jobs.step (F : Pickle V B) (wd : ι → Option Path) (i : ι) (σ : Jobs ι V B) : Jobs ι V B :=
  let c := Job.step F (wd i) σ.disk (σ.job i)
  { disk := c.1, job := fun j => if j = i then c.2 else σ.job j }

/-- an interleaving -/
def Jobs.run (F : Pickle V B) (wd : ι → Option Path) : List ι → Jobs ι V B → Jobs ι V B
  | [], σ => σ
  | i :: is, σ => Jobs.run F wd is (Jobs.step F wd i σ)

/-- the jobs at their start -/
def Jobs.start (disk : Disk B) (p : ι → Prog V) (seed : ι → Nat → Nat) : Jobs ι V B :=
  ⟨disk, fun i => ⟨.run (p i) [], seed i, 0⟩⟩

end Model
