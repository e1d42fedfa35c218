import Verif.Np.Except

/-!
# Saving and loading of intermediate results (Verify.py)

A metric computation is a `Prog`: what it calls through `_metric_workflow_1` (possibly saved), what it draws at
random, and what it finally returns.  `V` is the type of the pickled values; no metric is Python's `None`.
File names contain no `/`; a path is a list of components; links are not modelled.
-/

namespace Model
open Np

abbrev Name := List Char
abbrev Path := List (List Char)

/-- content of a file: a complete pickle, or anything that cannot be loaded (e.g. a truncated one) -/
inductive Content (V : Type)
  | full (v : V)
  | torn

inductive Node (V : Type)
  | dir
  | file (c : Content V)

abbrev FS (V : Type) := Path → Option (Node V)

variable {V : Type}

def FS.set (fs : FS V) (p : Path) (n : Option (Node V)) : FS V := fun q => if q = p then n else fs q

/-- the file system, the random numbers still to come, and every file system state passed through -/
structure World (V : Type) where
  fs : FS V
  seed : Nat → Nat
  pos : Nat
  trace : List (FS V)

/-- one atomic change of the file system -/
def World.eff (w : World V) (fs : FS V) : World V := { w with fs := fs, trace := w.trace ++ [fs] }

/-- `os.path.join(self.working_directory, name + '.pkl')` (Verify.py:232, 238) -/
def filePath (d : Path) (n : Name) : Path := d ++ [n ++ ".pkl".toList]

/-- Verify.py:236-244.  Unpickling a damaged file raises. -/
def load (wd : Option Path) (name : Option Name) (w : World V) : Except Err (Option V) :=
  match wd, name with
  | some d, some n =>
    match w.fs (filePath d n) with
    | none => .ok none
    | some (.file (.full v)) => .ok (some v)
    | some (.file .torn) => .error .eof
    | some .dir => .error .generic
  | _, _ => .ok none

/-- Verify.py:230-234.  Opening for writing truncates, then the pickle is written. -/
def save (wd : Option Path) (name : Option Name) (v : V) (w : World V) : Except Err Unit × World V :=
  match wd, name with
  | some d, some n =>
    match w.fs d with
    | some .dir =>
      match w.fs (filePath d n) with
      | some .dir => (.error .generic, w)
      | _ =>
        let w1 := w.eff (w.fs.set (filePath d n) (some (.file .torn)))
        (.ok (), w1.eff (w1.fs.set (filePath d n) (some (.file (.full v)))))
    | _ => (.error .generic, w)
  | _, _ => (.ok (), w)

/-- a computation that may use saved results -/
inductive Prog (V : Type)
  /-- return or raise -/
  | ret (r : Except Err V)
  /-- use a random number -/
  | draw (k : Nat → Prog V)
  /-- `x = self._metric_workflow_1(name, body)`, then go on with `x` -/
  | call (name : Option Name) (body : Prog V) (k : V → Prog V)

/-- Verify.py:246-253 and everything around it -/
def Prog.run (wd : Option Path) : Prog V → World V → Except Err V × World V
  | .ret r, w => (r, w)
  | .draw k, w => (k (w.seed w.pos)).run wd { w with pos := w.pos + 1 }
  | .call name body k, w =>
    match load wd name w with
    | .error e => (.error e, w)
    | .ok (some v) => (k v).run wd w
    | .ok none =>
      match body.run wd w with
      | (.error e, w1) => (.error e, w1)
      | (.ok v, w1) =>
        match save wd name v w1 with
        | (.error e, w2) => (.error e, w2)
        | (.ok _, w2) => (k v).run wd w2

/-- `self._metric_workflow_1(self.to_name(...), body)`; computing the name may raise -/
def Prog.callName (name : Except Err (Option Name)) (body : Prog V) (k : V → Prog V) : Prog V :=
  match name with
  | .error e => .ret (.error e)
  | .ok n => .call n body k

/-- several calls one after the other (the list comprehensions of utils_approximation.py:106, 145, 184) -/
def Prog.callAll : List (Except Err (Option Name) × Prog V) → (List V → Prog V) → Prog V
  | [], k => k []
  | (n, b) :: rest, k => .callName n b fun v => Prog.callAll rest fun vs => k (v :: vs)

/-! ### the working directory -/

/-- `os.makedirs`: create the missing directories from the top; a file in the way raises -/
def makeDirs : List Path → World V → Except Err Unit × World V
  | [], w => (.ok (), w)
  | p :: ps, w =>
    match w.fs p with
    | some .dir => makeDirs ps w
    | some (.file _) => (.error .notADirectory, w)
    | none => makeDirs ps (w.eff (w.fs.set p (some .dir)))

/-- the directories `d` consists of, from the top, `d` last -/
def ancestors (d : Path) : List Path := d.inits.tail

/-- everything in or below `d` is gone -/
def removeTree (fs : FS V) (d : Path) : FS V := fun q => if d <+: q then none else fs q

/-- `shutil.rmtree(d)`: `mids` are the states passed through while it deletes one thing after the other -/
def rmTree (mids : FS V → Path → List (FS V)) (d : Path) (w : World V) : Except Err Unit × World V :=
  match w.fs d with
  | some .dir =>
    (.ok (), { w with fs := removeTree w.fs d, trace := w.trace ++ mids w.fs d ++ [removeTree w.fs d] })
  | some (.file _) => (.error .notADirectory, w)
  | none => (.error .generic, w)

/-- Verify.py:199-210 after the type check, with an expanded path -/
def prepareDir (mids : FS V → Path → List (FS V)) (scratch : Bool) (d : Path) (w : World V) :
    Except Err Unit × World V :=
  if (w.fs d).isSome then
    if scratch then
      match rmTree mids d w with
      | (.error e, w1) => (.error e, w1)
      | (.ok _, w1) => makeDirs (ancestors d) w1
    else (.ok (), w)
  else makeDirs (ancestors d) w

end Model
