import Verif.Model.SaveName

/-!
# Save names with slashes in them (Verify.py:230-253)

In Model/Cache a save name is one file name in a resolved working directory.  Here the working directory is the text the
user gave, the name is any text, the two are joined as `os.path.join` does and the result is looked up from the root or
from the current directory.  Links are not modelled.
-/

namespace Model
open Np

variable {V : Type}

/-- `posixpath.join(a, b)` -/
def joinPath (a b : List Char) : List Char :=
  if b.head? = some '/' then b else if a = [] ∨ a.getLast? = some '/' then a ++ b else a ++ '/' :: b

/-- the components of a path -/
def comps : List Char → List Name
  | [] => [[]]
  | c :: t =>
    if c = '/' then [] :: comps t
    else match comps t with
      | x :: xs => (c :: x) :: xs
      | [] => [[c]]

/-- what is found at a path; the root is a directory -/
def nodeAt (fs : FS V) (p : Path) : Option (Node V) := if p = [] then some .dir else fs p

/-- one component further -/
def stepPath (cur : Path) (c : Name) : Path :=
  if c = [] ∨ c = ['.'] then cur else if c = ['.', '.'] then cur.dropLast else cur ++ [c]

/-- path resolution: every component but the last must lead to a directory -/
def walk (fs : FS V) : Path → List Name → Except Err Path
  | cur, [] => .ok cur
  | cur, c :: cs =>
    match nodeAt fs cur with
    | some .dir => walk fs (stepPath cur c) cs
    | some (.file _) => .error .notADirectory
    | none => .error .generic

/-- where a text leads, `cwd` being the current directory -/
def resolve (fs : FS V) (cwd : Path) (t : List Char) : Except Err Path :=
  walk fs (if t.head? = some '/' then [] else cwd) (comps t)

/-- Verify.py:236-244; `os.path.exists` is false where resolution fails -/
def loadS (cwd : Path) (wd : Option (List Char)) (name : Option Name) (w : World V) : Except Err (Option V) :=
  match wd, name with
  | some (c :: t), some n =>
    match resolve w.fs cwd (joinPath (c :: t) (n ++ ".pkl".toList)) with
    | .error _ => .ok none
    | .ok p =>
      match w.fs p with
      | none => .ok none
      | some (.file (.full v)) => .ok (some v)
      | some (.file .torn) => .error .eof
      | some .dir => .error .generic
  | _, _ => .ok none

/-- Verify.py:230-234 -/
def saveS (cwd : Path) (wd : Option (List Char)) (name : Option Name) (v : V) (w : World V) : Except Err Unit × World V :=
  match wd, name with
  | some (c :: t), some n =>
    match resolve w.fs cwd (joinPath (c :: t) (n ++ ".pkl".toList)) with
    | .error e => (.error e, w)
    | .ok p =>
      match w.fs p with
      | some .dir => (.error .generic, w)
      | _ =>
        let w1 := w.eff (w.fs.set p (some (.file .torn)))
        (.ok (), w1.eff (w1.fs.set p (some (.file (.full v)))))
  | _, _ => (.ok (), w)

/-- Verify.py:246-253 and everything around it -/
def Prog.runS (cwd : Path) (wd : Option (List Char)) : Prog V → World V → Except Err V × World V
  | .ret r, w => (r, w)
  | .draw k, w => (k (w.seed w.pos)).runS cwd wd { w with pos := w.pos + 1 }
  | .call name body k, w =>
    match loadS cwd wd name w with
    | .error e => (.error e, w)
    | .ok (some v) => (k v).runS cwd wd w
    | .ok none =>
      match body.runS cwd wd w with
      | (.error e, w1) => (.error e, w1)
      | (.ok v, w1) =>
        match saveS cwd wd name v w1 with
        | (.error e, w2) => (.error e, w2)
        | (.ok _, w2) => (k v).runS cwd wd w2

end Model
