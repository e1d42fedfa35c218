import Verif.Np.Stat

/-!
# Reading a matrix file

The format: a line `[rows, columns]`, a line `(`, one line `(a, b, ...),` per row, and a final `)`.
-/

namespace Spec
open Np

variable {K : Type}

/-- a natural number in decimal notation -/
def readNat (t : List Char) : Option Nat :=
  if t ≠ [] ∧ t.all Char.isDigit then some (t.foldl (fun n c => 10 * n + (c.toNat - '0'.toNat)) 0) else none

/-- text without leading blanks -/
def trimLeft (t : List Char) : List Char := t.dropWhile (· = ' ')

/-- `[rows, columns]` -/
def readHeader (t : List Char) : Option (Nat × Nat) :=
  match t.head?, t.getLast?, ((t.drop 1).dropLast).splitOn ',' with
  | some '[', some ']', [a, b] => do return (← readNat (trimLeft a), ← readNat (trimLeft b))
  | _, _, _ => none

/-- one element -/
def readCell (num : List Char → Option K) (t : List Char) : Option (Fl K) :=
  let t := trimLeft t
  if t = "nan".toList then some none else (num t).map some

/-- `(a, b, ...),` with `c` elements -/
def readRow (num : List Char → Option K) (c : Nat) (t : List Char) : Option (List (Fl K)) :=
  if t.head? = some '(' ∧ t.getLast? = some ',' ∧ t.dropLast.getLast? = some ')' then do
    let body := (t.drop 1).dropLast.dropLast
    let cells := if c = 0 ∧ body = [] then [] else body.splitOn ','
    let row ← cells.mapM (readCell num)
    if row.length = c then some row else none
  else none

/-- the whole file: number of rows, number of columns, rows -/
def readMatrix (num : List Char → Option K) (t : List Char) : Option (Nat × Nat × List (List (Fl K))) :=
  match t.splitOn '\n' with
  | h :: o :: rest =>
    if o = ['('] ∧ rest.getLast? = some [')'] then do
      let (r, c) ← readHeader h
      let rows ← rest.dropLast.mapM (readRow num c)
      if rows.length = r then some (r, c, rows) else none
    else none
  | _ => none

/-- what the printer of numbers must satisfy: `num` reads back what `str` writes, and numbers are written without
separators and do not look like `nan` -/
structure Prints (str : K → List Char) (num : List Char → Option K) : Prop where
  back : ∀ x, num (str x) = some x
  chars : ∀ x, ',' ∉ str x ∧ ' ' ∉ str x ∧ '\n' ∉ str x
  notNan : ∀ x, str x ≠ "nan".toList

end Spec
