import Verif.Np.Stat
import Verif.Model.Cache
import Verif.Model.Settings

/-!
# Matrix files (Grid.py)

Text files live in the file system of `Model.Cache`, with the text as content.  The number printer `str` is a parameter.
-/

namespace Model
open Np

variable {K : Type}

/-- one element (Grid.py:56) -/
def cellText (str : K → List Char) : Fl K → List Char
  | none => "nan".toList
  | some x => str x

/-- one line of the matrix (Grid.py:55-56) -/
def rowText (str : K → List Char) (row : List (Fl K)) : List Char :=
  '(' :: (", ".toList).intercalate (row.map (cellText str)) ++ "),\n".toList

/-- everything written to the file (Grid.py:49-57) -/
def matrixText (str : K → List Char) (r c : Nat) (mat : NDArr (Fl K)) : List Char :=
  '[' :: natStr r ++ ", ".toList ++ natStr c ++ "]\n".toList ++ "(\n".toList ++
    ((List.range r).map fun i => rowText str ((List.range c).map fun j => mat.get [i, j])).flatten ++ ")".toList

/-- `write_matrix` (Grid.py:28-59).  The warning about NaN is not modelled. -/
def writeMatrix (str : K → List Char) (file : Path) (mat : NDArr (Fl K)) (overwrite : Bool) (w : World (List Char)) :
    Except Err Bool × World (List Char) :=
  match mat.shape with
  | [r, c] =>
    if (w.fs file).isSome ∧ overwrite = false then (.error .generic, w)
    else
      -- open(file, 'w')
      match w.fs file.dropLast, w.fs file with
      | some .dir, some .dir => (.error .generic, w)
      | some .dir, _ =>
        let w1 := w.eff (w.fs.set file (some (.file .torn)))
        (.ok true, w1.eff (w1.fs.set file (some (.file (.full (matrixText str r c mat))))))
      | _, _ => (.error .generic, w)
  | _ => (.error .assertion, w)

end Model
