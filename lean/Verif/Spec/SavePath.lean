import Verif.Model.Cache

/-! What is expected of saving under names that the user chooses. -/

namespace Spec
open Np Model

variable {V : Type}

/-- everything that was there is still there and unchanged; what is new is a complete pickle, in a directory that was
there, under a name that ends in `.pkl` -/
structure OnlyAdds (fs fs' : FS V) : Prop where
  kept : ∀ q n, fs q = some n → fs' q = some n
  added : ∀ q n, fs q = none → fs' q = some n →
    (∃ v, n = .file (.full v)) ∧ ∃ d m, q = d ++ [m ++ ".pkl".toList] ∧ (d = [] ∨ fs d = some .dir)

/-- all names a computation saves under -/
def NamesIn (Q : Name → Prop) : Prog V → Prop
  | .ret _ => True
  | .draw k => ∀ n, NamesIn Q (k n)
  | .call name body k => (∀ n, name = some n → Q n) ∧ NamesIn Q body ∧ ∀ v, NamesIn Q (k v)

/-- the components of a name between slashes that say something -/
def parts (n : List Char) : List (List Char) := (n.splitOnP (· = '/')).filter fun c => c ≠ [] ∧ c ≠ ['.']

/-- neither absolute nor leading upwards -/
def Inner (n : List Char) : Prop := n.head? ≠ some '/' ∧ ['.', '.'] ∉ n.splitOnP (· = '/')

end Spec
