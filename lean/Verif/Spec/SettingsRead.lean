import Mathlib.Data.List.Basic
import Mathlib.Data.Nat.Digits.Defs

/-!
# Texts of numbers and switches: C137
-/

namespace Spec

/-- the text of a sequence of digits -/
def digitText (g : List Nat) : List Char := g.map Nat.digitChar

/-- one or more digits -/
def IsDigits (g : List Nat) : Prop := g ≠ [] ∧ ∀ d ∈ g, d < 10

/-- blanks, tabs and line breaks -/
def Blank (v : List Char) : Prop := ∀ c ∈ v, c ∈ [' ', '\t', '\n', '\r', '\x0b', '\x0c']

/-- groups of digits with single underscores between them, and the number they denote -/
def Numeral (v : List Char) (n : Nat) : Prop :=
  ∃ gs : List (List Nat), gs ≠ [] ∧ (∀ g ∈ gs, IsDigits g) ∧ v = List.intercalate ['_'] (gs.map digitText) ∧
    n = Nat.ofDigits 10 gs.flatten.reverse

/-- blanks, at most one sign, a numeral, blanks; and the integer this denotes -/
def IntText (v : List Char) (i : Int) : Prop :=
  ∃ pre body post n, Blank pre ∧ Blank post ∧ Numeral body n ∧
    ((v = pre ++ body ++ post ∧ i = n) ∨ (v = pre ++ '+' :: body ++ post ∧ i = n) ∨ (v = pre ++ '-' :: body ++ post ∧ i = -n))

/-- the words for yes and no, in small or capital letters -/
def Word (l : List String) (v : List Char) : Prop := ∃ w ∈ l, v.map Char.toLower = w.toList

/-- the text of a switch that is on (`1`) or off (`0`) -/
def SwitchText (v : List Char) (b : Nat) : Prop :=
  (b = 1 ∧ Word ["y", "yes", "t", "true", "on", "1"] v) ∨ (b = 0 ∧ Word ["n", "no", "f", "false", "off", "0"] v)

/-- the value in force: the argument if there is one, else what the text of the setting says -/
def InForce {α : Type} (T : List Char → α → Prop) (setting : Option (List Char)) (arg : Option α) (a : α) : Prop :=
  arg = some a ∨ (arg = none ∧ ∃ v, setting = some v ∧ T v a)

end Spec
