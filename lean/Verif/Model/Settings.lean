import Verif.Np.Array
import Mathlib.Data.Nat.Digits.Lemmas

/-!
# Settings kept in environment variables

Settings are strings; they are parsed where they are used with `util.strtobool(...)` and `int(...)`.
Values are lists of characters.  `int()` is modelled on ASCII text.
-/

namespace Model
open Np

/-- the process environment -/
abbrev Env := String → Option (List Char)

/-- `os.environ[k]`, `KeyError` when absent -/
def Env.read (e : Env) (k : String) : Except Err (List Char) :=
  match e k with
  | some v => .ok v
  | none => .error .key

/-- `os.environ[k] = v` -/
def Env.write (e : Env) (k : String) (v : List Char) : Env := fun k' => if k' = k then some v else e k'

/-- `distutils.util.strtobool` (used throughout, e.g. utils_approximation.py:77): the recognised words
in any case, `ValueError` otherwise -/
def strtobool (v : List Char) : Except Err Nat :=
  let w := v.map Char.toLower
  if w ∈ ["y".toList, "yes".toList, "t".toList, "true".toList, "on".toList, "1".toList] then .ok 1
  else if w ∈ ["n".toList, "no".toList, "f".toList, "false".toList, "off".toList, "0".toList] then .ok 0
  else .error .value

/-- one decimal digit -/
def digitVal (c : Char) : Option Nat :=
  if '0' ≤ c ∧ c ≤ '9' then some (c.toNat - '0'.toNat) else none

/-- digits with single underscores allowed between digits; `acc` is the value so far -/
def digitsVal (acc : Nat) : List Char → Option Nat
  | [] => some acc
  | '_' :: c :: r => match digitVal c with
    | some d => digitsVal (acc * 10 + d) r
    | none => none
  | c :: r => match digitVal c with
    | some d => digitsVal (acc * 10 + d) r
    | none => none

/-- an unsigned decimal literal as accepted by `int()` -/
def unsignedVal : List Char → Option Nat
  | [] => none
  | c :: r => match digitVal c with
    | some d => digitsVal d r
    | none => none

/-- ASCII white space stripped by `int()` -/
def isSpace (c : Char) : Bool := c = ' ' ∨ c = '\t' ∨ c = '\n' ∨ c = '\r' ∨ c = '\x0b' ∨ c = '\x0c'

/-- `s.strip()` -/
def strip (v : List Char) : List Char :=
  ((v.dropWhile isSpace).reverse.dropWhile isSpace).reverse

/-- `int(v)`: `ValueError` when the text is not an integer -/
def pyInt (v : List Char) : Except Err Int :=
  match strip v with
  | '-' :: r => match unsignedVal r with
    | some n => .ok (-(n : Int))
    | none => .error .value
  | '+' :: r => match unsignedVal r with
    | some n => .ok (n : Int)
    | none => .error .value
  | r => match unsignedVal r with
    | some n => .ok (n : Int)
    | none => .error .value

/-- decimal digits of a natural number, most significant first -/
def natStr (n : Nat) : List Char :=
  if n = 0 then ['0'] else ((Nat.digits 10 n).reverse).map Nat.digitChar

/-- `str(i)` -/
def intStr (i : Int) : List Char := if i < 0 then '-' :: natStr i.natAbs else natStr i.natAbs

/-! ### `int(str(i)) == i` -/

theorem digitVal_digitChar {d : Nat} (h : d < 10) : digitVal (Nat.digitChar d) = some d := by
  interval_cases d <;> decide

theorem digitChar_ne {d : Nat} (h : d < 10) :
    Nat.digitChar d ≠ '_' ∧ Nat.digitChar d ≠ '-' ∧ Nat.digitChar d ≠ '+' ∧
      isSpace (Nat.digitChar d) = false := by
  interval_cases d <;> decide

theorem digitsVal_map (l : List Nat) (hl : ∀ d ∈ l, d < 10) (acc : Nat) :
    digitsVal acc (l.map Nat.digitChar) = some (l.foldl (fun a d => a * 10 + d) acc) := by
  induction l generalizing acc with
  | nil => rfl
  | cons d l ih =>
    have hd := hl d (by simp)
    have hne := (digitChar_ne hd).1
    have : digitsVal acc ((d :: l).map Nat.digitChar) =
        digitsVal (acc * 10 + d) (l.map Nat.digitChar) := by
      rw [List.map_cons]
      generalize hc : Nat.digitChar d = c at hne
      have hv := digitVal_digitChar hd
      rw [hc] at hv
      rw [digitsVal.eq_def]
      split
      · rename_i heq; simp at heq
      · rename_i heq; simp only [List.cons.injEq] at heq; exact absurd heq.1 hne
      · rename_i heq; simp only [List.cons.injEq] at heq
        obtain ⟨rfl, rfl⟩ := heq
        simp [hv]
    rw [this, ih (fun x hx => hl x (by simp [hx]))]
    rfl

theorem foldl_reverse_digits (l : List Nat) :
    l.reverse.foldl (fun a d => a * 10 + d) 0 = Nat.ofDigits 10 l := by
  induction l with
  | nil => rfl
  | cons d l ih =>
    rw [List.reverse_cons, List.foldl_append, ih, Nat.ofDigits_cons]
    simp only [List.foldl_cons, List.foldl_nil]
    ring

theorem unsignedVal_natStr (n : Nat) : unsignedVal (natStr n) = some n := by
  unfold natStr
  by_cases h : n = 0
  · subst h; decide
  · rw [if_neg h]
    have hd : ∀ d ∈ (Nat.digits 10 n).reverse, d < 10 := by
      intro d hd
      exact Nat.digits_lt_base (by norm_num) (List.mem_reverse.1 hd)
    have hf := foldl_reverse_digits (Nat.digits 10 n)
    rw [Nat.ofDigits_digits] at hf
    cases hl : (Nat.digits 10 n).reverse with
    | nil => rw [hl] at hf; simp at hf; omega
    | cons d l =>
      rw [hl] at hd hf
      simp only [List.map_cons, unsignedVal, digitVal_digitChar (hd d (by simp))]
      rw [digitsVal_map l (fun x hx => hd x (by simp [hx]))]
      simpa using hf

theorem natStr_chars (n : Nat) : ∀ c ∈ natStr n, c ≠ '-' ∧ c ≠ '+' ∧ isSpace c = false := by
  intro c hc
  unfold natStr at hc
  split at hc
  · simp at hc; subst hc; decide
  · obtain ⟨d, hd, rfl⟩ := List.mem_map.1 hc
    have := digitChar_ne (Nat.digits_lt_base (b := 10) (by norm_num) (List.mem_reverse.1 hd))
    exact this.2

theorem natStr_ne_nil (n : Nat) : natStr n ≠ [] := by
  unfold natStr
  split
  · simp
  · simp [Nat.digits_ne_nil_iff_ne_zero, *]

theorem strip_id {v : List Char} (h : ∀ c ∈ v, isSpace c = false) : strip v = v := by
  unfold strip
  have h1 : ∀ l : List Char, (∀ c ∈ l, isSpace c = false) → l.dropWhile isSpace = l := by
    intro l hl
    cases l with
    | nil => rfl
    | cons a l => rw [List.dropWhile_cons_of_neg]; simp [hl a (by simp)]
  rw [h1 v h, h1 v.reverse (by intro c hc; exact h c (List.mem_reverse.1 hc)), List.reverse_reverse]

theorem pyInt_intStr (i : Int) : pyInt (intStr i) = .ok i := by
  have hch := natStr_chars i.natAbs
  have hval := unsignedVal_natStr i.natAbs
  unfold pyInt
  unfold intStr
  by_cases hi : i < 0
  · rw [if_pos hi, strip_id]
    · simp only [hval]
      congr 1; omega
    · intro c hc
      rcases List.mem_cons.1 hc with rfl | hc
      · decide
      · exact (hch c hc).2.2
  · rw [if_neg hi, strip_id (fun c hc => (hch c hc).2.2)]
    cases hn : natStr i.natAbs with
    | nil => exact absurd hn (natStr_ne_nil _)
    | cons a l =>
      rw [hn] at hch hval
      obtain ⟨h1, h2, _⟩ := hch a (by simp)
      split
      · rename_i heq; simp only [List.cons.injEq] at heq; exact absurd heq.1 h1
      · rename_i heq; simp only [List.cons.injEq] at heq; exact absurd heq.1 h2
      · simp only [hval]; congr 1; omega

theorem strtobool_natStr {v : List Char} {b : Nat} (h : strtobool v = .ok b) :
    strtobool (natStr b) = .ok b := by
  unfold strtobool at h
  simp only at h
  split_ifs at h
  · cases h; decide
  · cases h; decide

end Model
