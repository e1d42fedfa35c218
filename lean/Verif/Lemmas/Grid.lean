import Verif.Model.Grid
import Verif.Spec.Grid

namespace Lemmas
open Np Model Spec

variable {K : Type}

theorem mapM_some {α β : Type} {f : α → Option β} {g : α → β} {l : List α} (h : ∀ a ∈ l, f a = some (g a)) :
    l.mapM f = some (l.map g) := by
  induction l with
  | nil => rfl
  | cons a l ih =>
    rw [List.mapM_cons, h a (by simp), ih fun b hb => h b (by simp [hb])]
    rfl

theorem intercalate_cons_cons {α : Type} (s a b : List α) (l : List (List α)) :
    s.intercalate (a :: b :: l) = a ++ s ++ s.intercalate (b :: l) := by
  simp [List.intercalate, List.intersperse_cons_cons]

theorem intercalate_singleton {α : Type} (s a : List α) : s.intercalate [a] = a := by
  simp [List.intercalate]

theorem comma_space (a : List Char) (l : List (List Char)) :
    (", ".toList).intercalate (a :: l) = [','].intercalate (a :: l.map (' ' :: ·)) := by
  induction l generalizing a with
  | nil => simp
  | cons b l ih =>
    rw [intercalate_cons_cons, ih, List.map_cons, intercalate_cons_cons]
    cases l with
    | nil => simp
    | cons c l => simp only [List.map_cons, intercalate_cons_cons]; simp

theorem mem_intercalate {α : Type} {s : List α} {l : List (List α)} {x : α} (h : x ∈ s.intercalate l) :
    x ∈ s ∨ ∃ t ∈ l, x ∈ t := by
  induction l with
  | nil => simp [List.intercalate] at h
  | cons a l ih =>
    cases l with
    | nil => rw [intercalate_singleton] at h; exact Or.inr ⟨a, by simp, h⟩
    | cons b l =>
      rw [intercalate_cons_cons] at h
      simp only [List.mem_append] at h
      rcases h with (h | h) | h
      · exact Or.inr ⟨a, by simp, h⟩
      · exact Or.inl h
      · rcases ih h with h | ⟨t, ht, h⟩
        · exact Or.inl h
        · exact Or.inr ⟨t, by simp [List.mem_cons.1 ht], h⟩

/-! ### numbers -/

theorem digit_facts {d : Nat} (h : d < 10) : (Nat.digitChar d).isDigit = true ∧
    (Nat.digitChar d).toNat - '0'.toNat = d ∧ Nat.digitChar d ≠ ',' ∧ Nat.digitChar d ≠ ' ' ∧
    Nat.digitChar d ≠ '\n' := by
  interval_cases d <;> decide

theorem readNat_digits (l : List Nat) (hl : ∀ d ∈ l, d < 10) (acc : Nat) :
    (l.map Nat.digitChar).foldl (fun n c => 10 * n + (c.toNat - '0'.toNat)) acc =
      l.foldl (fun a d => a * 10 + d) acc := by
  induction l generalizing acc with
  | nil => rfl
  | cons d l ih =>
    simp only [List.map_cons, List.foldl_cons]
    rw [(digit_facts (hl d (by simp))).2.1, ih (fun x hx => hl x (by simp [hx])), Nat.mul_comm]

theorem natStr_mem {n : Nat} {c : Char} (h : c ∈ natStr n) : ∃ d < 10, c = Nat.digitChar d := by
  unfold natStr at h
  split at h
  · refine ⟨0, by norm_num, ?_⟩
    rw [List.mem_singleton] at h
    rw [h]; decide
  · obtain ⟨d, hd, rfl⟩ := List.mem_map.1 h
    exact ⟨d, Nat.digits_lt_base (by norm_num) (List.mem_reverse.1 hd), rfl⟩

theorem readNat_natStr (n : Nat) : readNat (natStr n) = some n := by
  have hall : (natStr n).all Char.isDigit = true := by
    rw [List.all_eq_true]
    intro c hc
    obtain ⟨d, hd, rfl⟩ := natStr_mem hc
    exact (digit_facts hd).1
  unfold readNat
  rw [if_pos ⟨natStr_ne_nil n, hall⟩]
  · congr 1
    unfold natStr
    split
    · rename_i h; rw [h]; decide
    · have hd : ∀ d ∈ (Nat.digits 10 n).reverse, d < 10 := by
        intro d hd
        exact Nat.digits_lt_base (by norm_num) (List.mem_reverse.1 hd)
      rw [readNat_digits _ hd, foldl_reverse_digits, Nat.ofDigits_digits]

theorem natStr_clean (n : Nat) : ',' ∉ natStr n ∧ ' ' ∉ natStr n ∧ '\n' ∉ natStr n := by
  refine ⟨fun h => ?_, fun h => ?_, fun h => ?_⟩ <;> obtain ⟨d, hd, e⟩ := natStr_mem h
  · exact (digit_facts hd).2.2.1 e.symm
  · exact (digit_facts hd).2.2.2.1 e.symm
  · exact (digit_facts hd).2.2.2.2 e.symm

theorem trimLeft_self {t : List Char} (h : ' ' ∉ t) : trimLeft t = t := by
  unfold trimLeft
  cases t with
  | nil => rfl
  | cons a t =>
    rw [List.dropWhile_cons_of_neg]
    simp only [decide_eq_true_eq]
    rintro rfl
    exact h (by simp)

theorem trimLeft_space {t : List Char} (h : ' ' ∉ t) : trimLeft (' ' :: t) = t := by
  have : trimLeft (' ' :: t) = trimLeft t := by
    unfold trimLeft
    rw [List.dropWhile_cons_of_pos (by simp)]
  rw [this, trimLeft_self h]

theorem readHeader_ok (r c : Nat) :
    readHeader ('[' :: natStr r ++ ", ".toList ++ natStr c ++ "]".toList) = some (r, c) := by
  have h1 := natStr_clean r
  have h2 := natStr_clean c
  have e : '[' :: natStr r ++ ", ".toList ++ natStr c ++ "]".toList =
      '[' :: ((", ".toList).intercalate [natStr r, natStr c] ++ [']']) := by
    rw [intercalate_cons_cons, intercalate_singleton]; simp
  rw [e]
  unfold readHeader
  have hl : ('[' :: ((", ".toList).intercalate [natStr r, natStr c] ++ [']'])).getLast? = some ']' := by
    rw [← List.cons_append, List.getLast?_append]; rfl
  have hs : ((('[' :: ((", ".toList).intercalate [natStr r, natStr c] ++ [']'])).drop 1).dropLast).splitOn ',' =
      [natStr r, ' ' :: natStr c] := by
    rw [List.drop_succ_cons, List.drop_zero, List.dropLast_concat, comma_space]
    apply List.splitOn_intercalate
    · intro t ht
      simp only [List.map_cons, List.map_nil, List.mem_cons, List.not_mem_nil, or_false] at ht
      rcases ht with rfl | rfl
      · exact h1.1
      · simp only [List.mem_cons, not_or]
        exact ⟨by decide, h2.1⟩
    · simp
  simp only [hl, hs, List.head?_cons]
  rw [trimLeft_self h1.2.1, trimLeft_space h2.2.1, readNat_natStr, readNat_natStr]
  rfl

/-! ### rows -/

theorem cell_clean {str : K → List Char} {num : List Char → Option K} (h : Prints str num) (x : Fl K) :
    ',' ∉ cellText str x ∧ ' ' ∉ cellText str x ∧ '\n' ∉ cellText str x := by
  cases x with
  | none =>
    change ',' ∉ "nan".toList ∧ ' ' ∉ "nan".toList ∧ '\n' ∉ "nan".toList
    decide
  | some x => exact h.chars x

theorem readCell_text {str : K → List Char} {num : List Char → Option K} (h : Prints str num) (x : Fl K) :
    readCell num (cellText str x) = some x ∧ readCell num (' ' :: cellText str x) = some x := by
  have hc := cell_clean h x
  unfold readCell
  simp only
  rw [trimLeft_self hc.2.1, trimLeft_space hc.2.1]
  cases x with
  | none => exact ⟨rfl, rfl⟩
  | some x =>
    have hn : cellText str (some x) ≠ "nan".toList := h.notNan x
    have hb : num (cellText str (some x)) = some x := h.back x
    rw [if_neg hn, hb]
    exact ⟨rfl, rfl⟩

/-- a row without its line break -/
def rowLine (str : K → List Char) (row : List (Fl K)) : List Char :=
  '(' :: ((", ".toList).intercalate (row.map (cellText str)) ++ "),".toList)

theorem rowText_eq (str : K → List Char) (row : List (Fl K)) : rowText str row = rowLine str row ++ ['\n'] := by
  unfold rowText rowLine
  simp

theorem row_no_newline {str : K → List Char} {num : List Char → Option K} (h : Prints str num) (row : List (Fl K)) :
    '\n' ∉ rowLine str row := by
  unfold rowLine
  simp only [List.mem_cons, List.mem_append, not_or]
  refine ⟨by decide, fun hm => ?_, by decide⟩
  rcases mem_intercalate hm with hm | ⟨t, ht, hm⟩
  · exact absurd hm (by decide)
  · obtain ⟨x, -, rfl⟩ := List.mem_map.1 ht
    exact (cell_clean h x).2.2 hm

theorem readRow_ok {str : K → List Char} {num : List Char → Option K} (h : Prints str num) (row : List (Fl K)) :
    readRow num row.length (rowLine str row) = some row := by
  unfold readRow rowLine
  set body := (", ".toList).intercalate (row.map (cellText str)) with hbody
  have e : '(' :: (body ++ "),".toList) = (('(' :: body) ++ [')']) ++ [','] := by simp
  have h2 : ('(' :: (body ++ "),".toList)).getLast? = some ',' := by
    rw [e, List.getLast?_append]; rfl
  have h3 : ('(' :: (body ++ "),".toList)).dropLast.getLast? = some ')' := by
    rw [e, List.dropLast_concat, List.getLast?_append]; rfl
  have h4 : (('(' :: (body ++ "),".toList)).drop 1).dropLast.dropLast = body := by
    have : body ++ "),".toList = (body ++ [')']) ++ [','] := by simp
    rw [List.drop_succ_cons, List.drop_zero, this, List.dropLast_concat, List.dropLast_concat]
  rw [if_pos ⟨rfl, h2, h3⟩]
  simp only [h4]
  cases row with
  | nil =>
    have : body = [] := by rw [hbody]; rfl
    simp [this]
  | cons x row =>
    rw [if_neg (by simp)]
    have hs : body.splitOn ',' = cellText str x :: (row.map (cellText str)).map (' ' :: ·) := by
      rw [hbody, List.map_cons, comma_space]
      apply List.splitOn_intercalate
      · intro t ht
        rcases List.mem_cons.1 ht with rfl | ht
        · exact (cell_clean h x).1
        · obtain ⟨t', ht', rfl⟩ := List.mem_map.1 ht
          obtain ⟨y, -, rfl⟩ := List.mem_map.1 ht'
          simp only [List.mem_cons, not_or]
          exact ⟨by decide, (cell_clean h y).1⟩
      · simp
    rw [hs]
    have hm : (row.map (cellText str)).map (' ' :: ·) = row.map fun y => ' ' :: cellText str y := by
      rw [List.map_map]; rfl
    have hrest : (row.map fun y => ' ' :: cellText str y).mapM (readCell num) = some row := by
      clear hs hbody e h2 h3 h4 hm body
      induction row with
      | nil => rfl
      | cons y row ih =>
        rw [List.map_cons, List.mapM_cons, (readCell_text h y).2, ih]
        rfl
    rw [List.mapM_cons, (readCell_text h x).1, hm, hrest]
    simp

/-! ### the file -/

/-- the lines of the file -/
def fileLines (str : K → List Char) (r c : Nat) (rows : List (List (Fl K))) : List (List Char) :=
  ('[' :: natStr r ++ ", ".toList ++ natStr c ++ "]".toList) :: ['('] :: (rows.map (rowLine str) ++ [[')']])

theorem intercalate_lines (l : List (List Char)) (a : List Char) :
    ['\n'].intercalate (l ++ [a]) = (l.map (· ++ ['\n'])).flatten ++ a := by
  induction l with
  | nil => simp
  | cons b l ih =>
    cases l with
    | nil => simp
    | cons d l =>
      rw [List.cons_append, List.cons_append, intercalate_cons_cons, ← List.cons_append, ih]
      simp

theorem matrixText_lines (str : K → List Char) (r c : Nat) (mat : NDArr (Fl K)) :
    matrixText str r c mat = ['\n'].intercalate
      (fileLines str r c ((List.range r).map fun i => (List.range c).map fun j => mat.get [i, j])) := by
  have e : fileLines str r c ((List.range r).map fun i => (List.range c).map fun j => mat.get [i, j]) =
      (('[' :: natStr r ++ ", ".toList ++ natStr c ++ "]".toList) :: ['('] ::
        (((List.range r).map fun i => (List.range c).map fun j => mat.get [i, j]).map (rowLine str))) ++ [[')']] := by
    simp [fileLines]
  rw [e, intercalate_lines]
  unfold matrixText
  simp only [rowText_eq, List.map_cons, List.flatten_cons, List.map_map]
  simp [Function.comp_def]

theorem readMatrix_ok {str : K → List Char} {num : List Char → Option K} (h : Prints str num) (r c : Nat)
    (mat : NDArr (Fl K)) : readMatrix num (matrixText str r c mat) =
      some (r, c, (List.range r).map fun i => (List.range c).map fun j => mat.get [i, j]) := by
  rw [matrixText_lines]
  set rows := (List.range r).map fun i => (List.range c).map fun j => mat.get [i, j] with hrows
  have hnl : ∀ t ∈ fileLines str r c rows, '\n' ∉ t := by
    intro t ht
    unfold fileLines at ht
    simp only [List.mem_cons, List.mem_append, List.mem_map, List.not_mem_nil, or_false] at ht
    rcases ht with rfl | rfl | ⟨row, -, rfl⟩ | rfl
    · simp only [List.mem_append, List.mem_cons, not_or]
      exact ⟨⟨⟨⟨by decide, (natStr_clean r).2.2⟩, by decide⟩, (natStr_clean c).2.2⟩, by decide⟩
    · decide
    · exact row_no_newline h row
    · decide
  unfold readMatrix
  rw [List.splitOn_intercalate '\n' hnl (by simp [fileLines])]
  simp only [fileLines]
  rw [if_pos ⟨trivial, by simp⟩, readHeader_ok, List.dropLast_concat]
  have hm : (rows.map (rowLine str)).mapM (readRow num c) = some rows := by
    have hlen : ∀ row ∈ rows, row.length = c := by
      intro row hr
      rw [hrows] at hr
      obtain ⟨i, -, rfl⟩ := List.mem_map.1 hr
      simp
    clear hnl hrows
    clear_value rows
    induction rows with
    | nil => rfl
    | cons row rows ih =>
      have := readRow_ok h row
      rw [hlen row (by simp)] at this
      rw [List.map_cons, List.mapM_cons, this, ih fun r hr => hlen r (by simp [hr])]
      rfl
  simp only [Option.bind_eq_bind, Option.bind_some]
  rw [hm]
  simp [hrows]

end Lemmas
