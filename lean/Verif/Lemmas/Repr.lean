import Verif.Model.Repr
import Verif.Lemmas.Grid

/-! Reading the printed description back. -/

namespace Lemmas
open Np Model

theorem intStr_inj {a b : Int} (h : intStr a = intStr b) : a = b := by
  have h1 := pyInt_intStr a
  rw [h, pyInt_intStr b] at h1
  exact (Except.ok.inj h1).symm

theorem intStr_chars (i : Int) : ∀ c ∈ intStr i, c = '-' ∨ ∃ d < 10, c = Nat.digitChar d := by
  intro c hc
  unfold intStr at hc
  split at hc
  · rcases List.mem_cons.1 hc with rfl | hc
    · exact .inl rfl
    · exact .inr (natStr_mem hc)
  · exact .inr (natStr_mem hc)

theorem intStr_clean (i : Int) : ∀ c ∈ intStr i, c ≠ ',' ∧ c ≠ ' ' ∧ c ≠ '\n' ∧ c ≠ ':' ∧ c ≠ 'N' ∧ c ≠ '(' := by
  intro c hc
  rcases intStr_chars i c hc with rfl | ⟨d, hd, rfl⟩
  · decide
  · interval_cases d <;> decide

theorem intStr_ne_nil (i : Int) : intStr i ≠ [] := by
  unfold intStr
  split
  · simp
  · exact natStr_ne_nil _

theorem intercalate_inj {x : Char} {l m : List (List Char)} (hl : ∀ t ∈ l, x ∉ t) (hm : ∀ t ∈ m, x ∉ t) (hl0 : l ≠ [])
    (hm0 : m ≠ []) (h : [x].intercalate l = [x].intercalate m) : l = m := by
  have h1 := List.splitOn_intercalate x hl hl0
  rw [h, List.splitOn_intercalate x hm hm0] at h1
  exact h1.symm

/-- what stands between the commas of a tuple -/
def pieces : List Int → List (List Char)
  | [] => [[]]
  | [x] => [intStr x, []]
  | x :: l => intStr x :: l.map fun y => ' ' :: intStr y

theorem tupleStr_pieces (l : List Int) : tupleStr l = '(' :: [','].intercalate (pieces l) ++ [')'] := by
  match l with
  | [] => rfl
  | [x] => simp [tupleStr, pieces]
  | x :: y :: l =>
    have e := comma_space (intStr x) ((y :: l).map intStr)
    rw [show (", ".toList) = [',', ' '] by decide, List.map_map] at e
    simp only [tupleStr, pieces]
    rw [List.map_cons, e]
    rfl

theorem pieces_clean (l : List Int) : ∀ t ∈ pieces l, ',' ∉ t := by
  have hi : ∀ i, ',' ∉ intStr i := fun i h => (intStr_clean i _ h).1 rfl
  have hs : ∀ i, ',' ∉ ' ' :: intStr i := fun i h => by
    rcases List.mem_cons.1 h with h | h
    · exact absurd h (by decide)
    · exact hi i h
  intro t ht
  match l with
  | [] => simp [pieces] at ht; subst ht; simp
  | [x] =>
    simp [pieces] at ht
    rcases ht with rfl | rfl
    · exact hi x
    · simp
  | x :: y :: l =>
    simp only [pieces, List.mem_cons, List.mem_map] at ht
    rcases ht with rfl | ⟨z, -, rfl⟩
    · exact hi x
    · exact hs z

theorem pieces_ne (l : List Int) : pieces l ≠ [] := by
  match l with
  | [] => simp [pieces]
  | [x] => simp [pieces]
  | x :: y :: l => simp [pieces]

theorem pieces_inj {l m : List Int} (h : pieces l = pieces m) : l = m := by
  match l, m with
  | [], [] => rfl
  | [], [y] => simp [pieces] at h
  | [], y :: y' :: m => simp [pieces] at h
  | [x], [] => simp [pieces] at h
  | [x], [y] => simp only [pieces, List.cons.injEq, and_true] at h; rw [intStr_inj h]
  | [x], y :: y' :: m => simp [pieces] at h
  | x :: x' :: l, [] => simp [pieces] at h
  | x :: x' :: l, [y] => simp [pieces] at h
  | x :: x' :: l, y :: y' :: m =>
    simp only [pieces, List.cons.injEq] at h
    have hm : x' :: l = y' :: m := by
      refine List.map_injective_iff.2 ?_ h.2
      intro a b hab
      simp only [List.cons.injEq, true_and] at hab
      exact intStr_inj hab
    rw [intStr_inj h.1, hm]

theorem tupleStr_inj {l m : List Int} (h : tupleStr l = tupleStr m) : l = m := by
  rw [tupleStr_pieces, tupleStr_pieces] at h
  have h := List.append_inj_left' h rfl
  simp only [List.cons.injEq, true_and] at h
  exact pieces_inj (intercalate_inj (pieces_clean l) (pieces_clean m) (pieces_ne l) (pieces_ne m) h)

theorem tupleStr_clean (l : List Int) : ∀ c ∈ tupleStr l, c ≠ '\n' ∧ c ≠ ':' ∧ c ≠ 'N' := by
  have hp : ∀ t ∈ pieces l, ∀ c ∈ t, c ≠ '\n' ∧ c ≠ ':' ∧ c ≠ 'N' := by
    have hi : ∀ i, ∀ c ∈ intStr i, c ≠ '\n' ∧ c ≠ ':' ∧ c ≠ 'N' := fun i c hc => by
      have := intStr_clean i c hc
      exact ⟨this.2.2.1, this.2.2.2.1, this.2.2.2.2.1⟩
    intro t ht c hc
    match l with
    | [] => simp [pieces] at ht; subst ht; simp at hc
    | [x] =>
      simp [pieces] at ht
      rcases ht with rfl | rfl
      · exact hi x c hc
      · simp at hc
    | x :: y :: l =>
      simp only [pieces, List.mem_cons, List.mem_map] at ht
      rcases ht with rfl | ⟨z, -, rfl⟩
      · exact hi x c hc
      · rcases List.mem_cons.1 hc with rfl | hc
        · decide
        · exact hi z c hc
  intro c hc
  rw [tupleStr_pieces] at hc
  rcases List.mem_append.1 hc with hc | hc
  · rcases List.mem_cons.1 hc with rfl | hc
    · decide
    · rcases mem_intercalate hc with hc | ⟨t, ht, hc⟩
      · rw [List.mem_singleton] at hc; subst hc; decide
      · exact hp t ht c hc
  · rw [List.mem_singleton] at hc; subst hc; decide

theorem arrayStr_inj {s t : List Nat} (h : arrayStr s = arrayStr t) : s = t := by
  have h := tupleStr_inj (List.append_cancel_left h)
  exact List.map_injective_iff.2 (fun a b hab => Int.ofNat.inj hab) h

theorem arrayStr_clean (s : List Nat) : ∀ c ∈ arrayStr s, c ≠ '\n' ∧ c ≠ ':' := by
  intro c hc
  rcases List.mem_append.1 hc with hc | hc
  · have hd : ∀ c ∈ (chars! "array "), c ≠ '\n' ∧ c ≠ ':' := by decide
    exact hd c hc
  · exact ⟨(tupleStr_clean _ c hc).1, (tupleStr_clean _ c hc).2.1⟩

theorem last_colon {a a' b b' : List Char} (hb : ':' ∉ b) (hb' : ':' ∉ b') (h : a ++ ':' :: b = a' ++ ':' :: b') :
    a = a' ∧ b = b' := by
  have key : ∀ {x x' y y' : List Char}, ':' ∉ x → ':' ∉ x' → x ++ ':' :: y = x' ++ ':' :: y' → x = x' ∧ y = y' := by
    intro x
    induction x with
    | nil =>
      intro x' y y' _ hx' h
      cases x' with
      | nil => exact ⟨rfl, by simpa using h⟩
      | cons c x' =>
        simp only [List.nil_append, List.cons_append, List.cons.injEq] at h
        exact absurd (h.1 ▸ List.mem_cons_self) hx'
    | cons c x ih =>
      intro x' y y' hx hx' h
      cases x' with
      | nil =>
        simp only [List.nil_append, List.cons_append, List.cons.injEq] at h
        exact absurd (by simp [h.1]) hx
      | cons d x' =>
        simp only [List.cons_append, List.cons.injEq] at h
        obtain ⟨rfl, h⟩ := h
        obtain ⟨rfl, rfl⟩ := ih (fun h => hx (List.mem_cons_of_mem _ h)) (fun h => hx' (List.mem_cons_of_mem _ h)) h
        exact ⟨rfl, rfl⟩
  have h' := congrArg List.reverse h
  simp only [List.reverse_append, List.reverse_cons, List.append_assoc, List.singleton_append] at h'
  obtain ⟨e1, e2⟩ := key (by simpa using hb) (by simpa using hb') h'
  exact ⟨List.reverse_injective e2, List.reverse_injective e1⟩

theorem itemStr_inj {x y : List Char × List Nat} (h : itemStr x = itemStr y) : x = y := by
  obtain ⟨k, s⟩ := x
  obtain ⟨k', s'⟩ := y
  have h := List.append_cancel_left h
  have hc : ∀ s, ':' ∉ ' ' :: arrayStr s := fun s hm => by
    rcases List.mem_cons.1 hm with hm | hm
    · exact absurd hm (by decide)
    · exact (arrayStr_clean s _ hm).2 rfl
  obtain ⟨e1, e2⟩ := last_colon (hc s) (hc s') h
  simp only [List.cons.injEq, true_and] at e2
  simp only at e1
  rw [e1, arrayStr_inj e2]

theorem fLines_inj {a b : FShown} (h : fLines a = fLines b) : a = b := by
  have hne : ∀ s, arrayStr s ≠ (chars! " dict") := by
    intro s h
    have := congrArg List.head? h
    simp [arrayStr] at this
  cases a with
  | array s =>
    cases b with
    | array t =>
      simp only [fLines, List.cons.injEq, and_true] at h
      rw [arrayStr_inj (List.append_cancel_left h)]
    | dict l =>
      simp only [fLines, List.cons.injEq] at h
      exact absurd (List.append_cancel_left h.1) (hne s)
  | dict l =>
    cases b with
    | array t =>
      simp only [fLines, List.cons.injEq] at h
      exact absurd (List.append_cancel_left h.1).symm (hne t)
    | dict m =>
      simp only [fLines, List.cons.injEq, true_and] at h
      rw [List.map_injective_iff.2 (fun a b hab => itemStr_inj hab) h]

theorem optStr_inj {α : Type} {f : α → List Char} (hf : ∀ a b, f a = f b → a = b) {a b : Option α}
    (ha : ∀ x, a = some x → f x ≠ (chars! "None")) (hb : ∀ x, b = some x → f x ≠ (chars! "None"))
    (h : optStr f a = optStr f b) : a = b := by
  cases a with
  | none =>
    cases b with
    | none => rfl
    | some b => exact absurd h.symm (hb b rfl)
  | some a =>
    cases b with
    | none => exact absurd h (ha a rfl)
    | some b => rw [hf a b h]

theorem boolStr_inj {a b : Bool} (h : boolStr a = boolStr b) : a = b := by
  revert h; revert a b; decide

theorem intStr_ne_none (i : Int) : intStr i ≠ (chars! "None") := fun h => by
  have hm : 'N' ∈ intStr i := by rw [h]; decide
  exact (intStr_clean i _ hm).2.2.2.2.1 rfl

theorem tupleStr_ne_none (l : List Int) : tupleStr l ≠ (chars! "None") := fun h => by
  have hm : 'N' ∈ tupleStr l := by rw [h]; decide
  exact (tupleStr_clean l _ hm).2.2 rfl

end Lemmas
