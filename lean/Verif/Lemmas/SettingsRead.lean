import Verif.Model.SettingsRead
import Verif.Spec.SettingsRead
import Mathlib.Tactic.IntervalCases

/-!
# Reading numbers
-/

namespace Lemmas
open Np Model Spec

theorem digitVal_iff (c : Char) (d : Nat) : digitVal c = some d ↔ d < 10 ∧ c = Nat.digitChar d := by
  constructor
  · intro h
    unfold digitVal at h
    split_ifs at h with hc
    have h0 : 48 ≤ c.toNat := by
      have := hc.1
      rw [Char.le_def, UInt32.le_iff_toNat_le] at this
      exact this
    have h1 : c.toNat ≤ 57 := by
      have := hc.2
      rw [Char.le_def, UInt32.le_iff_toNat_le] at this
      exact this
    have hd : c.toNat - 48 = d := by simpa using h
    have e : c = Char.ofNat c.toNat := (Char.ofNat_toNat c).symm
    refine ⟨by omega, ?_⟩
    rw [e]
    generalize c.toNat = m at *
    have hm : m = d + 48 := by omega
    subst hm
    have : d < 10 := by omega
    interval_cases d <;> rfl
  · rintro ⟨h, rfl⟩
    exact digitVal_digitChar h

theorem digitVal_under : digitVal '_' = none := by decide

theorem digitsVal_digit {d : Nat} (h : d < 10) (acc : Nat) (r : List Char) :
    digitsVal acc (Nat.digitChar d :: r) = digitsVal (acc * 10 + d) r := by
  have hne := (digitChar_ne h).1
  have hv := digitVal_digitChar h
  generalize Nat.digitChar d = c at *
  rw [digitsVal.eq_def]
  split
  · rename_i heq; simp at heq
  · rename_i heq; simp only [List.cons.injEq] at heq; exact absurd heq.1 hne
  · rename_i heq; simp only [List.cons.injEq] at heq
    obtain ⟨rfl, rfl⟩ := heq
    rw [hv]

theorem digitsVal_group {g : List Nat} (h : ∀ d ∈ g, d < 10) (acc : Nat) (r : List Char) :
    digitsVal acc (digitText g ++ r) = digitsVal (g.foldl (fun a d => a * 10 + d) acc) r := by
  induction g generalizing acc with
  | nil => rfl
  | cons d g ih =>
    change digitsVal acc (Nat.digitChar d :: (digitText g ++ r)) = _
    rw [digitsVal_digit (h d (by simp)), ih fun d hd => h d (by simp [hd])]
    rfl

theorem digitsVal_under {d : Nat} (h : d < 10) (acc : Nat) (r : List Char) :
    digitsVal acc ('_' :: Nat.digitChar d :: r) = digitsVal (acc * 10 + d) r := by
  rw [digitsVal.eq_2, digitVal_digitChar h]

theorem digitsVal_of {gs : List (List Nat)} (h : ∀ g ∈ gs, IsDigits g) (acc : Nat) :
    digitsVal acc (gs.flatMap fun g => '_' :: digitText g) = some (gs.flatten.foldl (fun a d => a * 10 + d) acc) := by
  induction gs generalizing acc with
  | nil => rfl
  | cons g gs ih =>
    obtain ⟨hne, hg⟩ := h g (by simp)
    cases g with
    | nil => exact absurd rfl hne
    | cons d g =>
      rw [List.flatMap_cons]
      change digitsVal acc ('_' :: Nat.digitChar d :: (digitText g ++ _)) = _
      rw [digitsVal_under (hg d (by simp)), digitsVal_group fun x hx => hg x (by simp [hx]), ih fun g hg => h g (by simp [hg])]
      simp

theorem digitsVal_inv (v : List Char) : ∀ acc n, digitsVal acc v = some n → ∃ (g : List Nat) (gs : List (List Nat)), (∀ d ∈ g, d < 10) ∧
    (∀ g ∈ gs, IsDigits g) ∧ v = digitText g ++ gs.flatMap (fun g => '_' :: digitText g) ∧
    n = (g ++ gs.flatten).foldl (fun a d => a * 10 + d) acc := by
  induction h : v.length using Nat.strong_induction_on generalizing v with
  | _ m ih =>
    intro acc n hn
    match v, h with
    | [], _ =>
      rw [digitsVal.eq_1] at hn
      exact ⟨[], [], by simp, by simp, rfl, by simpa using hn.symm⟩
    | [c], h =>
      cases hc : digitVal c with
      | none =>
        rw [digitsVal.eq_def] at hn
        simp [hc] at hn
      | some d =>
        obtain ⟨hd, rfl⟩ := (digitVal_iff c d).1 hc
        rw [digitsVal_digit hd, digitsVal.eq_1] at hn
        exact ⟨[d], [], by simpa using hd, by simp, rfl, by simpa using hn.symm⟩
    | c :: b :: r, h =>
      by_cases hu : c = '_'
      · subst hu
        rw [digitsVal.eq_2] at hn
        cases hb : digitVal b with
        | none => rw [hb] at hn; simp at hn
        | some d =>
          rw [hb] at hn
          obtain ⟨hd, rfl⟩ := (digitVal_iff b d).1 hb
          obtain ⟨g, gs, h1, h2, h3, h4⟩ := ih r.length (by rw [← h]; simp) r rfl _ _ hn
          refine ⟨[], (d :: g) :: gs, by simp, ?_, ?_, ?_⟩
          · intro x hx
            rcases List.mem_cons.1 hx with rfl | hx
            · exact ⟨by simp, fun y hy => by rcases List.mem_cons.1 hy with rfl | hy; exacts [hd, h1 y hy]⟩
            · exact h2 x hx
          · rw [h3]; rfl
          · rw [h4]; rfl
      · cases hc : digitVal c with
        | none =>
          rw [digitsVal.eq_def] at hn
          split at hn
          · rename_i heq; simp at heq
          · rename_i heq; simp only [List.cons.injEq] at heq; exact absurd heq.1 hu
          · rename_i heq; simp only [List.cons.injEq] at heq
            obtain ⟨rfl, rfl⟩ := heq
            rw [hc] at hn
            simp at hn
        | some d =>
          obtain ⟨hd, rfl⟩ := (digitVal_iff c d).1 hc
          rw [digitsVal_digit hd] at hn
          obtain ⟨g, gs, h1, h2, h3, h4⟩ := ih (b :: r).length (by rw [← h]; simp) (b :: r) rfl _ _ hn
          refine ⟨d :: g, gs, ?_, h2, ?_, ?_⟩
          · intro y hy
            rcases List.mem_cons.1 hy with rfl | hy
            exacts [hd, h1 y hy]
          · rw [h3]; rfl
          · rw [h4]; rfl

theorem foldl_digits (l : List Nat) : l.foldl (fun a d => a * 10 + d) 0 = Nat.ofDigits 10 l.reverse := by
  have : ∀ (l : List Nat) acc, l.foldl (fun a d => a * 10 + d) acc = acc * 10 ^ l.length + Nat.ofDigits 10 l.reverse := by
    intro l
    induction l with
    | nil => intro acc; simp
    | cons d l ih =>
      intro acc
      rw [List.foldl_cons, ih, List.reverse_cons, Nat.ofDigits_append, List.length_reverse, Nat.ofDigits_singleton,
        List.length_cons, pow_succ]
      ring
  simpa using this l 0

theorem intercalate_cons (g : List Nat) (gs : List (List Nat)) :
    List.intercalate ['_'] ((g :: gs).map digitText) = digitText g ++ gs.flatMap fun g => '_' :: digitText g := by
  induction gs generalizing g with
  | nil => simp [List.intercalate]
  | cons h gs ih =>
    rw [List.map_cons, List.map_cons, List.intercalate_cons_cons, ← List.map_cons, ih]
    simp

theorem unsignedVal_iff (v : List Char) (n : Nat) : unsignedVal v = some n ↔ Numeral v n := by
  constructor
  · intro h
    cases v with
    | nil => simp [unsignedVal] at h
    | cons c r =>
      cases hc : digitVal c with
      | none => simp [unsignedVal, hc] at h
      | some d =>
        simp only [unsignedVal, hc] at h
        obtain ⟨hd, rfl⟩ := (digitVal_iff c d).1 hc
        obtain ⟨g, gs, h1, h2, h3, h4⟩ := digitsVal_inv r _ _ h
        refine ⟨(d :: g) :: gs, by simp, ?_, ?_, ?_⟩
        · intro x hx
          rcases List.mem_cons.1 hx with rfl | hx
          · exact ⟨by simp, fun y hy => by rcases List.mem_cons.1 hy with rfl | hy; exacts [hd, h1 y hy]⟩
          · exact h2 x hx
        · rw [intercalate_cons, h3]; rfl
        · rw [← foldl_digits, h4]; simp
  · rintro ⟨gs, hne, hg, rfl, rfl⟩
    cases gs with
    | nil => exact absurd rfl hne
    | cons g gs =>
      obtain ⟨hn, hd⟩ := hg g (by simp)
      cases g with
      | nil => exact absurd rfl hn
      | cons d g =>
        rw [intercalate_cons]
        change unsignedVal (Nat.digitChar d :: (digitText g ++ _)) = _
        simp only [unsignedVal, digitVal_digitChar (hd d (by simp))]
        rw [digitsVal_group fun x hx => hd x (by simp [hx]), digitsVal_of fun g hg' => hg g (by simp [hg']), ← foldl_digits]
        simp

theorem isSpace_iff (c : Char) : isSpace c = true ↔ c ∈ [' ', '\t', '\n', '\r', '\x0b', '\x0c'] := by
  simp [isSpace]

theorem strip_parts (v : List Char) : ∃ pre post, Blank pre ∧ Blank post ∧ v = pre ++ strip v ++ post := by
  refine ⟨v.takeWhile isSpace, ((v.dropWhile isSpace).reverse.takeWhile isSpace).reverse, ?_, ?_, ?_⟩
  · exact fun c hc => (isSpace_iff c).1 (by simpa using List.all_eq_true.1 List.all_takeWhile c hc)
  · intro c hc
    rw [List.mem_reverse] at hc
    exact (isSpace_iff c).1 (by simpa using List.all_eq_true.1 List.all_takeWhile c hc)
  · have h1 : v.takeWhile isSpace ++ v.dropWhile isSpace = v := List.takeWhile_append_dropWhile
    have h2 : (v.dropWhile isSpace).reverse.takeWhile isSpace ++ (v.dropWhile isSpace).reverse.dropWhile isSpace =
      (v.dropWhile isSpace).reverse := List.takeWhile_append_dropWhile
    have h3 := congrArg List.reverse h2
    rw [List.reverse_append, List.reverse_reverse] at h3
    rw [strip, List.append_assoc, h3, h1]

theorem dropWhile_blank {pre : List Char} (h : Blank pre) (v : List Char) : (pre ++ v).dropWhile isSpace = v.dropWhile isSpace := by
  induction pre with
  | nil => rfl
  | cons c pre ih =>
    rw [List.cons_append, List.dropWhile_cons_of_pos ((isSpace_iff c).2 (h c (by simp)))]
    exact ih fun c hc => h c (by simp [hc])

theorem strip_of {pre post : List Char} (h1 : Blank pre) (h2 : Blank post) {a b : Char} {l l' : List Char}
    (e : a :: l = l' ++ [b]) (ha : isSpace a = false) (hb : isSpace b = false) : strip (pre ++ a :: l ++ post) = a :: l := by
  have h3 : Blank post.reverse := fun c hc => h2 c (by simpa using hc)
  rw [strip, List.append_assoc, dropWhile_blank h1, List.cons_append, List.dropWhile_cons_of_neg (by simp [ha]), ← List.cons_append,
    List.reverse_append, dropWhile_blank h3, e, List.reverse_append]
  simp [hb]

/-- ends of a numeral -/
theorem numeral_ends {v : List Char} {n : Nat} (h : Numeral v n) :
    (∃ d l, d < 10 ∧ v = Nat.digitChar d :: l) ∧ ∃ l d, d < 10 ∧ v = l ++ [Nat.digitChar d] := by
  obtain ⟨gs, hne, hg, rfl, -⟩ := h
  constructor
  · cases gs with
    | nil => exact absurd rfl hne
    | cons g gs =>
      obtain ⟨hn, hd⟩ := hg g (by simp)
      cases g with
      | nil => exact absurd rfl hn
      | cons d g =>
        rw [intercalate_cons]
        exact ⟨d, _, hd d (by simp), rfl⟩
  · have last : ∀ g, IsDigits g → ∃ l d, d < 10 ∧ digitText g = l ++ [Nat.digitChar d] := by
      rintro g ⟨hn, hd⟩
      refine ⟨digitText g.dropLast, g.getLast hn, hd _ (List.getLast_mem hn), ?_⟩
      conv_lhs => rw [← List.dropLast_append_getLast hn]
      simp [digitText]
    induction gs with
    | nil => exact absurd rfl hne
    | cons g gs ih =>
      cases gs with
      | nil =>
        obtain ⟨l, d, h1, h2⟩ := last g (hg g (by simp))
        exact ⟨l, d, h1, by simpa [List.intercalate] using h2⟩
      | cons g' gs =>
        obtain ⟨l, d, h1, h2⟩ := ih (by simp) fun x hx => hg x (by simp [hx])
        refine ⟨digitText g ++ '_' :: l, d, h1, ?_⟩
        rw [List.map_cons, List.map_cons, List.intercalate_cons_cons, ← List.map_cons, h2]
        simp

end Lemmas
