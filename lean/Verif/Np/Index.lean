import Mathlib.Algebra.BigOperators.Group.List.Basic
import Mathlib.Data.List.Nodup
import Mathlib.Data.List.Forall2
import Mathlib.Data.List.Range
import Mathlib.Tactic.Ring
import Mathlib.Tactic.Linarith

/-!
# Row-major (C-order) multi-indices

The index arithmetic numpy uses for C-order arrays.
`ravel shape idx` is the position of the element `idx`, `allIdx shape` enumerates all
multi-indices in storage order.
-/

namespace Np

/-- `idx` is a valid multi-index of an array of shape `shape`. -/
abbrev InB (shape idx : List Nat) : Prop := List.Forall₂ (· < ·) idx shape

/-- All multi-indices of `shape`, in storage (row-major) order. -/
def allIdx : List Nat → List (List Nat)
  | [] => [[]]
  | n :: s => (List.range n).flatMap fun i => (allIdx s).map (i :: ·)

/-- Storage position of a multi-index. -/
def ravel : List Nat → List Nat → Nat
  | _ :: s, i :: is => i * s.prod + ravel s is
  | _, _ => 0

@[simp] theorem allIdx_nil : allIdx [] = [[]] := rfl

theorem allIdx_cons (n : Nat) (s : List Nat) :
    allIdx (n :: s) = (List.range n).flatMap fun i => (allIdx s).map (i :: ·) := rfl

theorem InB.length {s i : List Nat} (h : InB s i) : i.length = s.length := h.length_eq

theorem length_flatMap_const {α β : Type*} (l : List α) (f : α → List β) (m : Nat)
    (h : ∀ a ∈ l, (f a).length = m) : (l.flatMap f).length = l.length * m := by
  induction l with
  | nil => simp
  | cons a l ih =>
    simp only [List.flatMap_cons, List.length_append, List.length_cons]
    rw [h a (by simp), ih (fun b hb => h b (by simp [hb]))]
    ring

@[simp] theorem length_allIdx (s : List Nat) : (allIdx s).length = s.prod := by
  induction s with
  | nil => simp
  | cons n s ih =>
    rw [allIdx_cons, length_flatMap_const _ _ s.prod (by intro a _; simp [ih])]
    simp

theorem mem_allIdx {s i : List Nat} : i ∈ allIdx s ↔ InB s i := by
  induction s generalizing i with
  | nil => simp [InB]
  | cons n s ih =>
    rw [allIdx_cons]
    simp only [List.mem_flatMap, List.mem_range, List.mem_map]
    constructor
    · rintro ⟨k, hk, t, ht, rfl⟩
      exact List.Forall₂.cons hk (ih.1 ht)
    · intro h
      cases h with
      | cons hk ht => exact ⟨_, hk, _, ih.2 ht, rfl⟩

theorem nodup_allIdx (s : List Nat) : (allIdx s).Nodup := by
  induction s with
  | nil => simp
  | cons n s ih =>
    rw [allIdx_cons, List.nodup_flatMap]
    refine ⟨fun k _ => ih.map (fun a b h => by simpa using h), ?_⟩
    refine (List.nodup_range).imp ?_
    intro a b hab
    simp only [Function.onFun, List.disjoint_left, List.mem_map]
    rintro x ⟨u, _, rfl⟩ ⟨v, _, h⟩
    injection h with h1 _
    exact hab h1.symm

theorem ravel_lt {s i : List Nat} (h : InB s i) : ravel s i < s.prod := by
  induction h with
  | nil => simp [ravel]
  | @cons a b l₁ l₂ hab h ih =>
    simp only [ravel, List.prod_cons]
    calc a * l₂.prod + ravel l₂ l₁ < a * l₂.prod + l₂.prod := by omega
      _ = (a + 1) * l₂.prod := by ring
      _ ≤ b * l₂.prod := Nat.mul_le_mul_right _ hab

theorem getElem?_flatMap_const {α β : Type*} (l : List α) (f : α → List β) (m : Nat)
    (h : ∀ a ∈ l, (f a).length = m) (i j : Nat) (hj : j < m) :
    (l.flatMap f)[i * m + j]? = (l[i]?).bind (fun a => (f a)[j]?) := by
  induction l generalizing i with
  | nil => simp
  | cons a l ih =>
    have hm : (f a).length = m := h a (by simp)
    simp only [List.flatMap_cons]
    cases i with
    | zero =>
      simp only [Nat.zero_mul, Nat.zero_add, List.getElem?_cons_zero, Option.bind_some]
      rw [List.getElem?_append_left (by omega)]
    | succ i =>
      rw [List.getElem?_append_right (by rw [hm]; nlinarith)]
      have : (i + 1) * m + j - (f a).length = i * m + j := by
        rw [hm]; have : (i + 1) * m = i * m + m := by ring
        omega
      rw [this, ih (fun b hb => h b (by simp [hb]))]
      simp

theorem getElem?_allIdx {s i : List Nat} (h : InB s i) : (allIdx s)[ravel s i]? = some i := by
  induction h with
  | nil => simp [ravel]
  | @cons a b l₁ l₂ hab h ih =>
    rw [allIdx_cons]
    simp only [ravel]
    rw [getElem?_flatMap_const _ _ l₂.prod (by intro a _; simp) a _ (ravel_lt h)]
    simp [hab, ih]

theorem ravel_inj {s i j : List Nat} (hi : InB s i) (hj : InB s j) (h : ravel s i = ravel s j) :
    i = j := by
  have h1 := getElem?_allIdx hi
  rw [h, getElem?_allIdx hj] at h1
  simpa using h1.symm

theorem ravel_append {s i : List Nat} (h : InB s i) (t j : List Nat) :
    ravel (s ++ t) (i ++ j) = ravel s i * t.prod + ravel t j := by
  induction h with
  | nil => simp [ravel]
  | @cons a b l₁ l₂ hab h ih =>
    simp only [List.cons_append, ravel, ih, List.prod_append]
    ring

theorem InB.append {s i t j : List Nat} (h : InB s i) (h' : InB t j) : InB (s ++ t) (i ++ j) :=
  List.rel_append (R := (· < ·)) h h'

theorem allIdx_append (s t : List Nat) :
    allIdx (s ++ t) = (allIdx s).flatMap fun i => (allIdx t).map (i ++ ·) := by
  induction s with
  | nil => simp
  | cons n s ih =>
    simp only [List.cons_append, allIdx_cons, ih, List.flatMap_assoc]
    congr 1
    funext i
    simp [List.map_flatMap, List.flatMap_map, Function.comp_def]

theorem allIdx_singleton (n : Nat) : allIdx [n] = (List.range n).map fun i => [i] := by
  simp only [allIdx_cons, allIdx_nil, List.map_cons, List.map_nil]
  induction List.range n with
  | nil => simp
  | cons a l ih => simp [ih]

theorem InB_iff_getD {s i : List Nat} :
    InB s i ↔ i.length = s.length ∧ ∀ k < s.length, i.getD k 0 < s.getD k 0 := by
  constructor
  · intro h
    refine ⟨h.length_eq, ?_⟩
    induction h with
    | nil => simp
    | @cons a b l₁ l₂ hab h ih =>
      intro k hk
      cases k with
      | zero => simpa using hab
      | succ k => simpa using ih k (by simpa using hk)
  · rintro ⟨hl, h⟩
    induction s generalizing i with
    | nil => simp at hl; subst hl; exact List.Forall₂.nil
    | cons b s ih =>
      cases i with
      | nil => simp at hl
      | cons a i =>
        refine List.Forall₂.cons (by simpa using h 0 (by simp)) (ih (by simpa using hl) ?_)
        intro k hk
        simpa using h (k + 1) (by simpa using hk)

end Np
