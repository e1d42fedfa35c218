import Verif.Lemmas.Reliability
import Mathlib.Algebra.BigOperators.Group.List.Basic
import Mathlib.Tactic.FieldSimp

set_option linter.unusedSectionVars false

/-! Sums over the groups of a partition. -/

namespace Lemmas
open Np Spec Model

theorem sum_range_ite {M : Type} [AddCommMonoid M] (m c : Nat) (x : M) :
    ((List.range m).map fun b => if c = b then x else 0).sum = if c < m then x else 0 := by
  induction m with
  | zero => simp
  | succ m ih =>
    rw [List.range_succ, List.map_append, List.sum_append, ih]
    simp only [List.map_cons, List.map_nil, List.sum_cons, List.sum_nil, add_zero]
    rcases Nat.lt_trichotomy c m with h | h | h
    · rw [if_pos h, if_neg (by omega), if_pos (by omega), add_zero]
    · subst h; simp
    · rw [if_neg (by omega), if_neg (by omega), if_neg (by omega), add_zero]

theorem sum_groups {α M : Type} [AddCommMonoid M] (P : List α) (key : α → Nat) (m : Nat)
    (hk : ∀ p ∈ P, key p < m) (g : α → M) :
    ((List.range m).map fun b => ((P.filter fun p => key p = b).map g).sum).sum = (P.map g).sum := by
  induction P with
  | nil => simp
  | cons p P ih =>
    have ih := ih fun q hq => hk q (by simp [hq])
    have hp := hk p (by simp)
    rw [List.map_cons, List.sum_cons, ← ih]
    clear ih
    have : ∀ b, (((p :: P).filter fun q => key q = b).map g).sum =
        (if key p = b then g p else 0) + ((P.filter fun q => key q = b).map g).sum := by
      intro b
      by_cases hb : key p = b
      · simp [hb]
      · simp [hb]
    simp only [this]
    rw [show (fun b => (if key p = b then g p else 0) + ((P.filter fun q => key q = b).map g).sum) =
      fun b => ((fun b => if key p = b then g p else 0) b) +
        ((fun b => ((P.filter fun q => key q = b).map g).sum) b) from rfl, List.sum_map_add]
    congr 1
    rw [sum_range_ite, if_pos hp]

theorem sum_map_filter_of {M : Type} [AddCommMonoid M] {α : Type} (l : List α) (q : α → Bool)
    (h : α → M) (h0 : ∀ a ∈ l, q a = false → h a = 0) : ((l.filter q).map h).sum = (l.map h).sum := by
  induction l with
  | nil => rfl
  | cons a l ih =>
    have ih := ih fun b hb => h0 b (by simp [hb])
    rw [List.filter_cons]
    split
    · simp [ih]
    · rename_i hq
      rw [ih]; simp [h0 a (by simp) (by simpa using hq)]

variable {K : Type} [Field K] [LinearOrder K] [IsStrictOrderedRing K]

theorem sum_lt_of_forall_lt {l : List K} (hl : l ≠ []) {hi : K} (h : ∀ x ∈ l, x < hi) :
    l.sum < (l.length : K) * hi := by
  induction l with
  | nil => exact absurd rfl hl
  | cons a l ih =>
    have ha := h a (by simp)
    rw [List.sum_cons, List.length_cons]
    push_cast
    by_cases hl' : l = []
    · subst hl'; simpa using ha
    · have := ih hl' fun x hx => h x (by simp [hx])
      linarith

theorem sum_relGroups {M : Type} [AddCommMonoid M] {nbins : Nat} (hn : 1 ≤ nbins)
    {P : List (Fl K × Bool)} (hok : ∀ p ∈ P, NonNegFl p.1) (g : Fl K × Bool → M) :
    ((relNonEmpty nbins P).map fun b => ((relGroup nbins b P).map g).sum).sum = (P.map g).sum := by
  have h1 : ((relNonEmpty nbins P).map fun b => ((relGroup nbins b P).map g).sum).sum =
      ((List.range (nbins + 1)).map fun b => ((relGroup nbins b P).map g).sum).sum := by
    unfold relNonEmpty
    apply sum_map_filter_of
    intro b _ hb
    have : relGroup nbins b P = [] := by simpa using hb
    rw [this]; simp
  rw [h1, ← sum_groups P (fun p => ((digitize (relBins nbins) p.1 : Int) - 1).toNat) (nbins + 1) ?_ g]
  · congr 1
    apply List.map_congr_left
    intro b hb
    simp only [List.mem_range] at hb
    rw [← group_eq hn hok (by omega)]
    congr 2
    apply List.filter_congr
    intro p hp
    have := digit_range hn (hok p hp)
    rw [decide_eq_decide]
    omega
  · intro p hp
    have := digit_range hn (hok p hp)
    omega

end Lemmas
