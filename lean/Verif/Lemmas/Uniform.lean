import Verif.Spec.Uniform
import Mathlib.Tactic.Ring
import Mathlib.Tactic.FieldSimp
import Mathlib.Algebra.BigOperators.Fin
import Mathlib.Algebra.BigOperators.Field

/-! Sums over all functions. -/

namespace Lemmas

open Spec Finset

variable {K : Type} [Field K] {ι : Type} [Fintype ι] [DecidableEq ι] {p : ℕ}

/-- one coordinate of a uniformly chosen function is uniform -/
theorem sum_coord (g : Fin p → K) (i : ι) :
    ∑ f : ι → Fin p, g (f i) = (∑ a, g a) * (p : K) ^ (Fintype.card ι - 1) := by
  have h := prod_univ_sum (fun _ : ι => (univ : Finset (Fin p))) (fun j a => if j = i then g a else (1 : K))
  rw [Fintype.piFinset_univ] at h
  have h1 : ∀ f : ι → Fin p, ∏ j, (if j = i then g (f j) else (1 : K)) = g (f i) := by
    intro f
    rw [prod_ite_eq' univ i (fun j => g (f j)), if_pos (mem_univ i)]
  simp only [h1] at h
  rw [← h, ← mul_prod_erase univ _ (mem_univ i)]
  congr 1
  · simp
  · rw [prod_congr rfl (g := fun _ => (p : K))]
    · rw [prod_const, card_erase_of_mem (mem_univ i), card_univ]
    · intro j hj
      simp [(mem_erase.1 hj).1]

/-- two coordinates of a uniformly chosen function are independent -/
theorem sum_coord₂ (g h : Fin p → K) {i j : ι} (hij : i ≠ j) :
    ∑ f : ι → Fin p, g (f i) * h (f j) = (∑ a, g a) * (∑ a, h a) * (p : K) ^ (Fintype.card ι - 2) := by
  have hp := prod_univ_sum (fun _ : ι => (univ : Finset (Fin p)))
    (fun l a => if l = i then g a else if l = j then h a else (1 : K))
  rw [Fintype.piFinset_univ] at hp
  have hjm : j ∈ univ.erase i := mem_erase.2 ⟨hij.symm, mem_univ j⟩
  have h1 : ∀ f : ι → Fin p, ∏ l, (if l = i then g (f l) else if l = j then h (f l) else (1 : K)) =
      g (f i) * h (f j) := by
    intro f
    rw [← mul_prod_erase univ _ (mem_univ i), ← mul_prod_erase _ _ hjm, if_pos rfl, if_neg hij.symm, if_pos rfl,
      prod_eq_one, mul_one]
    intro l hl
    rw [if_neg (mem_erase.1 (mem_erase.1 hl).2).1, if_neg (mem_erase.1 hl).1]
  simp only [h1] at hp
  rw [← hp, ← mul_prod_erase univ _ (mem_univ i), ← mul_prod_erase _ _ hjm, mul_assoc]
  congr 1
  · simp
  · congr 1
    · simp [hij.symm]
    · rw [prod_congr rfl (g := fun _ => (p : K))]
      · rw [prod_const, card_erase_of_mem hjm, card_erase_of_mem (mem_univ i), card_univ]
        rfl
      · intro l hl
        simp [(mem_erase.1 (mem_erase.1 hl).2).1, (mem_erase.1 hl).1]

variable [CharZero K]

/-- expectation and variance of the average of `ι` independent uniform draws -/
theorem expect_average (hι : Nonempty ι) (hp : 0 < p) (g : Fin p → K) :
    let m : (ι → Fin p) → K := fun f => (∑ i, g (f i)) / (Fintype.card ι : K)
    expect m = expect g ∧ expect (fun f => (m f - expect g) ^ 2) =
      expect (fun a => (g a - expect g) ^ 2) / (Fintype.card ι : K) := by
  intro m
  have hN : (Fintype.card ι : K) ≠ 0 := Nat.cast_ne_zero.2 Fintype.card_ne_zero
  have hpK : (p : K) ≠ 0 := Nat.cast_ne_zero.2 hp.ne'
  obtain ⟨N, hNe⟩ : ∃ N, Fintype.card ι = N + 1 := ⟨Fintype.card ι - 1, by have := Fintype.card_pos (α := ι); omega⟩
  have hc : (Fintype.card (ι → Fin p) : K) = (p : K) ^ (N + 1) := by
    rw [Fintype.card_fun, Fintype.card_fin, hNe]; push_cast; rfl
  have hcp : (Fintype.card (Fin p) : K) = p := by rw [Fintype.card_fin]
  constructor
  · simp only [expect, m, hc, hcp]
    rw [← sum_div, sum_comm]
    simp only [sum_coord, hNe, Nat.add_sub_cancel, sum_const, card_univ, nsmul_eq_mul]
    rw [hNe] at hN
    have := pow_ne_zero N hpK
    field_simp
    ring
  · set μ := expect g with hμ
    let c : Fin p → K := fun a => g a - μ
    have hc0 : ∑ a, c a = 0 := by
      simp only [c, sum_sub_distrib, sum_const, card_univ, Fintype.card_fin, nsmul_eq_mul]
      rw [hμ, expect, hcp]
      field_simp
      ring
    have hm : ∀ f, m f - μ = (∑ i, c (f i)) / (Fintype.card ι : K) := by
      intro f
      simp only [m, c, sum_sub_distrib, sum_const, card_univ, nsmul_eq_mul]
      field_simp
    have hsq : ∑ f : ι → Fin p, (∑ i, c (f i)) ^ 2 = (Fintype.card ι : K) * ((∑ a, c a ^ 2) * (p : K) ^ N) := by
      have h1 : ∀ f : ι → Fin p, (∑ i, c (f i)) ^ 2 = ∑ i, ∑ j, c (f i) * c (f j) := by
        intro f; rw [sq, sum_mul_sum]
      simp only [h1]
      rw [sum_comm]
      have h2 : ∀ i, ∑ f : ι → Fin p, ∑ j, c (f i) * c (f j) = (∑ a, c a ^ 2) * (p : K) ^ N := by
        intro i
        rw [sum_comm, ← add_sum_erase univ _ (mem_univ i)]
        have h3 : ∑ j ∈ univ.erase i, ∑ f : ι → Fin p, c (f i) * c (f j) = 0 := by
          refine sum_eq_zero fun j hj => ?_
          rw [sum_coord₂ c c (mem_erase.1 hj).1.symm, hc0]
          ring
        rw [h3, add_zero]
        have := sum_coord (K := K) (fun a => c a ^ 2) i
        rw [hNe, Nat.add_sub_cancel] at this
        rw [← this]
        exact sum_congr rfl fun f _ => by ring
      simp only [h2, sum_const, card_univ, nsmul_eq_mul]
    have e1 : expect (fun f => (m f - μ) ^ 2) =
        (∑ f : ι → Fin p, (∑ i, c (f i)) ^ 2) / (Fintype.card ι : K) ^ 2 / (p : K) ^ (N + 1) := by
      simp only [expect, hc, hm, div_pow, ← sum_div]
    rw [e1, hsq]
    simp only [expect, hcp, c]
    have := pow_ne_zero N hpK
    field_simp
    ring

end Lemmas
