import Verif.Lemmas.Pairs
import Verif.Lemmas.Members

/-! The mean squared difference of pairs in terms of their means, variances and correlation; correlations of size one. -/

set_option linter.unusedSectionVars false

namespace Lemmas
open Np Spec

variable {K : Type} [Field K] [LinearOrder K] [IsStrictOrderedRing K]

/-- `Sxx - 2 a Sxy + a² Syy` is the sum of squares of `dx - a dy` -/
theorem codev_combine {α : Type} (g h : α → K) (P : List α) (a : K) :
    (P.map fun p => ((g p - avg (P.map g)) - a * (h p - avg (P.map h))) ^ 2).sum =
      codev g g P - 2 * a * codev g h P + a ^ 2 * codev h h P := by
  unfold codev
  generalize avg (P.map g) = m
  generalize avg (P.map h) = n
  induction P with
  | nil => simp
  | cons p P ih => simp only [List.map_cons, List.sum_cons, ih]; ring

theorem sum_sq_zero {α : Type} {u : α → K} {P : List α} (h : (P.map fun p => u p ^ 2).sum = 0) : ∀ p ∈ P, u p = 0 := by
  induction P with
  | nil => simp
  | cons p P ih =>
    simp only [List.map_cons, List.sum_cons] at h
    have h1 : 0 ≤ (P.map fun p => u p ^ 2).sum := sum_map_nonneg _ P fun p _ => sq_nonneg _
    have h2 := sq_nonneg (u p)
    have h3 : u p ^ 2 = 0 := by linarith
    have h4 := ih (by linarith)
    intro q hq
    rcases List.mem_cons.1 hq with rfl | hq
    · exact pow_eq_zero_iff (n := 2) (by norm_num) |>.1 h3
    · exact h4 q hq

/-- a series has deviations of sum zero exactly if it is constant -/
theorem codev_zero_iff {α : Type} (g : α → K) (P : List α) : codev g g P = 0 ↔ ∀ p ∈ P, ∀ q ∈ P, g p = g q := by
  constructor
  · intro h p hp q hq
    have : (P.map fun p => (g p - avg (P.map g)) ^ 2).sum = 0 := by
      rw [← h]; unfold codev; congr 1; exact List.map_congr_left fun p _ => by ring
    have h1 := sum_sq_zero this p hp
    have h2 := sum_sq_zero this q hq
    linarith
  · intro h
    rcases P with _ | ⟨p, P⟩
    · rfl
    · have hc : ∀ q ∈ p :: P, g q = g p := fun q hq => h q hq p (by simp)
      have e : (p :: P).map g = List.replicate (p :: P).length (g p) := by
        rw [List.eq_replicate_iff]
        exact ⟨by simp, fun b hb => by obtain ⟨q, hq, rfl⟩ := List.mem_map.1 hb; exact hc q hq⟩
      have ea : avg ((p :: P).map g) = g p := by
        rw [e]
        unfold avg
        rw [List.sum_replicate, List.length_replicate, nsmul_eq_mul]
        exact mul_div_cancel_left₀ _ (by simp only [List.length_cons]; exact Nat.cast_ne_zero.2 (Nat.succ_ne_zero _))
      unfold codev
      rw [ea]
      have : (p :: P).map (fun q => (g q - g p) * (g q - g p)) = (p :: P).map fun _ => 0 :=
        List.map_congr_left fun q hq => by rw [hc q hq]; ring
      rw [this]
      simp

theorem avg_linear {α : Type} {g h : α → K} {P : List α} (hP : P ≠ []) {a b : K} (hl : ∀ p ∈ P, g p = a * h p + b) :
    avg (P.map g) = a * avg (P.map h) + b := by
  have hN : (P.length : K) ≠ 0 := by
    have := List.length_pos_of_ne_nil hP
    exact_mod_cast this.ne'
  have : (P.map g).sum = a * (P.map h).sum + P.length * b := by
    clear hP hN
    induction P with
    | nil => simp
    | cons p P ih =>
      simp only [List.map_cons, List.sum_cons, List.length_cons, Nat.cast_add, Nat.cast_one]
      rw [ih fun q hq => hl q (by simp [hq]), hl p (by simp)]
      ring
  unfold avg
  rw [this, List.length_map, List.length_map]
  field_simp

theorem codev_linear {α : Type} {f g h : α → K} {P : List α} (hP : P ≠ []) {a b : K} (hl : ∀ p ∈ P, g p = a * h p + b) :
    codev f g P = a * codev f h P := by
  unfold codev
  rw [avg_linear hP hl, ← List.sum_map_mul_left]
  congr 1
  exact List.map_congr_left fun p hp => by rw [hl p hp]; ring

theorem sq_eq_one_iff_eq (r : K) : r ^ 2 = 1 ↔ r = 1 ∨ r = -1 := by
  rw [pow_two, mul_self_eq_one_iff]

/-- correlation `±1`: the pairs lie on a rising (falling) line -/
theorem isPearson_one {P : List (K × K)} {r : K} (hP : P ≠ []) (h : IsPearson P r) (h1 : codev Prod.fst Prod.fst P ≠ 0)
    (h2 : codev Prod.snd Prod.snd P ≠ 0) :
    (r = 1 ↔ ∃ a b, 0 < a ∧ ∀ p ∈ P, p.1 = a * p.2 + b) ∧ (r = -1 ↔ ∃ a b, a < 0 ∧ ∀ p ∈ P, p.1 = a * p.2 + b) := by
  have hxp := lt_of_le_of_ne (codev_self_nonneg Prod.fst P) (Ne.symm h1)
  have hyp := lt_of_le_of_ne (codev_self_nonneg Prod.snd P) (Ne.symm h2)
  have line : r ^ 2 = 1 → ∃ b, ∀ p ∈ P, p.1 = codev Prod.fst Prod.snd P / codev Prod.snd Prod.snd P * p.2 + b := by
    intro hr
    have hsq := h.1
    rw [hr, one_mul] at hsq
    have key := codev_combine Prod.fst Prod.snd P (codev Prod.fst Prod.snd P / codev Prod.snd Prod.snd P)
    have hz : codev Prod.fst Prod.fst P - 2 * (codev Prod.fst Prod.snd P / codev Prod.snd Prod.snd P) *
        codev Prod.fst Prod.snd P + (codev Prod.fst Prod.snd P / codev Prod.snd Prod.snd P) ^ 2 * codev Prod.snd Prod.snd P
        = 0 := by
      field_simp
      linarith
    rw [hz] at key
    have hu := sum_sq_zero key
    refine ⟨avg (P.map Prod.fst) - codev Prod.fst Prod.snd P / codev Prod.snd Prod.snd P * avg (P.map Prod.snd), fun p hp => ?_⟩
    have := hu p hp
    linear_combination this
  have back : ∀ {a b : K}, (∀ p ∈ P, p.1 = a * p.2 + b) → codev Prod.fst Prod.snd P = a * codev Prod.snd Prod.snd P ∧
      codev Prod.fst Prod.fst P = a ^ 2 * codev Prod.snd Prod.snd P := by
    intro a b hl
    have e1 : codev Prod.fst Prod.snd P = a * codev Prod.snd Prod.snd P := by
      rw [codev_comm, codev_linear hP hl]
    refine ⟨e1, ?_⟩
    rw [codev_linear (f := Prod.fst) hP hl, e1]; ring
  have sq1 : ∀ {a b : K}, (∀ p ∈ P, p.1 = a * p.2 + b) → a ≠ 0 → r ^ 2 = 1 := by
    intro a b hl ha
    obtain ⟨e1, e2⟩ := back hl
    have := h.1
    rw [e1, e2] at this
    have hpos : a ^ 2 * codev Prod.snd Prod.snd P * codev Prod.snd Prod.snd P ≠ 0 := by positivity
    apply mul_right_cancel₀ hpos
    linear_combination this
  constructor
  · constructor
    · rintro rfl
      obtain ⟨b, hb⟩ := line (by ring)
      refine ⟨_, b, div_pos ?_ hyp, hb⟩
      have h0 : 0 ≤ codev Prod.fst Prod.snd P := by simpa using h.2
      refine lt_of_le_of_ne h0 fun e => ?_
      have := h.1
      rw [← e] at this
      exact absurd this (by simpa using ⟨h1, h2⟩)
    · rintro ⟨a, b, ha, hl⟩
      obtain ⟨e1, -⟩ := back hl
      refine ((sq_eq_one_iff_eq r).1 (sq1 hl ha.ne')).resolve_right ?_
      rintro rfl
      have := h.2
      rw [e1] at this
      nlinarith [mul_pos ha hyp]
  · constructor
    · rintro rfl
      obtain ⟨b, hb⟩ := line (by ring)
      refine ⟨_, b, div_neg_of_neg_of_pos ?_ hyp, hb⟩
      have h0 : codev Prod.fst Prod.snd P ≤ 0 := by have := h.2; linarith
      refine lt_of_le_of_ne h0 fun e => ?_
      have := h.1
      rw [e] at this
      exact absurd this (by simpa using ⟨h1, h2⟩)
    · rintro ⟨a, b, ha, hl⟩
      obtain ⟨e1, -⟩ := back hl
      have h1' : r ≠ 1 := by
        rintro rfl
        have := h.2
        rw [e1] at this
        nlinarith [mul_neg_of_neg_of_pos ha hyp]
      exact ((sq_eq_one_iff_eq r).1 (sq1 hl ha.ne)).resolve_left h1'

/-- `r` times the two deviations is the covariance -/
theorem isPearson_cov {s : K → K} (hs : IsSqrt s) {P : List (K × K)} {r : K} (hP : P ≠ []) (h : IsPearson P r) :
    r * s (codev Prod.fst Prod.fst P / P.length) * s (codev Prod.snd Prod.snd P / P.length) =
      codev Prod.fst Prod.snd P / P.length := by
  have hN : (0 : K) < P.length := by exact_mod_cast List.length_pos_of_ne_nil hP
  have hx := div_nonneg (codev_self_nonneg Prod.fst P) hN.le
  have hy := div_nonneg (codev_self_nonneg Prod.snd P) hN.le
  have e1 := hs.sq _ hx
  have e2 := hs.sq _ hy
  have p1 := hs.nonneg _ hx
  have p2 := hs.nonneg _ hy
  set u := s (codev Prod.fst Prod.fst P / P.length)
  set v := s (codev Prod.snd Prod.snd P / P.length)
  set C := codev Prod.fst Prod.snd P / P.length with hC
  have hsq : (r * u * v) ^ 2 = C ^ 2 := by
    have : (r * u * v) ^ 2 = r ^ 2 * (u * u) * (v * v) := by ring
    rw [this, e1, e2, hC]
    have := h.1
    field_simp
    linear_combination this
  have hsg : 0 ≤ (r * u * v) * C := by
    have : (r * u * v) * C = (r * codev Prod.fst Prod.snd P) * (u * v) / P.length := by rw [hC]; ring
    rw [this]
    exact div_nonneg (mul_nonneg h.2 (mul_nonneg p1 p2)) hN.le
  rcases eq_or_eq_neg_of_sq_eq_sq _ _ hsq with e | e
  · exact e
  · rw [e] at hsg
    have : C = 0 := by nlinarith
    rw [e, this]; simp

/-- the mean squared difference: bias, variances, covariance -/
theorem murphy {P : List (K × K)} (hP : P ≠ []) :
    avg (P.map fun p => (p.1 - p.2) ^ 2) = avg (P.map fun p => p.1 - p.2) ^ 2 + codev Prod.fst Prod.fst P / P.length +
      codev Prod.snd Prod.snd P / P.length - 2 * (codev Prod.fst Prod.snd P / P.length) := by
  have hN : (P.length : K) ≠ 0 := by
    have := List.length_pos_of_ne_nil hP
    exact_mod_cast this.ne'
  have hb : avg (P.map fun p => p.1 - p.2) = avg (P.map Prod.fst) - avg (P.map Prod.snd) := by
    unfold avg
    have : (P.map fun p => p.1 - p.2).sum = (P.map Prod.fst).sum - (P.map Prod.snd).sum := by
      clear hP hN
      induction P with
      | nil => simp
      | cons p P ih => simp only [List.map_cons, List.sum_cons, ih]; ring
    rw [this]
    simp only [List.length_map]
    ring
  have hc := codev_combine Prod.fst Prod.snd P 1
  have hs : ∀ (m n : K) (Q : List (K × K)), (Q.map fun p => (p.1 - p.2) ^ 2).sum =
      (Q.map fun p => ((p.1 - m) - 1 * (p.2 - n)) ^ 2).sum +
        2 * (m - n) * ((Q.map Prod.fst).sum - (Q.map Prod.snd).sum) - Q.length * (m - n) ^ 2 := by
    intro m n Q
    induction Q with
    | nil => simp
    | cons p Q ih =>
      simp only [List.map_cons, List.sum_cons, List.length_cons, Nat.cast_add, Nat.cast_one, ih]; ring
  have h1 := hs (avg (P.map Prod.fst)) (avg (P.map Prod.snd)) P
  rw [hc] at h1
  have e1 : (P.map Prod.fst).sum = P.length * avg (P.map Prod.fst) := by
    unfold avg; rw [List.length_map]; field_simp
  have e2 : (P.map Prod.snd).sum = P.length * avg (P.map Prod.snd) := by
    unfold avg; rw [List.length_map]; field_simp
  rw [hb]
  have : avg (P.map fun p => (p.1 - p.2) ^ 2) = (P.map fun p => (p.1 - p.2) ^ 2).sum / (P.length : K) := by simp [avg]
  rw [this, h1, e1, e2]
  field_simp
  ring

end Lemmas
