import Verif.Lemmas.Pairs
import Verif.Lemmas.Proper
import Verif.Lemmas.Average

/-! Averages over positions and members. -/

set_option linter.unusedSectionVars false

namespace Lemmas
open Np Spec

variable {K : Type} [Field K] [LinearOrder K] [IsStrictOrderedRing K] {α β : Type}

theorem sum_exchange (L : List α) (N : List β) (g : α → β → K) :
    (L.map fun i => (N.map fun m => g i m).sum).sum = (N.map fun m => (L.map fun i => g i m).sum).sum := by
  induction L with
  | nil => simp
  | cons a L ih =>
    simp only [List.map_cons, List.sum_cons, ih]
    clear ih
    induction N with
    | nil => simp
    | cons b N ih => simp only [List.map_cons, List.sum_cons, ← ih]; ring

theorem sum_map_div (L : List α) (g : α → K) (c : K) : (L.map fun i => g i / c).sum = (L.map g).sum / c := by
  induction L with
  | nil => simp
  | cons a L ih => simp only [List.map_cons, List.sum_cons, ih]; ring

theorem avg_swap (L : List α) (N : List β) (g : α → β → K) :
    avg (L.map fun i => avg (N.map fun m => g i m)) = avg (N.map fun m => avg (L.map fun i => g i m)) := by
  simp only [avg, List.length_map, sum_map_div, sum_exchange L N g]
  rw [div_right_comm]

theorem avg_le_avg {L : List α} {g h : α → K} (hgh : ∀ a ∈ L, g a ≤ h a) : avg (L.map g) ≤ avg (L.map h) := by
  unfold avg
  rw [List.length_map, List.length_map]
  exact div_le_div_of_nonneg_right (List.sum_le_sum hgh) (Nat.cast_nonneg _)

theorem avg_sub_const {N : List β} (hN : N ≠ []) (g : β → K) (c : K) :
    avg (N.map fun m => g m - c) = avg (N.map g) - c := by
  have hn : (N.length : K) ≠ 0 := by
    have := List.length_pos_iff.2 hN
    exact_mod_cast this.ne'
  have e : (N.map fun m => g m - c).sum = (N.map g).sum - N.length * c := by
    clear hN hn
    induction N with
    | nil => simp
    | cons a l ih =>
      simp only [List.map_cons, List.sum_cons, ih, List.length_cons]
      push_cast
      ring
  simp only [avg, List.length_map, e]
  field_simp

theorem avg_add (L : List α) (g h : α → K) : avg (L.map fun i => g i + h i) = avg (L.map g) + avg (L.map h) := by
  have e : (L.map fun i => g i + h i).sum = (L.map g).sum + (L.map h).sum := by
    induction L with
    | nil => simp
    | cons a l ih => simp only [List.map_cons, List.sum_cons, ih]; ring
  simp only [avg, List.length_map, e, add_div]

theorem avg_mul_avg (L : List α) (N : List β) (g : α → K) (h : β → K) :
    avg (L.map g) * avg (N.map h) = avg (L.map fun i => avg (N.map fun m => g i * h m)) := by
  have e1 : ∀ c : K, (N.map fun m => c * h m).sum = c * (N.map h).sum := by
    intro c
    induction N with
    | nil => simp
    | cons a l ih => simp only [List.map_cons, List.sum_cons, ih]; ring
  have e2 : ∀ c : K, (L.map fun i => g i * c).sum = (L.map g).sum * c := by
    intro c
    induction L with
    | nil => simp
    | cons a l ih => simp only [List.map_cons, List.sum_cons, ih]; ring
  simp only [avg, List.length_map, e1, mul_div_assoc, e2]
  ring

/-- the average product is at most the product of the root mean squares -/
theorem avg_mul_le {s : K → K} (hs : IsSqrt s) (L : List α) (u v : α → K) :
    avg (L.map fun i => u i * v i) ≤ s (avg (L.map fun i => u i ^ 2)) * s (avg (L.map fun i => v i ^ 2)) := by
  have hu : 0 ≤ avg (L.map fun i => u i ^ 2) := avg_nonneg' L fun i _ => sq_nonneg _
  have hv : 0 ≤ avg (L.map fun i => v i ^ 2) := avg_nonneg' L fun i _ => sq_nonneg _
  refine le_of_sq_le_sq ?_ (mul_nonneg (hs.nonneg _ hu) (hs.nonneg _ hv))
  have := cauchy u v L
  simp only [← pow_two] at this
  rw [mul_pow, pow_two (s _), pow_two (s _), hs.sq _ hu, hs.sq _ hv]
  simp only [avg, List.length_map, div_pow]
  rw [div_mul_div_comm, ← pow_two]
  exact div_le_div_of_nonneg_right this (sq_nonneg _)
where
  le_of_sq_le_sq {a b : K} (h : a ^ 2 ≤ b ^ 2) (hb : 0 ≤ b) : a ≤ b := by
    exact le_of_abs_le ((sq_le_sq₀ (abs_nonneg a) hb).1 (by rwa [sq_abs]))

/-- the root mean square of an average is at most the average of the root mean squares -/
theorem rms_avg_le {s : K → K} (hs : IsSqrt s) (L : List α) (N : List β) (d : α → β → K) :
    s (avg (L.map fun i => avg (N.map fun m => d i m) ^ 2)) ≤
      avg (N.map fun m => s (avg (L.map fun i => d i m ^ 2))) := by
  have h0 : 0 ≤ avg (L.map fun i => avg (N.map fun m => d i m) ^ 2) := avg_nonneg' L fun i _ => sq_nonneg _
  have hr : ∀ m, 0 ≤ s (avg (L.map fun i => d i m ^ 2)) := fun m =>
    hs.nonneg _ (avg_nonneg' L fun i _ => sq_nonneg _)
  have hD : 0 ≤ avg (N.map fun m => s (avg (L.map fun i => d i m ^ 2))) := avg_nonneg' N fun m _ => hr m
  have key : avg (L.map fun i => avg (N.map fun m => d i m) ^ 2) ≤
      avg (N.map fun m => s (avg (L.map fun i => d i m ^ 2))) *
        avg (N.map fun m => s (avg (L.map fun i => d i m ^ 2))) := by
    rw [avg_mul_avg]
    have e : (L.map fun i => avg (N.map fun m => d i m) ^ 2) =
        L.map fun i => avg (N.map fun m => avg (N.map fun m' => d i m * d i m')) := by
      refine List.map_congr_left fun i _ => ?_
      rw [pow_two, avg_mul_avg]
    rw [e, avg_swap]
    refine avg_le_avg fun m _ => ?_
    rw [avg_swap]
    exact avg_le_avg fun m' _ => avg_mul_le hs L _ _
  refine avg_mul_le.le_of_sq_le_sq ?_ hD
  rw [pow_two, pow_two, hs.sq _ h0]
  exact key

end Lemmas
