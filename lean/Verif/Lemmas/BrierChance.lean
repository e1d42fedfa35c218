import Verif.Spec.BrierChance
import Verif.Spec.Ensemble
import Verif.Lemmas.RandomEnsMoments

/-! Expected Brier scores. -/

set_option linter.unusedSectionVars false

namespace Lemmas
open Spec MeasureTheory ProbabilityTheory

variable {Ω : Type} [MeasurableSpace Ω] {P : Measure Ω} [IsProbabilityMeasure P]

theorem measurableSet_beyond (isOver : Bool) (τ : ℝ) {Y : Ω → ℝ} (hY : Measurable Y) :
    MeasurableSet {ω | Beyond isOver τ Y ω} := by
  cases isOver with
  | true => exact measurableSet_lt measurable_const hY
  | false => exact measurableSet_lt hY measurable_const

/-- the moments of the indicator of an event -/
theorem indicator_moments {E : Set Ω} (hE : MeasurableSet E) :
    MemLp (E.indicator fun _ => (1 : ℝ)) 2 P ∧ ∫ ω, E.indicator (fun _ => (1 : ℝ)) ω ∂P = P.real E ∧
      ∫ ω, (E.indicator (fun _ => (1 : ℝ)) ω - P.real E) ^ 2 ∂P = P.real E * (1 - P.real E) := by
  have hL : MemLp (E.indicator fun _ => (1 : ℝ)) 2 P := (memLp_const (1 : ℝ)).indicator hE
  have h1 : Integrable (E.indicator fun _ => (1 : ℝ)) P := hL.integrable (by norm_num)
  have hm : ∫ ω, E.indicator (fun _ => (1 : ℝ)) ω ∂P = P.real E := by
    rw [integral_indicator hE]; simp
  refine ⟨hL, hm, ?_⟩
  have e : ∀ ω, (E.indicator (fun _ => (1 : ℝ)) ω - P.real E) ^ 2 =
      (1 - 2 * P.real E) * E.indicator (fun _ => (1 : ℝ)) ω + P.real E ^ 2 := by
    intro ω
    by_cases h : ω ∈ E <;> simp [h]
    ring
  simp only [e]
  rw [integral_add (h1.const_mul _) (integrable_const _), integral_const_mul, hm]
  simp
  ring

theorem indicator_eq (p : Prop) [Decidable p] : (indicator p : ℝ) = if p then 1 else 0 := by
  unfold indicator
  split_ifs <;> rfl

theorem indicator_set (Q : Ω → Prop) (ω : Ω) : (indicator (Q ω) : ℝ) = {ω | Q ω}.indicator (fun _ => 1) ω := by
  classical
  rw [indicator_eq, Set.indicator_apply]
  rfl

/-- the expected Brier score at one position -/
theorem expected_brier {Q : Ω → Prop} (hQ : MeasurableSet {ω | Q ω}) (p : ℝ) :
    Integrable (fun ω => (p - (indicator (Q ω) : ℝ)) ^ 2) P ∧
      ∫ ω, (p - (indicator (Q ω) : ℝ)) ^ 2 ∂P = (p - P.real {ω | Q ω}) ^ 2 + P.real {ω | Q ω} * (1 - P.real {ω | Q ω}) := by
  obtain ⟨hL, hm, -⟩ := indicator_moments (P := P) hQ
  have h1 : Integrable ({ω | Q ω}.indicator fun _ => (1 : ℝ)) P := hL.integrable (by norm_num)
  have e : ∀ ω, (p - (indicator (Q ω) : ℝ)) ^ 2 = (1 - 2 * p) * {ω | Q ω}.indicator (fun _ => (1 : ℝ)) ω + p ^ 2 := by
    intro ω
    rw [indicator_set Q]
    by_cases h : ω ∈ {ω | Q ω} <;> simp only [Set.indicator_of_mem, Set.indicator_of_notMem, h, not_false_iff] <;> ring
  simp only [e]
  refine ⟨(h1.const_mul _).add (integrable_const _), ?_⟩
  rw [integral_add (h1.const_mul _) (integrable_const _), integral_const_mul, hm]
  simp
  ring

theorem avg_sq_eq_zero {α : Type} {L : List α} {g : α → ℝ} : avg (L.map fun i => g i ^ 2) = 0 ↔ ∀ i ∈ L, g i = 0 := by
  rcases eq_or_ne L [] with rfl | hL
  · simp [avg]
  have hl : (L.length : ℝ) ≠ 0 := by simpa using hL
  simp only [avg, List.length_map, div_eq_zero_iff, hl, or_false]
  clear hL hl
  induction L with
  | nil => simp
  | cons a L ih =>
    have h0 : 0 ≤ (L.map fun i => g i ^ 2).sum := List.sum_nonneg (by
      intro x hx
      obtain ⟨i, -, rfl⟩ := List.mem_map.1 hx
      positivity)
    rw [List.map_cons, List.sum_cons, add_eq_zero_iff_of_nonneg (sq_nonneg _) h0, List.forall_mem_cons]
    exact and_congr (by simp) ih

/-- averages of Brier scores over positions -/
theorem expectedBrier_avg {L : List (List Nat)} {Q : List Nat → Ω → Prop} (hQ : ∀ i ∈ L, MeasurableSet {ω | Q i ω})
    (p : List Nat → ℝ) : ExpectedBrier P (fun ω => avg (L.map fun i => (p i - (indicator (Q i ω) : ℝ)) ^ 2)) L p
      fun i => P.real {ω | Q i ω} := by
  obtain ⟨h1, h2⟩ := mean_avg (P := P) L (g := fun i ω => (p i - (indicator (Q i ω) : ℝ)) ^ 2) fun i hi =>
    expected_brier (hQ i hi) (p i)
  have hs : avg (L.map fun i => (p i - P.real {ω | Q i ω}) ^ 2 + P.real {ω | Q i ω} * (1 - P.real {ω | Q i ω})) =
      avg (L.map fun i => (p i - P.real {ω | Q i ω}) ^ 2) +
        avg (L.map fun i => P.real {ω | Q i ω} * (1 - P.real {ω | Q i ω})) := avg_add L _ _
  refine ⟨h1, h2, ?_, ?_⟩
  · rw [h2, hs]
    have := avg_nonneg (l := L.map fun i => (p i - P.real {ω | Q i ω}) ^ 2) fun x hx => by
      obtain ⟨i, -, rfl⟩ := List.mem_map.1 hx
      positivity
    linarith
  · rw [h2, hs, add_eq_right, avg_sq_eq_zero]
    simp only [sub_eq_zero]

/-- the chance to exceed or to fall short of a threshold, in terms of the distribution function -/
theorem eventChance_over {Y : Ω → ℝ} (hY : Measurable Y) {G : ℝ → ℝ} (hG : ∀ x, P.real {ω | Y ω ≤ x} = G x) (τ : ℝ) :
    eventChance P true τ Y = 1 - G τ := by
  have hs : MeasurableSet {ω | Y ω ≤ τ} := measurableSet_le hY measurable_const
  rw [← hG, ← probReal_compl_eq_one_sub hs]
  unfold eventChance
  congr 1
  ext ω
  simp [Beyond]

theorem eventChance_below {Y : Ω → ℝ} (hY : Measurable Y) {G : ℝ → ℝ} (hG : ∀ x, P.real {ω | Y ω ≤ x} = G x) (τ : ℝ) :
    eventChance P false τ Y = G τ - P.real {ω | Y ω = τ} := by
  have hs : MeasurableSet {ω | Y ω = τ} := hY (measurableSet_singleton τ)
  have hsub : {ω | Y ω = τ} ⊆ {ω | Y ω ≤ τ} := fun ω (h : Y ω = τ) => h.le
  rw [← hG, ← measureReal_sdiff hsub hs]
  unfold eventChance
  congr 1
  ext ω
  simp only [Beyond, Set.mem_ofPred_eq, Set.mem_sdiff, Bool.false_eq_true, if_false]
  exact lt_iff_le_and_ne

end Lemmas
