import Verif.Spec.Integration
import Mathlib.MeasureTheory.Integral.IntervalIntegral.Basic
import Mathlib.MeasureTheory.Integral.DominatedConvergence
import Mathlib.MeasureTheory.Constructions.BorelSpace.Order
import Mathlib.Tactic.Linarith
import Mathlib.Tactic.Ring

/-! Error bounds for the trapezoidal rule and for discrete moments over a grid. -/

open MeasureTheory

namespace Lemmas

open Spec

/-- steps of a grid -/
theorem grid_mono {x : ℕ → ℝ} {n : ℕ} (hx : ∀ i, i + 1 < n → x i ≤ x (i + 1)) {i j : ℕ} (hij : i ≤ j) (hj : j < n) :
    x i ≤ x j := by
  induction hij with
  | refl => exact le_rfl
  | step h ih => exact (ih (by omega)).trans (hx _ hj)

/-- one cell of the trapezoidal rule -/
theorem cell_error {g : ℝ → ℝ} {a b c : ℝ} (hab : a ≤ b) (hg : IntervalIntegrable g volume a b)
    (hc : ∀ t ∈ Set.Ioc a b, |(g b + g a) / 2 - g t| ≤ c) :
    |(g b + g a) / 2 * (b - a) - ∫ t in a..b, g t| ≤ c * (b - a) := by
  have h1 : (g b + g a) / 2 * (b - a) = ∫ _ in a..b, (g b + g a) / 2 := by
    rw [intervalIntegral.integral_const, smul_eq_mul]; ring
  rw [h1, ← intervalIntegral.integral_sub (by simp) hg]
  have := intervalIntegral.norm_integral_le_of_norm_le_const (a := a) (b := b) (C := c)
    (f := fun t => (g b + g a) / 2 - g t) (fun t ht => by
      rw [Set.uIoc_of_le hab] at ht
      exact hc t ht)
  rwa [Real.norm_eq_abs, abs_of_nonneg (sub_nonneg.2 hab)] at this

/-- the trapezoidal rule over a function of bounded variation: `v` measures the variation -/
theorem trapezoid_error (x : ℕ → ℝ) (n : ℕ) (hn : 1 ≤ n) (hx : ∀ i, i + 1 < n → x i ≤ x (i + 1)) (h : ℝ)
    (hmesh : ∀ i, i + 1 < n → x (i + 1) - x i ≤ h) (g v : ℝ → ℝ)
    (hg : IntervalIntegrable g volume (x 0) (x (n - 1)))
    (hv : ∀ s t, s ≤ t → |g t - g s| ≤ v t - v s) :
    |trapezoid x (fun i => g (x i)) n - ∫ t in x 0..x (n - 1), g t| ≤ h / 2 * (v (x (n - 1)) - v (x 0)) := by
  have hle : x 0 ≤ x (n - 1) := grid_mono hx (Nat.zero_le _) (by omega)
  have hint : ∀ i < n - 1, IntervalIntegrable g volume (x i) (x (i + 1)) := by
    intro i hi
    refine hg.mono_set ?_
    rw [Set.uIcc_of_le (hx i (by omega)), Set.uIcc_of_le hle]
    exact Set.Icc_subset_Icc (grid_mono hx (Nat.zero_le _) (by omega)) (grid_mono hx (by omega) (by omega))
  rw [← intervalIntegral.sum_integral_adjacent_intervals hint, trapezoid, ← Finset.sum_sub_distrib,
    ← Finset.sum_range_sub (fun i => v (x i)), Finset.mul_sum]
  refine (Finset.abs_sum_le_sum_abs _ _).trans (Finset.sum_le_sum ?_)
  intro i hi
  have hi := Finset.mem_range.1 hi
  have h1 := hx i (by omega)
  have hdv : 0 ≤ v (x (i + 1)) - v (x i) := (abs_nonneg _).trans (hv _ _ h1)
  refine (cell_error (c := (v (x (i + 1)) - v (x i)) / 2) h1 (hint i hi) ?_).trans ?_
  · intro t ht
    have h2 := abs_le.1 (hv _ _ ht.1.le)
    have h3 := abs_le.1 (hv _ _ ht.2)
    rw [abs_le]
    constructor <;> linarith [h2.1, h2.2, h3.1, h3.2]
  · have := hmesh i (by omega)
    nlinarith

/-- integral of a measure over consecutive half-open cells -/
theorem sum_Ioc_integral (μ : Measure ℝ) (p : ℝ → ℝ) (x : ℕ → ℝ) (m : ℕ) (hx : ∀ i, i < m → x i ≤ x (i + 1))
    (hp : IntegrableOn p (Set.Ioc (x 0) (x m)) μ) :
    ∑ i ∈ Finset.range m, ∫ t in Set.Ioc (x i) (x (i + 1)), p t ∂μ = ∫ t in Set.Ioc (x 0) (x m), p t ∂μ := by
  induction m with
  | zero => simp
  | succ m ih =>
    have h0 : x 0 ≤ x m := grid_mono (n := m + 1) (fun i hi => hx i (by omega)) (Nat.zero_le _) (by omega)
    have h1 : x m ≤ x (m + 1) := hx m (by omega)
    have hun : Set.Ioc (x 0) (x m) ∪ Set.Ioc (x m) (x (m + 1)) = Set.Ioc (x 0) (x (m + 1)) :=
      Set.Ioc_union_Ioc_eq_Ioc h0 h1
    rw [← hun] at hp
    rw [Finset.sum_range_succ, ih (fun i hi => hx i (by omega)) hp.left_of_union, ← hun,
      setIntegral_union (Set.Ioc_disjoint_Ioc_of_le le_rfl) measurableSet_Ioc hp.left_of_union hp.right_of_union]

/-- discrete moments against a finite measure -/
theorem stieltjes_error (μ : Measure ℝ) [IsFiniteMeasure μ] (p : ℝ → ℝ) (x : ℕ → ℝ) (n : ℕ) (hn : 1 ≤ n)
    (hx : ∀ i, i + 1 < n → x i ≤ x (i + 1)) (c : ℝ)
    (hp : IntegrableOn p (Set.Ioc (x 0) (x (n - 1))) μ)
    (hc : ∀ i, i + 1 < n → ∀ t ∈ Set.Ioc (x i) (x (i + 1)), |(p (x (i + 1)) + p (x i)) / 2 - p t| ≤ c) :
    |stieltjes p x (fun i => μ.real (Set.Iic (x i))) n - ∫ t in Set.Ioc (x 0) (x (n - 1)), p t ∂μ| ≤
      c * μ.real (Set.Ioc (x 0) (x (n - 1))) := by
  have hinc : ∀ a b : ℝ, a ≤ b → μ.real (Set.Iic b) - μ.real (Set.Iic a) = μ.real (Set.Ioc a b) := by
    intro a b hab
    have : Set.Ioc a b = Set.Iic b \ Set.Iic a := by ext t; simp [and_comm]
    rw [this, measureReal_sdiff (Set.Iic_subset_Iic.2 hab) measurableSet_Iic]
  have hx' : ∀ i, i < n - 1 → x i ≤ x (i + 1) := fun i hi => hx i (by omega)
  rw [← sum_Ioc_integral μ p x (n - 1) hx' hp, stieltjes, ← Finset.sum_sub_distrib,
    ← hinc _ _ (grid_mono hx (Nat.zero_le _) (by omega)),
    ← Finset.sum_range_sub (fun i => μ.real (Set.Iic (x i))), Finset.mul_sum]
  refine (Finset.abs_sum_le_sum_abs _ _).trans (Finset.sum_le_sum ?_)
  intro i hi
  have hi := Finset.mem_range.1 hi
  have h1 := hx i (by omega)
  rw [hinc _ _ h1]
  have hpi : IntegrableOn p (Set.Ioc (x i) (x (i + 1))) μ := hp.mono_set
    (Set.Ioc_subset_Ioc (grid_mono hx (Nat.zero_le _) (by omega)) (grid_mono hx (by omega) (by omega)))
  have h2 : (p (x (i + 1)) + p (x i)) / 2 * μ.real (Set.Ioc (x i) (x (i + 1))) =
      ∫ _ in Set.Ioc (x i) (x (i + 1)), (p (x (i + 1)) + p (x i)) / 2 ∂μ := by
    rw [setIntegral_const, smul_eq_mul]; ring
  rw [h2, ← integral_sub (integrable_const _) hpi]
  have := norm_setIntegral_le_of_norm_le_const (μ := μ) (s := Set.Ioc (x i) (x (i + 1))) (C := c)
    (f := fun t => (p (x (i + 1)) + p (x i)) / 2 - p t) (measure_lt_top _ _)
    (fun t ht => hc i (by omega) t ht)
  rwa [Real.norm_eq_abs] at this

end Lemmas
