import Verif.Model.Kde
import Verif.Spec.Kernel
import Verif.Lemmas.Accuracy
import Mathlib.MeasureTheory.Integral.IntegralEqImproper
import Mathlib.MeasureTheory.Measure.Lebesgue.Integral

/-! Lemmas about kernels and the sums of `ens_to_prob_kde`. -/

open MeasureTheory Spec Model Np

namespace Lemmas

variable {k : ℝ → ℝ}

theorem IsKernel.le_zero (hk : IsKernel k) (u : ℝ) : k u ≤ k 0 := by
  rcases le_total 0 u with h | h
  · exact hk.anti 0 u le_rfl h
  · rw [← hk.even u]; exact hk.anti 0 (-u) le_rfl (by linarith)

/-- variation of a kernel up to `u` -/
noncomputable def kvar (k : ℝ → ℝ) (u : ℝ) : ℝ := if u ≤ 0 then k u else 2 * k 0 - k u

theorem kvar_bounds (hk : IsKernel k) (u : ℝ) : 0 ≤ kvar k u ∧ kvar k u ≤ 2 * k 0 := by
  have h1 := hk.nonneg u
  have h2 := IsKernel.le_zero hk u
  have h3 := hk.nonneg 0
  unfold kvar
  split <;> constructor <;> linarith

theorem kvar_variation (hk : IsKernel k) (s t : ℝ) (hst : s ≤ t) : |k t - k s| ≤ kvar k t - kvar k s := by
  have h2 := IsKernel.le_zero hk s
  have h3 := IsKernel.le_zero hk t
  unfold kvar
  rw [abs_le]
  by_cases ht : t ≤ 0
  · rw [if_pos ht, if_pos (hst.trans ht)]
    have : k s ≤ k t := by
      rw [← hk.even s, ← hk.even t]
      exact hk.anti _ _ (by linarith) (by linarith)
    constructor <;> linarith
  · rw [if_neg ht]
    by_cases hs : s ≤ 0
    · rw [if_pos hs]
      constructor <;> linarith
    · rw [if_neg hs]
      have := hk.anti s t (by linarith) hst
      constructor <;> linarith

theorem kernelCdf_diff (hk : IsKernel k) (a b : ℝ) :
    ∫ s in a..b, k s = kernelCdf k b - kernelCdf k a := by
  rw [kernelCdf, kernelCdf, intervalIntegral.integral_Iic_sub_Iic hk.integrable.integrableOn
    hk.integrable.integrableOn]

theorem kernelCdf_bounds (hk : IsKernel k) (u : ℝ) : 0 ≤ kernelCdf k u ∧ kernelCdf k u ≤ 1 := by
  refine ⟨integral_nonneg fun _ => hk.nonneg _, ?_⟩
  rw [← hk.total]
  exact setIntegral_le_integral hk.integrable (Filter.Eventually.of_forall hk.nonneg)

theorem kernelCdf_mono (hk : IsKernel k) : Monotone (kernelCdf k) := by
  intro a b hab
  have := kernelCdf_diff hk a b
  have h2 : 0 ≤ ∫ s in a..b, k s := intervalIntegral.integral_nonneg hab fun _ _ => hk.nonneg _
  linarith

/-- half of a kernel's mass is below its centre -/
theorem kernelCdf_zero (hk : IsKernel k) : kernelCdf k 0 = 1 / 2 := by
  have h1 : (∫ s in Set.Iic (0 : ℝ), k s) + ∫ s in Set.Ioi (0 : ℝ), k s = 1 := by
    rw [← hk.total, ← integral_add_compl measurableSet_Iic hk.integrable, Set.compl_Iic]
  have h2 : ∫ s in Set.Iic (0 : ℝ), k s = ∫ s in Set.Ioi (0 : ℝ), k s := by
    have := integral_comp_neg_Iic (0 : ℝ) k
    rw [neg_zero] at this
    rw [← this]
    simp only [hk.even]
  rw [kernelCdf]
  linarith

/-- density of the smoothed ensemble -/
theorem density_integral (hk : IsKernel k) {h : ℝ} (hh : 0 < h) (e a b : ℝ) :
    (∫ x in a..b, k ((x - e) / h) / h) = kernelCdf k ((b - e) / h) - kernelCdf k ((a - e) / h) ∧
      IntervalIntegrable (fun x => k ((x - e) / h) / h) volume a b := by
  constructor
  · rw [intervalIntegral.integral_div]
    have h1 : ∫ x in a..b, k ((x - e) / h) = h * ∫ u in (a - e) / h..(b - e) / h, k u := by
      have := intervalIntegral.integral_comp_sub_right (a := a) (b := b) (fun x => k (x / h)) e
      rw [this, intervalIntegral.integral_comp_div _ hh.ne', smul_eq_mul]
    rw [h1, mul_div_cancel_left₀ _ hh.ne', kernelCdf_diff hk]
  · have h1 : Integrable fun x => k ((x - e) / h) := (hk.integrable.comp_div hh.ne').comp_sub_right e
    exact (h1.div_const h).intervalIntegrable

theorem sum_map_intervalIntegrable (l : List ℝ) (f : ℝ → ℝ → ℝ) (a b : ℝ)
    (hf : ∀ e ∈ l, IntervalIntegrable (f e) volume a b) :
    IntervalIntegrable (fun x => (l.map fun e => f e x).sum) volume a b ∧
      ∫ x in a..b, (l.map fun e => f e x).sum = (l.map fun e => ∫ x in a..b, f e x).sum := by
  induction l with
  | nil => simp
  | cons e l ih =>
    obtain ⟨h1, h2⟩ := ih fun e' he' => hf e' (List.mem_cons_of_mem _ he')
    have h0 := hf e List.mem_cons_self
    simp only [List.map_cons, List.sum_cons]
    exact ⟨h0.add h1, by rw [intervalIntegral.integral_add h0 h1, h2]⟩

theorem sum_map_le (l : List ℝ) (f g : ℝ → ℝ) (h : ∀ e ∈ l, f e ≤ g e) : (l.map f).sum ≤ (l.map g).sum := by
  induction l with
  | nil => simp
  | cons e l ih =>
    simp only [List.map_cons, List.sum_cons]
    have := ih fun e' he' => h e' (List.mem_cons_of_mem _ he')
    have := h e List.mem_cons_self
    linarith

theorem sum_map_sub (l : List ℝ) (f g : ℝ → ℝ) : (l.map f).sum - (l.map g).sum = (l.map fun e => f e - g e).sum := by
  induction l with
  | nil => simp
  | cons e l ih => simp only [List.map_cons, List.sum_cons, ← ih]; ring

theorem abs_sum_map_le (l : List ℝ) (f : ℝ → ℝ) : |(l.map f).sum| ≤ (l.map fun e => |f e|).sum := by
  induction l with
  | nil => simp
  | cons e l ih =>
    simp only [List.map_cons, List.sum_cons]
    exact (abs_add_le _ _).trans (by linarith)

theorem sum_map_const (l : List ℝ) (c : ℝ) : (l.map fun _ => c).sum = l.length * c := by
  induction l with
  | nil => simp
  | cons e l ih => simp only [List.map_cons, List.sum_cons, ih, List.length_cons]; push_cast; ring

end Lemmas
