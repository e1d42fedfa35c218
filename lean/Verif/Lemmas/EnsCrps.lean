import Verif.Spec.EnsCrps
import Verif.Lemmas.Average
import Mathlib.MeasureTheory.Measure.Lebesgue.VolumeOfBalls
import Mathlib.MeasureTheory.Integral.Bochner.Basic

/-! The score of an ensemble as an integral of squared differences of step functions. -/

open MeasureTheory Np Spec

namespace Lemmas

/-- step at `a` -/
noncomputable def stepAt (a t : ℝ) : ℝ := if a ≤ t then 1 else 0

theorem ecdf_eq (ms : List ℝ) (t : ℝ) : ecdf ms t = avg (ms.map fun x => stepAt x t) := by
  simp [ecdf, avg, stepAt]

theorem step_sq (a b : ℝ) : (fun t => (stepAt a t - stepAt b t) ^ 2) =
    (Set.Ico (min a b) (max a b)).indicator fun _ => (1 : ℝ) := by
  funext t
  simp only [stepAt, Set.indicator, Set.mem_Ico, min_le_iff, lt_max_iff]
  by_cases h1 : a ≤ t <;> by_cases h2 : b ≤ t <;> simp [h1, h2, not_lt.2, not_le.1]

theorem step_integral (a b : ℝ) : Integrable (fun t => (stepAt a t - stepAt b t) ^ 2) ∧
    ∫ t, (stepAt a t - stepAt b t) ^ 2 = |a - b| := by
  rw [step_sq]
  constructor
  · rw [integrable_indicator_iff measurableSet_Ico]
    exact integrableOn_const (by simp [Real.volume_Ico])
  · rw [integral_indicator measurableSet_Ico, setIntegral_const, smul_eq_mul, mul_one, Measure.real, Real.volume_Ico,
      ENNReal.toReal_ofReal (sub_nonneg.2 min_le_max), max_sub_min_eq_abs', abs_sub_comm]

/-- integral of an average -/
theorem integral_avg {α : Type} (l : List α) (g : α → ℝ → ℝ) (h : ∀ a ∈ l, Integrable (g a)) :
    Integrable (fun t => avg (l.map fun a => g a t)) ∧
      ∫ t, avg (l.map fun a => g a t) = avg (l.map fun a => ∫ t, g a t) := by
  have hs : Integrable (fun t => (l.map fun a => g a t).sum) ∧
      ∫ t, (l.map fun a => g a t).sum = (l.map fun a => ∫ t, g a t).sum := by
    induction l with
    | nil => simp
    | cons a l ih =>
      obtain ⟨h1, h2⟩ := ih fun b hb => h b (by simp [hb])
      simp only [List.map_cons, List.sum_cons]
      exact ⟨(h a (by simp)).add h1, by rw [integral_add (h a (by simp)) h1, h2]⟩
  simp only [avg, List.length_map]
  exact ⟨hs.1.div_const _, by rw [integral_div, hs.2]⟩

section algebra
variable {α : Type}

theorem sum_sq_sub (l : List α) (h : α → ℝ) (c : ℝ) : (l.map fun x => (h x - c) ^ 2).sum =
    (l.map fun x => h x ^ 2).sum - 2 * c * (l.map h).sum + l.length * c ^ 2 := by
  induction l with
  | nil => simp
  | cons a l ih =>
    simp only [List.map_cons, List.sum_cons, ih, List.length_cons]
    push_cast
    ring

theorem sum_affine (l : List α) (h : α → ℝ) (p q r : ℝ) : (l.map fun x => p * h x ^ 2 + q * h x + r).sum =
    p * (l.map fun x => h x ^ 2).sum + q * (l.map h).sum + l.length * r := by
  induction l with
  | nil => simp
  | cons a l ih =>
    simp only [List.map_cons, List.sum_cons, ih, List.length_cons]
    push_cast
    ring

/-- the squared error of an average is the average squared error minus half the average squared difference -/
theorem sq_avg_sub {l : List α} (hl : l ≠ []) (h : α → ℝ) (c : ℝ) :
    (avg (l.map h) - c) ^ 2 = avg (l.map fun x => (h x - c) ^ 2) -
      avg (l.map fun x => avg (l.map fun x' => (h x - h x') ^ 2)) / 2 := by
  have hn : (l.length : ℝ) ≠ 0 := by
    have := List.length_pos_iff.2 hl
    exact_mod_cast this.ne'
  have e : ∀ x, avg (l.map fun x' => (h x - h x') ^ 2) =
      1 * h x ^ 2 + (-2 * (l.map h).sum / l.length) * h x + (l.map fun x => h x ^ 2).sum / l.length := by
    intro x
    have e1 : (l.map fun x' => (h x - h x') ^ 2) = l.map fun x' => (h x' - h x) ^ 2 := by
      apply List.map_congr_left
      intro a _
      ring
    rw [avg, List.length_map, e1, sum_sq_sub]
    field_simp
    ring
  simp only [e]
  simp only [avg, List.length_map, sum_sq_sub, sum_affine]
  field_simp
  ring

end algebra

theorem integrand_eq {ms : List ℝ} (hm : ms ≠ []) (y t : ℝ) : crpsIntegrand (ecdf ms) y t =
    avg (ms.map fun x => (stepAt x t - stepAt y t) ^ 2) -
      avg (ms.map fun x => avg (ms.map fun x' => (stepAt x t - stepAt x' t) ^ 2)) / 2 := by
  rw [crpsIntegrand, ecdf_eq]
  exact sq_avg_sub hm (fun x => stepAt x t) _

/-- the score is the integral of the squared difference of the distribution functions -/
theorem crps_ecdf {ms : List ℝ} (hm : ms ≠ []) (y : ℝ) : Integrable (crpsIntegrand (ecdf ms) y) ∧
    ∫ t, crpsIntegrand (ecdf ms) y t = energyScore ms y := by
  have h1 := integral_avg ms (fun x t => (stepAt x t - stepAt y t) ^ 2) fun x _ => (step_integral x y).1
  have h2 : ∀ x, _ := fun x => integral_avg ms (fun x' t => (stepAt x t - stepAt x' t) ^ 2) fun x' _ =>
    (step_integral x x').1
  have h3 := integral_avg ms (fun x t => avg (ms.map fun x' => (stepAt x t - stepAt x' t) ^ 2)) fun x _ => (h2 x).1
  have e : crpsIntegrand (ecdf ms) y = fun t => avg (ms.map fun x => (stepAt x t - stepAt y t) ^ 2) -
      avg (ms.map fun x => avg (ms.map fun x' => (stepAt x t - stepAt x' t) ^ 2)) / 2 := by
    funext t
    exact integrand_eq hm y t
  rw [e]
  refine ⟨h1.1.sub (h3.1.div_const 2), ?_⟩
  rw [integral_sub h1.1 (h3.1.div_const 2), integral_div, h1.2, h3.2]
  simp only [(step_integral _ _).2, fun x => (h2 x).2, energyScore]

end Lemmas

namespace Lemmas

theorem count_step (ms : List ℝ) (t : ℝ) : (ms.map fun x => if x ≤ t then (1 : ℝ) else 0).sum = ms.countP fun x => decide (x ≤ t) := by
  induction ms with
  | nil => simp
  | cons a l ih =>
    by_cases h : a ≤ t <;> simp [h, ih, add_comm]

theorem score_nonneg {ms : List ℝ} (hm : ms ≠ []) (y : ℝ) : 0 ≤ energyScore ms y := by
  rw [← (crps_ecdf hm y).2]
  exact integral_nonneg fun t => sq_nonneg _

theorem score_le (ms : List ℝ) (y : ℝ) : energyScore ms y ≤ avg (ms.map fun x => |x - y|) := by
  have : 0 ≤ avg (ms.map fun x => avg (ms.map fun x' => |x - x'|)) := by
    apply avg_nonneg
    intro v hv
    obtain ⟨x, -, rfl⟩ := List.mem_map.1 hv
    apply avg_nonneg
    intro u hu
    obtain ⟨z, -, rfl⟩ := List.mem_map.1 hu
    exact abs_nonneg _
  unfold energyScore
  linarith

/-- a member far from the observation costs -/
theorem le_score {ms : List ℝ} {x : ℝ} (hx : x ∈ ms) (y : ℝ) : |x - y| / (ms.length : ℝ) ^ 2 ≤ energyScore ms y := by
  have hm : ms ≠ [] := List.ne_nil_of_mem hx
  have hn : (0 : ℝ) < ms.length := by exact_mod_cast List.length_pos_iff.2 hm
  obtain ⟨h1, h2⟩ := crps_ecdf hm y
  obtain ⟨s1, s2⟩ := step_integral x y
  rw [← h2, ← s2, ← integral_div]
  refine integral_mono (s1.div_const _) h1 fun t => ?_
  simp only [crpsIntegrand, stepAt]
  by_cases a : x ≤ t <;> by_cases b : y ≤ t <;> simp only [a, b, if_true, if_false, sub_self, sub_zero, zero_sub]
  · simpa using sq_nonneg _
  · have : (1 : ℝ) / ms.length ≤ ecdf ms t := by
      rw [ecdf, count_step]
      refine div_le_div_of_nonneg_right ?_ hn.le
      exact_mod_cast List.countP_pos_iff.2 ⟨x, hx, by simpa using a⟩
    calc (1 : ℝ) ^ 2 / (ms.length : ℝ) ^ 2 = (1 / ms.length) ^ 2 := by rw [div_pow]
      _ ≤ _ := pow_le_pow_left₀ (by positivity) this 2
  · have : (1 : ℝ) / ms.length ≤ 1 - ecdf ms t := by
      rw [ecdf, count_step, le_sub_iff_add_le, ← add_div, div_le_one hn]
      have := List.length_eq_countP_add_countP (fun x => decide (x ≤ t)) (l := ms)
      have h3 : 0 < ms.countP fun x => ¬ decide (x ≤ t) = true := List.countP_pos_iff.2 ⟨x, hx, by simpa using a⟩
      have h4 : 1 + ms.countP (fun x => decide (x ≤ t)) ≤ ms.length := by omega
      exact_mod_cast h4
    calc (-1 : ℝ) ^ 2 / (ms.length : ℝ) ^ 2 = (1 / ms.length) ^ 2 := by rw [div_pow]; norm_num
      _ ≤ (1 - ecdf ms t) ^ 2 := pow_le_pow_left₀ (by positivity) this 2
      _ = _ := by ring
  · simpa using sq_nonneg _

theorem score_zero {ms : List ℝ} (hm : ms ≠ []) (y : ℝ) : energyScore ms y = 0 ↔ ∀ x ∈ ms, x = y := by
  constructor
  · intro h x hx
    have h1 := le_score hx y
    have hn : (0 : ℝ) < (ms.length : ℝ) ^ 2 := by
      have := List.length_pos_iff.2 hm
      positivity
    rw [h, div_le_iff₀ hn, zero_mul] at h1
    have := abs_nonpos_iff.1 h1
    linarith
  · intro h
    refine le_antisymm ((score_le ms y).trans ?_) (score_nonneg hm y)
    have e : (ms.map fun x => |x - y|) = ms.map fun _ => (0 : ℝ) := List.map_congr_left fun x hx => by simp [h x hx]
    rw [e]
    simp [avg]

theorem score_single (x y : ℝ) : energyScore [x] y = |x - y| := by
  simp [energyScore, avg]

theorem avg_zero_iff {α : Type} {L : List α} {g : α → ℝ} (h : ∀ a ∈ L, 0 ≤ g a) : avg (L.map g) = 0 ↔ ∀ a ∈ L, g a = 0 := by
  have hs : (L.map g).sum = 0 ↔ ∀ a ∈ L, g a = 0 := by
    induction L with
    | nil => simp
    | cons a L ih =>
      have h1 := h a (by simp)
      have h2 : 0 ≤ (L.map g).sum := List.sum_nonneg fun v hv => by
        obtain ⟨b, hb, rfl⟩ := List.mem_map.1 hv
        exact h b (by simp [hb])
      rw [List.map_cons, List.sum_cons, add_eq_zero_iff_of_nonneg h1 h2, ih fun b hb => h b (by simp [hb])]
      simp
  rw [avg, div_eq_zero_iff, hs]
  refine ⟨fun hz => ?_, .inl⟩
  rcases hz with hz | hz
  · exact hz
  · have : L = [] := by simpa using hz
    subst this
    simp

theorem avg_mono {α : Type} {L : List α} {g h : α → ℝ} (hgh : ∀ a ∈ L, g a ≤ h a) : avg (L.map g) ≤ avg (L.map h) := by
  simp only [avg, List.length_map]
  exact div_le_div_of_nonneg_right (List.sum_le_sum hgh) (Nat.cast_nonneg _)

end Lemmas
