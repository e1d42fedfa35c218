import Verif.Lemmas.Student
import Verif.Lemmas.Normal
import Mathlib.Analysis.SpecialFunctions.ImproperIntegrals
import Mathlib.Analysis.SpecialFunctions.Complex.LogBounds

/-! Student's distribution with many degrees of freedom is close to the normal one. -/

namespace Lemmas
open Spec MeasureTheory Filter Topology Set

theorem studentShape_tendsto (t : ℝ) :
    Tendsto (fun ν : ℕ => studentShape ν t) atTop (𝓝 (Real.exp (-t ^ 2 / 2))) := by
  have h1 : Tendsto (fun ν : ℕ => (ν : ℝ) * Real.log (1 + t ^ 2 / ν)) atTop (𝓝 (t ^ 2)) :=
    (Real.tendsto_mul_log_one_add_div_atTop (t ^ 2)).comp tendsto_natCast_atTop_atTop
  have h2 : Tendsto (fun ν : ℕ => Real.log (1 + t ^ 2 / ν)) atTop (𝓝 0) := by
    have := h1.mul (tendsto_inv_atTop_nhds_zero_nat (𝕜 := ℝ))
    rw [mul_zero] at this
    refine this.congr' ?_
    filter_upwards [eventually_gt_atTop 0] with ν hν
    have : (ν : ℝ) ≠ 0 := by positivity
    field_simp
  have h3 : Tendsto (fun ν : ℕ => -((ν : ℝ) * Real.log (1 + t ^ 2 / ν) + Real.log (1 + t ^ 2 / ν)) / 2) atTop
      (𝓝 (-t ^ 2 / 2)) := by
    have := (h1.add h2).neg.div_const 2
    rwa [add_zero] at this
  refine ((Real.continuous_exp.tendsto _).comp h3).congr fun ν => ?_
  have hp : (0 : ℝ) < 1 + t ^ 2 / ν := by positivity
  rw [studentShape, Real.rpow_def_of_pos hp, Function.comp_apply]
  congr 1
  ring

theorem studentShape_le {ν : ℕ} (hν : 1 ≤ ν) (t : ℝ) : studentShape ν t ≤ 2 * (1 + t ^ 2)⁻¹ := by
  have hν' : (1 : ℝ) ≤ ν := by exact_mod_cast hν
  have hp : (0 : ℝ) < 1 + t ^ 2 / ν := by positivity
  have hb := one_add_mul_self_le_rpow_one_add (s := t ^ 2 / ν) (p := ((ν : ℝ) + 1) / 2)
    (by have : (0 : ℝ) ≤ t ^ 2 / ν := by positivity
        linarith) (by linarith)
  have hge : (1 + t ^ 2) / 2 ≤ (1 + t ^ 2 / ν) ^ (((ν : ℝ) + 1) / 2) := by
    refine le_trans ?_ hb
    have : ((ν : ℝ) + 1) / 2 * (t ^ 2 / ν) = t ^ 2 / 2 + t ^ 2 / (2 * ν) := by field_simp
    rw [this]
    have : (0 : ℝ) ≤ t ^ 2 / (2 * ν) := by positivity
    linarith
  unfold studentShape
  rw [neg_div, Real.rpow_neg hp.le]
  calc ((1 + t ^ 2 / ν) ^ (((ν : ℝ) + 1) / 2))⁻¹ ≤ ((1 + t ^ 2) / 2)⁻¹ := inv_anti₀ (by positivity) hge
    _ = 2 * (1 + t ^ 2)⁻¹ := by rw [inv_div]; ring

theorem studentShape_integral (s : Set ℝ) :
    Tendsto (fun ν : ℕ => ∫ t in s, studentShape ν t) atTop (𝓝 (∫ t in s, Real.exp (-t ^ 2 / 2))) := by
  refine tendsto_integral_filter_of_dominated_convergence (fun t => 2 * (1 + t ^ 2)⁻¹) ?_ ?_ ?_ ?_
  · filter_upwards [eventually_ge_atTop 1] with ν hν using (studentShape_integrable hν).aestronglyMeasurable.restrict
  · filter_upwards [eventually_ge_atTop 1] with ν hν
    refine Eventually.of_forall fun t => ?_
    rw [Real.norm_of_nonneg (studentShape_pos t).le]
    exact studentShape_le hν t
  · exact (integrable_inv_one_add_sq.const_mul 2).restrict
  · exact Eventually.of_forall fun t => studentShape_tendsto t

theorem studentCdf_tendsto (x : ℝ) : Tendsto (fun ν : ℕ => studentCdf ν x) atTop (𝓝 (Phi x)) := by
  have hc : (0 : ℝ) < √(2 * Real.pi) := by positivity
  have he : ∀ t : ℝ, Real.exp (-t ^ 2 / 2) = √(2 * Real.pi) * phi t := by
    intro t; unfold phi; field_simp
  have h1 := studentShape_integral (Iic x)
  have h2 := studentShape_integral univ
  simp only [he, integral_const_mul, Measure.restrict_univ, integral_phi, mul_one] at h1 h2
  have h3 := h1.div h2 hc.ne'
  rw [mul_div_cancel_left₀ _ hc.ne'] at h3
  exact h3

end Lemmas
