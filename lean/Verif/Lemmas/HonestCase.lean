import Verif.Lemmas.HonestMean

/-! Distributions with a density. -/

namespace Lemmas
open Spec MeasureTheory Set Filter Topology

/-- the measure with density `p` -/
noncomputable def dens (p : ℝ → ℝ) : Measure ℝ := volume.withDensity fun x => ENNReal.ofReal (p x)

variable {p : ℝ → ℝ}

theorem dens_prob (h0 : ∀ x, 0 ≤ p x) (hi : Integrable p) (h1 : ∫ x, p x = 1) : IsProbabilityMeasure (dens p) := by
  refine ⟨?_⟩
  rw [dens, withDensity_apply _ MeasurableSet.univ, Measure.restrict_univ,
    ← ofReal_integral_eq_lintegral_ofReal hi (ae_of_all _ h0), h1, ENNReal.ofReal_one]

theorem dens_law (h0 : ∀ x, 0 ≤ p x) (hi : Integrable p) (x : ℝ) : (dens p).real (Iic x) = ∫ t in Iic x, p t := by
  rw [measureReal_def, dens, withDensity_apply _ measurableSet_Iic,
    ← ofReal_integral_eq_lintegral_ofReal hi.integrableOn (ae_of_all _ h0),
    ENNReal.toReal_ofReal (integral_nonneg h0)]

theorem dens_mean (h0 : ∀ x, 0 ≤ p x) (hp : Measurable p) (hi : Integrable fun x => p x * x) :
    Integrable (fun x : ℝ => x) (dens p) := by
  have := (integrable_withDensity_iff_integrable_smul' (μ := volume) (f := fun x => ENNReal.ofReal (p x))
    (g := fun x : ℝ => x) hp.ennreal_ofReal (ae_of_all _ fun x => ENNReal.ofReal_lt_top)).2
  refine this (hi.congr (ae_of_all _ fun x => ?_))
  simp only [ENNReal.toReal_ofReal (h0 x), smul_eq_mul]

theorem phi_mean : Integrable fun x : ℝ => phi x * x := by
  have h := (integrable_mul_exp_neg_mul_sq (show (0 : ℝ) < 1 / 2 by norm_num)).div_const (√(2 * Real.pi))
  refine h.congr (ae_of_all _ fun x => ?_)
  simp only [phi]
  rw [show -(1 / 2) * x ^ 2 = -x ^ 2 / 2 by ring]
  ring

/-- density of the upper half of the standard normal distribution -/
noncomputable def halfPdf (x : ℝ) : ℝ := (Ici (0 : ℝ)).indicator phi x / (1 - Phi 0)

theorem halfPdf_nonneg (x : ℝ) : 0 ≤ halfPdf x :=
  div_nonneg (indicator_nonneg (fun t _ => (phi_pos t).le) _) (by linarith [Phi_lt_one 0])

theorem integrable_halfPdf : Integrable halfPdf := (integrable_phi.indicator measurableSet_Ici).div_const _

theorem measurable_halfPdf : Measurable halfPdf := (continuous_phi.measurable.indicator measurableSet_Ici).div_const _

theorem integral_halfPdf : ∫ x, halfPdf x = 1 := by
  have hd := Phi_lt_one 0
  simp only [halfPdf]
  rw [integral_div, integral_indicator measurableSet_Ici, integral_Ici_eq_integral_Ioi, ← Phi_compl,
    div_self (by linarith)]

theorem halfPdf_mean : Integrable fun x : ℝ => halfPdf x * x := by
  have h := (phi_mean.indicator (measurableSet_Ici (a := (0 : ℝ)))).div_const (1 - Phi 0)
  refine h.congr (ae_of_all _ fun x => ?_)
  simp only [halfPdf, indicator]
  split_ifs <;> ring

theorem half_law (x : ℝ) : ∫ t in Iic x, halfPdf t = truncNormalCdf 0 1 0 x := by
  simp only [halfPdf]
  rw [integral_div, setIntegral_indicator measurableSet_Ici]
  unfold truncNormalCdf
  simp only [sub_zero, div_one, sub_self]
  split_ifs with h
  · rw [show Iic x ∩ Ici 0 = ∅ from by ext t; simp; intro h1; linarith]
    simp
  · rw [not_lt] at h
    rw [show Iic x ∩ Ici 0 = Icc 0 x from by ext t; simp [and_comm], integral_Icc_eq_integral_Ioc,
      ← intervalIntegral.integral_of_le h]
    unfold Phi
    rw [intervalIntegral.integral_Iic_sub_Iic integrable_phi.integrableOn integrable_phi.integrableOn]

theorem gamma_mean {k : ℝ} (hk : 0 < k) : Integrable fun x : ℝ => gammaPdf k x * x := by
  refine ((integrable_gammaPdf (show (0 : ℝ) < k + 1 by linarith)).const_mul k).congr (ae_of_all _ fun x => ?_)
  simp only
  rw [← mul_gammaPdf hk, mul_comm]

theorem measurable_gammaPdf (k : ℝ) : Measurable (gammaPdf k) := by
  rw [gammaPdf_indicator]
  refine Measurable.indicator ?_ measurableSet_Ioi
  fun_prop

end Lemmas
