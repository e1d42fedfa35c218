import Verif.Lemmas.HonestCase
import Verif.Lemmas.GammaDist
import Verif.Lemmas.PsGaussian
import Mathlib.MeasureTheory.Integral.IntegralEqImproper
import Mathlib.MeasureTheory.Constructions.BorelSpace.Order
import Mathlib.MeasureTheory.Function.L1Space.Integrable

/-! Means and second moments of the normal distribution, of what is left of it above a point, and of the gamma distribution. -/

namespace Lemmas
open Spec MeasureTheory Set Filter Topology

variable {Ω Ω' : Type} [MeasurableSpace Ω] [MeasurableSpace Ω'] {P : Measure Ω} {Q : Measure Ω'}
  [IsProbabilityMeasure P] [IsProbabilityMeasure Q]

/-- Numbers with one distribution function have one law. -/
theorem map_eq_of_law {Y : Ω → ℝ} {Z : Ω' → ℝ} (hY : Measurable Y) (hZ : Measurable Z)
    (h : ∀ x, P.real {ω | Y ω ≤ x} = Q.real {ω | Z ω ≤ x}) : P.map Y = Q.map Z := by
  have : IsFiniteMeasure (P.map Y) := inferInstance
  refine Measure.ext_of_Iic _ _ fun x => ?_
  rw [Measure.map_apply hY measurableSet_Iic, Measure.map_apply hZ measurableSet_Iic]
  exact (measureReal_eq_measureReal_iff).1 (h x)

theorem mean_of_law {Y : Ω → ℝ} {Z : Ω' → ℝ} (hY : Measurable Y) (hZ : Measurable Z)
    (h : ∀ x, P.real {ω | Y ω ≤ x} = Q.real {ω | Z ω ≤ x}) {g : ℝ → ℝ} (hg : Measurable g)
    (hi : Integrable (fun ω => g (Z ω)) Q) :
    Integrable (fun ω => g (Y ω)) P ∧ ∫ ω, g (Y ω) ∂P = ∫ ω, g (Z ω) ∂Q := by
  have e := map_eq_of_law hY hZ h
  constructor
  · have h1 : Integrable g (Q.map Z) := (integrable_map_measure hg.aestronglyMeasurable hZ.aemeasurable).2 hi
    rw [← e] at h1
    exact (integrable_map_measure hg.aestronglyMeasurable hY.aemeasurable).1 h1
  · rw [← integral_map hY.aemeasurable hg.aestronglyMeasurable, e, integral_map hZ.aemeasurable hg.aestronglyMeasurable]

/-- integral against a density -/
theorem integral_dens {p : ℝ → ℝ} (h0 : ∀ x, 0 ≤ p x) (hp : Measurable p) (g : ℝ → ℝ) :
    ∫ x, g x ∂(dens p) = ∫ x, p x * g x := by
  rw [dens, integral_withDensity_eq_integral_toReal_smul hp.ennreal_ofReal (ae_of_all _ fun x => ENNReal.ofReal_lt_top)]
  refine integral_congr_ae (ae_of_all _ fun x => ?_)
  simp only [ENNReal.toReal_ofReal (h0 x), smul_eq_mul]

theorem integrable_dens {p : ℝ → ℝ} (h0 : ∀ x, 0 ≤ p x) (hp : Measurable p) {g : ℝ → ℝ} (hi : Integrable fun x => p x * g x) :
    Integrable g (dens p) := by
  have := (integrable_withDensity_iff_integrable_smul' (μ := volume) (f := fun x => ENNReal.ofReal (p x))
    (g := g) hp.ennreal_ofReal (ae_of_all _ fun x => ENNReal.ofReal_lt_top)).2
  refine this (hi.congr (ae_of_all _ fun x => ?_))
  simp only [ENNReal.toReal_ofReal (h0 x), smul_eq_mul]

theorem phi_sq : Integrable fun x : ℝ => phi x * x ^ 2 := by
  have h := (integrable_rpow_mul_exp_neg_mul_sq (show (0 : ℝ) < 1 / 2 by norm_num) (show (-1 : ℝ) < 2 by norm_num)).div_const
    (√(2 * Real.pi))
  refine h.congr (ae_of_all _ fun x => ?_)
  simp only [phi]
  rw [show -(1 / 2) * x ^ 2 = -x ^ 2 / 2 by ring, Real.rpow_two]
  ring

theorem tendsto_xphi : Tendsto (fun x => x * phi x) atTop (𝓝 0) := by
  have h1 : Tendsto (fun x : ℝ => x ^ 2 * Real.exp (-x)) atTop (𝓝 0) := Real.tendsto_pow_mul_exp_neg_atTop_nhds_zero 2
  have h2 : Tendsto (fun x : ℝ => x * Real.exp (-x)) atTop (𝓝 0) := by
    simpa using Real.tendsto_pow_mul_exp_neg_atTop_nhds_zero 1
  have h3 : Tendsto (fun x : ℝ => (x * Real.exp (-x)) / √(2 * Real.pi)) atTop (𝓝 0) := by
    simpa using h2.div_const (√(2 * Real.pi))
  refine tendsto_of_tendsto_of_tendsto_of_le_of_le' tendsto_const_nhds h3 ?_ ?_
  · filter_upwards [eventually_ge_atTop (0 : ℝ)] with x hx
    exact mul_nonneg hx (phi_pos x).le
  · filter_upwards [eventually_ge_atTop (2 : ℝ)] with x hx
    rw [phi, ← mul_div_assoc]
    refine div_le_div_of_nonneg_right ?_ (Real.sqrt_nonneg _)
    refine mul_le_mul_of_nonneg_left (Real.exp_le_exp.2 ?_) (by linarith)
    nlinarith

/-- first moment of the normal distribution above `b` -/
theorem integral_tail_mul (b : ℝ) : ∫ x in Ici b, phi x * x = phi b := by
  rw [integral_Ici_eq_integral_Ioi]
  have h := integral_Ioi_of_hasDerivAt_of_tendsto' (f := fun t => -phi t) (f' := fun t => phi t * t) (a := b) (m := 0)
    (fun t _ => (hasDerivAt_phi t).neg.congr_deriv (by ring)) phi_mean.integrableOn (by simpa using tendsto_phi.neg)
  rw [h]; ring

/-- second moment of the normal distribution above `b` -/
theorem integral_tail_sq (b : ℝ) : ∫ x in Ici b, phi x * x ^ 2 = b * phi b + (1 - Phi b) := by
  rw [integral_Ici_eq_integral_Ioi]
  have hd : ∀ t ∈ Ici b, HasDerivAt (fun t => -(t * phi t)) (phi t * t ^ 2 - phi t) t := fun t _ =>
    (((hasDerivAt_id' t).mul (hasDerivAt_phi t)).neg).congr_deriv (by ring)
  have h := integral_Ioi_of_hasDerivAt_of_tendsto' (a := b) (m := 0) hd (phi_sq.sub integrable_phi).integrableOn
    (by simpa using tendsto_xphi.neg)
  rw [integral_sub phi_sq.integrableOn integrable_phi.integrableOn, ← Phi_compl] at h
  linarith

variable {k : ℝ}

theorem mul_sq_gammaPdf (hk : 0 < k) (x : ℝ) : gammaPdf k x * x ^ 2 = k * (k + 1) * gammaPdf (k + 2) x := by
  have h1 := mul_gammaPdf hk x
  have h2 := mul_gammaPdf (show 0 < k + 1 by linarith) x
  rw [show k + 1 + 1 = k + 2 by ring] at h2
  calc gammaPdf k x * x ^ 2 = x * (x * gammaPdf k x) := by ring
    _ = k * (x * gammaPdf (k + 1) x) := by rw [h1]; ring
    _ = _ := by rw [h2]; ring

theorem gamma_sq (hk : 0 < k) : Integrable fun x : ℝ => gammaPdf k x * x ^ 2 := by
  simp only [mul_sq_gammaPdf hk]
  exact (integrable_gammaPdf (by linarith)).const_mul _

theorem integral_gamma_mul (hk : 0 < k) : ∫ x, gammaPdf k x * x = k := by
  have : ∀ x, gammaPdf k x * x = k * gammaPdf (k + 1) x := fun x => by rw [mul_comm, mul_gammaPdf hk]
  simp only [this]
  rw [integral_const_mul, integral_gammaPdf (by linarith), mul_one]

theorem integral_gamma_sq (hk : 0 < k) : ∫ x, gammaPdf k x * x ^ 2 = k * (k + 1) := by
  simp only [mul_sq_gammaPdf hk]
  rw [integral_const_mul, integral_gammaPdf (by linarith), mul_one]

end Lemmas
