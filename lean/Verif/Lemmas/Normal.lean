import Verif.Spec.Normal
import Mathlib.Probability.Distributions.Gaussian.Real
import Mathlib.MeasureTheory.Integral.IntegralEqImproper
import Mathlib.MeasureTheory.Integral.IntervalIntegral.FundThmCalculus
import Mathlib.Analysis.Calculus.Deriv.MeanValue

namespace Lemmas
open Spec MeasureTheory Set Filter Topology

theorem phi_eq (x : ℝ) : phi x = ProbabilityTheory.gaussianPDFReal 0 1 x := by
  unfold phi ProbabilityTheory.gaussianPDFReal
  simp only [NNReal.coe_one, mul_one, sub_zero]
  rw [div_eq_inv_mul]

theorem phi_pos (x : ℝ) : 0 < phi x := by unfold phi; positivity

theorem integrable_phi : Integrable phi := by
  have := ProbabilityTheory.integrable_gaussianPDFReal 0 1
  rwa [show ProbabilityTheory.gaussianPDFReal 0 1 = phi from funext fun x => (phi_eq x).symm] at this

theorem integral_phi : ∫ x, phi x = 1 := by
  have := ProbabilityTheory.integral_gaussianPDFReal_eq_one 0 (v := 1) one_ne_zero
  rwa [show ProbabilityTheory.gaussianPDFReal 0 1 = phi from funext fun x => (phi_eq x).symm] at this

theorem continuous_phi : Continuous phi := by unfold phi; fun_prop

theorem hasDerivAt_phi (x : ℝ) : HasDerivAt phi (-x * phi x) x := by
  unfold phi
  have h1 : HasDerivAt (fun x : ℝ => -x ^ 2 / 2) (-x) x := by
    have := ((hasDerivAt_pow 2 x).neg).div_const 2
    refine this.congr_deriv ?_
    simp
    ring
  have := (h1.exp).div_const (√(2 * Real.pi))
  refine this.congr_deriv ?_
  ring

theorem hasDerivAt_Phi (x : ℝ) : HasDerivAt Phi (phi x) x := by
  have h : Phi = fun x => Phi 0 + ∫ t in (0 : ℝ)..x, phi t := by
    funext x
    unfold Phi
    rw [← intervalIntegral.integral_Iic_sub_Iic integrable_phi.integrableOn integrable_phi.integrableOn]
    ring
  rw [h]
  exact ((continuous_phi.integral_hasStrictDerivAt 0 x).hasDerivAt).const_add _

theorem strictMono_Phi : StrictMono Phi :=
  strictMono_of_deriv_pos fun x => by rw [(hasDerivAt_Phi x).deriv]; exact phi_pos x

theorem tendsto_Phi : Tendsto Phi atTop (𝓝 1) := by
  have := (aecover_Iic (μ := volume) (tendsto_id (α := ℝ) (x := atTop))).integral_tendsto_of_countably_generated
    integrable_phi
  rw [integral_phi] at this
  exact this

theorem Phi_lt_one (x : ℝ) : Phi x < 1 :=
  lt_of_lt_of_le (strictMono_Phi (lt_add_one x)) (strictMono_Phi.monotone.ge_of_tendsto tendsto_Phi _)

theorem tendsto_phi : Tendsto phi atTop (𝓝 0) := by
  have h1 : Tendsto (fun x : ℝ => -x ^ 2 / 2) atTop atBot := by
    have : Tendsto (fun x : ℝ => x ^ 2 / 2) atTop atTop :=
      (tendsto_pow_atTop two_ne_zero).atTop_div_const (by norm_num)
    have h := tendsto_neg_atTop_atBot.comp this
    refine h.congr fun x => ?_
    simp only [Function.comp]; ring
  have h2 := (Real.tendsto_exp_atBot.comp h1).div_const (√(2 * Real.pi))
  rw [zero_div] at h2
  exact h2

theorem Phi_compl (x : ℝ) : 1 - Phi x = ∫ t in Ioi x, phi t := by
  have := integral_add_compl (measurableSet_Iic (a := x)) integrable_phi
  rw [integral_phi, compl_Iic] at this
  unfold Phi
  linarith

/-- `x (1 - Phi x) <= phi x` for positive `x` -/
theorem mills {x : ℝ} (hx : 0 ≤ x) : x * (1 - Phi x) ≤ phi x := by
  have hd : ∀ t ∈ Ici x, HasDerivAt (fun t => -phi t) (t * phi t) t := by
    intro t _
    have := (hasDerivAt_phi t).neg
    refine this.congr_deriv ?_
    ring
  have hpos : ∀ t ∈ Ioi x, 0 ≤ t * phi t := fun t ht => mul_nonneg (hx.trans (le_of_lt ht)) (phi_pos t).le
  have hlim : Tendsto (fun t => -phi t) atTop (𝓝 0) := by simpa using tendsto_phi.neg
  have hint := integrableOn_Ioi_deriv_of_nonneg' hd hpos hlim
  have heq := integral_Ioi_of_hasDerivAt_of_nonneg' hd hpos hlim
  have hle : ∫ t in Ioi x, x * phi t ≤ ∫ t in Ioi x, t * phi t := by
    apply setIntegral_mono_on (integrable_phi.integrableOn.const_mul x) hint measurableSet_Ioi
    intro t ht
    exact mul_le_mul_of_nonneg_right (le_of_lt ht) (phi_pos t).le
  rw [integral_const_mul, ← Phi_compl, heq] at hle
  linarith

theorem tendsto_xQ : Tendsto (fun x => x * (1 - Phi x)) atTop (𝓝 0) := by
  refine tendsto_of_tendsto_of_tendsto_of_le_of_le' tendsto_const_nhds tendsto_phi ?_ ?_
  · filter_upwards [eventually_ge_atTop (0 : ℝ)] with x hx
    exact mul_nonneg hx (by linarith [Phi_lt_one x])
  · filter_upwards [eventually_ge_atTop (0 : ℝ)] with x hx
    exact mills hx

theorem phi_sqrt_two (x : ℝ) : (1 / √Real.pi) * (√2 * phi (√2 * x)) = 2 * phi x ^ 2 := by
  unfold phi
  have hp : (0 : ℝ) < Real.pi := Real.pi_pos
  have e1 : -(√2 * x) ^ 2 / 2 = -x ^ 2 := by
    rw [mul_pow, Real.sq_sqrt (by norm_num)]; ring
  have e2 : Real.exp (-x ^ 2 / 2) ^ 2 = Real.exp (-x ^ 2) := by
    rw [← Real.exp_nat_mul]; congr 1; push_cast; ring
  have e3 : √(2 * Real.pi) = √2 * √Real.pi := Real.sqrt_mul (by norm_num) _
  have h2 : √2 ≠ 0 := by positivity
  have h3 : √Real.pi ≠ 0 := by positivity
  rw [e1, div_pow, e2, Real.sq_sqrt (by positivity), e3]
  have h4 : √Real.pi ^ 2 = Real.pi := Real.sq_sqrt hp.le
  field_simp
  rw [h4]

theorem hasDerivAt_Phi_sqrt (x : ℝ) :
    HasDerivAt (fun x => (1 / √Real.pi) * Phi (√2 * x)) (2 * phi x ^ 2) x := by
  have h1 : HasDerivAt (fun x : ℝ => √2 * x) (√2) x := by
    simpa using (hasDerivAt_id x).const_mul (√2)
  have := ((hasDerivAt_Phi (√2 * x)).comp x h1).const_mul (1 / √Real.pi)
  rw [← phi_sqrt_two]
  refine this.congr_deriv ?_
  ring

/-- an antiderivative of `(Phi - a)^2` -/
noncomputable def antiSq (a x : ℝ) : ℝ :=
  x * Phi x ^ 2 + 2 * phi x * Phi x - (1 / √Real.pi) * Phi (√2 * x) - 2 * a * (x * Phi x + phi x) + a ^ 2 * x

theorem hasDerivAt_antiSq (a x : ℝ) : HasDerivAt (antiSq a) ((Phi x - a) ^ 2) x := by
  unfold antiSq
  have hP := hasDerivAt_Phi x
  have hp := hasDerivAt_phi x
  have hS := hasDerivAt_Phi_sqrt x
  have h1 := (hasDerivAt_id x).mul (hP.pow 2)
  have h2 := (hp.const_mul 2).mul hP
  have h3 := ((hasDerivAt_id x).mul hP).add hp
  have h4 := (((h1.add h2).sub hS).sub (h3.const_mul (2 * a))).add ((hasDerivAt_id x).const_mul (a ^ 2))
  refine h4.congr_deriv ?_
  simp
  ring

/-- an antiderivative of `(1 - Phi)^2`, vanishing at infinity up to a constant -/
theorem tendsto_antiSq : Tendsto (antiSq 1) atTop (𝓝 (-(1 / √Real.pi))) := by
  have h : antiSq 1 = fun x => (x * (1 - Phi x)) * (1 - Phi x) + (-2) * (phi x * (1 - Phi x)) -
      (1 / √Real.pi) * Phi (√2 * x) := by
    funext x; unfold antiSq; ring
  rw [h]
  have hQ : Tendsto (fun x => 1 - Phi x) atTop (𝓝 0) := by simpa using tendsto_Phi.const_sub 1
  have hs : Tendsto (fun x : ℝ => √2 * x) atTop atTop := tendsto_id.const_mul_atTop (by positivity)
  have h1 := (tendsto_xQ.mul hQ).add ((tendsto_phi.mul hQ).const_mul (-2))
  have h2 := h1.sub ((tendsto_Phi.comp hs).const_mul (1 / √Real.pi))
  simpa using h2

theorem tail_sq (z : ℝ) : IntegrableOn (fun x => (1 - Phi x) ^ 2) (Ioi z) ∧
    ∫ x in Ioi z, (1 - Phi x) ^ 2 = -(1 / √Real.pi) - antiSq 1 z := by
  have hd : ∀ x ∈ Ici z, HasDerivAt (antiSq 1) ((1 - Phi x) ^ 2) x := by
    intro x _
    have := hasDerivAt_antiSq 1 x
    refine this.congr_deriv ?_
    ring
  exact ⟨integrableOn_Ioi_deriv_of_nonneg' hd (fun x _ => sq_nonneg _) tendsto_antiSq,
    integral_Ioi_of_hasDerivAt_of_nonneg' hd (fun x _ => sq_nonneg _) tendsto_antiSq⟩

theorem continuous_Phi : Continuous Phi := continuous_iff_continuousAt.2 fun x => (hasDerivAt_Phi x).continuousAt

theorem mid_sq (a L z : ℝ) : ∫ x in L..z, (Phi x - a) ^ 2 = antiSq a z - antiSq a L :=
  intervalIntegral.integral_eq_sub_of_hasDerivAt (fun x _ => hasDerivAt_antiSq a x)
    (((continuous_Phi.sub continuous_const).pow 2).intervalIntegrable _ _)

/-- the distribution function of the standard normal conditioned on being at least `L` -/
noncomputable def stdTrunc (L x : ℝ) : ℝ := if x < L then 0 else (Phi x - Phi L) / (1 - Phi L)

/-- the integrals left and right of `max y L` -/
theorem crps_std_parts (L y : ℝ) :
    (IntegrableOn (crpsIntegrand (stdTrunc L) y) (Ici (max y L)) ∧
      ∫ x in Ici (max y L), crpsIntegrand (stdTrunc L) y x =
        (-(1 / √Real.pi) - antiSq 1 (max y L)) / (1 - Phi L) ^ 2) ∧
    (IntegrableOn (crpsIntegrand (stdTrunc L) y) (Iio (max y L)) ∧
      ∫ x in Iio (max y L), crpsIntegrand (stdTrunc L) y x =
        if y < L then L - y else (antiSq (Phi L) y - antiSq (Phi L) L) / (1 - Phi L) ^ 2) := by
  have hp : 1 - Phi L ≠ 0 := by linarith [Phi_lt_one L] |> ne_of_gt
  constructor
  · have hz := tail_sq (max y L)
    have heq : EqOn (crpsIntegrand (stdTrunc L) y) (fun x => (1 - Phi x) ^ 2 / (1 - Phi L) ^ 2) (Ici (max y L)) := by
      intro x hx
      have h1 : y ≤ x := (le_max_left _ _).trans hx
      have h2 : ¬ x < L := not_lt.2 ((le_max_right _ _).trans hx)
      simp only [crpsIntegrand, stdTrunc, h1, h2, if_true, if_false]
      field_simp
      ring
    constructor
    · rw [integrableOn_congr_fun heq measurableSet_Ici, integrableOn_Ici_iff_integrableOn_Ioi]
      exact hz.1.div_const _
    · rw [setIntegral_congr_fun measurableSet_Ici heq, integral_Ici_eq_integral_Ioi, integral_div, hz.2]
  · by_cases hy : y < L
    · have hm : max y L = L := max_eq_right hy.le
      have heq : EqOn (crpsIntegrand (stdTrunc L) y) ((Ici y).indicator fun _ => (1 : ℝ)) (Iio L) := by
        intro x hx
        have h2 : x < L := hx
        by_cases h1 : y ≤ x
        · simp [crpsIntegrand, stdTrunc, h1, h2]
        · simp [crpsIntegrand, stdTrunc, h1, h2]
      rw [hm, if_pos hy]
      have hset : Iio L ∩ Ici y = Ico y L := by ext x; simp [and_comm]
      constructor
      · rw [integrableOn_congr_fun heq measurableSet_Iio]
        rw [IntegrableOn, integrable_indicator_iff measurableSet_Ici, IntegrableOn,
          Measure.restrict_restrict measurableSet_Ici, inter_comm, hset]
        exact integrableOn_const (by simp)
      · rw [setIntegral_congr_fun measurableSet_Iio heq, setIntegral_indicator measurableSet_Ici, hset]
        simp [hy.le]
    · have hLy : L ≤ y := not_lt.1 hy
      have hm : max y L = y := max_eq_left hLy
      have heq : EqOn (crpsIntegrand (stdTrunc L) y)
          ((Ici L).indicator fun x => (Phi x - Phi L) ^ 2 / (1 - Phi L) ^ 2) (Iio y) := by
        intro x hx
        have h1 : ¬ y ≤ x := not_le.2 hx
        by_cases h2 : x < L
        · simp [crpsIntegrand, stdTrunc, h1, h2]
        · rw [indicator_of_mem (show x ∈ Ici L from not_lt.1 h2)]
          simp [crpsIntegrand, stdTrunc, h1, h2, div_pow]
      rw [hm, if_neg hy]
      have hset : Iio y ∩ Ici L = Ico L y := by ext x; simp [and_comm]
      constructor
      · rw [integrableOn_congr_fun heq measurableSet_Iio]
        rw [IntegrableOn, integrable_indicator_iff measurableSet_Ici, IntegrableOn,
          Measure.restrict_restrict measurableSet_Ici, inter_comm, hset]
        have : Continuous fun x => (Phi x - Phi L) ^ 2 / (1 - Phi L) ^ 2 :=
          ((continuous_Phi.sub continuous_const).pow 2).div_const _
        exact (this.integrableOn_Icc (a := L) (b := y)).mono_set Ico_subset_Icc_self
      · rw [setIntegral_congr_fun measurableSet_Iio heq, setIntegral_indicator measurableSet_Ici, hset,
          integral_div, ← mid_sq, intervalIntegral.integral_of_le hLy, integral_Ico_eq_integral_Ioo,
          integral_Ioc_eq_integral_Ioo]

/-- the closed form of the score of the truncated standard normal -/
noncomputable def stdCrps (L y : ℝ) : ℝ :=
  let z := if y < L then L else y
  |y - z| + 1 / (1 - Phi L) * z * (2 * Phi z - 1 - Phi L) + 1 / (1 - Phi L) * 2 * phi z -
    (1 / (1 - Phi L)) ^ 2 * 1 / √Real.pi * (1 - Phi (L * √2))

theorem crps_std (L y : ℝ) : Integrable (crpsIntegrand (stdTrunc L) y) ∧
    crpsOf (stdTrunc L) y = stdCrps L y := by
  obtain ⟨⟨i1, e1⟩, i2, e2⟩ := crps_std_parts L y
  have hint : Integrable (crpsIntegrand (stdTrunc L) y) := by
    rw [← integrableOn_univ, ← Iio_union_Ici (a := max y L)]
    exact i2.union i1
  refine ⟨hint, ?_⟩
  have hsplit := integral_add_compl (measurableSet_Iio (a := max y L)) hint
  rw [compl_Iio, e1, e2] at hsplit
  rw [crpsOf, ← hsplit]
  have hp : 1 - Phi L ≠ 0 := by linarith [Phi_lt_one L] |> ne_of_gt
  have hpi : √Real.pi ≠ 0 := by have := Real.pi_pos; positivity
  have hc : √2 * L = L * √2 := mul_comm _ _
  unfold stdCrps
  by_cases hy : y < L
  · rw [max_eq_right hy.le, if_pos hy, if_pos hy]
    have : |y - L| = L - y := by rw [abs_of_neg (by linarith)]; ring
    simp only [this, antiSq, hc]
    field_simp
    ring
  · rw [max_eq_left (not_lt.1 hy), if_neg hy, if_neg hy]
    simp only [sub_self, abs_zero, antiSq, hc]
    field_simp
    ring

theorem crps_trunc (mu sigma l y : ℝ) (hs : 0 < sigma) :
    Integrable (crpsIntegrand (truncNormalCdf mu sigma l) y) ∧
    crpsOf (truncNormalCdf mu sigma l) y = stdCrps ((l - mu) / sigma) ((y - mu) / sigma) * sigma := by
  have hfun : crpsIntegrand (truncNormalCdf mu sigma l) y =
      fun x => crpsIntegrand (stdTrunc ((l - mu) / sigma)) ((y - mu) / sigma) ((x - mu) / sigma) := by
    funext x
    have h1 : (x - mu) / sigma < (l - mu) / sigma ↔ x < l := by
      rw [div_lt_div_iff_of_pos_right hs]; constructor <;> intro h <;> linarith
    have h2 : (y - mu) / sigma ≤ (x - mu) / sigma ↔ y ≤ x := by
      rw [div_le_div_iff_of_pos_right hs]; constructor <;> intro h <;> linarith
    simp only [crpsIntegrand, truncNormalCdf, stdTrunc, h1, h2]
  have hstd := crps_std ((l - mu) / sigma) ((y - mu) / sigma)
  constructor
  · rw [hfun]
    exact ((hstd.1.comp_div hs.ne').comp_sub_right mu)
  · rw [crpsOf, hfun]
    rw [integral_sub_right_eq_self
      (fun x => crpsIntegrand (stdTrunc ((l - mu) / sigma)) ((y - mu) / sigma) (x / sigma)) mu,
      Measure.integral_comp_div (crpsIntegrand (stdTrunc ((l - mu) / sigma)) ((y - mu) / sigma)) sigma,
      smul_eq_mul, abs_of_pos hs, ← hstd.2, crpsOf, mul_comm]

end Lemmas
