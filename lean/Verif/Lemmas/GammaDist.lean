import Verif.Spec.GammaDist
import Mathlib.Analysis.SpecialFunctions.Gamma.Basic
import Mathlib.Analysis.SpecialFunctions.Gamma.Beta
import Mathlib.MeasureTheory.Integral.IntegralEqImproper
import Mathlib.MeasureTheory.Integral.IntervalIntegral.FundThmCalculus
import Mathlib.Analysis.SpecialFunctions.Pow.Deriv
import Mathlib.Analysis.Calculus.Deriv.MeanValue

namespace Lemmas
open Spec MeasureTheory Set Filter Topology

theorem gammaPdf_of_pos {k x : ℝ} (hx : 0 < x) :
    gammaPdf k x = x ^ (k - 1) * Real.exp (-x) / Real.Gamma k := if_pos hx

theorem gammaPdf_of_nonpos {k x : ℝ} (hx : x ≤ 0) : gammaPdf k x = 0 := if_neg (not_lt.2 hx)

theorem gammaPdf_nonneg {k : ℝ} (hk : 0 < k) (x : ℝ) : 0 ≤ gammaPdf k x := by
  unfold gammaPdf
  split
  · have := Real.Gamma_pos_of_pos hk
    positivity
  · exact le_rfl

theorem gammaPdf_indicator (k : ℝ) :
    gammaPdf k = (Ioi (0 : ℝ)).indicator fun x => Real.exp (-x) * x ^ (k - 1) / Real.Gamma k := by
  funext x
  by_cases hx : 0 < x
  · rw [gammaPdf_of_pos hx, indicator_of_mem (show x ∈ Ioi (0 : ℝ) from hx), mul_comm]
  · rw [gammaPdf_of_nonpos (not_lt.1 hx), indicator_of_notMem (show x ∉ Ioi (0 : ℝ) from hx)]

theorem integrable_gammaPdf {k : ℝ} (hk : 0 < k) : Integrable (gammaPdf k) := by
  rw [gammaPdf_indicator, integrable_indicator_iff measurableSet_Ioi]
  exact (Real.GammaIntegral_convergent hk).div_const _

theorem integral_gammaPdf {k : ℝ} (hk : 0 < k) : ∫ x, gammaPdf k x = 1 := by
  rw [gammaPdf_indicator, integral_indicator measurableSet_Ioi, integral_div, ← Real.Gamma_eq_integral hk]
  exact div_self (Real.Gamma_pos_of_pos hk).ne'

theorem gammaCdf_of_nonpos {k x : ℝ} (hx : x ≤ 0) : gammaCdf k x = 0 := by
  unfold gammaCdf
  rw [setIntegral_congr_fun (g := fun _ => (0 : ℝ)) measurableSet_Iic]
  · simp
  · intro t ht
    exact gammaPdf_of_nonpos (le_trans ht hx)

theorem gammaCdf_eq_interval {k : ℝ} (hk : 0 < k) (x : ℝ) : gammaCdf k x = ∫ t in (0 : ℝ)..x, gammaPdf k t := by
  rw [← intervalIntegral.integral_Iic_sub_Iic (integrable_gammaPdf hk).integrableOn
    (integrable_gammaPdf hk).integrableOn]
  have := gammaCdf_of_nonpos (k := k) (le_refl 0)
  unfold gammaCdf at this ⊢
  rw [this, sub_zero]

theorem continuous_gammaCdf {k : ℝ} (hk : 0 < k) : Continuous (gammaCdf k) := by
  rw [show gammaCdf k = fun x => ∫ t in (0 : ℝ)..x, gammaPdf k t from funext (gammaCdf_eq_interval hk)]
  exact intervalIntegral.continuous_primitive (fun a b => (integrable_gammaPdf hk).intervalIntegrable) 0

theorem continuousAt_gammaPdf {k x : ℝ} (hx : 0 < x) : ContinuousAt (gammaPdf k) x := by
  have : ContinuousAt (fun x : ℝ => x ^ (k - 1) * Real.exp (-x) / Real.Gamma k) x := by
    apply ContinuousAt.div_const
    exact (Real.continuousAt_rpow_const _ _ (Or.inl hx.ne')).mul (by fun_prop)
  refine this.congr ?_
  filter_upwards [lt_mem_nhds hx] with t ht
  exact (gammaPdf_of_pos ht).symm

theorem stronglyMeasurable_gammaPdf {k : ℝ} (hk : 0 < k) {x : ℝ} :
    StronglyMeasurableAtFilter (gammaPdf k) (𝓝 x) :=
  ⟨univ, univ_mem, by simpa using (integrable_gammaPdf hk).aestronglyMeasurable⟩

theorem hasDerivAt_gammaCdf {k x : ℝ} (hk : 0 < k) (hx : 0 < x) : HasDerivAt (gammaCdf k) (gammaPdf k x) x := by
  rw [show gammaCdf k = fun x => ∫ t in (0 : ℝ)..x, gammaPdf k t from funext (gammaCdf_eq_interval hk)]
  exact intervalIntegral.integral_hasDerivAt_right (integrable_gammaPdf hk).intervalIntegrable
    (stronglyMeasurable_gammaPdf hk) (continuousAt_gammaPdf hx)

theorem tendsto_gammaCdf {k : ℝ} (hk : 0 < k) : Tendsto (gammaCdf k) atTop (𝓝 1) := by
  have := (aecover_Iic (μ := volume) (tendsto_id (α := ℝ) (x := atTop))).integral_tendsto_of_countably_generated
    (integrable_gammaPdf hk)
  rw [integral_gammaPdf hk] at this
  exact this

theorem mul_gammaPdf {k : ℝ} (hk : 0 < k) (x : ℝ) : x * gammaPdf k x = k * gammaPdf (k + 1) x := by
  by_cases hx : 0 < x
  · rw [gammaPdf_of_pos hx, gammaPdf_of_pos hx, Real.Gamma_add_one hk.ne', add_sub_cancel_right,
      Real.rpow_sub_one hx.ne']
    have := (Real.Gamma_pos_of_pos hk).ne'
    field_simp
  · rw [gammaPdf_of_nonpos (not_lt.1 hx), gammaPdf_of_nonpos (not_lt.1 hx)]; simp

/-- `F_k = F_{k+1} + f_{k+1}` -/
theorem gammaCdf_succ {k : ℝ} (hk : 0 < k) (x : ℝ) : gammaCdf k x = gammaCdf (k + 1) x + gammaPdf (k + 1) x := by
  by_cases hx : 0 < x
  · have hk1 : 0 < k + 1 := by linarith
    have hG := (Real.Gamma_pos_of_pos hk).ne'
    have hd : ∀ t ∈ Ioo 0 x, HasDerivAt
        (fun t => gammaCdf (k + 1) t + t ^ k * Real.exp (-t) / Real.Gamma (k + 1)) (gammaPdf k t) t := by
      intro t ht
      have ht0 : 0 < t := ht.1
      have h1 := hasDerivAt_gammaCdf hk1 ht0
      have h2 := Real.hasDerivAt_rpow_const (x := t) (p := k) (Or.inl ht0.ne')
      have h3 : HasDerivAt (fun t : ℝ => Real.exp (-t)) (-Real.exp (-t)) t := by
        have := (hasDerivAt_neg t).exp
        simpa using this
      have h4 := h1.add ((h2.mul h3).div_const (Real.Gamma (k + 1)))
      refine h4.congr_deriv ?_
      rw [gammaPdf_of_pos ht0, gammaPdf_of_pos ht0, Real.Gamma_add_one hk.ne', add_sub_cancel_right]
      field_simp
      ring
    have hc : ContinuousOn (fun t => gammaCdf (k + 1) t + t ^ k * Real.exp (-t) / Real.Gamma (k + 1)) (Icc 0 x) := by
      apply Continuous.continuousOn
      have := continuous_gammaCdf hk1
      have h2 : Continuous fun t : ℝ => t ^ k := Real.continuous_rpow_const hk.le
      fun_prop
    have := intervalIntegral.integral_eq_sub_of_hasDerivAt_of_le hx.le hc hd
      (integrable_gammaPdf hk).intervalIntegrable
    rw [← gammaCdf_eq_interval hk] at this
    rw [this, gammaPdf_of_pos hx, gammaCdf_of_nonpos le_rfl, Real.zero_rpow hk.ne', add_sub_cancel_right]
    simp
  · rw [gammaCdf_of_nonpos (not_lt.1 hx), gammaCdf_of_nonpos (not_lt.1 hx), gammaPdf_of_nonpos (not_lt.1 hx)]
    simp

theorem gammaCdf_compl {k : ℝ} (hk : 0 < k) (x : ℝ) : 1 - gammaCdf k x = ∫ t in Ioi x, gammaPdf k t := by
  have := integral_add_compl (measurableSet_Iic (a := x)) (integrable_gammaPdf hk)
  rw [integral_gammaPdf hk, compl_Iic] at this
  unfold gammaCdf
  linarith

theorem gammaCdf_le_one {k : ℝ} (hk : 0 < k) (x : ℝ) : gammaCdf k x ≤ 1 := by
  have : 0 ≤ 1 - gammaCdf k x := by
    rw [gammaCdf_compl hk]
    exact setIntegral_nonneg measurableSet_Ioi fun t _ => gammaPdf_nonneg hk t
  linarith

/-- `x (1 - F_k(x)) <= k (1 - F_{k+1}(x))` -/
theorem gamma_mills {k : ℝ} (hk : 0 < k) (x : ℝ) : x * (1 - gammaCdf k x) ≤ k * (1 - gammaCdf (k + 1) x) := by
  rw [gammaCdf_compl hk, gammaCdf_compl (by linarith : 0 < k + 1), ← integral_const_mul, ← integral_const_mul]
  apply setIntegral_mono_on ((integrable_gammaPdf hk).integrableOn.const_mul x)
    ((integrable_gammaPdf (by linarith : 0 < k + 1)).integrableOn.const_mul k) measurableSet_Ioi
  intro t ht
  rw [← mul_gammaPdf hk]
  exact mul_le_mul_of_nonneg_right (le_of_lt ht) (gammaPdf_nonneg hk t)

theorem tendsto_xQ_gamma {k : ℝ} (hk : 0 < k) :
    Tendsto (fun x => x * (1 - gammaCdf k x)) atTop (𝓝 0) := by
  have hlim : Tendsto (fun x => k * (1 - gammaCdf (k + 1) x)) atTop (𝓝 0) := by
    simpa using ((tendsto_gammaCdf (by linarith : 0 < k + 1)).const_sub 1).const_mul k
  refine tendsto_of_tendsto_of_tendsto_of_le_of_le' tendsto_const_nhds hlim ?_ ?_
  · filter_upwards [eventually_ge_atTop (0 : ℝ)] with x hx
    exact mul_nonneg hx (by linarith [gammaCdf_le_one hk x])
  · filter_upwards with x
    exact gamma_mills hk x

/-- `(k / pi) B(1/2, k + 1/2)` -/
noncomputable def gammaBeta (k : ℝ) : ℝ :=
  k / Real.pi * (Real.Gamma (1 / 2) * Real.Gamma (k + 1 / 2) / Real.Gamma (1 / 2 + (k + 1 / 2)))

theorem gammaBeta_deriv {k x : ℝ} (hk : 0 < k) (hx : 0 < x) :
    gammaBeta k * (2 * gammaPdf (2 * k) (2 * x)) = 2 * k * gammaPdf k x * gammaPdf (k + 1) x := by
  have hdup := Real.Gamma_mul_Gamma_add_half k
  have hG := (Real.Gamma_pos_of_pos hk).ne'
  have hG2 := (Real.Gamma_pos_of_pos (by linarith : 0 < 2 * k)).ne'
  have hpi := Real.pi_pos
  have hsq : √Real.pi * √Real.pi = Real.pi := Real.mul_self_sqrt hpi.le
  have hspi : √Real.pi ≠ 0 := by positivity
  have e1 : Real.Gamma (k + 1 / 2) = Real.Gamma (2 * k) * 2 ^ (1 - 2 * k) * √Real.pi / Real.Gamma k := by
    rw [eq_div_iff hG, ← hdup]; ring
  have e2 : (1 : ℝ) / 2 + (k + 1 / 2) = k + 1 := by ring
  have e3 : (2 * x) ^ (2 * k - 1) = 2 ^ (2 * k - 1) * (x ^ (k - 1) * x ^ k) := by
    rw [Real.mul_rpow (by norm_num) hx.le, ← Real.rpow_add hx]; congr 2; ring
  have e4 : (2 : ℝ) ^ (1 - 2 * k) * 2 ^ (2 * k - 1) = 1 := by
    rw [← Real.rpow_add (by norm_num)]; simp
  have e5 : Real.exp (-(2 * x)) = Real.exp (-x) * Real.exp (-x) := by rw [← Real.exp_add]; congr 1; ring
  unfold gammaBeta
  rw [gammaPdf_of_pos (by linarith : 0 < 2 * x), gammaPdf_of_pos hx, gammaPdf_of_pos hx, Real.Gamma_one_half_eq, e1, e2,
    Real.Gamma_add_one hk.ne', e3, e5, add_sub_cancel_right]
  have hk' := hk.ne'
  field_simp
  calc _ = (√Real.pi * √Real.pi) * ((2 : ℝ) ^ (1 - 2 * k) * 2 ^ (2 * k - 1)) := by ring_nf
    _ = _ := by rw [hsq, e4]; ring

/-- an antiderivative of `F_k^2` -/
noncomputable def gammaAnti (k x : ℝ) : ℝ :=
  x * gammaCdf k x ^ 2 + k * gammaCdf k x ^ 2 - 2 * k * (gammaCdf (k + 1) x * gammaCdf k x) -
    gammaBeta k * gammaCdf (2 * k) (2 * x)

/-- an antiderivative of `F_k` -/
noncomputable def gammaAnti1 (k x : ℝ) : ℝ := x * gammaCdf k x - k * gammaCdf (k + 1) x

theorem hasDerivAt_gammaAnti {k x : ℝ} (hk : 0 < k) (hx : 0 < x) :
    HasDerivAt (gammaAnti k) (gammaCdf k x ^ 2) x := by
  have hF := hasDerivAt_gammaCdf hk hx
  have hF1 := hasDerivAt_gammaCdf (by linarith : 0 < k + 1) hx
  have h2 : HasDerivAt (fun x : ℝ => 2 * x) 2 x := by simpa using (hasDerivAt_id x).const_mul 2
  have hF2 := (hasDerivAt_gammaCdf (by linarith : 0 < 2 * k) (by linarith : 0 < 2 * x)).comp x h2
  have h := ((((hasDerivAt_id x).mul (hF.pow 2)).add ((hF.pow 2).const_mul k)).sub
    ((hF1.mul hF).const_mul (2 * k))).sub (hF2.const_mul (gammaBeta k))
  refine h.congr_deriv ?_
  have hb := gammaBeta_deriv hk hx
  have hm := mul_gammaPdf hk x
  have hs := gammaCdf_succ hk x
  simp
  have : gammaCdf (k + 1) x = gammaCdf k x - gammaPdf (k + 1) x := by linarith
  rw [this]
  linear_combination (2 * gammaCdf k x) * hm - hb

theorem hasDerivAt_gammaAnti1 {k x : ℝ} (hk : 0 < k) (hx : 0 < x) :
    HasDerivAt (gammaAnti1 k) (gammaCdf k x) x := by
  have hF := hasDerivAt_gammaCdf hk hx
  have hF1 := hasDerivAt_gammaCdf (by linarith : 0 < k + 1) hx
  have h := ((hasDerivAt_id x).mul hF).sub (hF1.const_mul k)
  refine h.congr_deriv ?_
  have hm := mul_gammaPdf hk x
  simp
  linarith

theorem continuous_gammaAnti {k : ℝ} (hk : 0 < k) : Continuous (gammaAnti k) := by
  have h1 := continuous_gammaCdf hk
  have h2 := continuous_gammaCdf (by linarith : 0 < k + 1)
  have h3 := (continuous_gammaCdf (by linarith : 0 < 2 * k)).comp (continuous_const_mul (2 : ℝ))
  unfold gammaAnti
  simp only [Function.comp_def] at h3
  fun_prop

theorem continuous_gammaAnti1 {k : ℝ} (hk : 0 < k) : Continuous (gammaAnti1 k) := by
  have h1 := continuous_gammaCdf hk
  have h2 := continuous_gammaCdf (by linarith : 0 < k + 1)
  unfold gammaAnti1
  fun_prop

theorem gamma_mid {k : ℝ} (hk : 0 < k) {a b : ℝ} (hab : a ≤ b) :
    ∫ x in a..b, gammaCdf k x ^ 2 = gammaAnti k b - gammaAnti k a := by
  apply integral_eq_of_hasDerivAt_off_countable_of_le (s := {0}) _ _ hab (countable_singleton 0)
    (continuous_gammaAnti hk).continuousOn
  · intro x hx
    have hx0 : x ≠ 0 := hx.2
    rcases lt_or_gt_of_ne hx0 with h | h
    · have : HasDerivAt (fun _ : ℝ => (0 : ℝ)) (gammaCdf k x ^ 2) x := by
        rw [gammaCdf_of_nonpos h.le]; simpa using hasDerivAt_const x (0 : ℝ)
      refine this.congr_of_eventuallyEq ?_
      filter_upwards [gt_mem_nhds h] with t ht
      have ht' : t ≤ 0 := le_of_lt ht
      simp [gammaAnti, gammaCdf_of_nonpos ht', gammaCdf_of_nonpos (by linarith : 2 * t ≤ 0)]
    · exact hasDerivAt_gammaAnti hk h
  · exact ((continuous_gammaCdf hk).pow 2).intervalIntegrable _ _

/-- an antiderivative of `(1 - F_k)^2` -/
noncomputable def gammaAntiQ (k x : ℝ) : ℝ := gammaAnti k x - 2 * gammaAnti1 k x + x

theorem tendsto_gammaAntiQ {k : ℝ} (hk : 0 < k) : Tendsto (gammaAntiQ k) atTop (𝓝 (k - gammaBeta k)) := by
  have h : gammaAntiQ k = fun x => (x * (1 - gammaCdf k x)) * (1 - gammaCdf k x) + k * gammaCdf k x ^ 2 -
      2 * k * (gammaCdf (k + 1) x * gammaCdf k x) + 2 * k * gammaCdf (k + 1) x -
      gammaBeta k * gammaCdf (2 * k) (2 * x) := by
    funext x; unfold gammaAntiQ gammaAnti gammaAnti1; ring
  rw [h]
  have hF := tendsto_gammaCdf hk
  have hF1 := tendsto_gammaCdf (by linarith : 0 < k + 1)
  have hs : Tendsto (fun x : ℝ => 2 * x) atTop atTop := tendsto_id.const_mul_atTop (by norm_num)
  have hF2 := (tendsto_gammaCdf (by linarith : 0 < 2 * k)).comp hs
  have := (((((tendsto_xQ_gamma hk).mul (hF.const_sub 1)).add ((hF.pow 2).const_mul k)).sub
    ((hF1.mul hF).const_mul (2 * k))).add (hF1.const_mul (2 * k))).sub (hF2.const_mul (gammaBeta k))
  rw [show 0 * (1 - 1) + k * 1 ^ 2 - 2 * k * (1 * 1) + 2 * k * 1 - gammaBeta k * 1 = k - gammaBeta k by ring] at this
  exact this

theorem gamma_tail_nonneg {k : ℝ} (hk : 0 < k) {z : ℝ} (hz : 0 ≤ z) :
    IntegrableOn (fun x => (1 - gammaCdf k x) ^ 2) (Ioi z) ∧
    ∫ x in Ioi z, (1 - gammaCdf k x) ^ 2 = (k - gammaBeta k) - gammaAntiQ k z := by
  have hc : Continuous (gammaAntiQ k) := by
    have h1 := continuous_gammaAnti hk
    have h2 := continuous_gammaAnti1 hk
    unfold gammaAntiQ
    fun_prop
  have hd : ∀ x ∈ Ioi z, HasDerivAt (gammaAntiQ k) ((1 - gammaCdf k x) ^ 2) x := by
    intro x hx
    have hx0 : 0 < x := lt_of_le_of_lt hz hx
    have := ((hasDerivAt_gammaAnti hk hx0).sub ((hasDerivAt_gammaAnti1 hk hx0).const_mul 2)).add (hasDerivAt_id x)
    refine this.congr_deriv ?_
    ring
  exact ⟨integrableOn_Ioi_deriv_of_nonneg hc.continuousWithinAt hd (fun x _ => sq_nonneg _) (tendsto_gammaAntiQ hk),
    integral_Ioi_of_hasDerivAt_of_nonneg hc.continuousWithinAt hd (fun x _ => sq_nonneg _) (tendsto_gammaAntiQ hk)⟩

theorem gammaAntiQ_of_nonpos {k x : ℝ} (hx : x ≤ 0) : gammaAntiQ k x = x := by
  simp [gammaAntiQ, gammaAnti, gammaAnti1, gammaCdf_of_nonpos hx, gammaCdf_of_nonpos (by linarith : 2 * x ≤ 0)]

theorem gamma_tail {k : ℝ} (hk : 0 < k) (z : ℝ) :
    IntegrableOn (fun x => (1 - gammaCdf k x) ^ 2) (Ioi z) ∧
    ∫ x in Ioi z, (1 - gammaCdf k x) ^ 2 = (k - gammaBeta k) - gammaAntiQ k z := by
  rcases le_or_gt 0 z with hz | hz
  · exact gamma_tail_nonneg hk hz
  · obtain ⟨i0, e0⟩ := gamma_tail_nonneg hk (le_refl (0 : ℝ))
    have hcont : Continuous fun x => (1 - gammaCdf k x) ^ 2 := (continuous_const.sub (continuous_gammaCdf hk)).pow 2
    have i1 : IntegrableOn (fun x => (1 - gammaCdf k x) ^ 2) (Ioc z 0) :=
      (hcont.integrableOn_Icc (a := z) (b := 0)).mono_set Ioc_subset_Icc_self
    have hu : Ioc z 0 ∪ Ioi 0 = Ioi z := Ioc_union_Ioi_eq_Ioi hz.le
    constructor
    · rw [← hu]; exact i1.union i0
    · rw [← hu, setIntegral_union (by
        rw [Set.disjoint_left]; intro t h1 h2; exact absurd h1.2 (not_le.2 h2)) measurableSet_Ioi i1 i0, e0,
        gammaAntiQ_of_nonpos le_rfl, gammaAntiQ_of_nonpos hz.le,
        setIntegral_congr_fun (g := fun _ => (1 : ℝ)) measurableSet_Ioc (fun t ht => by
          simp only []; rw [gammaCdf_of_nonpos ht.2]; norm_num)]
      simp [hz.le]
      ring

/-- the gamma distribution function with everything below `c` moved to `c` -/
noncomputable def stdCensored (k c x : ℝ) : ℝ := if x < c then 0 else gammaCdf k x

/-- the closed form -/
noncomputable def stdGammaCrps (k c y : ℝ) : ℝ :=
  y * (2 * gammaCdf k y - 1) -
    k * (2 * gammaCdf (k + 1) y - 1 + gammaCdf k c ^ 2 - 2 * gammaCdf (k + 1) c * gammaCdf k c) -
    c * gammaCdf k c ^ 2 - gammaBeta k * (1 - gammaCdf (2 * k) (2 * c))

theorem crps_stdCensored {k : ℝ} (hk : 0 < k) {c y : ℝ} (hcy : c ≤ y) :
    Integrable (crpsIntegrand (stdCensored k c) y) ∧ crpsOf (stdCensored k c) y = stdGammaCrps k c y := by
  have hz := gamma_tail hk y
  have heq : EqOn (crpsIntegrand (stdCensored k c) y) (fun x => (1 - gammaCdf k x) ^ 2) (Ici y) := by
    intro x hx
    have h1 : y ≤ x := hx
    have h2 : ¬ x < c := not_lt.2 (hcy.trans hx)
    simp only [crpsIntegrand, stdCensored, h1, h2, if_true, if_false]
    ring
  have i1 : IntegrableOn (crpsIntegrand (stdCensored k c) y) (Ici y) := by
    rw [integrableOn_congr_fun heq measurableSet_Ici, integrableOn_Ici_iff_integrableOn_Ioi]
    exact hz.1
  have e1 : ∫ x in Ici y, crpsIntegrand (stdCensored k c) y x = (k - gammaBeta k) - gammaAntiQ k y := by
    rw [setIntegral_congr_fun measurableSet_Ici heq, integral_Ici_eq_integral_Ioi, hz.2]
  have heq2 : EqOn (crpsIntegrand (stdCensored k c) y) ((Ici c).indicator fun x => gammaCdf k x ^ 2) (Iio y) := by
    intro x hx
    have h1 : ¬ y ≤ x := not_le.2 hx
    by_cases h2 : x < c
    · rw [indicator_of_notMem (show x ∉ Ici c from not_le.2 h2)]
      simp [crpsIntegrand, stdCensored, h1, h2]
    · rw [indicator_of_mem (show x ∈ Ici c from not_lt.1 h2)]
      simp [crpsIntegrand, stdCensored, h1, h2]
  have hset : Iio y ∩ Ici c = Ico c y := by ext x; simp [and_comm]
  have i2 : IntegrableOn (crpsIntegrand (stdCensored k c) y) (Iio y) := by
    rw [integrableOn_congr_fun heq2 measurableSet_Iio]
    rw [IntegrableOn, integrable_indicator_iff measurableSet_Ici, IntegrableOn,
      Measure.restrict_restrict measurableSet_Ici, inter_comm, hset]
    exact (((continuous_gammaCdf hk).pow 2).integrableOn_Icc (a := c) (b := y)).mono_set Ico_subset_Icc_self
  have e2 : ∫ x in Iio y, crpsIntegrand (stdCensored k c) y x = gammaAnti k y - gammaAnti k c := by
    rw [setIntegral_congr_fun measurableSet_Iio heq2, setIntegral_indicator measurableSet_Ici, hset,
      ← gamma_mid hk hcy, intervalIntegral.integral_of_le hcy, integral_Ico_eq_integral_Ioo,
      integral_Ioc_eq_integral_Ioo]
  have hint : Integrable (crpsIntegrand (stdCensored k c) y) := by
    rw [← integrableOn_univ, ← Iio_union_Ici (a := y)]
    exact i2.union i1
  refine ⟨hint, ?_⟩
  have hsplit := integral_add_compl (measurableSet_Iio (a := y)) hint
  rw [compl_Iio, e1, e2] at hsplit
  rw [crpsOf, ← hsplit]
  simp only [gammaAntiQ, gammaAnti, gammaAnti1, stdGammaCrps]
  ring

theorem stdCensored_of_nonpos {k c : ℝ} (hc : c ≤ 0) : stdCensored k c = gammaCdf k := by
  funext x
  unfold stdCensored
  split
  · rename_i h; rw [gammaCdf_of_nonpos (h.le.trans hc)]
  · rfl

theorem stdGammaCrps_of_nonpos {k c c' y : ℝ} (hc : c ≤ 0) (hc' : c' ≤ 0) :
    stdGammaCrps k c y = stdGammaCrps k c' y := by
  simp [stdGammaCrps, gammaCdf_of_nonpos hc, gammaCdf_of_nonpos hc', gammaCdf_of_nonpos (by linarith : 2 * c ≤ 0),
    gammaCdf_of_nonpos (by linarith : 2 * c' ≤ 0)]

/-- without censoring the observation may be anywhere -/
theorem crps_gammaCdf {k : ℝ} (hk : 0 < k) {c : ℝ} (hc : c ≤ 0) (y : ℝ) :
    Integrable (crpsIntegrand (gammaCdf k) y) ∧ crpsOf (gammaCdf k) y = stdGammaCrps k c y := by
  have h0 : min c y ≤ 0 := (min_le_left _ _).trans hc
  have := crps_stdCensored hk (c := min c y) (y := y) (min_le_right _ _)
  rwa [stdCensored_of_nonpos h0, stdGammaCrps_of_nonpos h0 hc] at this

theorem gammaCdf_pos {k x : ℝ} (hk : 0 < k) (hx : 0 < x) : 0 < gammaCdf k x := by
  have hmono : StrictMonoOn (gammaCdf k) (Ici 0) := by
    apply strictMonoOn_of_deriv_pos (convex_Ici 0) (continuous_gammaCdf hk).continuousOn
    intro t ht
    rw [interior_Ici] at ht
    rw [(hasDerivAt_gammaCdf hk ht).deriv, gammaPdf_of_pos ht]
    have := Real.Gamma_pos_of_pos hk
    have ht' : 0 < t := ht
    positivity
  have := hmono (show (0 : ℝ) ∈ Ici 0 from le_refl (0 : ℝ)) (show x ∈ Ici (0 : ℝ) from hx.le) hx
  rwa [gammaCdf_of_nonpos le_rfl] at this

theorem gammaAnti_pos {k x : ℝ} (hk : 0 < k) (hx : 0 < x) : 0 < gammaAnti k x := by
  have hmono : StrictMonoOn (gammaAnti k) (Ici 0) := by
    apply strictMonoOn_of_deriv_pos (convex_Ici 0) (continuous_gammaAnti hk).continuousOn
    intro t ht
    rw [interior_Ici] at ht
    rw [(hasDerivAt_gammaAnti hk ht).deriv]
    have := gammaCdf_pos hk ht
    positivity
  have := hmono (show (0 : ℝ) ∈ Ici 0 from le_refl (0 : ℝ)) (show x ∈ Ici (0 : ℝ) from hx.le) hx
  simpa [gammaAnti, gammaCdf_of_nonpos] using this

theorem gammaAnti1_lt {k c y : ℝ} (hk : 0 < k) (hc : 0 < c) (hy : y < c) : gammaAnti1 k y < gammaAnti1 k c := by
  have hmono : StrictMonoOn (gammaAnti1 k) (Ici 0) := by
    apply strictMonoOn_of_deriv_pos (convex_Ici 0) (continuous_gammaAnti1 hk).continuousOn
    intro t ht
    rw [interior_Ici] at ht
    rw [(hasDerivAt_gammaAnti1 hk ht).deriv]
    exact gammaCdf_pos hk ht
  have h0 : gammaAnti1 k y = gammaAnti1 k (max y 0) := by
    rcases le_total y 0 with h | h
    · rw [max_eq_right h]; simp [gammaAnti1, gammaCdf_of_nonpos h, gammaCdf_of_nonpos]
    · rw [max_eq_left h]
  rw [h0]
  exact hmono (Set.mem_Ici.2 (le_max_right y 0)) (show c ∈ Ici (0 : ℝ) from hc.le) (max_lt hy hc)

/-- censoring lowers the score of an observation above the bound -/
theorem stdGammaCrps_lt {k : ℝ} (hk : 0 < k) {c : ℝ} (hc : 0 < c) (y : ℝ) :
    stdGammaCrps k c y < stdGammaCrps k 0 y := by
  have : stdGammaCrps k 0 y - stdGammaCrps k c y = gammaAnti k c := by
    simp only [stdGammaCrps, gammaAnti]
    simp only [gammaCdf_of_nonpos (le_refl (0 : ℝ)), mul_zero]
    ring
  linarith [gammaAnti_pos hk hc]

/-- the score of an observation below the censoring point -/
theorem crps_stdCensored_below {k : ℝ} (hk : 0 < k) {c y : ℝ} (hcy : y < c) :
    Integrable (crpsIntegrand (stdCensored k c) y) ∧
    crpsOf (stdCensored k c) y = stdGammaCrps k c y + 2 * (gammaAnti1 k c - gammaAnti1 k y) := by
  have hz := gamma_tail hk c
  have heq : EqOn (crpsIntegrand (stdCensored k c) y) (fun x => (1 - gammaCdf k x) ^ 2) (Ici c) := by
    intro x hx
    have h1 : y ≤ x := hcy.le.trans hx
    have h2 : ¬ x < c := not_lt.2 hx
    simp only [crpsIntegrand, stdCensored, h1, h2, if_true, if_false]
    ring
  have i1 : IntegrableOn (crpsIntegrand (stdCensored k c) y) (Ici c) := by
    rw [integrableOn_congr_fun heq measurableSet_Ici, integrableOn_Ici_iff_integrableOn_Ioi]
    exact hz.1
  have e1 : ∫ x in Ici c, crpsIntegrand (stdCensored k c) y x = (k - gammaBeta k) - gammaAntiQ k c := by
    rw [setIntegral_congr_fun measurableSet_Ici heq, integral_Ici_eq_integral_Ioi, hz.2]
  have heq2 : EqOn (crpsIntegrand (stdCensored k c) y) ((Ici y).indicator fun _ => (1 : ℝ)) (Iio c) := by
    intro x hx
    have h2 : x < c := hx
    by_cases h1 : y ≤ x
    · simp [crpsIntegrand, stdCensored, h1, h2]
    · simp [crpsIntegrand, stdCensored, h1, h2]
  have hset : Iio c ∩ Ici y = Ico y c := by ext x; simp [and_comm]
  have i2 : IntegrableOn (crpsIntegrand (stdCensored k c) y) (Iio c) := by
    rw [integrableOn_congr_fun heq2 measurableSet_Iio]
    rw [IntegrableOn, integrable_indicator_iff measurableSet_Ici, IntegrableOn,
      Measure.restrict_restrict measurableSet_Ici, inter_comm, hset]
    exact integrableOn_const (by simp)
  have e2 : ∫ x in Iio c, crpsIntegrand (stdCensored k c) y x = c - y := by
    rw [setIntegral_congr_fun measurableSet_Iio heq2, setIntegral_indicator measurableSet_Ici, hset]
    simp [hcy.le]
  have hint : Integrable (crpsIntegrand (stdCensored k c) y) := by
    rw [← integrableOn_univ, ← Iio_union_Ici (a := c)]
    exact i2.union i1
  refine ⟨hint, ?_⟩
  have hsplit := integral_add_compl (measurableSet_Iio (a := c)) hint
  rw [compl_Iio, e1, e2] at hsplit
  rw [crpsOf, ← hsplit]
  simp only [gammaAntiQ, gammaAnti, gammaAnti1, stdGammaCrps]
  ring

/-- change of variables for a score of a located and scaled distribution -/
theorem crps_scale (H F : ℝ → ℝ) (b th y : ℝ) (ht : 0 < th) (hF : ∀ x, F x = H ((x - b) / th))
    (hint : Integrable (crpsIntegrand H ((y - b) / th))) :
    Integrable (crpsIntegrand F y) ∧ crpsOf F y = crpsOf H ((y - b) / th) * th := by
  have hfun : crpsIntegrand F y = fun x => crpsIntegrand H ((y - b) / th) ((x - b) / th) := by
    funext x
    have h2 : (y - b) / th ≤ (x - b) / th ↔ y ≤ x := by
      rw [div_le_div_iff_of_pos_right ht]; constructor <;> intro h <;> linarith
    simp only [crpsIntegrand, hF, h2]
  constructor
  · rw [hfun]
    exact ((hint.comp_div ht.ne').comp_sub_right b)
  · rw [crpsOf, hfun]
    rw [integral_sub_right_eq_self (fun x => crpsIntegrand H ((y - b) / th) (x / th)) b,
      Measure.integral_comp_div (crpsIntegrand H ((y - b) / th)) th,
      smul_eq_mul, abs_of_pos ht, crpsOf, mul_comm]

theorem censoredGammaCdf_eq {mu sigma shift : ℝ} (hm : 0 < mu) (hs : 0 < sigma) (x : ℝ) :
    censoredGammaCdf mu sigma shift x =
      stdCensored ((mu / sigma) ^ 2) (-shift / (sigma ^ 2 / mu)) ((x - shift) / (sigma ^ 2 / mu)) := by
  have ht : 0 < sigma ^ 2 / mu := by positivity
  have h1 : (x - shift) / (sigma ^ 2 / mu) < -shift / (sigma ^ 2 / mu) ↔ x < 0 := by
    rw [div_lt_div_iff_of_pos_right ht]; constructor <;> intro h <;> linarith
  simp only [censoredGammaCdf, stdCensored, h1]

theorem crps_censoredGamma {mu sigma shift y : ℝ} (hm : 0 < mu) (hs : 0 < sigma) (hy : 0 ≤ y) :
    Integrable (crpsIntegrand (censoredGammaCdf mu sigma shift) y) ∧
    crpsOf (censoredGammaCdf mu sigma shift) y =
      stdGammaCrps ((mu / sigma) ^ 2) (-shift / (sigma ^ 2 / mu)) ((y - shift) / (sigma ^ 2 / mu)) *
        (sigma ^ 2 / mu) := by
  have hk : 0 < (mu / sigma) ^ 2 := by positivity
  have ht : 0 < sigma ^ 2 / mu := by positivity
  have hstd := crps_stdCensored hk (c := -shift / (sigma ^ 2 / mu)) (y := (y - shift) / (sigma ^ 2 / mu)) (by
    rw [div_le_div_iff_of_pos_right ht]; linarith)
  have := crps_scale _ _ shift _ y ht (censoredGammaCdf_eq hm hs) hstd.1
  rwa [hstd.2] at this

end Lemmas
