import Verif.Spec.Honest
import Mathlib.MeasureTheory.Integral.Prod
import Mathlib.MeasureTheory.Constructions.BorelSpace.Order
import Mathlib.MeasureTheory.Measure.Lebesgue.Basic
import Mathlib.MeasureTheory.Integral.IntervalIntegral.Basic

/-! The expected score when the observation is drawn from a distribution. -/

namespace Lemmas
open Spec MeasureTheory Set

/-- between zero and one and measurable -/
structure UnitFn (F : ℝ → ℝ) : Prop where
  meas : Measurable F
  lo : ∀ x, 0 ≤ F x
  hi : ∀ x, F x ≤ 1

theorem crpsIntegrand_le_one {F : ℝ → ℝ} (hF : UnitFn F) (y x : ℝ) : crpsIntegrand F y x ≤ 1 := by
  have h1 := hF.lo x
  have h2 := hF.hi x
  unfold crpsIntegrand
  split <;> nlinarith

theorem crpsIntegrand_nonneg (F : ℝ → ℝ) (y x : ℝ) : 0 ≤ crpsIntegrand F y x := sq_nonneg _

theorem measurable_crpsIntegrand {F : ℝ → ℝ} (hF : UnitFn F) :
    Measurable fun p : ℝ × ℝ => crpsIntegrand F p.1 p.2 := by
  unfold crpsIntegrand
  refine ((hF.meas.comp measurable_snd).sub ?_).pow_const 2
  exact Measurable.ite (measurableSet_le measurable_fst measurable_snd) measurable_const measurable_const

/-- moving the observation changes the integrand in between only -/
theorem crpsIntegrand_move {F : ℝ → ℝ} (hF : UnitFn F) (y z x : ℝ) :
    |crpsIntegrand F y x - crpsIntegrand F z x| ≤ (uIcc y z).indicator (fun _ => (1 : ℝ)) x := by
  by_cases hx : x ∈ uIcc y z
  · rw [indicator_of_mem hx, abs_le]
    have a := crpsIntegrand_le_one hF y x
    have b := crpsIntegrand_le_one hF z x
    have a' := crpsIntegrand_nonneg F y x
    have b' := crpsIntegrand_nonneg F z x
    constructor <;> linarith
  · rw [indicator_of_notMem hx]
    have : (y ≤ x ↔ z ≤ x) := by
      rw [mem_uIcc, not_or, not_and_or, not_and_or] at hx
      obtain ⟨h1, h2⟩ := hx
      constructor
      · intro h
        rcases h1 with h1 | h1
        · exact absurd h h1
        · linarith
      · intro h
        rcases h2 with h2 | h2
        · exact absurd h h2
        · linarith
    simp only [crpsIntegrand, this, sub_self, abs_zero, le_refl]

theorem integrable_move {F : ℝ → ℝ} (hF : UnitFn F) {y : ℝ} (h : Integrable (crpsIntegrand F y)) (z : ℝ) :
    Integrable (crpsIntegrand F z) ∧ |crpsOf F z - crpsOf F y| ≤ |z - y| := by
  have hm : ∀ t, AEStronglyMeasurable (crpsIntegrand F t) := fun t =>
    ((measurable_crpsIntegrand hF).comp (measurable_const.prodMk measurable_id)).aestronglyMeasurable
  have hi : Integrable ((uIcc z y).indicator fun _ => (1 : ℝ)) := by
    rw [integrable_indicator_iff measurableSet_uIcc]
    exact integrableOn_const (by simp [uIcc])
  have hd : Integrable fun x => crpsIntegrand F z x - crpsIntegrand F y x :=
    hi.mono' ((hm z).sub (hm y)) (Filter.Eventually.of_forall fun x => crpsIntegrand_move hF z y x)
  have hz : Integrable (crpsIntegrand F z) := by
    have := hd.add h
    refine this.congr (Filter.Eventually.of_forall fun x => ?_)
    simp
  refine ⟨hz, ?_⟩
  rw [crpsOf, crpsOf, ← integral_sub hz h]
  calc |∫ x, (crpsIntegrand F z x - crpsIntegrand F y x)| ≤ ∫ x, |crpsIntegrand F z x - crpsIntegrand F y x| :=
        abs_integral_le_integral_abs
    _ ≤ ∫ x, (uIcc z y).indicator (fun _ => (1 : ℝ)) x := integral_mono hd.abs hi fun x => crpsIntegrand_move hF z y x
    _ = |z - y| := by
        rw [integral_indicator measurableSet_uIcc]
        simp only [integral_const, smul_eq_mul, mul_one, measureReal_restrict_apply_univ]
        rw [uIcc, Real.volume_real_Icc_of_le min_le_max, max_sub_min_eq_abs, abs_sub_comm]

variable {μ : Measure ℝ} [IsProbabilityMeasure μ]

/-- the expected contribution of one threshold -/
theorem integral_threshold (F : ℝ → ℝ) {G : ℝ → ℝ} (hG : HasLaw μ G) (x : ℝ) :
    ∫ y, crpsIntegrand F y x ∂μ = (F x - G x) ^ 2 + G x * (1 - G x) := by
  have h : ∀ y, crpsIntegrand F y x = F x ^ 2 + (Iic x).indicator (fun _ => 1 - 2 * F x) y := by
    intro y
    by_cases hy : y ≤ x
    · rw [indicator_of_mem (show y ∈ Iic x from hy), crpsIntegrand, if_pos hy]; ring
    · rw [indicator_of_notMem (show y ∉ Iic x from hy), crpsIntegrand, if_neg hy]; ring
  simp only [h]
  rw [integral_add (integrable_const _) ((integrable_const _).indicator measurableSet_Iic),
    integral_indicator measurableSet_Iic]
  simp only [integral_const, smul_eq_mul, measureReal_restrict_apply_univ, probReal_univ, one_mul]
  rw [hG x]
  ring

theorem law_unit {G : ℝ → ℝ} (hG : HasLaw μ G) : UnitFn G := by
  refine ⟨?_, fun x => by rw [← hG x]; exact measureReal_nonneg, fun x => by rw [← hG x]; exact measureReal_le_one⟩
  refine Monotone.measurable fun a b hab => ?_
  rw [← hG a, ← hG b]
  exact measureReal_mono (Iic_subset_Iic.2 hab)

/-- The expected score is the distance of the forecast from the law plus the spread of the law. -/
theorem expected_crps {F G : ℝ → ℝ} (hF : UnitFn F) (hG : HasLaw μ G) (hm : Integrable (fun y : ℝ => y) μ) {y₀ : ℝ}
    (hi : Integrable (crpsIntegrand F y₀)) :
    Integrable (fun y => crpsOf F y) μ ∧ Integrable (fun x => (F x - G x) ^ 2) ∧ Integrable (fun x => G x * (1 - G x)) ∧
      ∫ y, crpsOf F y ∂μ = cdfDist F G + cdfSpread G := by
  have hmeas : AEStronglyMeasurable (fun p : ℝ × ℝ => crpsIntegrand F p.1 p.2) (μ.prod volume) :=
    (measurable_crpsIntegrand hF).aestronglyMeasurable
  have hnorm : ∀ y, ∫ x, ‖crpsIntegrand F y x‖ = crpsOf F y := by
    intro y
    rw [crpsOf]
    congr 1
    funext x
    exact abs_of_nonneg (crpsIntegrand_nonneg F y x)
  have hjoint : Integrable (fun p : ℝ × ℝ => crpsIntegrand F p.1 p.2) (μ.prod volume) := by
    rw [integrable_prod_iff hmeas]
    refine ⟨Filter.Eventually.of_forall fun y => (integrable_move hF hi y).1, ?_⟩
    have hb : Integrable (fun y : ℝ => |crpsOf F y₀| + |y - y₀|) μ :=
      (integrable_const _).add ((hm.sub (integrable_const y₀)).abs)
    refine hb.mono' hmeas.norm.integral_prod_right' (Filter.Eventually.of_forall fun y => ?_)
    rw [hnorm y, Real.norm_eq_abs]
    have h1 := (integrable_move hF hi y).2
    have h2 := abs_sub_abs_le_abs_sub (crpsOf F y) (crpsOf F y₀)
    linarith
  have hleft : Integrable (fun y => crpsOf F y) μ := hjoint.integral_prod_left
  have hright : Integrable fun x => (F x - G x) ^ 2 + G x * (1 - G x) := by
    have := hjoint.integral_prod_right
    refine this.congr (Filter.Eventually.of_forall fun x => ?_)
    exact integral_threshold F hG x
  have hGu := law_unit hG
  have n1 : ∀ x, 0 ≤ (F x - G x) ^ 2 := fun x => sq_nonneg _
  have n2 : ∀ x, 0 ≤ G x * (1 - G x) := fun x => mul_nonneg (hGu.lo x) (by linarith [hGu.hi x])
  have m1 : Measurable fun x => (F x - G x) ^ 2 := (hF.meas.sub hGu.meas).pow_const 2
  have m2 : Measurable fun x => G x * (1 - G x) := hGu.meas.mul (measurable_const.sub hGu.meas)
  have i1 : Integrable fun x => (F x - G x) ^ 2 :=
    hright.mono' m1.aestronglyMeasurable (Filter.Eventually.of_forall fun x => by
      rw [Real.norm_eq_abs, abs_of_nonneg (n1 x)]; linarith [n2 x])
  have i2 : Integrable fun x => G x * (1 - G x) :=
    hright.mono' m2.aestronglyMeasurable (Filter.Eventually.of_forall fun x => by
      rw [Real.norm_eq_abs, abs_of_nonneg (n2 x)]; linarith [n1 x])
  refine ⟨hleft, i1, i2, ?_⟩
  have hswap : ∫ y, crpsOf F y ∂μ = ∫ x, ∫ y, crpsIntegrand F y x ∂μ := by
    simp only [crpsOf]
    exact integral_integral_swap hjoint
  rw [hswap]
  simp only [integral_threshold F hG]
  rw [integral_add i1 i2]
  rfl

theorem cdfDist_nonneg (F G : ℝ → ℝ) : 0 ≤ cdfDist F G := integral_nonneg fun _ => sq_nonneg _

theorem cdfDist_self (F : ℝ → ℝ) : cdfDist F F = 0 := by simp [cdfDist]

/-- functions at distance zero are equal where they are continuous -/
theorem cdfDist_eq_zero {F G : ℝ → ℝ} (hi : Integrable fun x => (F x - G x) ^ 2) (h : cdfDist F G = 0) {x : ℝ}
    (hF : ContinuousAt F x) (hG : ContinuousAt G x) : F x = G x := by
  rw [cdfDist, integral_eq_zero_iff_of_nonneg (fun _ => sq_nonneg _) hi] at h
  by_contra hne
  have hc : ContinuousAt (fun x => (F x - G x) ^ 2) x := (hF.sub hG).pow 2
  have hpos : 0 < (F x - G x) ^ 2 := by
    have : F x - G x ≠ 0 := sub_ne_zero.2 hne
    positivity
  have hev := hc.eventually (lt_mem_nhds hpos)
  obtain ⟨e, he, hball⟩ := Metric.eventually_nhds_iff.1 hev
  have hnull : volume {a | ¬ (fun x => (F x - G x) ^ 2) a = (0 : ℝ → ℝ) a} = 0 := h
  have hsub : Metric.ball x e ⊆ {a | ¬ (fun x => (F x - G x) ^ 2) a = (0 : ℝ → ℝ) a} := fun a ha => (hball ha).ne'
  have := measure_mono_null hsub hnull
  rw [Real.volume_ball, ENNReal.ofReal_eq_zero] at this
  linarith

end Lemmas
