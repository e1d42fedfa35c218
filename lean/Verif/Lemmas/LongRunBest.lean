import Verif.Lemmas.LongRun

/-! Nobody is better on average than those who announce the probabilities that follow from all that is known. -/

namespace Lemmas
open Spec Np NDArr MeasureTheory ProbabilityTheory Filter Topology

variable {Ω : Type} [MeasurableSpace Ω] {P : Measure Ω} [IsProbabilityMeasure P] {E : Type} [MeasurableSpace E]
  {K : Ω → E}

theorem bounded_integrable {f : Ω → ℝ} (hf : Measurable f) {c : ℝ} (h : ∀ ω, |f ω| ≤ c) : Integrable f P :=
  Integrable.of_bound hf.aestronglyMeasurable c (.of_forall h)

/-- means with the event in them are means with its probability -/
theorem given_mean {A : Set Ω} (hA : MeasurableSet A) {p : E → ℝ} (hK : Measurable K) (hp : Measurable p)
    (hu : ∀ ω, 0 ≤ p (K ω) ∧ p (K ω) ≤ 1) (h : ProbGiven P K A p) {g : E → ℝ} (hg : Measurable g) :
    ∫ ω, A.indicator (fun ω => g (K ω)) ω ∂P = ∫ ω, g (K ω) * p (K ω) ∂P := by
  have e : (P.restrict A).map K = (P.withDensity fun ω => ENNReal.ofReal (p (K ω))).map K := by
    have hf : IsFiniteMeasure (P.withDensity fun ω => ENNReal.ofReal (p (K ω))) := by
      refine isFiniteMeasure_withDensity ?_
      refine ((lintegral_mono fun ω => ?_).trans_lt (b := ∫⁻ _, 1 ∂P) ?_).ne
      · exact ENNReal.ofReal_le_one.2 (hu _).2
      · simp
    refine Measure.ext fun B hB => ?_
    rw [Measure.map_apply hK hB, Measure.map_apply hK hB, Measure.restrict_apply (hK hB), withDensity_apply _ (hK hB),
      ← ofReal_integral_eq_lintegral_ofReal]
    · rw [← h B hB, ofReal_measureReal]
    · exact (bounded_integrable (hp.comp hK) (c := 1) fun ω => by
        rw [Function.comp_apply, abs_of_nonneg (hu _).1]
        exact (hu _).2).integrableOn
    · exact .of_forall fun ω => (hu _).1
  rw [integral_indicator hA, ← integral_map (μ := P.restrict A) hK.aemeasurable hg.aestronglyMeasurable, e,
    integral_map hK.aemeasurable hg.aestronglyMeasurable, integral_withDensity_eq_integral_toReal_smul]
  · refine integral_congr_ae (.of_forall fun ω => ?_)
    simp only [ENNReal.toReal_ofReal (hu _).1, smul_eq_mul]
    ring
  · exact (hp.comp hK).ennreal_ofReal
  · exact .of_forall fun ω => ENNReal.ofReal_lt_top

/-- the mean squared difference from the event is larger by the mean squared difference from the probability -/
theorem given_square {A : Set Ω} (hA : MeasurableSet A) {p q : E → ℝ} (hK : Measurable K) (hp : Measurable p)
    (hu : ∀ ω, 0 ≤ p (K ω) ∧ p (K ω) ≤ 1) (h : ProbGiven P K A p) (hq : Measurable q) (hv : ∀ ω, 0 ≤ q (K ω) ∧ q (K ω) ≤ 1) :
    ∫ ω, (q (K ω) - A.indicator (fun _ => 1) ω) ^ 2 ∂P =
      ∫ ω, (p (K ω) - A.indicator (fun _ => 1) ω) ^ 2 ∂P + ∫ ω, (q (K ω) - p (K ω)) ^ 2 ∂P := by
  have key : ∀ q : E → ℝ, Measurable q → (∀ ω, 0 ≤ q (K ω) ∧ q (K ω) ≤ 1) →
      ∫ ω, (q (K ω) - A.indicator (fun _ => 1) ω) ^ 2 ∂P = ∫ ω, (q (K ω) ^ 2 + (1 - 2 * q (K ω)) * p (K ω)) ∂P := by
    intro q hq hv
    have hm : Measurable fun e => 1 - 2 * q e := by fun_prop
    have i1 : Integrable (fun ω => q (K ω) ^ 2) P := bounded_integrable ((hq.comp hK).pow_const 2) (c := 1) fun ω => by
      rw [abs_of_nonneg (sq_nonneg _)]
      nlinarith [hv ω]
    have hb : ∀ ω, |1 - 2 * q (K ω)| ≤ 1 := fun ω => abs_le.2 ⟨by linarith [hv ω], by linarith [hv ω]⟩
    have i2 : Integrable (fun ω => A.indicator (fun ω => 1 - 2 * q (K ω)) ω) P :=
      (bounded_integrable (hm.comp hK) (c := 1) fun ω => hb _).indicator hA
    have i3 : Integrable (fun ω => (1 - 2 * q (K ω)) * p (K ω)) P :=
      bounded_integrable ((hm.comp hK).mul (hp.comp hK)) (c := 1) fun ω => by
        rw [abs_mul, abs_of_nonneg (hu _).1]
        nlinarith [hb ω, hu ω, abs_nonneg (1 - 2 * q (K ω))]
    rw [integral_add i1 i3, ← given_mean hA hK hp hu h hm, ← integral_add i1 i2]
    refine integral_congr_ae (.of_forall fun ω => ?_)
    by_cases hω : ω ∈ A
    · simp only [Set.indicator_of_mem hω]
      ring
    · simp only [Set.indicator_of_notMem hω]
      ring
  have hi : ∀ q : E → ℝ, Measurable q → (∀ ω, 0 ≤ q (K ω) ∧ q (K ω) ≤ 1) →
      Integrable (fun ω => q (K ω) ^ 2 + (1 - 2 * q (K ω)) * p (K ω)) P := by
    intro q hq hv
    refine bounded_integrable (((hq.comp hK).pow_const 2).add
      (((measurable_const.sub ((hq.comp hK).const_mul 2))).mul (hp.comp hK))) (c := 2) fun ω => ?_
    have h1 := hv ω
    have h2 := hu ω
    rw [abs_le]
    constructor <;> nlinarith
  rw [key q hq hv, key p hp hu, ← integral_add (hi p hp hu)]
  · refine integral_congr_ae (.of_forall fun ω => ?_)
    simp only
    ring
  · refine bounded_integrable (((hq.comp hK).sub (hp.comp hK)).pow_const 2) (c := 1) fun ω => ?_
    rw [abs_of_nonneg (sq_nonneg _)]
    have h1 := hv ω
    have h2 := hu ω
    nlinarith

/-- distribution functions that depend measurably on what is known -/
structure Family (K : Ω → E) (F : E → ℝ → ℝ) : Prop where
  meas : Measurable fun p : E × ℝ => F p.1 p.2
  unit : ∀ ω x, 0 ≤ F (K ω) x ∧ F (K ω) x ≤ 1

/-- the same for the continuous ranked probability score -/
theorem given_crps {Y : Ω → ℝ} (hY : Measurable Y) (hK : Measurable K) {F G : E → ℝ → ℝ} (hF : Family K F) (hG : Family K G)
    (h : LawGiven P K Y G) (iF : ∀ ω, Integrable (crpsIntegrand (F (K ω)) (Y ω)))
    (iG : ∀ ω, Integrable (crpsIntegrand (G (K ω)) (Y ω))) (sF : Integrable (fun ω => crpsOf (F (K ω)) (Y ω)) P)
    (sG : Integrable (fun ω => crpsOf (G (K ω)) (Y ω)) P) :
    Integrable (fun ω => cdfDist (F (K ω)) (G (K ω))) P ∧
    ∫ ω, crpsOf (F (K ω)) (Y ω) ∂P = ∫ ω, crpsOf (G (K ω)) (Y ω) ∂P + ∫ ω, cdfDist (F (K ω)) (G (K ω)) ∂P := by
  have hm : ∀ {F : E → ℝ → ℝ}, Family K F → Measurable fun p : Ω × ℝ => F (K p.1) p.2 := fun hF =>
    hF.meas.comp ((hK.comp measurable_fst).prodMk measurable_snd)
  have hc : ∀ {F : E → ℝ → ℝ}, Family K F → Measurable fun p : Ω × ℝ => crpsIntegrand (F (K p.1)) (Y p.1) p.2 := by
    intro F hF
    unfold crpsIntegrand
    refine Measurable.pow_const (Measurable.sub (hm hF) ?_) 2
    exact Measurable.ite (measurableSet_le (hY.comp measurable_fst) measurable_snd) measurable_const measurable_const
  have hi : ∀ {F : E → ℝ → ℝ}, Family K F → (∀ ω, Integrable (crpsIntegrand (F (K ω)) (Y ω))) →
      Integrable (fun ω => crpsOf (F (K ω)) (Y ω)) P →
      Integrable (fun p : Ω × ℝ => crpsIntegrand (F (K p.1)) (Y p.1) p.2) (P.prod volume) := by
    intro F hF iF sF
    rw [integrable_prod_iff (hc hF).aestronglyMeasurable]
    refine ⟨.of_forall iF, sF.congr (.of_forall fun ω => ?_)⟩
    simp only [crpsOf]
    refine integral_congr_ae (.of_forall fun x => ?_)
    exact (Real.norm_of_nonneg (crpsIntegrand_nonneg _ _ _)).symm
  have pF := hi hF iF sF
  have pG := hi hG iG sG
  have pD : Integrable (fun p : Ω × ℝ => (F (K p.1) p.2 - G (K p.1) p.2) ^ 2) (P.prod volume) := by
    refine ((pF.const_mul 2).add (pG.const_mul 2)).mono (((hm hF).sub (hm hG)).pow_const 2).aestronglyMeasurable
      (.of_forall fun p => ?_)
    rw [Real.norm_of_nonneg (sq_nonneg _), Pi.add_apply, Real.norm_of_nonneg (add_nonneg
      (mul_nonneg two_pos.le (crpsIntegrand_nonneg _ _ _)) (mul_nonneg two_pos.le (crpsIntegrand_nonneg _ _ _)))]
    unfold crpsIntegrand
    nlinarith [sq_nonneg (F (K p.1) p.2 + G (K p.1) p.2 - 2 * if Y p.1 ≤ p.2 then (1 : ℝ) else 0)]
  refine ⟨pD.integral_prod_left, ?_⟩
  have sw : ∀ {f : Ω × ℝ → ℝ}, Integrable f (P.prod volume) → ∫ ω, ∫ x, f (ω, x) ∂volume ∂P = ∫ x, ∫ ω, f (ω, x) ∂P :=
    fun hf => integral_integral_swap hf
  simp only [crpsOf, cdfDist]
  rw [sw pF, sw pG, sw pD, ← integral_add pG.integral_prod_right pD.integral_prod_right]
  refine integral_congr_ae (.of_forall fun x => ?_)
  have hsl : ∀ {F : E → ℝ → ℝ}, Family K F → Measurable fun e => F e x := fun hF => hF.meas.comp (measurable_id.prodMk measurable_const)
  have := given_square (measurableSet_le hY measurable_const) hK (hsl hG) (fun ω => hG.unit ω x) (h x) (hsl hF)
    fun ω => hF.unit ω x
  exact this

omit [IsProbabilityMeasure P] [MeasurableSpace E] in
/-- announcing something else with positive probability costs -/
theorem given_crps_lt {F G : E → ℝ → ℝ} (hi : Integrable (fun ω => cdfDist (F (K ω)) (G (K ω))) P)
    (hs : ∀ ω, Integrable fun x => (F (K ω) x - G (K ω) x) ^ 2)
    (rF : ∀ ω x, ContinuousWithinAt (F (K ω)) (Set.Ici x) x) (rG : ∀ ω x, ContinuousWithinAt (G (K ω)) (Set.Ici x) x)
    (hne : ¬ ∀ᵐ ω ∂P, F (K ω) = G (K ω)) : 0 < ∫ ω, cdfDist (F (K ω)) (G (K ω)) ∂P := by
  refine lt_of_le_of_ne (integral_nonneg fun ω => cdfDist_nonneg _ _) fun h => hne ?_
  have := (integral_eq_zero_iff_of_nonneg (fun ω => cdfDist_nonneg _ _) hi).1 h.symm
  filter_upwards [this] with ω hω
  funext x
  exact cdfDist_eq_zero_right (hs ω) hω (rF ω x) (rG ω x)

end Lemmas
