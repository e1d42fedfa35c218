import Verif.Spec.Iou
import Verif.Lemmas.BinLimits
import Verif.Lemmas.PitUniform
import Verif.Lemmas.RankFlat
import Mathlib.Probability.Kernel.CondDistrib

/-! Limits of shares of days: C134. -/

namespace Lemmas
open Np Spec MeasureTheory ProbabilityTheory Filter Topology

theorem numOf_avg {α : Type} (L : List α) (p : α → Prop) :
    (numOf L p : ℝ) / L.length = avg (L.map fun x => (indicator (p x) : ℝ)) := by
  classical
  have h2 : (numOf L p : ℝ) = (L.map fun x => (indicator (p x) : ℝ)).sum := by
    unfold numOf
    induction L with
    | nil => simp
    | cons x L ih =>
      by_cases hx : p x
      · rw [List.filter_cons_of_pos (by simpa using hx)]
        simp only [List.length_cons, Nat.cast_add, Nat.cast_one, ih, List.map_cons, List.sum_cons, indicator, if_pos hx]
        ring
      · rw [List.filter_cons_of_neg (by simpa using hx)]
        simp only [ih, List.map_cons, List.sum_cons, indicator, if_neg hx, zero_add]
  rw [h2, avg, List.length_map]

theorem numOf_congr {α : Type} {L : List α} {p q : α → Prop} (h : ∀ x ∈ L, p x ↔ q x) : numOf L p = numOf L q := by
  classical
  unfold numOf
  congr 1
  refine List.filter_congr fun x hx => ?_
  exact decide_eq_decide.2 (h x hx)

variable {Ω : Type} [MeasurableSpace Ω] {P : Measure Ω} [IsProbabilityMeasure P] {E : Type} [MeasurableSpace E]

/-- the share of the days on which `B` is the case -/
theorem settles_numOf {R : Nat → Ω → E} (h : SameDays P R) {B : Set E} (hB : MeasurableSet B) :
    Settles P (fun n ω => (numOf (List.range (n + 1)) fun d => R d ω ∈ B : ℝ) / (n + 1)) (P.real {ω | R 0 ω ∈ B}) := by
  have e : ∀ n ω, (numOf (List.range (n + 1)) (fun d => R d ω ∈ B) : ℝ) / (n + 1) =
      avg ((List.range (n + 1)).map fun d => (indicator (R d ω ∈ B) : ℝ)) := by
    intro n ω
    rw [← numOf_avg, List.length_range]
    push_cast
    rfl
  simp only [e]
  exact settles_share h hB

/-- days that are all alike never do what has no chance to happen on the first -/
theorem never_null {R : Nat → Ω → E} (h : SameDays P R) {B : Set E} (hB : MeasurableSet B) (h0 : P.real {ω | R 0 ω ∈ B} = 0) :
    ∀ᵐ ω ∂P, ∀ d, R d ω ∉ B := by
  rw [ae_all_iff]
  intro d
  rw [ae_iff]
  simp only [not_not]
  have h1 := (h.same d).measure_mem_eq hB
  have h2 : P {ω | R 0 ω ∈ B} = 0 := by
    rwa [measureReal_def, ENNReal.toReal_eq_zero_iff, or_iff_left (measure_ne_top _ _)] at h0
  exact h1.trans h2

/-- intersection over union over more and more days -/
theorem iou_limit {R : Nat → Ω → E} (h : SameDays P R) {A B : Set E} (hA : MeasurableSet A) (hB : MeasurableSet B)
    {v : Nat → Ω → Fl ℝ}
    (hv : ∀ n ω, IsIou (List.range (n + 1)) (fun d => R d ω ∈ A) (fun d => R d ω ∈ B) (v n ω)) :
    (P.real {ω | R 0 ω ∈ A ∨ R 0 ω ∈ B} ≠ 0 → ∃ S : Nat → Ω → ℝ,
      (∀ᵐ ω ∂P, ∃ N, ∀ n, N ≤ n → v n ω = some (S n ω)) ∧
      Settles P S (P.real {ω | R 0 ω ∈ A ∧ R 0 ω ∈ B} / P.real {ω | R 0 ω ∈ A ∨ R 0 ω ∈ B})) ∧
    (P.real {ω | R 0 ω ∈ A ∨ R 0 ω ∈ B} = 0 → ∀ᵐ ω ∂P, ∀ n, v n ω = none) := by
  classical
  have hi := settles_numOf h (hA.inter hB)
  have hu := settles_numOf h (hA.union hB)
  refine ⟨fun h0 => ⟨fun n ω => (numOf (List.range (n + 1)) fun d => R d ω ∈ A ∧ R d ω ∈ B : ℝ) /
    (numOf (List.range (n + 1)) fun d => R d ω ∈ A ∨ R d ω ∈ B : ℝ), ?_, ?_⟩, fun h0 => ?_⟩
  · filter_upwards [hu] with ω hω
    have hp : 0 < P.real {ω | R 0 ω ∈ A ∨ R 0 ω ∈ B} := lt_of_le_of_ne measureReal_nonneg (Ne.symm h0)
    obtain ⟨N, hN⟩ := eventually_atTop.1 (hω.eventually (lt_mem_nhds hp))
    refine ⟨N, fun n hn => (hv n ω).2 ?_⟩
    by_contra hc
    push Not at hc
    have e : numOf (List.range (n + 1)) (fun d => R d ω ∈ A ∪ B) = 0 := by
      unfold numOf
      rw [List.length_eq_zero_iff, List.filter_eq_nil_iff]
      intro d hd
      have := hc d hd
      simpa [not_or] using this
    have := hN n hn
    rw [e] at this
    simp at this
  · filter_upwards [hi, hu] with ω h1 h2
    refine (h1.div h2 h0).congr fun n => ?_
    have hn : ((n : ℝ) + 1) ≠ 0 := by positivity
    exact div_div_div_cancel_right₀ hn _ _
  · filter_upwards [never_null h (hA.union hB) h0] with ω hω n
    refine (hv n ω).1 fun d _ => ?_
    have := hω d
    simpa [not_or] using this

/-! ### Right forecasts -/

variable {G : E → ℝ → ℝ}

/-- given what is known, the observation has the announced distribution -/
theorem cond_law {K : Ω → E} {Y : Ω → ℝ} (hK : Measurable K) (hY : Measurable Y)
    (hG : Measurable fun p : E × ℝ => G p.1 p.2) (hr : ∀ e x, ContinuousWithinAt (G e) (Set.Ici x) x)
    (h0 : ∀ ω x, 0 ≤ G (K ω) x ∧ G (K ω) x ≤ 1) (h : LawGiven P K Y G) :
    ∀ᵐ e ∂(P.map K), ∀ x, (condDistrib Y K P e).real (Set.Iic x) = G e x := by
  have : IsProbabilityMeasure (P.map K) := Measure.isProbabilityMeasure_map hK.aemeasurable
  have key : ∀ x : ℝ, ∀ᵐ e ∂(P.map K), (condDistrib Y K P e).real (Set.Iic x) = G e x := by
    intro x
    have hm1 : Measurable fun e => (condDistrib Y K P e).real (Set.Iic x) :=
      (Kernel.measurable_coe _ measurableSet_Iic).ennreal_toReal
    have hm2 : Measurable fun e => G e x := hG.comp (measurable_id.prodMk measurable_const)
    have i1 : Integrable (fun e => (condDistrib Y K P e).real (Set.Iic x)) (P.map K) :=
      Integrable.of_bound (C := 1) hm1.aestronglyMeasurable (.of_forall fun e => by
        rw [Real.norm_of_nonneg measureReal_nonneg]; exact measureReal_le_one)
    have i2 : Integrable (fun e => G e x) (P.map K) :=
      (integrable_map_measure hm2.aestronglyMeasurable hK.aemeasurable).2 <|
        Integrable.of_bound (C := 1) (hm2.comp hK).aestronglyMeasurable (.of_forall fun ω => by
          rw [Function.comp_apply, Real.norm_of_nonneg (h0 ω x).1]; exact (h0 ω x).2)
    refine Integrable.ae_eq_of_forall_setIntegral_eq _ _ i1 i2 fun B hB _ => ?_
    have e1 : ∫ e in B, G e x ∂(P.map K) = P.real (K ⁻¹' B ∩ {ω | Y ω ≤ x}) := by
      rw [h x B hB, setIntegral_map hB hm2.aestronglyMeasurable hK.aemeasurable]
    rw [e1]
    have e2 : (P.map K ⊗ₘ condDistrib Y K P) (B ×ˢ Set.Iic x) = P (K ⁻¹' B ∩ {ω | Y ω ≤ x}) := by
      rw [compProd_map_condDistrib hY.aemeasurable, Measure.map_apply (hK.prodMk hY) (hB.prod measurableSet_Iic)]
      rfl
    rw [Measure.compProd_apply_prod hB measurableSet_Iic] at e2
    rw [measureReal_def, ← e2]
    exact integral_toReal (Kernel.measurable_coe _ measurableSet_Iic).aemeasurable (.of_forall fun e => measure_lt_top _ _)
  have : ∀ᵐ e ∂(P.map K), ∀ q : ℚ, (condDistrib Y K P e).real (Set.Iic (q : ℝ)) = G e q := by
    rw [ae_all_iff]
    exact fun q => key q
  filter_upwards [this] with e he x
  have hl : HasLaw (condDistrib Y K P e) fun x => (condDistrib Y K P e).real (Set.Iic x) := fun x => rfl
  have c1 := law_right hl x
  have c2 := hr e x
  obtain ⟨u, -, u2, u3⟩ := Rat.denseRange_cast.exists_seq_strictAnti_tendsto Rat.cast_strictMono.monotone x
  have hu : Tendsto (fun n => ((u n : ℚ) : ℝ)) atTop (𝓝[Set.Ici x] x) :=
    tendsto_nhdsWithin_iff.2 ⟨u3, .of_forall fun n => Set.mem_Ici.2 (Set.mem_Ioi.1 (u2 n)).le⟩
  exact tendsto_nhds_unique (c1.tendsto.comp hu) ((c2.tendsto.comp hu).congr fun n => (he (u n)).symm)

theorem map_event {K : Ω → E} {Y : Ω → ℝ} (hK : Measurable K) (hY : Measurable Y) {B : Set (E × ℝ)} (hB : MeasurableSet B) :
    P {ω | (K ω, Y ω) ∈ B} = ∫⁻ e, condDistrib Y K P e {y | (e, y) ∈ B} ∂(P.map K) := by
  have : IsProbabilityMeasure (P.map K) := Measure.isProbabilityMeasure_map hK.aemeasurable
  have e : (P.map K ⊗ₘ condDistrib Y K P) B = P.map (fun a => (K a, Y a)) B := by
    rw [compProd_map_condDistrib hY.aemeasurable]
  rw [Measure.compProd_apply hB, Measure.map_apply (hK.prodMk hY) hB] at e
  exact e.symm

theorem continuous_no_atom {μ : Measure ℝ} [IsProbabilityMeasure μ] {H : ℝ → ℝ} (hc : Continuous H)
    (h : ∀ x, μ.real (Set.Iic x) = H x) (x : ℝ) : μ {x} = 0 := by
  have e : H = ProbabilityTheory.cdf μ := by
    funext x
    rw [← h x, ProbabilityTheory.cdf_eq_real]
  have h1 : μ {x} = (ProbabilityTheory.cdf μ).measure {x} := by rw [measure_cdf]
  rw [h1, StieltjesFunction.measure_singleton, ← e, leftLim_eq_of_tendsto ((hc.tendsto x).mono_left nhdsWithin_le_nhds)]
  simp

/-- The distribution function that a right forecast announces, at the observation, is uniform between zero and one. -/
theorem uniform_given {K : Ω → E} {Y : Ω → ℝ} (hK : Measurable K) (hY : Measurable Y)
    (hG : Measurable fun p : E × ℝ => G p.1 p.2) (hc : ∀ e, Continuous (G e))
    (h0 : ∀ ω x, 0 ≤ G (K ω) x ∧ G (K ω) x ≤ 1) (h : LawGiven P K Y G) :
    IsUniform P (fun ω => G (K ω) (Y ω)) ∧ ∀ x, P {ω | Y ω = x} = 0 := by
  have : IsProbabilityMeasure (P.map K) := Measure.isProbabilityMeasure_map hK.aemeasurable
  have hl := cond_law hK hY hG (fun e x => (hc e).continuousWithinAt) h0 h
  refine ⟨fun u u0 u1 => ?_, fun x => ?_⟩
  · have hB : MeasurableSet {p : E × ℝ | G p.1 p.2 ≤ u} := measurableSet_le hG measurable_const
    have e1 := map_event (P := P) hK hY hB
    have e2 : ∫⁻ e, condDistrib Y K P e {y | (e, y) ∈ {p : E × ℝ | G p.1 p.2 ≤ u}} ∂(P.map K) =
        ∫⁻ _, ENNReal.ofReal u ∂(P.map K) := by
      refine lintegral_congr_ae ?_
      filter_upwards [hl] with e he
      have := uniform_of_continuous (P := condDistrib Y K P e) (Y := fun y => y) measurable_id he (hc e) u u0 u1
      refine Eq.trans ?_ (congrArg ENNReal.ofReal this)
      rw [measureReal_def, ENNReal.ofReal_toReal (measure_ne_top _ _)]
    rw [e2, lintegral_const, measure_univ, mul_one] at e1
    rw [measureReal_def]
    exact (congrArg ENNReal.toReal e1).trans (ENNReal.toReal_ofReal u0)
  · have hB : MeasurableSet {p : E × ℝ | p.2 = x} := measurableSet_eq_fun measurable_snd measurable_const
    have e1 := map_event (P := P) hK hY hB
    have e2 : ∫⁻ e, condDistrib Y K P e {y | (e, y) ∈ {p : E × ℝ | p.2 = x}} ∂(P.map K) = ∫⁻ _, 0 ∂(P.map K) := by
      refine lintegral_congr_ae ?_
      filter_upwards [hl] with e he
      exact continuous_no_atom (hc e) he x
    rw [e2, lintegral_zero] at e1
    exact e1

/-- uniform numbers that have nothing to do with each other -/
theorem sameDays_uniform {Z : Nat → Ω → ℝ} (hm : ∀ d, Measurable (Z d)) (hi : Pairwise fun d e => Z d ⟂ᵢ[P] Z e)
    (hu : ∀ d, IsUniform P (Z d)) : SameDays P Z := by
  have hP : ∀ d, IsProbabilityMeasure (P.map (Z d)) := fun d => Measure.isProbabilityMeasure_map (hm d).aemeasurable
  refine ⟨hm, hi, fun d => ⟨(hm d).aemeasurable, (hm 0).aemeasurable, ?_⟩⟩
  have := hP d
  refine Measure.ext_of_Iic _ _ fun x => ?_
  have key : ∀ d, (P.map (Z d)).real (Set.Iic x) = max 0 (min 1 x) := by
    intro d
    rw [map_measureReal_apply (hm d) measurableSet_Iic]
    show P.real {ω | Z d ω ≤ x} = _
    rcases le_total x 0 with h0 | h0
    · rw [max_eq_left ((min_le_right _ _).trans h0)]
      refine le_antisymm ?_ measureReal_nonneg
      rw [← hu d 0 le_rfl zero_le_one]
      exact measureReal_mono fun ω (h : Z d ω ≤ x) => h.trans h0
    · rcases le_total x 1 with h1 | h1
      · rw [min_eq_right h1, max_eq_right h0]
        exact hu d x h0 h1
      · rw [min_eq_left h1, max_eq_right zero_le_one]
        refine le_antisymm measureReal_le_one ?_
        have := hu d 1 zero_le_one le_rfl
        calc (1 : ℝ) = P.real {ω | Z d ω ≤ 1} := this.symm
          _ ≤ _ := measureReal_mono fun ω (h : Z d ω ≤ 1) => h.trans h1
  have := (key d).trans (key 0).symm
  have h1 := hP 0
  rwa [measureReal_def, measureReal_def, ENNReal.toReal_eq_toReal_iff' (measure_ne_top _ _) (measure_ne_top _ _)] at this

/-- what is right on the first of days that are all alike is right on all of them -/
theorem lawGiven_day {K : Nat → Ω → E} {Y : Nat → Ω → ℝ} (h : SameDays P fun d ω => (K d ω, Y d ω))
    (hG : Measurable fun p : E × ℝ => G p.1 p.2) (hl : LawGiven P (K 0) (Y 0) G) (d : Nat) : LawGiven P (K d) (Y d) G := by
  intro x B hB
  have hm : ∀ d, Measurable (K d) := fun d => measurable_fst.comp (h.meas d)
  have h1 := (h.same d).measure_mem_eq (hB.prod (measurableSet_Iic (a := x)))
  have h2 : Measurable fun p : E × ℝ => B.indicator (fun e => G e x) p.1 :=
    ((hG.comp (measurable_id.prodMk measurable_const)).indicator hB).comp measurable_fst
  have h3 := ((h.same d).comp h2).integral_eq
  have e : ∀ d, ∫ ω in K d ⁻¹' B, G (K d ω) x ∂P = ∫ ω, B.indicator (fun e => G e x) (K d ω) ∂P := by
    intro d
    rw [← integral_indicator (hm d hB)]
    rfl
  have h4 := hl x B hB
  simp only [e] at h4 ⊢
  refine Eq.trans ?_ (h4.trans h3.symm)
  exact congrArg ENNReal.toReal h1

/-- right forecasts: what they announce at the observations, over more and more days -/
theorem pit_limit {K : Nat → Ω → E} {Y : Nat → Ω → ℝ} (hm : ∀ d, Measurable (K d) ∧ Measurable (Y d))
    (hi : Pairwise fun d e => (fun ω => (K d ω, Y d ω)) ⟂ᵢ[P] fun ω => (K e ω, Y e ω))
    (hG : Measurable fun p : E × ℝ => G p.1 p.2) (hc : ∀ e, Continuous (G e))
    (h0 : ∀ d ω x, 0 ≤ G (K d ω) x ∧ G (K d ω) x ≤ 1) (hl : ∀ d, LawGiven P (K d) (Y d) G) :
    (∀ u, 0 ≤ u → u ≤ 1 →
      Settles P (fun n ω => (numOf (List.range (n + 1)) fun d => G (K d ω) (Y d ω) ≤ u : ℝ) / (n + 1)) u) ∧
    ∀ᵐ ω ∂P, ∀ d, Y d ω ≠ 0 := by
  have hu := fun d => uniform_given (P := P) (hm d).1 (hm d).2 hG hc (h0 d) (hl d)
  have rep : SameDays P fun d ω => G (K d ω) (Y d ω) :=
    sameDays_uniform (fun d => hG.comp ((hm d).1.prodMk (hm d).2)) (fun d e hde => (hi hde).comp hG hG) fun d => (hu d).1
  refine ⟨fun u u0 u1 => ?_, ?_⟩
  · have h1 := settles_numOf rep (measurableSet_Iic (a := u))
    rw [show P.real {ω | G (K 0 ω) (Y 0 ω) ∈ Set.Iic u} = u from (hu 0).1 u u0 u1] at h1
    exact h1
  · rw [ae_all_iff]
    intro d
    rw [ae_iff]
    simpa using (hu d).2 0

end Lemmas
