import Verif.Lemmas.HonestFamilies
import Verif.Lemmas.EnsCrps
import Verif.Lemmas.Members
import Mathlib.Probability.CDF

/-! The expected average of scores over positions of an array. -/

namespace Lemmas
open Spec MeasureTheory Set Filter Topology Np NDArr

/-- functions at distance zero are equal where they are continuous from the right -/
theorem cdfDist_eq_zero_right {F G : ℝ → ℝ} (hi : Integrable fun x => (F x - G x) ^ 2) (h : cdfDist F G = 0) {x : ℝ}
    (hF : ContinuousWithinAt F (Ici x) x) (hG : ContinuousWithinAt G (Ici x) x) : F x = G x := by
  rw [cdfDist, integral_eq_zero_iff_of_nonneg (fun _ => sq_nonneg _) hi] at h
  by_contra hne
  have hc : ContinuousWithinAt (fun x => (F x - G x) ^ 2) (Ici x) x := (hF.sub hG).pow 2
  have hpos : 0 < (F x - G x) ^ 2 := by
    have : F x - G x ≠ 0 := sub_ne_zero.2 hne
    positivity
  have hev : ∀ᶠ t in 𝓝[≥] x, 0 < (F t - G t) ^ 2 := hc.eventually (lt_mem_nhds hpos)
  obtain ⟨u, hu, hsub⟩ := mem_nhdsGE_iff_exists_Ico_subset.1 hev
  have hux : x < u := hu
  have hz : volume (Ico x u) = 0 := by
    refine measure_mono_null (fun t ht => ?_) h
    simp only [mem_compl_iff, mem_ofPred_eq, Pi.zero_apply]
    exact (hsub ht).ne'
  rw [Real.volume_Ico] at hz
  have := ENNReal.ofReal_eq_zero.1 hz
  linarith

theorem law_right {μ : Measure ℝ} [IsProbabilityMeasure μ] {G : ℝ → ℝ} (hG : HasLaw μ G) (x : ℝ) :
    ContinuousWithinAt G (Ici x) x := by
  have : G = ProbabilityTheory.cdf μ := by
    funext x
    rw [← hG x, ProbabilityTheory.cdf_eq_real]
  rw [this]
  exact (ProbabilityTheory.cdf μ).right_continuous x

theorem step_right (m x : ℝ) : ContinuousWithinAt (fun t => if m ≤ t then (1 : ℝ) else 0) (Ici x) x := by
  by_cases h : m ≤ x
  · refine (continuousWithinAt_const (b := (1 : ℝ))).congr (fun t ht => ?_) ?_
    · exact if_pos (h.trans ht)
    · exact if_pos h
  · refine ContinuousAt.continuousWithinAt ?_
    refine (continuousAt_const (y := (0 : ℝ))).congr ?_
    filter_upwards [Iio_mem_nhds (not_le.1 h)] with t ht
    exact (if_neg (not_le.2 ht)).symm

theorem ecdf_right (ms : List ℝ) (x : ℝ) : ContinuousWithinAt (ecdf ms) (Ici x) x := by
  have : ContinuousWithinAt (fun t => (ms.map fun m => if m ≤ t then (1 : ℝ) else 0).sum) (Ici x) x := by
    induction ms with
    | nil => simpa using continuousWithinAt_const
    | cons m ms ih =>
      simp only [List.map_cons, List.sum_cons]
      exact (step_right m x).add ih
  exact this.div_const _

theorem cut_right {g : ℝ → ℝ} (hg : Continuous g) (l x : ℝ) :
    ContinuousWithinAt (fun t => if t < l then 0 else g t) (Ici x) x := by
  by_cases h : x < l
  · refine ContinuousAt.continuousWithinAt ?_
    refine (continuousAt_const (y := (0 : ℝ))).congr ?_
    filter_upwards [Iio_mem_nhds h] with t ht
    exact (if_pos ht).symm
  · refine hg.continuousWithinAt.congr (fun t ht => ?_) ?_
    · exact if_neg (not_lt.2 ((not_lt.1 h).trans ht))
    · exact if_neg h

theorem trunc_right (mu sigma l x : ℝ) : ContinuousWithinAt (truncNormalCdf mu sigma l) (Ici x) x := by
  exact cut_right (((continuous_Phi.comp ((continuous_id.sub continuous_const).div_const sigma)).sub
    continuous_const).div_const _) l x

theorem gamma_right {mu sigma : ℝ} (hm : 0 < mu) (hs : 0 < sigma) (shift x : ℝ) :
    ContinuousWithinAt (censoredGammaCdf mu sigma shift) (Ici x) x := by
  have hk : 0 < (mu / sigma) ^ 2 := by positivity
  exact cut_right ((continuous_gammaCdf hk).comp ((continuous_id.sub continuous_const).div_const (sigma ^ 2 / mu))) 0 x

theorem unit_ecdf (ms : List ℝ) : UnitFn (ecdf ms) := by
  refine ⟨?_, fun x => ?_, fun x => ?_⟩
  · unfold ecdf
    refine Measurable.div_const ?_ _
    induction ms with
    | nil => simp
    | cons m ms ih =>
      simp only [List.map_cons, List.sum_cons]
      exact (Measurable.ite (measurableSet_le measurable_const measurable_id) measurable_const
        measurable_const : Measurable fun t : ℝ => if m ≤ t then (1 : ℝ) else 0).add ih
  · refine div_nonneg (List.sum_nonneg fun v hv => ?_) (Nat.cast_nonneg _)
    obtain ⟨m, -, rfl⟩ := List.mem_map.1 hv
    split <;> norm_num
  · refine div_le_one_of_le₀ ?_ (Nat.cast_nonneg _)
    induction ms with
    | nil => simp
    | cons m ms ih =>
      simp only [List.map_cons, List.sum_cons, List.length_cons, Nat.cast_add, Nat.cast_one]
      have : (if m ≤ x then (1 : ℝ) else 0) ≤ 1 := by split <;> norm_num
      linarith

variable {Ω : Type} [MeasurableSpace Ω] {P : Measure Ω} [IsProbabilityMeasure P]

theorem expected_one {Y : Ω → ℝ} (hY : Measurable Y) (hm : Integrable Y P) {G : ℝ → ℝ}
    (hl : ∀ x, P.real {ω | Y ω ≤ x} = G x) {F : ℝ → ℝ} (hF : UnitFn F) (hr : ∀ x, ContinuousWithinAt F (Ici x) x)
    {y₀ : ℝ} (hi : Integrable (crpsIntegrand F y₀)) :
    Integrable (fun ω => crpsOf F (Y ω)) P ∧ ∫ ω, crpsOf F (Y ω) ∂P = cdfDist F G + cdfSpread G ∧
      (cdfDist F G = 0 ↔ F = G) := by
  have : IsProbabilityMeasure (P.map Y) := Measure.isProbabilityMeasure_map hY.aemeasurable
  have hG : HasLaw (P.map Y) G := fun x => by
    rw [← hl x, map_measureReal_apply hY measurableSet_Iic]
    rfl
  have hm' : Integrable (fun y : ℝ => y) (P.map Y) :=
    (integrable_map_measure measurable_id.aestronglyMeasurable hY.aemeasurable).2 hm
  obtain ⟨h1, h2, h3, h4⟩ := expected_crps hF hG hm' hi
  refine ⟨(integrable_map_measure h1.1 hY.aemeasurable).1 h1, ?_, fun h => ?_, fun h => by rw [h, cdfDist_self]⟩
  · rw [← h4, integral_map hY.aemeasurable h1.1]
  · funext x
    exact cdfDist_eq_zero_right h2 h (hr x) (law_right hG x)

theorem expected_avg {sh : List Nat} {o : Ω → NDArr (Fl ℝ)} {Y : List Nat → Ω → ℝ} {G : List Nat → ℝ → ℝ}
    (d : Drawn P sh o Y G) {L : List (List Nat)} (hL : ∀ i ∈ L, InB sh i) {F : List Nat → ℝ → ℝ}
    (hF : ∀ i ∈ L, UnitFn (F i)) (hr : ∀ i ∈ L, ∀ x, ContinuousWithinAt (F i) (Ici x) x)
    (hi : ∀ i ∈ L, ∃ y, Integrable (crpsIntegrand (F i) y)) :
    ExpectedScore P (fun ω => avg (L.map fun i => crpsOf (F i) (Y i ω))) L F G := by
  have key : ∀ i ∈ L, Integrable (fun ω => crpsOf (F i) (Y i ω)) P ∧
      ∫ ω, crpsOf (F i) (Y i ω) ∂P = cdfDist (F i) (G i) + cdfSpread (G i) ∧ (cdfDist (F i) (G i) = 0 ↔ F i = G i) :=
    fun i h => (hi i h).elim fun y hy => expected_one (d.meas i (hL i h)) (d.mean i (hL i h)) (d.law i (hL i h))
      (hF i h) (hr i h) hy
  have sums : Integrable (fun ω => (L.map fun i => crpsOf (F i) (Y i ω)).sum) P ∧
      ∫ ω, (L.map fun i => crpsOf (F i) (Y i ω)).sum ∂P = (L.map fun i => cdfDist (F i) (G i) + cdfSpread (G i)).sum := by
    clear hL hF hr hi
    induction L with
    | nil => simp
    | cons a L ih =>
      obtain ⟨i1, i2⟩ := ih fun i h => key i (List.mem_cons_of_mem _ h)
      obtain ⟨k1, k2, -⟩ := key a List.mem_cons_self
      simp only [List.map_cons, List.sum_cons]
      refine ⟨k1.add i1, ?_⟩
      rw [integral_add k1 i1, k2, i2]
  have hmean : ∫ ω, avg (L.map fun i => crpsOf (F i) (Y i ω)) ∂P =
      avg (L.map fun i => cdfDist (F i) (G i) + cdfSpread (G i)) := by
    simp only [avg, List.length_map]
    rw [integral_div, sums.2]
  have hnn : ∀ i ∈ L, 0 ≤ cdfDist (F i) (G i) := fun i _ => cdfDist_nonneg _ _
  refine ⟨?_, hmean, ?_, ?_⟩
  · simp only [avg, List.length_map]
    exact sums.1.div_const _
  · rw [hmean, avg_add]
    have := avg_nonneg' L hnn
    linarith
  · rw [hmean, avg_add, add_eq_right, avg_zero_iff hnn]
    exact forall₂_congr fun i h => (key i h).2.2

end Lemmas
