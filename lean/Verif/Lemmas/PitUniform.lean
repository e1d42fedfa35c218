import Verif.Spec.PitUniform
import Verif.Lemmas.HonestMean

/-! The distribution function at a random number. -/

set_option linter.unusedSectionVars false

namespace Lemmas
open Spec MeasureTheory Set Filter Topology

variable {Ω : Type} [MeasurableSpace Ω] {P : Measure Ω} [IsProbabilityMeasure P] {Y U : Ω → ℝ} {G : ℝ → ℝ}

theorem law_of (hY : Measurable Y) (hl : ∀ x, P.real {ω | Y ω ≤ x} = G x) : HasLaw (P.map Y) G := fun x => by
  rw [← hl x, map_measureReal_apply hY measurableSet_Iic]
  rfl

theorem law_mono (hl : ∀ x, P.real {ω | Y ω ≤ x} = G x) : Monotone G := by
  intro a b hab
  rw [← hl a, ← hl b]
  exact measureReal_mono fun ω (h : Y ω ≤ a) => h.trans hab

theorem law_atTop (hY : Measurable Y) (hl : ∀ x, P.real {ω | Y ω ≤ x} = G x) : Tendsto G atTop (𝓝 1) := by
  have : IsProbabilityMeasure (P.map Y) := Measure.isProbabilityMeasure_map hY.aemeasurable
  have e : G = ProbabilityTheory.cdf (P.map Y) := by
    funext x
    rw [← law_of hY hl x, ProbabilityTheory.cdf_eq_real]
  rw [e]
  exact ProbabilityTheory.tendsto_cdf_atTop _

theorem law_atBot (hY : Measurable Y) (hl : ∀ x, P.real {ω | Y ω ≤ x} = G x) : Tendsto G atBot (𝓝 0) := by
  have : IsProbabilityMeasure (P.map Y) := Measure.isProbabilityMeasure_map hY.aemeasurable
  have e : G = ProbabilityTheory.cdf (P.map Y) := by
    funext x
    rw [← law_of hY hl x, ProbabilityTheory.cdf_eq_real]
  rw [e]
  exact ProbabilityTheory.tendsto_cdf_atBot _

theorem law_right' (hY : Measurable Y) (hl : ∀ x, P.real {ω | Y ω ≤ x} = G x) (x : ℝ) : ContinuousWithinAt G (Ici x) x := by
  have : IsProbabilityMeasure (P.map Y) := Measure.isProbabilityMeasure_map hY.aemeasurable
  exact law_right (law_of hY hl) x

/-- levels that are passed continuously -/
theorem level (hY : Measurable Y) (hl : ∀ x, P.real {ω | Y ω ≤ x} = G x) {a u : ℝ} (hc : ∀ x, a < x → ContinuousAt G x)
    (h0 : G a ≤ u) (h1 : u ≤ 1) : P.real {ω | G (Y ω) ≤ u} = u := by
  have hmono := law_mono hl
  have hle : ∀ x, G x ≤ 1 := fun x => by rw [← hl x]; exact measureReal_le_one
  rcases h1.eq_or_lt with rfl | h1
  · rw [show {ω | G (Y ω) ≤ 1} = univ from eq_univ_of_forall fun ω => hle _]
    simp
  have hcon : ContinuousOn G (Ici a) := by
    intro x hx
    rcases (show a ≤ x from hx).eq_or_lt with rfl | hlt
    · exact law_right' hY hl a
    · exact (hc x hlt).continuousWithinAt
  obtain ⟨b, hab, hb⟩ : ∃ b, a ≤ b ∧ u < G b :=
    ((eventually_ge_atTop a).and ((law_atTop hY hl).eventually (lt_mem_nhds h1))).exists
  obtain ⟨x, ⟨hxa, hxb⟩, hx⟩ : u ∈ G '' Icc a b :=
    intermediate_value_Icc hab (hcon.mono Icc_subset_Ici_self) ⟨h0, hb.le⟩
  -- the largest number with this level
  set A := Ici a ∩ G ⁻¹' {u} with hA
  have hAc : IsClosed A := hcon.preimage_isClosed_of_isClosed isClosed_Ici isClosed_singleton
  have hAne : A.Nonempty := ⟨x, hxa, hx⟩
  have hAb : BddAbove A := ⟨b, fun t ht => by
    by_contra hlt
    have := hmono (not_le.1 hlt).le
    rw [show G t = u from ht.2] at this
    exact absurd hb (not_lt.2 this)⟩
  have hs := hAc.csSup_mem hAne hAb
  set s := sSup A with hsdef
  have hset : {ω | G (Y ω) ≤ u} = {ω | Y ω ≤ s} := by
    ext ω
    simp only [mem_ofPred_eq]
    constructor
    · intro h
      by_contra hlt
      have h2 : G (Y ω) = u := le_antisymm h (by
        have := hmono (not_le.1 hlt).le
        rwa [show G s = u from hs.2] at this)
      have : Y ω ∈ A := ⟨(show a ≤ s from hs.1).trans (not_le.1 hlt).le, h2⟩
      exact hlt (le_csSup hAb this)
    · intro h
      have := hmono h
      rwa [show G s = u from hs.2] at this
  rw [hset, hl s]
  exact hs.2

/-- the distribution function at a number drawn from a distribution without atoms is uniform -/
theorem uniform_of_continuous (hY : Measurable Y) (hl : ∀ x, P.real {ω | Y ω ≤ x} = G x) (hc : Continuous G) :
    IsUniform P fun ω => G (Y ω) := by
  have key : ∀ u, 0 < u → u ≤ 1 → P.real {ω | G (Y ω) ≤ u} = u := by
    intro u h0 h1
    obtain ⟨a, ha⟩ := ((law_atBot hY hl).eventually (gt_mem_nhds h0)).exists
    exact level hY hl (fun x _ => hc.continuousAt) ha.le h1
  intro u h0 h1
  rcases h0.eq_or_lt with rfl | h0
  · refine le_antisymm (le_of_forall_pos_le_add fun ε hε => ?_) measureReal_nonneg
    have hm : min ε 1 ≤ 1 := min_le_right _ _
    have hp : 0 < min ε 1 := lt_min hε one_pos
    rw [zero_add]
    calc P.real {ω | G (Y ω) ≤ 0} ≤ P.real {ω | G (Y ω) ≤ min ε 1} := measureReal_mono fun ω (h : _ ≤ _) => h.trans hp.le
      _ = min ε 1 := key _ hp hm
      _ ≤ ε := min_le_left _ _
  · exact key u h0 h1

theorem zero_mass (hpos : ∀ ω, 0 ≤ Y ω) (hl : ∀ x, P.real {ω | Y ω ≤ x} = G x) : P.real {ω | Y ω = 0} = G 0 := by
  rw [← hl 0]
  congr 1
  ext ω
  exact ⟨fun h => (show Y ω = 0 from h).le, fun h => le_antisymm h (hpos ω)⟩

/-- with an atom at zero: not randomised, the levels below the atom are never reached -/
theorem atom_plain (hY : Measurable Y) (hpos : ∀ ω, 0 ≤ Y ω) (hl : ∀ x, P.real {ω | Y ω ≤ x} = G x)
    (hc : ∀ x, 0 < x → ContinuousAt G x) {u : ℝ} (h1 : u ≤ 1) :
    P.real {ω | G (Y ω) ≤ u} = if u < G 0 then 0 else u := by
  split_ifs with h
  · rw [show {ω | G (Y ω) ≤ u} = ∅ from ?_]
    · simp
    · ext ω
      simp only [mem_ofPred_eq, mem_empty_iff_false, iff_false, not_le]
      exact h.trans_le (law_mono hl (hpos ω))
  · exact level hY hl hc (not_lt.1 h) h1

/-- with an atom at zero: randomised, the values are uniform -/
theorem atom_random (hY : Measurable Y) (hpos : ∀ ω, 0 ≤ Y ω) (hl : ∀ x, P.real {ω | Y ω ≤ x} = G x)
    (hc : ∀ x, 0 < x → ContinuousAt G x) (hr : ∀ ω, 0 ≤ U ω ∧ U ω < 1) (hu : IsUniform P U)
    (hi : ProbabilityTheory.IndepFun Y U P) : IsUniform P fun ω => if Y ω = 0 then G 0 * U ω else G (Y ω) := by
  have hmono := law_mono hl
  have hG0 : 0 ≤ G 0 := by rw [← hl 0]; exact measureReal_nonneg
  intro u h0 h1
  by_cases h : u < G 0
  · have hset : {ω | (if Y ω = 0 then G 0 * U ω else G (Y ω)) ≤ u} = Y ⁻¹' {0} ∩ U ⁻¹' Iic (u / G 0) := by
      ext ω
      simp only [mem_ofPred_eq, mem_inter_iff, mem_preimage, mem_singleton_iff, mem_Iic]
      split_ifs with hz
      · rw [le_div_iff₀ (h0.trans_lt h), mul_comm]
        simp [hz]
      · simp only [hz, false_and, iff_false, not_le]
        exact h.trans_le (hmono (hpos ω))
    have hind := hi.measure_inter_preimage_eq_mul {0} (Iic (u / G 0)) (measurableSet_singleton 0) measurableSet_Iic
    rw [hset, measureReal_def, hind, ENNReal.toReal_mul]
    have e1 : (P (Y ⁻¹' {0})).toReal = G 0 := zero_mass hpos hl
    have e2 : (P (U ⁻¹' Iic (u / G 0))).toReal = u / G 0 :=
      hu (u / G 0) (div_nonneg h0 hG0) (by rw [div_le_one (h0.trans_lt h)]; exact h.le)
    rw [e1, e2, mul_div_cancel₀ _ (h0.trans_lt h).ne']
  · have hset : {ω | (if Y ω = 0 then G 0 * U ω else G (Y ω)) ≤ u} = {ω | G (Y ω) ≤ u} := by
      ext ω
      simp only [mem_ofPred_eq]
      split_ifs with hz
      · rw [hz]
        have : G 0 * U ω ≤ G 0 := mul_le_of_le_one_right hG0 (hr ω).2.le
        exact ⟨fun _ => not_lt.1 h, fun h' => this.trans h'⟩
      · rfl
    rw [hset]
    exact level hY hl hc (not_lt.1 h) h1

/-- without atoms it does not matter what is put at zero -/
theorem atomless_any (hY : Measurable Y) (hl : ∀ x, P.real {ω | Y ω ≤ x} = G x) (hc : Continuous G) (Z : Ω → ℝ) :
    IsUniform P fun ω => if Y ω = 0 then Z ω else G (Y ω) := by
  have hz : P {ω | Y ω = 0} = 0 := by
    have : IsProbabilityMeasure (P.map Y) := Measure.isProbabilityMeasure_map hY.aemeasurable
    have e : G = ProbabilityTheory.cdf (P.map Y) := by
      funext x
      rw [← law_of hY hl x, ProbabilityTheory.cdf_eq_real]
    have h1 : (ProbabilityTheory.cdf (P.map Y)).measure {0} = 0 := by
      rw [StieltjesFunction.measure_singleton, ← e, leftLim_eq_of_tendsto ((hc.tendsto 0).mono_left nhdsWithin_le_nhds)]
      simp
    rw [ProbabilityTheory.measure_cdf, Measure.map_apply hY (measurableSet_singleton 0)] at h1
    exact h1
  intro u h0 h1
  refine Eq.trans (measureReal_congr ?_) (uniform_of_continuous hY hl hc u h0 h1)
  have : ∀ᵐ ω ∂P, Y ω ≠ 0 := by
    rw [ae_iff]
    simpa using hz
  filter_upwards [this] with ω hω
  show ((if Y ω = 0 then Z ω else G (Y ω)) ≤ u) = (G (Y ω) ≤ u)
  rw [if_neg hω]

/-- a strictly increasing function that makes a random number uniform is its distribution function -/
theorem law_of_uniform {F : ℝ → ℝ} (hF : StrictMono F) (h0 : ∀ x, 0 ≤ F x) (h1 : ∀ x, F x ≤ 1)
    (h : IsUniform P fun ω => F (Y ω)) (x : ℝ) : P.real {ω | Y ω ≤ x} = F x := by
  rw [← h (F x) (h0 x) (h1 x)]
  congr 1
  ext ω
  exact hF.le_iff_le.symm

/-- The converse for observations that are not negative and a distribution on the positive half axis: a transform that is
uniform, and at most the level of zero for zero observations, belongs to the distribution function of the observations. -/
theorem law_of_pit {F : ℝ → ℝ} {Z : Ω → ℝ} (hpos : ∀ ω, 0 ≤ Y ω) (hneg : ∀ x, x < 0 → F x = 0) (hmono : Monotone F)
    (hF : ∀ x, 0 ≤ x → F x = 0 ∨ ∀ y, x < y → F x < F y) (h1 : ∀ x, F x ≤ 1)
    (hz : ∀ ω, Y ω = 0 → Z ω ≤ F 0) (hn : ∀ ω, Y ω ≠ 0 → Z ω = F (Y ω))
    (h : IsUniform P Z) (x : ℝ) : P.real {ω | Y ω ≤ x} = F x := by
  have hle : ∀ ω, Z ω ≤ F (Y ω) := fun ω => by
    by_cases hy : Y ω = 0
    · rw [hy]; exact hz ω hy
    · exact (hn ω hy).le
  have h0 : ∀ x, 0 ≤ F x := fun x => by
    rw [← hneg (min x 0 - 1) (by linarith [min_le_right x 0])]
    exact hmono (by linarith [min_le_left x 0])
  rcases lt_or_ge x 0 with hx | hx
  · rw [hneg x hx, show {ω | Y ω ≤ x} = ∅ from ?_]
    · simp
    · ext ω
      simp only [mem_ofPred_eq, mem_empty_iff_false, iff_false, not_le]
      exact hx.trans_le (hpos ω)
  have hsub : {ω | Y ω ≤ x} ⊆ {ω | Z ω ≤ F x} := fun ω (hω : Y ω ≤ x) => (hle ω).trans (hmono hω)
  rw [← h (F x) (h0 x) (h1 x)]
  rcases hF x hx with hx0 | hx0
  · refine le_antisymm (measureReal_mono hsub) ?_
    rw [h (F x) (h0 x) (h1 x), hx0]
    exact measureReal_nonneg
  · congr 1
    refine subset_antisymm hsub fun ω (hω : Z ω ≤ F x) => ?_
    show Y ω ≤ x
    by_contra hlt
    have hlt := not_le.1 hlt
    rw [hn ω (hx.trans_lt hlt).ne'] at hω
    exact absurd (hx0 _ hlt) (not_lt.2 hω)

/-! ### the announced distributions -/

theorem continuous_truncNormalCdf (m s l : ℝ) : Continuous (truncNormalCdf m s l) := by
  have : truncNormalCdf m s l = fun x =>
      (Phi ((max x l - m) / s) - Phi ((l - m) / s)) / (1 - Phi ((l - m) / s)) := by
    funext x
    unfold truncNormalCdf
    split_ifs with h
    · rw [max_eq_right h.le]; simp
    · rw [max_eq_left (not_lt.1 h)]
  rw [this]
  exact ((continuous_Phi.comp (by fun_prop)).sub continuous_const).div_const _

theorem continuous_gaussLaw (tr : Bool) (m s : ℝ) : Continuous (gaussLaw tr m s) := by
  cases tr
  · exact continuous_normalCdf m s
  · exact continuous_truncNormalCdf m s 0

theorem truncNormalCdf_strict {m s : ℝ} (hs : 0 < s) {x y : ℝ} (hx : 0 ≤ x) (hxy : x < y) :
    truncNormalCdf m s 0 x < truncNormalCdf m s 0 y := by
  unfold truncNormalCdf
  rw [if_neg (not_lt.2 hx), if_neg (not_lt.2 (hx.trans hxy.le))]
  have hd : 0 < 1 - Phi ((0 - m) / s) := sub_pos.2 (Phi_lt_one _)
  refine div_lt_div_of_pos_right (sub_lt_sub_right (strictMono_Phi ?_) _) hd
  exact div_lt_div_of_pos_right (sub_lt_sub_right hxy _) hs

theorem gammaCdf_mono {k : ℝ} (hk : 0 < k) : Monotone (gammaCdf k) := fun _ _ hab =>
  setIntegral_mono_set (integrable_gammaPdf hk).integrableOn (ae_of_all _ fun x => gammaPdf_nonneg hk x)
    (Iic_subset_Iic.2 hab).eventuallyLE

theorem gammaCdf_nonneg' {k : ℝ} (hk : 0 < k) (x : ℝ) : 0 ≤ gammaCdf k x :=
  setIntegral_nonneg measurableSet_Iic fun x _ => gammaPdf_nonneg hk x

theorem gammaCdf_strict {k x y : ℝ} (hk : 0 < k) (hxy : x < y) : gammaCdf k x = 0 ∨ gammaCdf k x < gammaCdf k y := by
  rcases le_or_gt x 0 with hx | hx
  · exact .inl (gammaCdf_of_nonpos hx)
  · exact .inr (gammaCdf_strictMonoOn hk hx (hx.trans hxy) hxy)

/-- what is needed of a distribution of numbers that are not negative, with an atom at zero only -/
structure AtomLaw (F : ℝ → ℝ) : Prop where
  neg : ∀ x, x < 0 → F x = 0
  mono : Monotone F
  le_one : ∀ x, F x ≤ 1
  cont : ∀ x, 0 < x → ContinuousAt F x
  strict : ∀ x, 0 ≤ x → F x = 0 ∨ ∀ y, x < y → F x < F y

theorem atomLaw_gamma {m s : ℝ} (hm : 0 < m) (hs : 0 < s) (d : ℝ) : AtomLaw (censoredGammaCdf m s d) := by
  have hk : 0 < (m / s) ^ 2 := by positivity
  have ht : 0 < s ^ 2 / m := by positivity
  refine ⟨fun x hx => if_pos hx, fun x y hxy => ?_, fun x => ?_, fun x hx => ?_, fun x hx => ?_⟩
  · unfold censoredGammaCdf
    split_ifs with h1 h2 h2
    · exact le_rfl
    · exact gammaCdf_nonneg' hk _
    · exact absurd (hxy.trans_lt h2) h1
    · exact gammaCdf_mono hk (div_le_div_of_nonneg_right (sub_le_sub_right hxy d) ht.le)
  · unfold censoredGammaCdf
    split_ifs
    · exact zero_le_one
    · exact gammaCdf_le_one hk _
  · have : censoredGammaCdf m s d =ᶠ[𝓝 x] fun x => gammaCdf ((m / s) ^ 2) ((x - d) / (s ^ 2 / m)) := by
      filter_upwards [lt_mem_nhds hx] with t ht
      exact if_neg (not_lt.2 ht.le)
    refine ContinuousAt.congr ?_ this.symm
    exact ((continuous_gammaCdf hk).comp (by fun_prop)).continuousAt
  · by_cases h0 : censoredGammaCdf m s d x = 0
    · exact .inl h0
    · right
      intro y hxy
      unfold censoredGammaCdf at h0 ⊢
      rw [if_neg (not_lt.2 hx)] at h0 ⊢
      rw [if_neg (not_lt.2 (hx.trans hxy.le))]
      exact (gammaCdf_strict hk (div_lt_div_of_pos_right (sub_lt_sub_right hxy d) ht)).resolve_left h0

theorem atomLaw_hurdle {p m s : ℝ} (hp : 0 < p) (hp1 : p ≤ 1) (hm : 0 < m) (hs : 0 < s) : AtomLaw (hurdleLaw p m s) := by
  have hk : 0 < (m / s) ^ 2 := by positivity
  have ht : 0 < s ^ 2 / m := by positivity
  refine ⟨fun x hx => if_pos hx, fun x y hxy => ?_, fun x => ?_, fun x hx => ?_, fun x hx => .inr fun y hxy => ?_⟩
  · unfold hurdleLaw
    split_ifs with h1 h2 h2
    · exact le_rfl
    · have := mul_nonneg hp.le (gammaCdf_nonneg' hk (y / (s ^ 2 / m)))
      linarith
    · exact absurd (hxy.trans_lt h2) h1
    · have := mul_le_mul_of_nonneg_left (gammaCdf_mono hk (div_le_div_of_nonneg_right hxy ht.le)) hp.le
      linarith
  · unfold hurdleLaw
    split_ifs
    · exact zero_le_one
    · have := mul_le_mul_of_nonneg_left (gammaCdf_le_one hk (x / (s ^ 2 / m))) hp.le
      linarith
  · have : hurdleLaw p m s =ᶠ[𝓝 x] fun x => 1 - p + p * gammaCdf ((m / s) ^ 2) (x / (s ^ 2 / m)) := by
      filter_upwards [lt_mem_nhds hx] with t ht
      exact if_neg (not_lt.2 ht.le)
    refine ContinuousAt.congr ?_ this.symm
    have h2 : Continuous fun x => gammaCdf ((m / s) ^ 2) (x / (s ^ 2 / m)) := (continuous_gammaCdf hk).comp (by fun_prop)
    exact (continuous_const.add (continuous_const.mul h2)).continuousAt
  · unfold hurdleLaw
    rw [if_neg (not_lt.2 hx), if_neg (not_lt.2 (hx.trans hxy.le))]
    have : gammaCdf ((m / s) ^ 2) (x / (s ^ 2 / m)) < gammaCdf ((m / s) ^ 2) (y / (s ^ 2 / m)) := by
      rcases hx.eq_or_lt with rfl | hx
      · rw [zero_div, gammaCdf_of_nonpos le_rfl]
        exact gammaCdf_pos hk (div_pos hxy ht)
      · exact gammaCdf_strictMonoOn hk (div_pos hx ht) (div_pos (hx.trans hxy) ht) (div_lt_div_of_pos_right hxy ht)
    have := mul_lt_mul_of_pos_left this hp
    linarith

theorem atomLaw_trunc {m s : ℝ} (hs : 0 < s) : AtomLaw (truncNormalCdf m s 0) :=
  ⟨fun x hx => if_pos hx, fun x y hxy => by
      rcases lt_or_ge x 0 with hx | hx
      · rw [show truncNormalCdf m s 0 x = 0 from if_pos hx]
        exact (unit_trunc m hs 0).lo y
      · rcases hxy.eq_or_lt with rfl | hxy
        · exact le_rfl
        · exact (truncNormalCdf_strict hs hx hxy).le, (unit_trunc m hs 0).hi,
    fun x _ => (continuous_truncNormalCdf m s 0).continuousAt, fun x hx => .inr fun y hxy => truncNormalCdf_strict hs hx hxy⟩

/-- randomised or not, the transform is uniform only for the distribution function of the observations -/
theorem AtomLaw.honest {F : ℝ → ℝ} (hF : AtomLaw F) {U : Ω → ℝ} {rd : Bool} (hpos : ∀ ω, 0 ≤ Y ω)
    (hr : ∀ ω, 0 ≤ U ω ∧ U ω < 1)
    (h : IsUniform P fun ω => if rd = true ∧ Y ω = 0 then F (Y ω) * U ω else F (Y ω)) (x : ℝ) :
    P.real {ω | Y ω ≤ x} = F x := by
  have h0 : 0 ≤ F 0 := (hF.neg (-1) (by norm_num)).symm.le.trans (hF.mono (by norm_num))
  refine law_of_pit hpos hF.neg hF.mono hF.strict hF.le_one (fun ω hy => ?_) (fun ω hy => ?_) h x
  · simp only [hy, and_true]
    split_ifs
    · exact mul_le_of_le_one_right h0 (hr ω).2.le
    · exact le_rfl
  · simp only [hy, and_false, if_false]

end Lemmas
