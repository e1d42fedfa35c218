import Verif.Lemmas.RankFlat
import Verif.Lemmas.PitUniform
import Mathlib.Probability.Moments.ComplexMGF
import Mathlib.MeasureTheory.Constructions.Pi
import Mathlib.Analysis.SpecialFunctions.Integrals.Basic

/-! Moments of a distribution on the unit interval, and the probability that the observation exceeds all the members. -/

namespace Lemmas
open MeasureTheory ProbabilityTheory Spec Set

variable {Ω : Type} [MeasurableSpace Ω] {P : Measure Ω}

/-- the exponential moments of a number between zero and one are a series of the moments -/
theorem complexMGF_series [IsProbabilityMeasure P] {Z : Ω → ℝ} (hZ : Measurable Z) (h0 : ∀ ω, 0 ≤ Z ω) (h1 : ∀ ω, Z ω ≤ 1)
    (z : ℂ) : HasSum (fun n : ℕ => z ^ n / (n.factorial : ℂ) * ((∫ ω, Z ω ^ n ∂P : ℝ) : ℂ)) (complexMGF Z P z) := by
  have key := hasSum_integral_of_dominated_convergence (μ := P) (F := fun (n : ℕ) ω => (z * (Z ω : ℂ)) ^ n / (n.factorial : ℂ))
    (f := fun ω => Complex.exp (z * (Z ω : ℂ))) (fun n _ => ‖z‖ ^ n / (n.factorial : ℝ))
    (fun n => by
      have : Measurable fun ω => (z * (Z ω : ℂ)) ^ n / (n.factorial : ℂ) :=
        (((Complex.measurable_ofReal.comp hZ).const_mul z).pow_const n).div_const _
      exact this.aestronglyMeasurable)
    (fun n => Filter.Eventually.of_forall fun ω => by
      rw [norm_div, norm_pow, norm_mul, Complex.norm_natCast, Complex.norm_real, Real.norm_of_nonneg (h0 ω)]
      refine div_le_div_of_nonneg_right (pow_le_pow_left₀ (mul_nonneg (norm_nonneg _) (h0 ω)) ?_ n) (Nat.cast_nonneg _)
      exact mul_le_of_le_one_right (norm_nonneg _) (h1 ω))
    (Filter.Eventually.of_forall fun _ => Real.summable_pow_div_factorial _)
    (integrable_const _)
    (Filter.Eventually.of_forall fun ω => by
      rw [Complex.exp_eq_exp_ℂ]
      exact NormedSpace.expSeries_div_hasSum_exp _)
  have e : ∀ n : ℕ, ∫ ω, (z * (Z ω : ℂ)) ^ n / (n.factorial : ℂ) ∂P =
      z ^ n / (n.factorial : ℂ) * ((∫ ω, Z ω ^ n ∂P : ℝ) : ℂ) := by
    intro n
    rw [← integral_complex_ofReal, ← integral_const_mul]
    refine integral_congr_ae (Filter.Eventually.of_forall fun ω => ?_)
    show (z * (Z ω : ℂ)) ^ n / (n.factorial : ℂ) = z ^ n / (n.factorial : ℂ) * ((Z ω ^ n : ℝ) : ℂ)
    push_cast
    ring
  simp only [e] at key
  exact key

/-- a number between zero and one whose moments are those of the uniform distribution is uniform -/
theorem uniform_of_moments [IsProbabilityMeasure P] {Z : Ω → ℝ} (hZ : Measurable Z) (h0 : ∀ ω, 0 ≤ Z ω) (h1 : ∀ ω, Z ω ≤ 1)
    (hm : ∀ n : ℕ, ∫ ω, Z ω ^ n ∂P = 1 / ((n : ℝ) + 1)) : IsUniform P Z := by
  let μ : Measure ℝ := volume.restrict (Icc 0 1)
  have hμ : IsProbabilityMeasure μ := ⟨by simp [μ]⟩
  let U : ℝ → ℝ := fun x => max 0 (min x 1)
  have hU : Measurable U := measurable_const.max (measurable_id.min measurable_const)
  have hUid : ∀ x ∈ Icc (0 : ℝ) 1, U x = x := fun x hx => by simp [U, hx.1, hx.2]
  have hmU : ∀ n : ℕ, ∫ x, U x ^ n ∂μ = 1 / ((n : ℝ) + 1) := by
    intro n
    have : ∫ x in Icc (0 : ℝ) 1, U x ^ n = ∫ x in Icc (0 : ℝ) 1, x ^ n :=
      setIntegral_congr_fun measurableSet_Icc fun x hx => by simp only [hUid x hx]
    show ∫ x in Icc (0 : ℝ) 1, U x ^ n = _
    rw [this, integral_Icc_eq_integral_Ioc, ← intervalIntegral.integral_of_le zero_le_one, integral_pow]
    simp
  have hc : complexMGF Z P = complexMGF U μ := by
    funext z
    have s1 := complexMGF_series (P := P) hZ h0 h1 z
    have s2 := complexMGF_series (P := μ) hU (fun x => le_max_left _ _)
      (fun x => max_le zero_le_one (min_le_right _ _)) z
    simp only [hm] at s1
    simp only [hmU] at s2
    exact s1.unique s2
  have hmap := Measure.ext_of_complexMGF_eq hZ.aemeasurable hU.aemeasurable hc
  intro u hu0 hu1
  have e1 : P.real {ω | Z ω ≤ u} = (P.map Z).real (Iic u) := by
    rw [map_measureReal_apply hZ measurableSet_Iic]; rfl
  rw [e1, hmap, map_measureReal_apply hU measurableSet_Iic, measureReal_restrict_apply (hU measurableSet_Iic)]
  have : U ⁻¹' Iic u ∩ Icc 0 1 = Icc 0 u := by
    ext x
    simp only [mem_inter_iff, mem_preimage, mem_Iic, mem_Icc]
    constructor
    · rintro ⟨a, b, c⟩
      exact ⟨b, by rwa [hUid x ⟨b, c⟩] at a⟩
    · rintro ⟨a, b⟩
      exact ⟨by rwa [hUid x ⟨a, b.trans hu1⟩], a, b.trans hu1⟩
  rw [this]
  simp [hu0]

/-- the observation exceeds all the `n` members -/
theorem below_top {n : ℕ} (z : Fin (n + 1) → ℝ) : below z 0 = n ↔ ∀ j : Fin n, z j.succ < z 0 := by
  classical
  unfold below
  rw [Finset.card_filter, Fin.sum_univ_succ, if_neg (lt_irrefl _), zero_add, ← Finset.card_filter]
  constructor
  · intro h j
    have : (Finset.univ.filter fun j : Fin n => z j.succ < z 0) = Finset.univ :=
      (Finset.card_eq_iff_eq_univ _).1 (by rw [h, Fintype.card_fin])
    have := this ▸ Finset.mem_univ j
    simpa using this
  · intro h
    rw [Finset.filter_true_of_mem fun j _ => h j]
    simp

/-- no single number has positive probability -/
theorem lt_of_continuous [IsProbabilityMeasure P] {X : Ω → ℝ} (hX : Measurable X) {D : ℝ → ℝ} (hD : Continuous D)
    (hl : ∀ x, P.real {ω | X ω ≤ x} = D x) (y : ℝ) : P.map X (Iio y) = ENNReal.ofReal (D y) := by
  have : IsProbabilityMeasure (P.map X) := Measure.isProbabilityMeasure_map hX.aemeasurable
  have hIic : ∀ x, P.map X (Iic x) = ENNReal.ofReal (D x) := fun x => by
    rw [Measure.map_apply hX measurableSet_Iic, ← hl x, ofReal_measureReal]
    rfl
  refine le_antisymm ((measure_mono Iio_subset_Iic_self).trans (hIic y).le) ?_
  have hlim : Filter.Tendsto (fun m : ℕ => ENNReal.ofReal (D (y - 1 / ((m : ℝ) + 1)))) Filter.atTop
      (nhds (ENNReal.ofReal (D y))) := by
    refine (ENNReal.continuous_ofReal.tendsto _).comp ((hD.tendsto y).comp ?_)
    simpa using tendsto_const_nhds.sub (tendsto_one_div_add_atTop_nhds_zero_nat (𝕜 := ℝ))
  refine le_of_tendsto hlim (Filter.Eventually.of_forall fun m => ?_)
  rw [← hIic]
  refine measure_mono fun x hx => ?_
  have : (0 : ℝ) < 1 / ((m : ℝ) + 1) := by positivity
  exact lt_of_le_of_lt (show x ≤ _ from hx) (by linarith)

/-- with members of distribution `D`, the observation exceeds all of them with the probability of the `n`-th moment of its
transform -/
theorem top_moment [IsProbabilityMeasure P] {n : ℕ} {Z : Fin (n + 1) → Ω → ℝ} (hm : ∀ k, Measurable (Z k))
    (hI : iIndepFun Z P) {D : ℝ → ℝ} (hD : Continuous D) (hl : ∀ (j : Fin n) x, P.real {ω | Z j.succ ω ≤ x} = D x)
    (hD0 : ∀ x, 0 ≤ D x) :
    P.real {ω | below (fun k => Z k ω) 0 = n} = ∫ ω, D (Z 0 ω) ^ n ∂P := by
  have hZ : Measurable fun ω k => Z k ω := measurable_pi_iff.2 hm
  have hprob : ∀ k, IsProbabilityMeasure (P.map (Z k)) := fun k => Measure.isProbabilityMeasure_map (hm k).aemeasurable
  have hpi := (iIndepFun_iff_map_fun_eq_pi_map fun k => (hm k).aemeasurable).1 hI
  let S : Set (Fin (n + 1) → ℝ) := {z | ∀ j : Fin n, z j.succ < z 0}
  have hS : MeasurableSet S := by
    have : S = ⋂ j : Fin n, {z | z j.succ < z 0} := by ext z; simp [S]
    rw [this]
    exact MeasurableSet.iInter fun j => measurableSet_lt (measurable_pi_apply _) (measurable_pi_apply _)
  let T : Set (ℝ × (Fin n → ℝ)) := {p | ∀ j, p.2 j < p.1}
  have hT : MeasurableSet T := by
    have : T = ⋂ j : Fin n, {p | p.2 j < p.1} := by ext p; simp [T]
    rw [this]
    exact MeasurableSet.iInter fun j => measurableSet_lt ((measurable_pi_apply j).comp measurable_snd) measurable_fst
  have e1 : P {ω | below (fun k => Z k ω) 0 = n} = Measure.pi (fun k => P.map (Z k)) S := by
    rw [← hpi, Measure.map_apply hZ hS]
    congr 1
    ext ω
    exact below_top _
  have e2 : Measure.pi (fun k => P.map (Z k)) S =
      ((P.map (Z 0)).prod (Measure.pi fun j : Fin n => P.map (Z j.succ))) T := by
    have := (measurePreserving_piFinSuccAbove (fun k => P.map (Z k)) 0).measure_preimage hT.nullMeasurableSet
    simp only [Fin.zero_succAbove] at this
    rw [← this]
    rfl
  have e3 : ((P.map (Z 0)).prod (Measure.pi fun j : Fin n => P.map (Z j.succ))) T =
      ∫⁻ y, ENNReal.ofReal (D y ^ n) ∂P.map (Z 0) := by
    rw [Measure.prod_apply hT]
    refine lintegral_congr fun y => ?_
    have : Prod.mk y ⁻¹' T = Set.pi univ fun _ : Fin n => Iio y := by ext x; simp [T]
    rw [this, Measure.pi_pi]
    simp only [lt_of_continuous (hm _) hD (hl _) y, Finset.prod_const, Finset.card_univ, Fintype.card_fin,
      ENNReal.ofReal_pow (hD0 y)]
  have hcont : Continuous fun y => D y ^ n := hD.pow n
  rw [measureReal_def, e1, e2, e3, lintegral_map hcont.measurable.ennreal_ofReal (hm 0),
    integral_eq_lintegral_of_nonneg_ae (Filter.Eventually.of_forall fun ω => pow_nonneg (hD0 _) n)
      (hcont.measurable.comp (hm 0)).aestronglyMeasurable]

/-- if the transform of the observation is uniform, then the distribution function is that of the observation -/
theorem law_of_uniform' {Y : Ω → ℝ} {D : ℝ → ℝ} (h0 : ∀ x, 0 ≤ D x) (h1 : ∀ x, D x ≤ 1)
    (hmono : Monotone D) (hs : ∀ x y, x < y → D x = 0 ∨ D x < D y) [IsFiniteMeasure P] (h : IsUniform P fun ω => D (Y ω)) (x : ℝ) :
    P.real {ω | Y ω ≤ x} = D x := by
  have hx := h (D x) (h0 x) (h1 x)
  have hsub : {ω | Y ω ≤ x} ⊆ {ω | D (Y ω) ≤ D x} := fun ω hω => hmono hω
  by_cases hz : D x = 0
  · refine le_antisymm ((measureReal_mono hsub).trans hx.le) ?_
    rw [hz]
    exact measureReal_nonneg
  · rw [← hx]
    congr 1
    ext ω
    refine ⟨fun hω => hsub hω, fun hω => ?_⟩
    by_contra hc
    rcases hs x (Y ω) (not_le.1 hc) with h | h
    · exact hz h
    · exact absurd (show D (Y ω) ≤ D x from hω) (not_le.2 h)

/-- the moments of a number that is never below `p` and uniform above -/
theorem moment_atom [IsProbabilityMeasure P] {X : Ω → ℝ} (hX : Measurable X) (h1 : ∀ ω, X ω ≤ 1) {p : ℝ}
    (hp0 : 0 ≤ p) (hp1 : p ≤ 1) (hl : ∀ u, u ≤ 1 → P.real {ω | X ω ≤ u} = if u < p then 0 else u) (n : ℕ) :
    ∫ ω, X ω ^ n ∂P = (1 + n * p ^ (n + 1)) / (n + 1) := by
  let μ : Measure ℝ := volume.restrict (Icc 0 1)
  have hμ : IsProbabilityMeasure μ := ⟨by simp [μ]⟩
  let V : ℝ → ℝ := fun x => max p x
  have hV : Measurable V := measurable_const.max measurable_id
  have hmap : P.map X = μ.map V := by
    have := Measure.isProbabilityMeasure_map (μ := P) hX.aemeasurable
    have := Measure.isProbabilityMeasure_map (μ := μ) hV.aemeasurable
    refine Measure.ext_of_Iic _ _ fun u => ?_
    rw [← ofReal_measureReal, ← ofReal_measureReal]
    congr 1
    rw [map_measureReal_apply hX measurableSet_Iic, map_measureReal_apply hV measurableSet_Iic,
      measureReal_restrict_apply (hV measurableSet_Iic)]
    rcases lt_or_ge u p with hu | hu
    · have e : V ⁻¹' Iic u ∩ Icc 0 1 = ∅ := by
        ext x
        simp only [mem_inter_iff, mem_preimage, mem_Iic, mem_empty_iff_false, iff_false, V]
        rintro ⟨h, -⟩
        exact absurd ((le_max_left _ _).trans h) (not_le.2 hu)
      rw [e]
      have := hl u (hu.le.trans hp1)
      rw [if_pos hu] at this
      refine (show P.real (X ⁻¹' Iic u) = 0 from this).trans ?_
      simp
    · rcases le_or_gt u 1 with hu1 | hu1
      · have e : V ⁻¹' Iic u ∩ Icc 0 1 = Icc 0 u := by
          ext x
          simp only [mem_inter_iff, mem_preimage, mem_Iic, mem_Icc, V, max_le_iff]
          exact ⟨fun h => ⟨h.2.1, h.1.2⟩, fun h => ⟨⟨hu, h.2⟩, h.1, h.2.trans hu1⟩⟩
        have := hl u hu1
        rw [if_neg (not_lt.2 hu)] at this
        rw [e]
        refine (show P.real (X ⁻¹' Iic u) = u from this).trans ?_
        simp [hp0.trans hu]
      · have e : V ⁻¹' Iic u ∩ Icc 0 1 = Icc 0 1 := by
          refine inter_eq_right.2 fun x hx => ?_
          exact max_le hu (hx.2.trans hu1.le)
        have e' : X ⁻¹' Iic u = univ := eq_univ_of_forall fun ω => (h1 ω).trans hu1.le
        rw [e, e']
        simp
  have hpow : Continuous fun x : ℝ => x ^ n := continuous_pow n
  have i1 := integral_map (μ := P) hX.aemeasurable (f := fun x => x ^ n) hpow.aestronglyMeasurable
  have i2 := integral_map (μ := μ) hV.aemeasurable (f := fun x => x ^ n) hpow.aestronglyMeasurable
  rw [← i1, hmap, i2]
  show ∫ x in Icc (0 : ℝ) 1, max p x ^ n = _
  have hVc : Continuous fun x : ℝ => max p x ^ n := (continuous_const.max continuous_id).pow n
  rw [integral_Icc_eq_integral_Ioc, ← intervalIntegral.integral_of_le zero_le_one,
    ← intervalIntegral.integral_add_adjacent_intervals (b := p) (hVc.intervalIntegrable _ _) (hVc.intervalIntegrable _ _)]
  have j1 : ∫ x in (0 : ℝ)..p, max p x ^ n = ∫ _ in (0 : ℝ)..p, p ^ n :=
    intervalIntegral.integral_congr fun x hx => by
      rw [uIcc_of_le hp0] at hx
      simp only [max_eq_left hx.2]
  have j2 : ∫ x in p..1, max p x ^ n = ∫ x in p..1, x ^ n :=
    intervalIntegral.integral_congr fun x hx => by
      rw [uIcc_of_le hp1] at hx
      simp only [max_eq_right hx.1]
  rw [j1, j2, integral_pow, intervalIntegral.integral_const]
  have : (n : ℝ) + 1 ≠ 0 := by positivity
  rw [smul_eq_mul]
  field_simp
  ring

end Lemmas
