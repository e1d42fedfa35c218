import Verif.Props.RocLimit
import Verif.Lemmas.LongRunBest

/-!
# Nobody discriminates better in the long run than those who announce the probabilities that follow from all that is known: C141
-/

set_option linter.unusedSectionVars false

namespace Props
open Np NDArr Model Spec Lemmas MeasureTheory ProbabilityTheory Filter Topology

variable {Ω : Type} [MeasurableSpace Ω] {P : Measure Ω} [IsProbabilityMeasure P] {E : Type} [MeasurableSpace E]
  {K : Ω → E} {B : Set Ω} {p e : E → ℝ}

theorem wins_add (x y : ℝ) : wins x y + wins y x = 1 := by
  rcases lt_trichotomy x y with h | h | h
  · simp [wins, h, h.not_gt, h.ne']
  · simp only [wins, h, lt_irrefl, if_false, if_true]; norm_num
  · simp [wins, h, h.not_gt, h.ne']

/-- what a pair of days counts on average for someone who knows `K` -/
noncomputable def pairMean (p e : E → ℝ) (K : Ω → E) (z : Ω × Ω) : ℝ :=
  p (K z.1) * (1 - p (K z.2)) * wins (e (K z.1)) (e (K z.2))

theorem measurable_pairMean (hK : Measurable K) (hp : Measurable p) (he : Measurable e) : Measurable (pairMean p e K) := by
  have k1 : Measurable fun z : Ω × Ω => K z.1 := hK.comp measurable_fst
  have k2 : Measurable fun z : Ω × Ω => K z.2 := hK.comp measurable_snd
  exact ((hp.comp k1).mul (measurable_const.sub (hp.comp k2))).mul (measurable_wins.comp ((he.comp k1).prodMk (he.comp k2)))

theorem pairMean_unit (hu : ∀ ω, 0 ≤ p (K ω) ∧ p (K ω) ≤ 1) (z : Ω × Ω) : 0 ≤ pairMean p e K z ∧ pairMean p e K z ≤ 1 := by
  obtain ⟨a1, a2⟩ := hu z.1
  obtain ⟨b1, b2⟩ := hu z.2
  obtain ⟨c1, c2⟩ := wins_unit (e (K z.1)) (e (K z.2))
  have h1 : 0 ≤ p (K z.1) * (1 - p (K z.2)) := mul_nonneg a1 (by linarith)
  have h2 : p (K z.1) * (1 - p (K z.2)) ≤ 1 := mul_le_one₀ a2 (by linarith) (by linarith)
  exact ⟨mul_nonneg h1 c1, mul_le_one₀ h2 c1 c2⟩

theorem integrable_pairMean (hK : Measurable K) (hp : Measurable p) (he : Measurable e) (hu : ∀ ω, 0 ≤ p (K ω) ∧ p (K ω) ≤ 1) :
    Integrable (pairMean p e K) (P.prod P) :=
  bounded_integrable (measurable_pairMean hK hp he) (c := 1) fun z => by
    rw [abs_of_nonneg (pairMean_unit hu z).1]
    exact (pairMean_unit hu z).2

theorem given_other (hB : MeasurableSet B) (hK : Measurable K) (hp : Measurable p) (hu : ∀ ω, 0 ≤ p (K ω) ∧ p (K ω) ≤ 1)
    (h : ProbGiven P K B p) {g : E → ℝ} (hg : Measurable g) (hg1 : ∀ x, |g x| ≤ 1) :
    ∫ ω, Bᶜ.indicator (fun ω => g (K ω)) ω ∂P = ∫ ω, (1 - p (K ω)) * g (K ω) ∂P := by
  have i1 : Integrable (fun ω => g (K ω)) P := bounded_integrable (hg.comp hK) (c := 1) fun ω => hg1 _
  have i2 : Integrable (fun ω => g (K ω) * p (K ω)) P := by
    refine bounded_integrable ((hg.comp hK).mul (hp.comp hK)) (c := 1) fun ω => ?_
    rw [abs_mul]
    exact mul_le_one₀ (hg1 _) (abs_nonneg _) (by
      rw [abs_of_nonneg (hu ω).1]; exact (hu ω).2)
  have h1 := given_mean hB hK hp hu h hg
  have h2 := integral_add_compl hB i1
  rw [integral_indicator hB] at h1
  rw [integral_indicator hB.compl]
  have h3 : ∫ ω, (1 - p (K ω)) * g (K ω) ∂P = ∫ ω, g (K ω) ∂P - ∫ ω, g (K ω) * p (K ω) ∂P := by
    rw [← integral_sub i1 i2]
    exact integral_congr_ae (.of_forall fun ω => by ring)
  linarith

/-- the limit of the area in terms of what is known -/
theorem area_given (hB : MeasurableSet B) (hK : Measurable K) (hp : Measurable p) (he : Measurable e)
    (hu : ∀ ω, 0 ≤ p (K ω) ∧ p (K ω) ≤ 1) (h : ProbGiven P K B p) :
    trueArea P (fun ω => e (K ω)) B = (∫ z, pairMean p e K z ∂(P.prod P)) / (P.real B * P.real Bᶜ) := by
  classical
  have hw : Measurable fun q : E × Ω => wins (e q.1) (e (K q.2)) :=
    measurable_wins.comp ((he.comp measurable_fst).prodMk ((he.comp hK).comp measurable_snd))
  have hsec : ∀ x, Measurable fun y => wins x (e y) := fun x => measurable_wins.comp (measurable_const.prodMk he)
  have hwb : ∀ x y : ℝ, |wins x y| ≤ 1 := fun x y => by rw [abs_of_nonneg (wins_unit x y).1]; exact (wins_unit x y).2
  let G : E → ℝ := fun k => ∫ ω', (1 - p (K ω')) * wins (e k) (e (K ω')) ∂P
  have hG : Measurable G := by
    have : StronglyMeasurable fun q : E × Ω => (1 - p (K q.2)) * wins (e q.1) (e (K q.2)) :=
      ((measurable_const.sub ((hp.comp hK).comp measurable_snd)).mul hw).stronglyMeasurable
    exact this.integral_prod_right.measurable
  have hnum : ∫ z : Ω × Ω, (indicator (z.1 ∈ B ∧ z.2 ∉ B) : ℝ) * wins (e (K z.1)) (e (K z.2)) ∂(P.prod P) =
      ∫ z, pairMean p e K z ∂(P.prod P) := by
    have e1 : ∀ z : Ω × Ω, (indicator (z.1 ∈ B ∧ z.2 ∉ B) : ℝ) * wins (e (K z.1)) (e (K z.2)) =
        B.indicator (fun _ => 1) z.1 * Bᶜ.indicator (fun ω' => wins (e (K z.1)) (e (K ω'))) z.2 := by
      intro z
      by_cases h1 : z.1 ∈ B <;> by_cases h2 : z.2 ∈ B <;> simp [indicator, h1, h2]
    have hj : Integrable (fun z : Ω × Ω => (indicator (z.1 ∈ B ∧ z.2 ∉ B) : ℝ) * wins (e (K z.1)) (e (K z.2))) (P.prod P) := by
      have hm : Measurable fun z : Ω × Ω => (indicator (z.1 ∈ B ∧ z.2 ∉ B) : ℝ) := by
        have e2 : (fun z : Ω × Ω => (indicator (z.1 ∈ B ∧ z.2 ∉ B) : ℝ)) = (B ×ˢ Bᶜ).indicator fun _ => 1 := by
          funext z
          exact indicator_set (fun z : Ω × Ω => z.1 ∈ B ∧ z.2 ∉ B) z
        rw [e2]
        exact measurable_const.indicator (hB.prod hB.compl)
      refine bounded_integrable (hm.mul (hw.comp ((hK.comp measurable_fst).prodMk measurable_snd))) (c := 1) fun z => ?_
      rw [abs_mul]
      refine mul_le_one₀ ?_ (abs_nonneg _) (hwb _ _)
      rcases indicator_or (z.1 ∈ B ∧ z.2 ∉ B) with e2 | e2 <;> rw [e2] <;> norm_num
    rw [integral_prod _ hj, integral_prod _ (integrable_pairMean hK hp he hu)]
    have e3 : ∀ ω, ∫ ω', (indicator ((ω, ω').1 ∈ B ∧ (ω, ω').2 ∉ B) : ℝ) * wins (e (K (ω, ω').1)) (e (K (ω, ω').2)) ∂P =
        B.indicator (fun ω => G (K ω)) ω := by
      intro ω
      simp only [fun ω' => e1 (ω, ω')]
      rw [integral_const_mul, given_other hB hK hp hu h (hsec (e (K ω))) fun y => hwb _ _]
      by_cases hω : ω ∈ B <;> simp [hω, G]
    simp only [e3]
    rw [given_mean hB hK hp hu h hG]
    refine integral_congr_ae (.of_forall fun ω => ?_)
    show G (K ω) * p (K ω) = ∫ ω', p (K ω) * (1 - p (K ω')) * wins (e (K ω)) (e (K ω')) ∂P
    simp only [mul_assoc]
    rw [integral_const_mul, mul_comm]
  rw [trueArea, hnum]

/-- how much the honest order gains on a pair of days -/
noncomputable def pairGain (p e : E → ℝ) (K : Ω → E) (z : Ω × Ω) : ℝ :=
  (p (K z.1) - p (K z.2)) * (wins (p (K z.1)) (p (K z.2)) - wins (e (K z.1)) (e (K z.2)))

theorem pairGain_nonneg (z : Ω × Ω) : 0 ≤ pairGain p e K z := by
  unfold pairGain
  obtain ⟨c1, c2⟩ := wins_unit (e (K z.1)) (e (K z.2))
  rcases lt_trichotomy (p (K z.1)) (p (K z.2)) with h | h | h
  · have : wins (p (K z.1)) (p (K z.2)) = 0 := by simp [wins, h.not_gt, h.ne']
    rw [this]
    nlinarith
  · rw [h, sub_self, zero_mul]
  · have : wins (p (K z.1)) (p (K z.2)) = 1 := by simp [wins, h]
    rw [this]
    nlinarith

theorem gain_mean (hK : Measurable K) (hp : Measurable p) (he : Measurable e) (hu : ∀ ω, 0 ≤ p (K ω) ∧ p (K ω) ≤ 1) :
    Integrable (pairGain p e K) (P.prod P) ∧ ∫ z, pairMean p p K z ∂(P.prod P) - ∫ z, pairMean p e K z ∂(P.prod P) =
      (∫ z, pairGain p e K z ∂(P.prod P)) / 2 := by
  have ip := integrable_pairMean (P := P) hK hp hp hu
  have ie := integrable_pairMean (P := P) hK hp he hu
  have jp : Integrable (fun z : Ω × Ω => pairMean p p K z.swap) (P.prod P) := ip.swap
  have je : Integrable (fun z : Ω × Ω => pairMean p e K z.swap) (P.prod P) := ie.swap
  have sp : ∫ z : Ω × Ω, pairMean p p K z.swap ∂(P.prod P) = ∫ z, pairMean p p K z ∂(P.prod P) := integral_prod_swap _
  have se : ∫ z : Ω × Ω, pairMean p e K z.swap ∂(P.prod P) = ∫ z, pairMean p e K z ∂(P.prod P) := integral_prod_swap _
  have key : ∀ z : Ω × Ω, pairGain p e K z = pairMean p p K z + pairMean p p K z.swap - (pairMean p e K z + pairMean p e K z.swap) := by
    intro z
    have h1 := wins_add (p (K z.1)) (p (K z.2))
    have h2 := wins_add (e (K z.1)) (e (K z.2))
    simp only [pairGain, pairMean, Prod.fst_swap, Prod.snd_swap]
    rw [show wins (p (K z.2)) (p (K z.1)) = 1 - wins (p (K z.1)) (p (K z.2)) by linarith,
      show wins (e (K z.2)) (e (K z.1)) = 1 - wins (e (K z.1)) (e (K z.2)) by linarith]
    ring
  have hi : Integrable (pairGain p e K) (P.prod P) := by
    rw [show pairGain p e K = _ from funext key]
    exact (ip.add jp).sub (ie.add je)
  refine ⟨hi, ?_⟩
  have : ∫ z, pairGain p e K z ∂(P.prod P) = ∫ z, pairMean p p K z ∂(P.prod P) + ∫ z, pairMean p p K z ∂(P.prod P) -
      (∫ z, pairMean p e K z ∂(P.prod P) + ∫ z, pairMean p e K z ∂(P.prod P)) := by
    simp only [key]
    have i1 : Integrable (fun z => pairMean p p K z + pairMean p p K z.swap) (P.prod P) := ip.add jp
    have i2 : Integrable (fun z => pairMean p e K z + pairMean p e K z.swap) (P.prod P) := ie.add je
    rw [integral_sub i1 i2, integral_add ip jp, integral_add ie je, sp, se]
  linarith

/-- **C141**: whoever announces the probabilities that follow from all that is known has the largest area. -/
theorem C141_best (hB : MeasurableSet B) (hK : Measurable K) (hp : Measurable p) (he : Measurable e)
    (hu : ∀ ω, 0 ≤ p (K ω) ∧ p (K ω) ≤ 1) (h : ProbGiven P K B p) :
    trueArea P (fun ω => e (K ω)) B ≤ trueArea P (fun ω => p (K ω)) B := by
  rw [area_given hB hK hp he hu h, area_given hB hK hp hp hu h]
  refine div_le_div_of_nonneg_right ?_ (mul_nonneg measureReal_nonneg measureReal_nonneg)
  have h1 := (gain_mean (P := P) hK hp he hu).2
  have h2 : 0 ≤ ∫ z, pairGain p e K z ∂(P.prod P) := integral_nonneg fun z => pairGain_nonneg z
  linarith

/-- **C141**: the area is strictly larger, unless the other forecasts order almost all pairs of days as these probabilities do. -/
theorem C141_strict (hB : MeasurableSet B) (hK : Measurable K) (hp : Measurable p) (he : Measurable e)
    (hu : ∀ ω, 0 ≤ p (K ω) ∧ p (K ω) ≤ 1) (h : ProbGiven P K B p) (h0 : P.real B ≠ 0) (h1 : P.real Bᶜ ≠ 0)
    (hne : ¬ ∀ᵐ z ∂(P.prod P), p (K z.1) < p (K z.2) → e (K z.1) < e (K z.2)) :
    trueArea P (fun ω => e (K ω)) B < trueArea P (fun ω => p (K ω)) B := by
  rw [area_given hB hK hp he hu h, area_given hB hK hp hp hu h]
  refine div_lt_div_of_pos_right ?_ (mul_pos (lt_of_le_of_ne measureReal_nonneg h0.symm)
    (lt_of_le_of_ne measureReal_nonneg h1.symm))
  obtain ⟨hi, h2⟩ := gain_mean (P := P) hK hp he hu
  have h3 : 0 < ∫ z, pairGain p e K z ∂(P.prod P) := by
    refine lt_of_le_of_ne (integral_nonneg fun z => pairGain_nonneg z) fun h4 => hne ?_
    filter_upwards [(integral_eq_zero_iff_of_nonneg (fun z => pairGain_nonneg z) hi).1 h4.symm] with z hz hlt
    have hz' : (p (K z.1) - p (K z.2)) * (wins (p (K z.1)) (p (K z.2)) - wins (e (K z.1)) (e (K z.2))) = 0 := hz
    have h5 : wins (p (K z.1)) (p (K z.2)) = 0 := by simp [wins, hlt.not_gt, hlt.ne']
    rw [h5] at hz'
    rcases mul_eq_zero.1 hz' with h6 | h6
    · linarith
    · by_contra hle
      have : 1 / 2 ≤ wins (e (K z.1)) (e (K z.2)) := by
        unfold wins
        split_ifs with a b
        · norm_num
        · exact le_rfl
        · exact absurd (lt_of_le_of_ne (not_lt.1 a) (Ne.symm b)) hle
      linarith
  linarith

/-- **C141**: these probabilities have at least the area one half, and more unless they are almost surely the same. -/
theorem C141_half (hB : MeasurableSet B) (hK : Measurable K) (hp : Measurable p) (hu : ∀ ω, 0 ≤ p (K ω) ∧ p (K ω) ≤ 1)
    (h : ProbGiven P K B p) (h0 : P.real B ≠ 0) (h1 : P.real Bᶜ ≠ 0) :
    1 / 2 ≤ trueArea P (fun ω => p (K ω)) B ∧
      ((¬ ∀ᵐ z ∂(P.prod P), p (K z.2) ≤ p (K z.1)) → 1 / 2 < trueArea P (fun ω => p (K ω)) B) := by
  have e0 := C140_no_skill (P := P) (D := fun _ => 0) measurable_const hB (indepFun_const_left _ _) h0 h1
  constructor
  · rw [← e0]
    exact C141_best (e := fun _ => 0) hB hK hp measurable_const hu h
  · intro hne
    rw [← e0]
    refine C141_strict (e := fun _ => 0) hB hK hp measurable_const hu h h0 h1 fun hh => hne ?_
    filter_upwards [hh] with z hz
    by_contra hlt
    exact lt_irrefl _ (hz (not_le.1 hlt))

/-- **C141**: of the areas of two archives, with probability one from some day on that of the better forecasts is larger. -/
theorem C141_overtakes {S S' : Nat → Ω → ℝ} (hB : MeasurableSet B) (hK : Measurable K) (hp : Measurable p) (he : Measurable e)
    (hu : ∀ ω, 0 ≤ p (K ω) ∧ p (K ω) ≤ 1) (h : ProbGiven P K B p) (h0 : P.real B ≠ 0) (h1 : P.real Bᶜ ≠ 0)
    (hne : ¬ ∀ᵐ z ∂(P.prod P), p (K z.1) < p (K z.2) → e (K z.1) < e (K z.2))
    (hS : Settles P S (trueArea P (fun ω => e (K ω)) B)) (hS' : Settles P S' (trueArea P (fun ω => p (K ω)) B)) :
    ∀ᵐ ω ∂P, ∃ N, ∀ n, N ≤ n → S n ω < S' n ω := settles_lt hS hS' (C141_strict hB hK hp he hu h h0 h1 hne)

end Props
