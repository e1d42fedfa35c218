import Verif.Lemmas.BootLaw
import Verif.Lemmas.BootCount
import Mathlib.MeasureTheory.Integral.Indicator

/-! How often a bootstrap interval holds the expectation. -/

namespace Lemmas
open Np Model Spec MeasureTheory ProbabilityTheory Filter Topology

section fixed
variable {Ω Ω' : Type} [MeasurableSpace Ω] [MeasurableSpace Ω'] {P : Measure Ω} [IsProbabilityMeasure P] {Q : Measure Ω'}
  [IsProbabilityMeasure Q] {X : ℕ → Ω → ℝ} {N n : ℕ} {U : ℕ → ℕ → Ω' → ℕ}

/-- the mean of repeat `r` -/
noncomputable def pairMean (X : ℕ → Ω → ℝ) (N n : ℕ) (U : ℕ → ℕ → Ω' → ℕ) (r : ℕ) (p : Ω × Ω') : ℝ :=
  drawMean (fun t => X t p.1) N n fun j => U r j p.2

/-- the share of `R` repeats with a mean in `A` -/
noncomputable def pairShare (X : ℕ → Ω → ℝ) (N n : ℕ) (U : ℕ → ℕ → Ω' → ℕ) (A : Set ℝ) (R : ℕ) (p : Ω × Ω') : ℝ :=
  avg ((List.range R).map fun r => (indicator (pairMean X N n U r p ∈ A) : ℝ))

/-- the probability of a mean in `A`, the data given -/
noncomputable def drawProb (Q : Measure Ω') (X : ℕ → Ω → ℝ) (N n : ℕ) (U : ℕ → ℕ → Ω' → ℕ) (A : Set ℝ) (ω : Ω) : ℝ :=
  Q.real {ω' | pairMean X N n U 0 (ω, ω') ∈ A}

omit [IsProbabilityMeasure Q] in
theorem measurable_pairMean (h : FairDraws Q N U) (hX : ∀ t, Measurable (X t)) (r : ℕ) :
    Measurable (pairMean X N n U r) := by
  unfold pairMean drawMean
  refine Measurable.div_const (Finset.measurable_fun_sum _ fun j _ => ?_) _
  have h1 : Measurable fun q : ℕ × Ω => X q.1 q.2 := measurable_from_prod_countable_right hX
  have h2 : Measurable fun p : Ω × Ω' => (U r j p.2 % N, p.1) :=
    ((measurable_from_nat (f := fun k => k % N)).comp ((draw_meas h r j).comp measurable_snd)).prodMk measurable_fst
  exact h1.comp h2

theorem measurable_indicator {α : Type} [MeasurableSpace α] {f : α → ℝ} (hf : Measurable f) {A : Set ℝ}
    (hA : MeasurableSet A) : Measurable fun a => (indicator (f a ∈ A) : ℝ) := by
  classical
  have : (fun a => (indicator (f a ∈ A) : ℝ)) = (f ⁻¹' A).indicator fun _ => 1 := by
    funext a
    unfold indicator
    by_cases h : f a ∈ A
    · rw [if_pos h, Set.indicator_of_mem (by exact h)]
    · rw [if_neg h, Set.indicator_of_notMem (by exact h)]
  rw [this]
  exact measurable_const.indicator (hf hA)

omit [IsProbabilityMeasure Q] in
theorem measurable_pairShare (h : FairDraws Q N U) (hX : ∀ t, Measurable (X t)) {A : Set ℝ} (hA : MeasurableSet A) (R : ℕ) :
    Measurable (pairShare X N n U A R) := by
  unfold pairShare avg
  simp only [List.length_map, List.length_range]
  refine Measurable.div_const ?_ _
  have : ∀ p, ((List.range R).map fun r => (indicator (pairMean X N n U r p ∈ A) : ℝ)).sum =
      ∑ r ∈ Finset.range R, (indicator (pairMean X N n U r p ∈ A) : ℝ) := fun p => rfl
  simp only [this]
  exact Finset.measurable_fun_sum _ fun r _ => measurable_indicator (measurable_pairMean h hX r) hA

theorem measurable_drawProb (h : FairDraws Q N U) (hX : ∀ t, Measurable (X t)) {A : Set ℝ} (hA : MeasurableSet A) :
    Measurable (drawProb Q X N n U A) := by
  have := measurable_measure_prodMk_left (ν := Q) ((measurable_pairMean (n := n) h hX 0) hA)
  exact this.ennreal_toReal

/-- with more and more repeats the share approaches the probability -/
theorem pairShare_limit (h : FairDraws Q N U) (hX : ∀ t, Measurable (X t)) {A : Set ℝ} (hA : MeasurableSet A) {η : ℝ}
    (hη : 0 < η) :
    Tendsto (fun R => (P.prod Q).real {p | η ≤ |pairShare X N n U A R p - drawProb Q X N n U A p.1|}) atTop (𝓝 0) := by
  have hae : ∀ᵐ p ∂P.prod Q, Tendsto (fun R => pairShare X N n U A (R + 1) p) atTop (𝓝 (drawProb Q X N n U A p.1)) := by
    have hms : MeasurableSet {p : Ω × Ω' | Tendsto (fun R => pairShare X N n U A (R + 1) p) atTop
        (𝓝 (drawProb Q X N n U A p.1))} :=
      measurableSet_tendsto_fun (fun R => measurable_pairShare h hX hA (R + 1))
        ((measurable_drawProb h hX hA).comp measurable_fst)
    refine (Measure.ae_prod_iff_ae_ae hms).2 (Eventually.of_forall fun ω => ?_)
    exact settles_share h.rows (B := {d | drawMean (fun t => X t ω) N n d ∈ A}) ((measurable_drawMean _ N n) hA)
  have ht := tendstoInMeasure_of_tendsto_ae
    (fun R => (measurable_pairShare h hX hA (R + 1)).aestronglyMeasurable) hae
  rw [tendstoInMeasure_iff_measureReal_norm] at ht
  exact (tendsto_add_atTop_iff_nat 1).1 (ht η hη)

variable {conf : ℝ} {skip : Bool}

/-- where the interval holds `μ` -/
def coverSet (X : ℕ → Ω → ℝ) (N n : ℕ) (U : ℕ → ℕ → Ω' → ℕ) (conf : ℝ) (skip : Bool) (μ : ℝ) (R : ℕ) : Set (Ω × Ω') :=
  {p | Covers μ (bootVec (firstDays X N p.1) n R conf skip fun r j => U r j p.2)}

/-- many repeats: at least the probability that both sides have more than their share, up to a little -/
theorem cover_lower (h : FairDraws Q N U) (hX : ∀ t, Measurable (X t)) (hN : 0 < N) (hn : 0 < n) (h0 : 0 ≤ conf)
    (h1 : conf ≤ 1) (μ : ℝ) {η ε : ℝ} (hη : 0 < η) (hε : 0 < ε) :
    ∀ᶠ R in atTop, P.real {ω | (1 - conf) / 2 + η ≤ drawProb Q X N n U (Set.Iic μ) ω ∧
        (1 - conf) / 2 + η ≤ drawProb Q X N n U (Set.Ici μ) ω} - ε <
      (P.prod Q).real (coverSet X N n U conf skip μ R) := by
  have t1 := pairShare_limit (P := P) (n := n) h hX (measurableSet_Iic (a := μ)) (show 0 < η / 2 by linarith)
  have t2 := pairShare_limit (P := P) (n := n) h hX (measurableSet_Ici (a := μ)) (show 0 < η / 2 by linarith)
  have hR : Tendsto (fun R : ℕ => (R : ℝ)) atTop atTop := tendsto_natCast_atTop_atTop
  filter_upwards [t1.eventually_lt_const (show 0 < ε / 2 by linarith), t2.eventually_lt_const (show 0 < ε / 2 by linarith),
    hR.eventually_ge_atTop (2 / η), eventually_gt_atTop 0] with R a1 a2 hl hR
  have hRr : (0 : ℝ) < R := by exact_mod_cast hR
  rw [div_le_iff₀ hη] at hl
  set B := {ω | (1 - conf) / 2 + η ≤ drawProb Q X N n U (Set.Iic μ) ω ∧
        (1 - conf) / 2 + η ≤ drawProb Q X N n U (Set.Ici μ) ω} with hB
  have hsub : B ×ˢ (Set.univ : Set Ω') ⊆ coverSet X N n U conf skip μ R ∪
      ({p | η / 2 ≤ |pairShare X N n U (Set.Iic μ) R p - drawProb Q X N n U (Set.Iic μ) p.1|} ∪
       {p | η / 2 ≤ |pairShare X N n U (Set.Ici μ) R p - drawProb Q X N n U (Set.Ici μ) p.1|}) := by
    rintro p ⟨⟨hb1, hb2⟩, -⟩
    by_contra hc
    simp only [Set.mem_union, not_or, Set.mem_ofPred_eq, not_le] at hc
    obtain ⟨c1, c2, c3⟩ := hc
    refine c1 ?_
    have d2 := (abs_lt.1 c2).1
    have d3 := (abs_lt.1 c3).1
    refine (bootVec_covers (x := fun t => X t p.1) (skip := skip) (draw := fun r j => U r j p.2) hN hn hR h0 h1 μ).2 ?_ ?_
    · have : (1 - conf) / 2 + η / 2 ≤ pairShare X N n U (Set.Iic μ) R p := by linarith
      have h3 := mul_le_mul_of_nonneg_right this hRr.le
      change _ ≤ pairShare X N n U (Set.Iic μ) R p * R
      nlinarith
    · have : (1 - conf) / 2 + η / 2 ≤ pairShare X N n U (Set.Ici μ) R p := by linarith
      have h3 := mul_le_mul_of_nonneg_right this hRr.le
      change _ ≤ pairShare X N n U (Set.Ici μ) R p * R
      nlinarith
  have e : (P.prod Q).real (B ×ˢ (Set.univ : Set Ω')) = P.real B := by
    rw [measureReal_prod_prod, probReal_univ, mul_one]
  have h4 := (measureReal_mono (μ := P.prod Q) hsub).trans
    ((measureReal_union_le _ _).trans (add_le_add_right (measureReal_union_le _ _) _))
  rw [e] at h4
  linarith

/-- and at most the probability that both sides have hardly less than their share -/
theorem cover_upper (h : FairDraws Q N U) (hX : ∀ t, Measurable (X t)) (hN : 0 < N) (hn : 0 < n) (h0 : 0 ≤ conf)
    (h1 : conf ≤ 1) (μ : ℝ) {η ε : ℝ} (hη : 0 < η) (hε : 0 < ε) :
    ∀ᶠ R in atTop, (P.prod Q).real (coverSet X N n U conf skip μ R) <
      P.real {ω | (1 - conf) / 2 - η < drawProb Q X N n U (Set.Iic μ) ω ∧
        (1 - conf) / 2 - η < drawProb Q X N n U (Set.Ici μ) ω} + ε := by
  have t1 := pairShare_limit (P := P) (n := n) h hX (measurableSet_Iic (a := μ)) (show 0 < η / 2 by linarith)
  have t2 := pairShare_limit (P := P) (n := n) h hX (measurableSet_Ici (a := μ)) (show 0 < η / 2 by linarith)
  have hR : Tendsto (fun R : ℕ => (R : ℝ)) atTop atTop := tendsto_natCast_atTop_atTop
  filter_upwards [t1.eventually_lt_const (show 0 < ε / 2 by linarith), t2.eventually_lt_const (show 0 < ε / 2 by linarith),
    hR.eventually_ge_atTop (2 / η), eventually_gt_atTop 0] with R a1 a2 hl hR
  have hRr : (0 : ℝ) < R := by exact_mod_cast hR
  rw [div_le_iff₀ hη] at hl
  set B := {ω | (1 - conf) / 2 - η < drawProb Q X N n U (Set.Iic μ) ω ∧
        (1 - conf) / 2 - η < drawProb Q X N n U (Set.Ici μ) ω} with hB
  have hsub : coverSet X N n U conf skip μ R ⊆ B ×ˢ (Set.univ : Set Ω') ∪
      ({p | η / 2 ≤ |pairShare X N n U (Set.Iic μ) R p - drawProb Q X N n U (Set.Iic μ) p.1|} ∪
       {p | η / 2 ≤ |pairShare X N n U (Set.Ici μ) R p - drawProb Q X N n U (Set.Ici μ) p.1|}) := by
    intro p hp
    obtain ⟨b1, b2⟩ := (bootVec_covers (x := fun t => X t p.1) (skip := skip) (draw := fun r j => U r j p.2)
      hN hn hR h0 h1 μ).1 hp
    change _ < pairShare X N n U (Set.Iic μ) R p * R at b1
    change _ < pairShare X N n U (Set.Ici μ) R p * R at b2
    by_contra hc
    simp only [Set.mem_union, not_or, Set.mem_ofPred_eq, not_le] at hc
    obtain ⟨c1, c2, c3⟩ := hc
    refine c1 ⟨⟨?_, ?_⟩, trivial⟩
    · have d := (abs_lt.1 c2).2
      by_contra hcc
      have : pairShare X N n U (Set.Iic μ) R p ≤ (1 - conf) / 2 - η / 2 := by linarith [not_lt.1 hcc]
      have h3 := mul_le_mul_of_nonneg_right this hRr.le
      nlinarith
    · have d := (abs_lt.1 c3).2
      by_contra hcc
      have : pairShare X N n U (Set.Ici μ) R p ≤ (1 - conf) / 2 - η / 2 := by linarith [not_lt.1 hcc]
      have h3 := mul_le_mul_of_nonneg_right this hRr.le
      nlinarith
  have e : (P.prod Q).real (B ×ˢ (Set.univ : Set Ω')) = P.real B := by
    rw [measureReal_prod_prod, probReal_univ, mul_one]
  have h4 := (measureReal_mono (μ := P.prod Q) hsub).trans
    ((measureReal_union_le _ _).trans (add_le_add_right (measureReal_union_le _ _) _))
  rw [e] at h4
  linarith

end fixed

section growing
variable {Ω Ω' : Type} [MeasurableSpace Ω] [MeasurableSpace Ω'] {P : Measure Ω} [IsProbabilityMeasure P] {Q : Measure Ω'}
  [IsProbabilityMeasure Q] {X : ℕ → Ω → ℝ} {n : ℕ → ℕ} {U : ℕ → ℕ → ℕ → Ω' → ℕ} {c : ℝ}

theorem never_prob {B : ℕ → Set Ω} (hB : ∀ N, MeasurableSet (B N)) (h : ∀ᵐ ω ∂P, ∀ᶠ N in atTop, ω ∉ B N) :
    Tendsto (fun N => P.real (B N)) atTop (𝓝 0) := by
  have := tendsto_measure_of_ae_tendsto_indicator_of_isFiniteMeasure (L := atTop) (μ := P) (A := ∅) (As := B)
    MeasurableSet.empty hB (by
      filter_upwards [h] with ω hω
      filter_upwards [hω] with N hN
      exact iff_of_false hN (Set.notMem_empty ω))
  have h2 := (ENNReal.tendsto_toReal (measure_ne_top P ∅)).comp this
  rw [measure_empty] at h2
  exact h2

/-- how far the average of the data is from the expectation, in the scale of the spread of the resampled means -/
noncomputable def avgDev (P : Measure Ω) (X : ℕ → Ω → ℝ) (n : ℕ → ℕ) (N : ℕ) (ω : Ω) : ℝ :=
  √(n N : ℝ) * ((∑ i ∈ Finset.range N, X i ω) / N - ∫ ω, X 0 ω ∂P)

omit [IsProbabilityMeasure P] in
theorem measurable_avgDev (hX : ∀ t, Measurable (X t)) (N : ℕ) : Measurable (avgDev P X n N) := by
  unfold avgDev
  have := Finset.measurable_fun_sum (Finset.range N) fun i _ => hX i
  fun_prop

theorem data_limits (hi : iIndepFun X P) (hs : ∀ t, IdentDistrib (X t) (X 0) P P) (h2 : MemLp (X 0) 2 P) :
    ∀ᵐ ω ∂P, Tendsto (fun N : ℕ => (∑ i ∈ Finset.range N, X i ω) / (N : ℝ)) atTop (𝓝 (∫ ω, X 0 ω ∂P)) ∧
      Tendsto (fun N : ℕ => (∑ i ∈ Finset.range N, X i ω ^ 2) / (N : ℝ)) atTop (𝓝 ((∫ ω, X 0 ω ∂P) ^ 2 + Var[X 0; P])) := by
  filter_upwards [lag_average hi hs h2 0, square_average hi hs h2] with ω a b
  refine ⟨a, ?_⟩
  have e : (∫ ω, X 0 ω ∂P) ^ 2 + Var[X 0; P] = ∫ ω, X 0 ω * X 0 ω ∂P := by
    rw [variance_eq_sub h2]
    simp only [Pi.pow_apply, sq]
    ring
  rw [e]
  simpa only [sq] using b

omit [IsProbabilityMeasure P] [IsProbabilityMeasure Q] in
theorem drawProb_dev {N : ℕ} (hn : 0 < n N) (ω : Ω) :
    drawProb Q X N (n N) (U N) (Set.Iic (∫ ω, X 0 ω ∂P)) ω =
      Q.real {ω' | drawDev (fun t => X t ω) N (n N) (fun j => U N 0 j ω') ≤ -avgDev P X n N ω} ∧
    drawProb Q X N (n N) (U N) (Set.Ici (∫ ω, X 0 ω ∂P)) ω =
      Q.real {ω' | -avgDev P X n N ω ≤ drawDev (fun t => X t ω) N (n N) (fun j => U N 0 j ω')} := by
  have hnr : (0 : ℝ) < n N := by exact_mod_cast hn
  have hs : 0 < √(n N : ℝ) := Real.sqrt_pos.2 hnr
  have e : ∀ ω', drawDev (fun t => X t ω) N (n N) (fun j => U N 0 j ω') - -avgDev P X n N ω =
      √(n N : ℝ) * (pairMean X N (n N) (U N) 0 (ω, ω') - ∫ ω, X 0 ω ∂P) := by
    intro ω'
    rw [drawDev_eq _ _ hn]
    unfold avgDev pairMean
    ring
  constructor
  · unfold drawProb
    congr 1
    ext ω'
    simp only [Set.mem_ofPred_eq, Set.mem_Iic]
    rw [← sub_nonpos, ← sub_nonpos (a := drawDev _ _ _ _), e]
    exact ⟨fun h => mul_nonpos_of_nonneg_of_nonpos hs.le h, fun h => by
      by_contra hc
      exact absurd (mul_pos hs (not_le.1 hc)) (not_lt.2 h)⟩
  · unfold drawProb
    congr 1
    ext ω'
    simp only [Set.mem_ofPred_eq, Set.mem_Ici]
    rw [← sub_nonneg, ← sub_nonneg (b := -avgDev P X n N ω), e, mul_nonneg_iff_of_pos_left hs]

theorem n_pos (hc : 0 < c) (hn : Tendsto (fun N => (n N : ℝ) / N) atTop (𝓝 c)) : ∀ᶠ N in atTop, 0 < n N := by
  filter_upwards [hn.eventually_const_lt hc] with N hN
  by_contra hz
  rw [Nat.eq_zero_of_not_pos hz] at hN
  simp at hN

/-- an average close to the expectation leaves enough resampled means on both sides of it -/
theorem inside_ae (hU : ∀ N, 0 < N → FairDraws Q N (U N)) (hi : iIndepFun X P) (hs : ∀ t, IdentDistrib (X t) (X 0) P P)
    (h2 : MemLp (X 0) 2 P) (hv : 0 < Var[X 0; P]) (hc : 0 < c) (hn : Tendsto (fun N => (n N : ℝ) / N) atTop (𝓝 c))
    {b d : ℝ} (hd : d < Phi (-b)) :
    ∀ᵐ ω ∂P, ∀ᶠ N in atTop, |avgDev P X n N ω| ≤ b * √Var[X 0; P] →
      d ≤ drawProb Q X N (n N) (U N) (Set.Iic (∫ ω, X 0 ω ∂P)) ω ∧
      d ≤ drawProb Q X N (n N) (U N) (Set.Ici (∫ ω, X 0 ω ∂P)) ω := by
  have hsv : √Var[X 0; P] ≠ 0 := (Real.sqrt_pos.2 hv).ne'
  filter_upwards [data_limits hi hs h2] with ω hω
  have l1 := drawDev_le hU hω.1 hω.2 hv hc hn (-(b * √Var[X 0; P]))
  have l2 := le_drawDev hU hω.1 hω.2 hv hc hn (b * √Var[X 0; P])
  rw [neg_div, mul_div_cancel_right₀ _ hsv] at l1
  rw [mul_div_cancel_right₀ _ hsv, ← Phi_neg] at l2
  filter_upwards [l1.eventually_const_le hd, l2.eventually_const_le hd, n_pos hc hn] with N a1 a2 hnN hW
  obtain ⟨e1, e2⟩ := drawProb_dev (P := P) (Q := Q) (X := X) (U := U) hnN ω
  rw [abs_le] at hW
  rw [e1, e2]
  refine ⟨a1.trans (measureReal_mono fun ω' hω' => ?_), a2.trans (measureReal_mono fun ω' hω' => ?_)⟩
  · simp only [Set.mem_ofPred_eq] at hω' ⊢
    linarith [hW.2]
  · simp only [Set.mem_ofPred_eq] at hω' ⊢
    linarith [hW.1]

/-- an average far from the expectation does not -/
theorem outside_ae (hU : ∀ N, 0 < N → FairDraws Q N (U N)) (hi : iIndepFun X P) (hs : ∀ t, IdentDistrib (X t) (X 0) P P)
    (h2 : MemLp (X 0) 2 P) (hv : 0 < Var[X 0; P]) (hc : 0 < c) (hn : Tendsto (fun N => (n N : ℝ) / N) atTop (𝓝 c))
    {b d : ℝ} (hd : Phi (-b) < d) :
    ∀ᵐ ω ∂P, ∀ᶠ N in atTop, d < drawProb Q X N (n N) (U N) (Set.Iic (∫ ω, X 0 ω ∂P)) ω →
      d < drawProb Q X N (n N) (U N) (Set.Ici (∫ ω, X 0 ω ∂P)) ω → |avgDev P X n N ω| ≤ b * √Var[X 0; P] := by
  have hsv : √Var[X 0; P] ≠ 0 := (Real.sqrt_pos.2 hv).ne'
  filter_upwards [data_limits hi hs h2] with ω hω
  have l1 := drawDev_le hU hω.1 hω.2 hv hc hn (-(b * √Var[X 0; P]))
  have l2 := le_drawDev hU hω.1 hω.2 hv hc hn (b * √Var[X 0; P])
  rw [neg_div, mul_div_cancel_right₀ _ hsv] at l1
  rw [mul_div_cancel_right₀ _ hsv, ← Phi_neg] at l2
  filter_upwards [l1.eventually_le_const hd, l2.eventually_le_const hd, n_pos hc hn] with N a1 a2 hnN d1 d2
  obtain ⟨e1, e2⟩ := drawProb_dev (P := P) (Q := Q) (X := X) (U := U) hnN ω
  rw [e1] at d1
  rw [e2] at d2
  rw [abs_le]
  constructor
  · by_contra hcc
    refine absurd (d2.trans_le ((measureReal_mono fun ω' hω' => ?_).trans a2)) (lt_irrefl d)
    simp only [Set.mem_ofPred_eq] at hω' ⊢
    linarith [not_le.1 hcc]
  · by_contra hcc
    refine absurd (d1.trans_le ((measureReal_mono fun ω' hω' => ?_).trans a1)) (lt_irrefl d)
    simp only [Set.mem_ofPred_eq] at hω' ⊢
    linarith [not_le.1 hcc]

/-- the central limit theorem for the data -/
theorem avgDev_prob (hi : iIndepFun X P) (hs : ∀ t, IdentDistrib (X t) (X 0) P P)
    (h2 : MemLp (X 0) 2 P) (hv : 0 < Var[X 0; P]) (hc : 0 < c) (hn : Tendsto (fun N => (n N : ℝ) / N) atTop (𝓝 c))
    {b : ℝ} (hb : 0 < b) :
    Tendsto (fun N => P.real {ω | |avgDev P X n N ω| ≤ b * √Var[X 0; P]}) atTop (𝓝 (1 - 2 * Phi (-(b / √c)))) := by
  have hsv : 0 < √Var[X 0; P] := Real.sqrt_pos.2 hv
  have hsc : 0 < √c := Real.sqrt_pos.2 hc
  have hY : HasLaw (fun x : ℝ => √Var[X 0; P] * x) (gaussianReal 0 Var[X 0; P].toNNReal) (gaussianReal 0 1) :=
    ⟨by fun_prop, (gauss_scaled hv).symm⟩
  have hclt := tendstoInDistribution_inv_sqrt_mul_sum_sub hY h2 hi hs
  have hr : Tendsto (fun N => √((n N : ℝ) / N)) atTop (𝓝 √c) := hn.sqrt
  have hmeas := tendstoInMeasure_of_tendsto_ae (μ := P) (f := fun N (_ : Ω) => √((n N : ℝ) / N)) (g := fun _ => √c)
    (fun N => aestronglyMeasurable_const) (Eventually.of_forall fun _ => hr)
  have ht := hclt.continuous_comp_prodMk_of_tendstoInMeasure_const (g := fun x : ℝ × ℝ => x.1 * x.2)
    (continuous_fst.mul continuous_snd) hmeas fun N => aemeasurable_const
  set S : Set ℝ := {y | |y| ≤ b * √Var[X 0; P]} with hS
  have hSc : S = Set.Icc (-(b * √Var[X 0; P])) (b * √Var[X 0; P]) := by
    ext y
    simp only [hS, Set.mem_ofPred_eq, Set.mem_Icc, abs_le]
  have hSm : MeasurableSet S := by rw [hSc]; exact measurableSet_Icc
  have hlim : AEMeasurable (fun x : ℝ => √Var[X 0; P] * x * √c) (gaussianReal 0 1) := by fun_prop
  have hnull := nullSingletonClass_gaussianReal (μ := 0) (v := 1) one_ne_zero
  have hpt : ∀ a : ℝ, gaussianReal 0 1 ((fun x : ℝ => √Var[X 0; P] * x * √c) ⁻¹' {a}) = 0 := by
    intro a
    have : (fun x : ℝ => √Var[X 0; P] * x * √c) ⁻¹' {a} = {a / (√Var[X 0; P] * √c)} := by
      ext x
      simp only [Set.mem_preimage, Set.mem_singleton_iff]
      rw [eq_div_iff (by positivity)]
      constructor <;> intro h <;> linarith
    rw [this]
    exact measure_singleton _
  have hf : (gaussianReal 0 1).map (fun x : ℝ => √Var[X 0; P] * x * √c) (frontier S) = 0 := by
    have hle : -(b * √Var[X 0; P]) ≤ b * √Var[X 0; P] := by
      have : 0 < b * √Var[X 0; P] := by positivity
      linarith
    rw [hSc, frontier_Icc hle, Measure.map_apply_of_aemeasurable hlim (Set.toFinite _).measurableSet,
      Set.insert_eq, Set.preimage_union]
    exact measure_union_null (hpt _) (hpt _)
  have := ProbabilityMeasure.tendsto_measure_of_null_frontier_of_tendsto' ht.tendsto (E := S) (by
    simp only [ProbabilityMeasure.coe_mk]
    exact hf)
  simp only [ProbabilityMeasure.coe_mk] at this
  have h3 := (ENNReal.tendsto_toReal (by
    have := Measure.isProbabilityMeasure_map hlim
    exact measure_ne_top _ _)).comp this
  have e : ((gaussianReal 0 1).map (fun x : ℝ => √Var[X 0; P] * x * √c) S).toReal = 1 - 2 * Phi (-(b / √c)) := by
    rw [Measure.map_apply_of_aemeasurable hlim hSm]
    have hset : (fun x : ℝ => √Var[X 0; P] * x * √c) ⁻¹' S = {x | b / √c < |x|}ᶜ := by
      ext x
      simp only [Set.mem_preimage, hS, Set.mem_ofPred_eq, Set.mem_compl_iff, not_lt]
      rw [abs_mul, abs_mul, abs_of_pos hsv, abs_of_pos hsc, le_div_iff₀ hsc]
      constructor <;> intro h
      · have : |x| * √c * √Var[X 0; P] ≤ b * √Var[X 0; P] := by linarith
        exact le_of_mul_le_mul_right this hsv
      · nlinarith
    have hop : MeasurableSet {x : ℝ | b / √c < |x|} := measurableSet_lt measurable_const (by fun_prop)
    rw [hset]
    change (gaussianReal 0 1).real _ = _
    rw [probReal_compl_eq_one_sub hop, ← gauss_tails (show 0 < b / √c by positivity)]
    congr 1
    refine measureReal_congr ?_
    have hz : ∀ᵐ x ∂gaussianReal 0 1, x ∉ ({b / √c, -(b / √c)} : Set ℝ) := by
      have : gaussianReal 0 1 ({b / √c, -(b / √c)} : Set ℝ) = 0 := (Set.toFinite _).measure_zero _
      exact measure_eq_zero_iff_ae_notMem.1 this
    filter_upwards [hz] with x hx
    simp only [Set.mem_insert_iff, Set.mem_singleton_iff, not_or] at hx
    refine propext ⟨fun h => le_of_lt h, fun h => lt_of_le_of_ne h fun hc => ?_⟩
    rcases abs_choice x with h | h
    · exact hx.1 (by rw [hc, h])
    · exact hx.2 (by rw [hc, h, neg_neg])
  rw [e] at h3
  refine h3.congr' ?_
  filter_upwards [eventually_gt_atTop 0] with N hN
  rw [Function.comp_apply, Measure.map_apply_of_aemeasurable (ht.forall_aemeasurable N) hSm]
  change P.real _ = _
  congr 1
  ext ω
  simp only [hS, Set.mem_preimage, Set.mem_ofPred_eq]
  have hNr : (0 : ℝ) < N := by exact_mod_cast hN
  have : (√(N : ℝ))⁻¹ * (∑ k ∈ Finset.range N, X k ω - N * ∫ ω, X 0 ω ∂P) * √((n N : ℝ) / N) = avgDev P X n N ω := by
    unfold avgDev
    rw [Real.sqrt_div (Nat.cast_nonneg _)]
    have hs : √(N : ℝ) ≠ 0 := (Real.sqrt_pos.2 hNr).ne'
    have hss : √(N : ℝ) ^ 2 = N := Real.sq_sqrt hNr.le
    field_simp
    rw [hss]
  rw [this]

/-- how often the interval holds the expectation, in the long run -/
theorem cover_limit (hX : ∀ t, Measurable (X t)) (hU : ∀ N, 0 < N → FairDraws Q N (U N)) (hi : iIndepFun X P)
    (hs : ∀ t, IdentDistrib (X t) (X 0) P P) (h2 : MemLp (X 0) 2 P) (hv : 0 < Var[X 0; P]) (hc : 0 < c)
    (hn : Tendsto (fun N => (n N : ℝ) / N) atTop (𝓝 c)) {conf z : ℝ} (h0 : 0 < conf) (h1 : conf < 1)
    (hz : Phi z = (1 + conf) / 2) (skip : Bool) {ε : ℝ} (hε : 0 < ε) :
    ∀ᶠ N in atTop, ∀ᶠ R in atTop,
      |(P.prod Q).real (coverSet X N (n N) (U N) conf skip (∫ ω, X 0 ω ∂P) R) - (1 - 2 * Phi (-(z / √c)))| < ε := by
  have hδ : Phi (-z) = (1 - conf) / 2 := by rw [Phi_neg, hz]; ring
  have hz0 : 0 < z := by
    by_contra hcc
    have a := strictMono_Phi.monotone (not_lt.1 hcc)
    have b := Phi_neg 0
    rw [neg_zero] at b
    linarith
  have hf : Tendsto (fun b : ℝ => 1 - 2 * Phi (-(b / √c))) (𝓝 z) (𝓝 (1 - 2 * Phi (-(z / √c)))) := by
    have : Continuous fun b : ℝ => 1 - 2 * Phi (-(b / √c)) := by
      have := continuous_Phi
      fun_prop
    exact this.tendsto z
  obtain ⟨r, hr, hball⟩ := Metric.tendsto_nhds_nhds.1 hf (ε / 4) (by linarith)
  set e := min (r / 2) (z / 2) with he
  have he0 : 0 < e := lt_min (by linarith) (by linarith)
  have her : e < r := lt_of_le_of_lt (min_le_left _ _) (by linarith)
  have hez : e < z := lt_of_le_of_lt (min_le_right _ _) (by linarith)
  have fl := hball (show dist (z - e) z < r by rw [Real.dist_eq]; simpa [abs_of_pos he0] using her)
  have fu := hball (show dist (z + e) z < r by rw [Real.dist_eq]; simpa [abs_of_pos he0] using her)
  rw [Real.dist_eq, abs_lt] at fl fu
  have pl : (1 - conf) / 2 < Phi (-(z - e)) := by rw [← hδ]; exact strictMono_Phi (by linarith)
  have pu : Phi (-(z + e)) < (1 - conf) / 2 := by rw [← hδ]; exact strictMono_Phi (by linarith)
  set ηl := (Phi (-(z - e)) - (1 - conf) / 2) / 2 with hηl
  set ηu := ((1 - conf) / 2 - Phi (-(z + e))) / 2 with hηu
  have hl0 : 0 < ηl := by rw [hηl]; linarith
  have hu0 : 0 < ηu := by rw [hηu]; linarith
  have cl := avgDev_prob hi hs h2 hv hc hn (b := z - e) (by linarith)
  have cu := avgDev_prob hi hs h2 hv hc hn (b := z + e) (by linarith)
  -- the two exceptional events
  let A : ℕ → Set Ω := fun N => {ω | (1 - conf) / 2 + ηl ≤ drawProb Q X N (n N) (U N) (Set.Iic (∫ ω, X 0 ω ∂P)) ω ∧
    (1 - conf) / 2 + ηl ≤ drawProb Q X N (n N) (U N) (Set.Ici (∫ ω, X 0 ω ∂P)) ω}
  let A' : ℕ → Set Ω := fun N => {ω | (1 - conf) / 2 - ηu < drawProb Q X N (n N) (U N) (Set.Iic (∫ ω, X 0 ω ∂P)) ω ∧
    (1 - conf) / 2 - ηu < drawProb Q X N (n N) (U N) (Set.Ici (∫ ω, X 0 ω ∂P)) ω}
  let Wl : ℕ → Set Ω := fun N => {ω | |avgDev P X n N ω| ≤ (z - e) * √Var[X 0; P]}
  let Wu : ℕ → Set Ω := fun N => {ω | |avgDev P X n N ω| ≤ (z + e) * √Var[X 0; P]}
  have mI : ∀ N, Measurable (drawProb Q X (N + 1) (n (N + 1)) (U (N + 1)) (Set.Iic (∫ ω, X 0 ω ∂P))) := fun N =>
    measurable_drawProb (hU _ (by omega)) hX measurableSet_Iic
  have mJ : ∀ N, Measurable (drawProb Q X (N + 1) (n (N + 1)) (U (N + 1)) (Set.Ici (∫ ω, X 0 ω ∂P))) := fun N =>
    measurable_drawProb (hU _ (by omega)) hX measurableSet_Ici
  have mA : ∀ N, MeasurableSet (A (N + 1)) := fun N =>
    (measurableSet_le measurable_const (mI N)).inter (measurableSet_le measurable_const (mJ N))
  have mA' : ∀ N, MeasurableSet (A' (N + 1)) := fun N =>
    (measurableSet_lt measurable_const (mI N)).inter (measurableSet_lt measurable_const (mJ N))
  have mW : ∀ N, ∀ b : ℝ, MeasurableSet {ω | |avgDev P X n N ω| ≤ b} := fun N b => by
    have := measurable_avgDev (P := P) (n := n) hX N
    exact measurableSet_le (by fun_prop) measurable_const
  have xl : Tendsto (fun N => P.real (Wl N \ A N)) atTop (𝓝 0) := by
    rw [← tendsto_add_atTop_iff_nat 1]
    refine never_prob (B := fun N => Wl (N + 1) \ A (N + 1)) (fun N => (mW _ _).diff (mA N)) ?_
    filter_upwards [inside_ae hU hi hs h2 hv hc hn (b := z - e) (d := (1 - conf) / 2 + ηl) (by rw [hηl]; linarith)] with ω hω
    filter_upwards [(tendsto_add_atTop_nat 1).eventually hω] with N hN hmem
    exact hmem.2 (hN hmem.1)
  have xu : Tendsto (fun N => P.real (A' N \ Wu N)) atTop (𝓝 0) := by
    rw [← tendsto_add_atTop_iff_nat 1]
    refine never_prob (B := fun N => A' (N + 1) \ Wu (N + 1)) (fun N => (mA' N).diff (mW _ _)) ?_
    filter_upwards [outside_ae hU hi hs h2 hv hc hn (b := z + e) (d := (1 - conf) / 2 - ηu) (by rw [hηu]; linarith)] with ω hω
    filter_upwards [(tendsto_add_atTop_nat 1).eventually hω] with N hN hmem
    exact hmem.2 (hN hmem.1.1 hmem.1.2)
  filter_upwards [xl.eventually_lt_const (show 0 < ε / 4 by linarith), xu.eventually_lt_const (show 0 < ε / 4 by linarith),
    cl.eventually_const_lt (show 1 - 2 * Phi (-((z - e) / √c)) - ε / 4 < 1 - 2 * Phi (-((z - e) / √c)) by linarith),
    cu.eventually_lt_const (show 1 - 2 * Phi (-((z + e) / √c)) < 1 - 2 * Phi (-((z + e) / √c)) + ε / 4 by linarith),
    n_pos hc hn, eventually_gt_atTop 0] with N x1 x2 c1 c2 hnN hN
  filter_upwards [cover_lower (P := P) (skip := skip) (hU N hN) hX hN hnN h0.le h1.le (∫ ω, X 0 ω ∂P) hl0
      (show 0 < ε / 4 by linarith), cover_upper (P := P) (skip := skip) (hU N hN) hX hN hnN h0.le h1.le (∫ ω, X 0 ω ∂P) hu0
      (show 0 < ε / 4 by linarith)] with R r1 r2
  have s1 : P.real (Wl N) ≤ P.real (A N) + P.real (Wl N \ A N) :=
    (measureReal_mono (μ := P) fun ω hω => by
      by_cases h : ω ∈ A N
      · exact Or.inl h
      · exact Or.inr ⟨hω, h⟩).trans (measureReal_union_le _ _)
  have s2 : P.real (A' N) ≤ P.real (Wu N) + P.real (A' N \ Wu N) :=
    (measureReal_mono (μ := P) fun ω hω => by
      by_cases h : ω ∈ Wu N
      · exact Or.inl h
      · exact Or.inr ⟨hω, h⟩).trans (measureReal_union_le _ _)
  change P.real (A N) - ε / 4 < _ at r1
  change _ < P.real (A' N) + ε / 4 at r2
  change _ < P.real (Wl N) at c1
  change P.real (Wu N) < _ at c2
  rw [abs_lt]
  constructor
  · linarith [fl.1, fl.2]
  · linarith [fu.1, fu.2]

end growing

end Lemmas
