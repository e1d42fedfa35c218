import Verif.Lemmas.BootCover
import Mathlib.Probability.StrongLaw

/-! Resampling a fixed number of data: the resampled means are distributed as averages of that many data. -/

namespace Lemmas
open Np Model Spec MeasureTheory ProbabilityTheory Filter Topology

section
variable {Ω Ω' : Type} [MeasurableSpace Ω] [MeasurableSpace Ω'] {P : Measure Ω} [IsProbabilityMeasure P] {Q : Measure Ω'}
  [IsProbabilityMeasure Q] {X : ℕ → Ω → ℝ} {N n : ℕ}

theorem exp_lipschitz (a b : ℝ) : ‖Complex.exp ((a : ℝ) * Complex.I) - Complex.exp ((b : ℝ) * Complex.I)‖ ≤ |a - b| := by
  have e : Complex.exp ((a : ℝ) * Complex.I) - Complex.exp ((b : ℝ) * Complex.I) =
      Complex.exp ((b : ℝ) * Complex.I) * (Complex.exp (Complex.I * ((a - b : ℝ) : ℂ)) - 1) := by
    rw [mul_sub, ← Complex.exp_add, mul_one]
    congr 2
    push_cast
    ring
  rw [e, norm_mul, Complex.norm_exp_ofReal_mul_I, one_mul]
  simpa using Real.norm_exp_I_mul_ofReal_sub_one_le (x := a - b)

theorem ecf_lipschitz (y : ℕ → ℝ) (N : ℕ) (s q : ℝ) :
    ‖ecf y N s - ecf y N q‖ ≤ |s - q| * ((∑ i ∈ Finset.range N, |y i|) / N) := by
  unfold ecf
  rw [← sub_div, ← Finset.sum_sub_distrib, norm_div, Complex.norm_natCast, mul_div_assoc']
  refine div_le_div_of_nonneg_right ((norm_sum_le _ _).trans ?_) (Nat.cast_nonneg N)
  rw [Finset.mul_sum]
  refine Finset.sum_le_sum fun i _ => (exp_lipschitz _ _).trans ?_
  rw [← sub_mul, abs_mul]

/-- the averages of `exp (i s X)` settle for all `s` at once -/
theorem ecf_ae (hX : ∀ t, Measurable (X t)) (hi : iIndepFun X P) (hs : ∀ t, IdentDistrib (X t) (X 0) P P)
    (hint : Integrable (X 0) P) :
    ∀ᵐ ω ∂P, ∀ s : ℝ, Tendsto (fun N => ecf (fun t => X t ω) N s) atTop (𝓝 (charFun (P.map (X 0)) s)) := by
  have hrat : ∀ q : ℚ, ∀ᵐ ω ∂P, Tendsto (fun N => ecf (fun t => X t ω) N q) atTop (𝓝 (charFun (P.map (X 0)) q)) := by
    intro q
    have hg : Measurable fun x : ℝ => Complex.exp (((q : ℝ) * x : ℝ) * Complex.I) := by fun_prop
    have hb : Integrable (fun ω => Complex.exp (((q : ℝ) * X 0 ω : ℝ) * Complex.I)) P :=
      Integrable.of_bound (hg.comp (hX 0)).aestronglyMeasurable 1
        (Eventually.of_forall fun ω => (Complex.norm_exp_ofReal_mul_I _).le)
    have := strong_law_ae (μ := P) (fun t ω => Complex.exp (((q : ℝ) * X t ω : ℝ) * Complex.I)) hb
      (fun i j hij => (hi.indepFun hij).comp hg hg) (fun t => (hs t).comp hg)
    filter_upwards [this] with ω hω
    rw [charFun_apply_real, integral_map (hX 0).aemeasurable (by fun_prop)]
    have e : ∫ x, Complex.exp (((q : ℝ) : ℂ) * ((X 0 x : ℝ) : ℂ) * Complex.I) ∂P =
        ∫ ω, Complex.exp (((q : ℝ) * X 0 ω : ℝ) * Complex.I) ∂P := by
      congr 1; funext ω; push_cast; rfl
    rw [e]
    refine hω.congr fun N => ?_
    unfold ecf
    rw [Complex.real_smul, div_eq_inv_mul]
    push_cast
    rfl
  have habs := strong_law_ae_real (μ := P) (fun t ω => |X t ω|) hint.abs
    (fun i j hij => (hi.indepFun hij).comp measurable_abs measurable_abs) (fun t => (hs t).comp measurable_abs)
  filter_upwards [ae_all_iff.2 hrat, habs] with ω h1 h2 s
  set M := ∫ ω, |X 0 ω| ∂P + 1 with hM
  have hM0 : 0 < M := by
    have : 0 ≤ ∫ ω, |X 0 ω| ∂P := integral_nonneg fun _ => abs_nonneg _
    linarith
  rw [Metric.tendsto_nhds]
  intro ε hε
  have hcont : Continuous (charFun (P.map (X 0))) := continuous_charFun
  obtain ⟨r, hr, hball⟩ := Metric.continuous_iff.1 hcont s (ε / 3) (by linarith)
  have hd : 0 < min r (ε / (3 * M)) := lt_min hr (by positivity)
  obtain ⟨q, hq1, hq2⟩ := exists_rat_btwn (show s < s + min r (ε / (3 * M)) by linarith)
  have hqs : |s - (q : ℝ)| < min r (ε / (3 * M)) := by rw [abs_sub_comm, abs_lt]; constructor <;> linarith
  have c1 := hball q (by rw [Real.dist_eq, abs_sub_comm]; exact hqs.trans_le (min_le_left _ _))
  filter_upwards [Metric.tendsto_nhds.1 (h1 q) (ε / 3) (by linarith), h2.eventually_le_const (show _ < M by linarith)]
    with N a1 a2
  have a3 : dist (ecf (fun t => X t ω) N s) (ecf (fun t => X t ω) N q) < ε / 3 := by
    rw [dist_eq_norm]
    refine (ecf_lipschitz _ _ _ _).trans_lt ?_
    have b1 : |s - (q : ℝ)| * ((∑ i ∈ Finset.range N, |X i ω|) / N) ≤ |s - (q : ℝ)| * M :=
      mul_le_mul_of_nonneg_left a2 (abs_nonneg _)
    have b2 : |s - (q : ℝ)| < ε / (3 * M) := hqs.trans_le (min_le_right _ _)
    have b3 : |s - (q : ℝ)| * M < ε / (3 * M) * M := mul_lt_mul_of_pos_right b2 hM0
    have b4 : ε / (3 * M) * M = ε / 3 := by field_simp
    linarith
  have := dist_triangle4 (ecf (fun t => X t ω) N s) (ecf (fun t => X t ω) N q) (charFun (P.map (X 0)) q)
    (charFun (P.map (X 0)) s)
  linarith

/-- the characteristic function of a resampled mean -/
theorem charFun_drawMean {U : ℕ → ℕ → Ω' → ℕ} (h : FairDraws Q N U) (hN : 0 < N) (x : ℕ → ℝ) (n : ℕ) (t : ℝ) :
    charFun (Q.map fun ω => drawMean x N n fun j => U 0 j ω) t = ecf x N (t / n) ^ n := by
  have hf : Measurable fun k : ℕ => x (k % N) / (n : ℝ) := measurable_from_nat
  have hX : iIndepFun (fun j ω => x (U 0 j ω % N) / (n : ℝ)) Q := h.indep.comp (fun _ k => x (k % N) / (n : ℝ)) fun _ => hf
  have hm : ∀ j, Measurable fun ω => x (U 0 j ω % N) / (n : ℝ) := fun j => hf.comp (draw_meas h 0 j)
  unfold drawMean
  simp only [Finset.sum_div]
  rw [iIndepFun.charFun_map_fun_finsetSum_eq_prod (fun j _ => (hm j).aemeasurable) (hX.restrict _), Finset.prod_apply]
  have : ∀ j ∈ Finset.range n, charFun (Q.map fun ω => x (U 0 j ω % N) / (n : ℝ)) t = ecf x N (t / n) := by
    intro j _
    rw [charFun_apply_real, integral_map (hm j).aemeasurable (by fun_prop)]
    rw [integral_draw h hN j fun k => Complex.exp ((t : ℂ) * ((x k / (n : ℝ) : ℝ) : ℂ) * Complex.I)]
    unfold ecf
    congr 1
    refine Finset.sum_congr rfl fun i _ => ?_
    congr 1
    push_cast
    ring
  rw [Finset.prod_congr rfl this, Finset.prod_const, Finset.card_range]

/-- the average of the first `n` data -/
noncomputable def firstMean (X : ℕ → Ω → ℝ) (n : ℕ) (ω : Ω) : ℝ := (∑ j ∈ Finset.range n, X j ω) / n

theorem measurable_firstMean (hX : ∀ t, Measurable (X t)) (n : ℕ) : Measurable (firstMean X n) := by
  unfold firstMean
  exact (Finset.measurable_fun_sum _ fun j _ => hX j).div_const _

theorem charFun_firstMean (hX : ∀ t, Measurable (X t)) (hi : iIndepFun X P) (hs : ∀ t, IdentDistrib (X t) (X 0) P P) (n : ℕ)
    (t : ℝ) : charFun (P.map (firstMean X n)) t = charFun (P.map (X 0)) (t / n) ^ n := by
  have hf : Measurable fun x : ℝ => x / (n : ℝ) := by fun_prop
  have hI : iIndepFun (fun j ω => X j ω / (n : ℝ)) P := hi.comp (fun _ x => x / (n : ℝ)) fun _ => hf
  have hm : ∀ j, Measurable fun ω => X j ω / (n : ℝ) := fun j => hf.comp (hX j)
  have e : firstMean X n = fun ω => ∑ j ∈ Finset.range n, X j ω / (n : ℝ) := by
    funext ω
    unfold firstMean
    rw [Finset.sum_div]
  rw [e, iIndepFun.charFun_map_fun_finsetSum_eq_prod (fun j _ => (hm j).aemeasurable) (hI.restrict _), Finset.prod_apply]
  have : ∀ j ∈ Finset.range n, charFun (P.map fun ω => X j ω / (n : ℝ)) t = charFun (P.map (X 0)) (t / n) := by
    intro j _
    have he : P.map (fun ω => X j ω / (n : ℝ)) = P.map fun ω => X 0 ω / (n : ℝ) := ((hs j).comp hf).map_eq
    rw [he, charFun_apply_real, charFun_apply_real, integral_map (hm 0).aemeasurable (by fun_prop),
      integral_map (hX 0).aemeasurable (by fun_prop)]
    congr 1
    funext ω
    congr 1
    push_cast
    ring
  rw [Finset.prod_congr rfl this, Finset.prod_const, Finset.card_range]

variable {U : ℕ → ℕ → ℕ → Ω' → ℕ}

/-- with probability one, the resampled means of long archives fall into open sets at least as often as averages of `n`
data, and into closed sets at most as often -/
theorem drawProb_ae (hX : ∀ t, Measurable (X t)) (hU : ∀ N, 0 < N → FairDraws Q N (U N)) (hi : iIndepFun X P)
    (hs : ∀ t, IdentDistrib (X t) (X 0) P P) (hint : Integrable (X 0) P) (n : ℕ) :
    ∀ᵐ ω ∂P, (∀ G : Set ℝ, IsOpen G → ∀ d < P.real {ω | firstMean X n ω ∈ G}, ∀ᶠ N in atTop,
        d < drawProb Q X N n (U N) G ω) ∧
      ∀ F : Set ℝ, IsClosed F → ∀ d, P.real {ω | firstMean X n ω ∈ F} < d → ∀ᶠ N in atTop,
        drawProb Q X N n (U N) F ω < d := by
  filter_upwards [ecf_ae hX hi hs hint] with ω hω
  have hm : ∀ N, 0 < N → Measurable fun ω' => drawMean (fun t => X t ω) N n fun j => U N 0 j ω' := fun N hN =>
    (measurable_drawMean _ N n).comp ((hU N hN).rows.meas 0)
  let L : ℕ → ProbabilityMeasure ℝ := fun N => ⟨Q.map fun ω' => drawMean (fun t => X t ω) (N + 1) n fun j => U (N + 1) 0 j ω',
    Measure.isProbabilityMeasure_map (hm (N + 1) (by omega)).aemeasurable⟩
  let G : ProbabilityMeasure ℝ := ⟨P.map (firstMean X n), Measure.isProbabilityMeasure_map (measurable_firstMean hX n).aemeasurable⟩
  have hw : Tendsto L atTop (𝓝 G) := by
    refine ProbabilityMeasure.tendsto_iff_tendsto_charFun.2 fun t => ?_
    simp only [L, G, ProbabilityMeasure.coe_mk]
    rw [charFun_firstMean hX hi hs]
    have := ((tendsto_add_atTop_iff_nat 1).2 (hω (t / n))).pow n
    refine this.congr fun N => ?_
    rw [charFun_drawMean (hU (N + 1) (by omega)) (by omega)]
  have eL : ∀ N, ∀ S : Set ℝ, MeasurableSet S → (L N : Measure ℝ) S = ENNReal.ofReal (drawProb Q X (N + 1) n (U (N + 1)) S ω) := by
    intro N S hS
    simp only [L, ProbabilityMeasure.coe_mk]
    rw [Measure.map_apply (hm (N + 1) (by omega)) hS, drawProb, ofReal_measureReal]
    rfl
  have eG : ∀ S : Set ℝ, MeasurableSet S → (G : Measure ℝ) S = ENNReal.ofReal (P.real {ω | firstMean X n ω ∈ S}) := by
    intro S hS
    simp only [G, ProbabilityMeasure.coe_mk]
    rw [Measure.map_apply (measurable_firstMean hX n) hS, ofReal_measureReal]
    rfl
  have nonneg : ∀ N S, 0 ≤ drawProb Q X N n (U N) S ω := fun N S => measureReal_nonneg
  constructor
  · intro S hS d hd
    by_cases hd0 : d < 0
    · exact Eventually.of_forall fun N => hd0.trans_le (nonneg N S)
    have h1 := ProbabilityMeasure.le_liminf_measure_open_of_tendsto hw hS
    have h2 : ENNReal.ofReal d < liminf (fun N => (L N : Measure ℝ) S) atTop := by
      refine lt_of_lt_of_le ?_ h1
      rw [eG S hS.measurableSet]
      exact (ENNReal.ofReal_lt_ofReal_iff_of_nonneg (not_lt.1 hd0)).2 hd
    have h3 := eventually_lt_of_lt_liminf h2
    have h4 : ∀ᶠ N in atTop, d < drawProb Q X (N + 1) n (U (N + 1)) S ω := by
      filter_upwards [h3] with N hN
      rw [eL N S hS.measurableSet] at hN
      exact (ENNReal.ofReal_lt_ofReal_iff_of_nonneg (not_lt.1 hd0)).1 hN
    obtain ⟨N0, hN0⟩ := eventually_atTop.1 h4
    refine eventually_atTop.2 ⟨N0 + 1, fun N hN => ?_⟩
    have := hN0 (N - 1) (by omega)
    rwa [Nat.sub_add_cancel (by omega)] at this
  · intro S hS d hd
    have h1 := ProbabilityMeasure.limsup_measure_closed_le_of_tendsto hw hS
    have hd0 : 0 < d := lt_of_le_of_lt measureReal_nonneg hd
    have h2 : limsup (fun N => (L N : Measure ℝ) S) atTop < ENNReal.ofReal d := by
      refine lt_of_le_of_lt h1 ?_
      rw [eG S hS.measurableSet]
      exact (ENNReal.ofReal_lt_ofReal_iff hd0).2 hd
    have h3 := eventually_lt_of_limsup_lt h2
    have h4 : ∀ᶠ N in atTop, drawProb Q X (N + 1) n (U (N + 1)) S ω < d := by
      filter_upwards [h3] with N hN
      rw [eL N S hS.measurableSet] at hN
      exact (ENNReal.ofReal_lt_ofReal_iff hd0).1 hN
    obtain ⟨N0, hN0⟩ := eventually_atTop.1 h4
    refine eventually_atTop.2 ⟨N0 + 1, fun N hN => ?_⟩
    have := hN0 (N - 1) (by omega)
    rwa [Nat.sub_add_cancel (by omega)] at this

variable {conf μ : ℝ}

/-- numbers that averages of `n` data leave enough on both sides are held for sure -/
theorem fixed_inside (hX : ∀ t, Measurable (X t)) (hU : ∀ N, 0 < N → FairDraws Q N (U N)) (hi : iIndepFun X P)
    (hs : ∀ t, IdentDistrib (X t) (X 0) P P) (hint : Integrable (X 0) P) (hn : 0 < n) (h0 : 0 ≤ conf) (h1 : conf ≤ 1)
    (skip : Bool) (hl : (1 - conf) / 2 < P.real {ω | firstMean X n ω < μ}) (hr : (1 - conf) / 2 < P.real {ω | μ < firstMean X n ω}) :
    LongRunProb (P.prod Q) (fun N R => coverSet X N n (U N) conf skip μ R) 1 := by
  intro ε hε
  set a := P.real {ω | firstMean X n ω < μ} with ha
  set b := P.real {ω | μ < firstMean X n ω} with hb
  set η := (min a b - (1 - conf) / 2) / 2 with hη
  have hmin : (1 - conf) / 2 < min a b := lt_min hl hr
  have hη0 : 0 < η := by rw [hη]; linarith
  have d1 : (1 - conf) / 2 + η < a := by have := min_le_left a b; rw [hη]; linarith
  have d2 : (1 - conf) / 2 + η < b := by have := min_le_right a b; rw [hη]; linarith
  let A : ℕ → Set Ω := fun N => {ω | (1 - conf) / 2 + η ≤ drawProb Q X N n (U N) (Set.Iic μ) ω ∧
    (1 - conf) / 2 + η ≤ drawProb Q X N n (U N) (Set.Ici μ) ω}
  have mA : ∀ N, MeasurableSet (A (N + 1)) := fun N =>
    (measurableSet_le measurable_const (measurable_drawProb (hU (N + 1) (by omega)) hX measurableSet_Iic)).inter
      (measurableSet_le measurable_const (measurable_drawProb (hU (N + 1) (by omega)) hX measurableSet_Ici))
  have x : Tendsto (fun N => P.real (A N)ᶜ) atTop (𝓝 0) := by
    rw [← tendsto_add_atTop_iff_nat 1]
    refine never_prob (B := fun N => (A (N + 1))ᶜ) (fun N => (mA N).compl) ?_
    filter_upwards [drawProb_ae hX hU hi hs hint n] with ω hω
    have e1 := hω.1 (Set.Iio μ) isOpen_Iio _ d1
    have e2 := hω.1 (Set.Ioi μ) isOpen_Ioi _ d2
    filter_upwards [(tendsto_add_atTop_nat 1).eventually e1, (tendsto_add_atTop_nat 1).eventually e2] with N f1 f2 hc
    refine hc ⟨f1.le.trans (measureReal_mono fun ω' h => ?_), f2.le.trans (measureReal_mono fun ω' h => ?_)⟩
    · exact le_of_lt (show _ < μ from h)
    · exact le_of_lt (show μ < _ from h)
  filter_upwards [x.eventually_lt_const (show 0 < ε / 2 by linarith), eventually_gt_atTop 0] with N x1 hN
  filter_upwards [cover_lower (P := P) (skip := skip) (hU N hN) hX hN hn h0 h1 μ hη0 (show 0 < ε / 2 by linarith)] with R r1
  change P.real (A N) - ε / 2 < _ at r1
  have m' : MeasurableSet (A N) := by
    have := mA (N - 1)
    rwa [Nat.sub_add_cancel hN] at this
  have e := probReal_compl_eq_one_sub (μ := P) m'
  have hle : (P.prod Q).real (coverSet X N n (U N) conf skip μ R) ≤ 1 := measureReal_le_one
  rw [abs_lt]
  constructor <;> linarith

/-- numbers that averages of `n` data leave too few on one side are never held -/
theorem fixed_outside (hX : ∀ t, Measurable (X t)) (hU : ∀ N, 0 < N → FairDraws Q N (U N)) (hi : iIndepFun X P)
    (hs : ∀ t, IdentDistrib (X t) (X 0) P P) (hint : Integrable (X 0) P) (hn : 0 < n) (h0 : 0 ≤ conf) (h1 : conf ≤ 1)
    (skip : Bool) (hlr : P.real {ω | firstMean X n ω ≤ μ} < (1 - conf) / 2 ∨ P.real {ω | μ ≤ firstMean X n ω} < (1 - conf) / 2) :
    LongRunProb (P.prod Q) (fun N R => coverSet X N n (U N) conf skip μ R) 0 := by
  intro ε hε
  obtain ⟨η, hη0, hd⟩ : ∃ η > 0, P.real {ω | firstMean X n ω ≤ μ} < (1 - conf) / 2 - η ∨
      P.real {ω | μ ≤ firstMean X n ω} < (1 - conf) / 2 - η := by
    rcases hlr with h | h
    · exact ⟨((1 - conf) / 2 - P.real {ω | firstMean X n ω ≤ μ}) / 2, by linarith, .inl (by linarith)⟩
    · exact ⟨((1 - conf) / 2 - P.real {ω | μ ≤ firstMean X n ω}) / 2, by linarith, .inr (by linarith)⟩
  let A : ℕ → Set Ω := fun N => {ω | (1 - conf) / 2 - η < drawProb Q X N n (U N) (Set.Iic μ) ω ∧
    (1 - conf) / 2 - η < drawProb Q X N n (U N) (Set.Ici μ) ω}
  have mA : ∀ N, MeasurableSet (A (N + 1)) := fun N =>
    (measurableSet_lt measurable_const (measurable_drawProb (hU (N + 1) (by omega)) hX measurableSet_Iic)).inter
      (measurableSet_lt measurable_const (measurable_drawProb (hU (N + 1) (by omega)) hX measurableSet_Ici))
  have x : Tendsto (fun N => P.real (A N)) atTop (𝓝 0) := by
    rw [← tendsto_add_atTop_iff_nat 1]
    refine never_prob (B := fun N => A (N + 1)) mA ?_
    filter_upwards [drawProb_ae hX hU hi hs hint n] with ω hω
    rcases hd with hd | hd
    · filter_upwards [(tendsto_add_atTop_nat 1).eventually (hω.2 (Set.Iic μ) isClosed_Iic _ hd)] with N f1 hc
      exact absurd (f1.trans hc.1) (lt_irrefl _)
    · filter_upwards [(tendsto_add_atTop_nat 1).eventually (hω.2 (Set.Ici μ) isClosed_Ici _ hd)] with N f1 hc
      exact absurd (f1.trans hc.2) (lt_irrefl _)
  filter_upwards [x.eventually_lt_const (show 0 < ε / 2 by linarith), eventually_gt_atTop 0] with N x1 hN
  filter_upwards [cover_upper (P := P) (skip := skip) (hU N hN) hX hN hn h0 h1 μ hη0 (show 0 < ε / 2 by linarith)] with R r1
  change _ < P.real (A N) + ε / 2 at r1
  have hge : 0 ≤ (P.prod Q).real (coverSet X N n (U N) conf skip μ R) := measureReal_nonneg
  rw [abs_lt]
  constructor <;> linarith

end

end Lemmas
