import Verif.Lemmas.BootClt
import Verif.Lemmas.DmNormal
import Verif.Spec.BootCoverage

/-! The distribution of the mean of numbers drawn from a growing table. -/

namespace Lemmas
open Np Spec MeasureTheory ProbabilityTheory Filter Topology

variable {Ω : Type} [MeasurableSpace Ω] {Q : Measure Ω} [IsProbabilityMeasure Q] {N : ℕ} {U : ℕ → ℕ → Ω → ℕ}

omit [IsProbabilityMeasure Q] in
theorem draw_meas (h : FairDraws Q N U) (r j : ℕ) : Measurable (U r j) :=
  (measurable_pi_apply j).comp (h.rows.meas r)

theorem integral_draw (h : FairDraws Q N U) (hN : 0 < N) (j : ℕ) (f : ℕ → ℂ) :
    ∫ ω, f (U 0 j ω % N) ∂Q = (∑ i ∈ Finset.range N, f i) / N := by
  have hm : ∀ i, MeasurableSet {ω | U 0 j ω % N = i} := fun i =>
    (measurable_from_nat (f := fun k => k % N)).comp (draw_meas h 0 j) (measurableSet_singleton i)
  have e : (fun ω => f (U 0 j ω % N)) = fun ω => ∑ i ∈ Finset.range N, {ω | U 0 j ω % N = i}.indicator (fun _ => f i) ω := by
    funext ω
    rw [Finset.sum_eq_single (U 0 j ω % N)]
    · rw [Set.indicator_of_mem (by rfl)]
    · intro i _ hi
      exact Set.indicator_of_notMem (fun hc => hi hc.symm) _
    · intro hc
      exact absurd (Finset.mem_range.2 (Nat.mod_lt _ hN)) hc
  rw [e, integral_finsetSum _ fun i _ => (integrable_const _).indicator (hm i), Finset.sum_div]
  refine Finset.sum_congr rfl fun i hi => ?_
  rw [integral_indicator_const _ (hm i), h.fair j i (Finset.mem_range.1 hi)]
  rw [Complex.real_smul]
  push_cast
  ring

/-- the deviation of a resampled mean, in the scale of its spread -/
noncomputable def drawDev (x : ℕ → ℝ) (N n : ℕ) (d : ℕ → ℕ) : ℝ :=
  ∑ j ∈ Finset.range n, (x (d j % N) - (∑ i ∈ Finset.range N, x i) / N) / √(n : ℝ)

theorem drawDev_eq (x : ℕ → ℝ) (N : ℕ) {n : ℕ} (hn : 0 < n) (d : ℕ → ℕ) :
    drawDev x N n d = √(n : ℝ) * (drawMean x N n d - (∑ i ∈ Finset.range N, x i) / N) := by
  unfold drawDev drawMean
  have hnr : (0 : ℝ) < n := by exact_mod_cast hn
  have hs : √(n : ℝ) ≠ 0 := (Real.sqrt_pos.2 hnr).ne'
  rw [← Finset.sum_div, Finset.sum_sub_distrib, Finset.sum_const, Finset.card_range, nsmul_eq_mul]
  rw [div_eq_iff hs]
  have : √(n : ℝ) * √(n : ℝ) = n := Real.mul_self_sqrt hnr.le
  field_simp
  rw [Real.sq_sqrt hnr.le]
  try ring

theorem measurable_drawDev (x : ℕ → ℝ) (N n : ℕ) : Measurable (drawDev x N n) := by
  unfold drawDev
  refine Finset.measurable_fun_sum _ fun j _ => ?_
  have : Measurable fun d : ℕ → ℕ => x (d j % N) :=
    (measurable_from_nat (f := fun k => x (k % N))).comp (measurable_pi_apply j)
  fun_prop

theorem measurable_drawMean (x : ℕ → ℝ) (N n : ℕ) : Measurable (drawMean x N n) := by
  unfold drawMean
  refine Measurable.div_const (Finset.measurable_fun_sum _ fun j _ => ?_) _
  exact (measurable_from_nat (f := fun k => x (k % N))).comp (measurable_pi_apply j)

/-- the characteristic function of the deviation -/
theorem charFun_drawDev (h : FairDraws Q N U) (hN : 0 < N) (x : ℕ → ℝ) (n : ℕ) (t : ℝ) :
    charFun (Q.map fun ω => drawDev x N n fun j => U 0 j ω) t =
      ecf (fun i => x i - (∑ i ∈ Finset.range N, x i) / N) N (t / √(n : ℝ)) ^ n := by
  have hf : Measurable fun k : ℕ => (x (k % N) - (∑ i ∈ Finset.range N, x i) / N) / √(n : ℝ) := measurable_from_nat
  have hX : iIndepFun (fun j ω => (x (U 0 j ω % N) - (∑ i ∈ Finset.range N, x i) / N) / √(n : ℝ)) Q :=
    h.indep.comp (fun _ k => (x (k % N) - (∑ i ∈ Finset.range N, x i) / N) / √(n : ℝ)) fun _ => hf
  have hm : ∀ j, Measurable fun ω => (x (U 0 j ω % N) - (∑ i ∈ Finset.range N, x i) / N) / √(n : ℝ) :=
    fun j => hf.comp (draw_meas h 0 j)
  unfold drawDev
  rw [iIndepFun.charFun_map_fun_finsetSum_eq_prod (fun j _ => (hm j).aemeasurable) (hX.restrict _)]
  rw [Finset.prod_apply]
  have : ∀ j ∈ Finset.range n, charFun (Q.map fun ω => (x (U 0 j ω % N) - (∑ i ∈ Finset.range N, x i) / N) / √(n : ℝ)) t =
      ecf (fun i => x i - (∑ i ∈ Finset.range N, x i) / N) N (t / √(n : ℝ)) := by
    intro j _
    rw [charFun_apply_real, integral_map (hm j).aemeasurable (by fun_prop)]
    rw [integral_draw h hN j fun k => Complex.exp ((t : ℂ) * (((x k - (∑ i ∈ Finset.range N, x i) / N) / √(n : ℝ) : ℝ) : ℂ) *
      Complex.I)]
    unfold ecf
    congr 1
    refine Finset.sum_congr rfl fun i _ => ?_
    congr 1
    push_cast
    ring
  rw [Finset.prod_congr rfl this, Finset.prod_const, Finset.card_range]

/-- the normal distribution with variance `v` -/
theorem gauss_scaled {v : ℝ} (hv : 0 < v) :
    gaussianReal 0 v.toNNReal = (gaussianReal 0 1).map fun x => √v * x := by
  rw [gaussianReal_map_const_mul, mul_zero, mul_one]
  congr 1
  ext
  simp [Real.sq_sqrt hv.le, hv.le]

theorem gauss_scaled_Iic {v : ℝ} (hv : 0 < v) (a : ℝ) :
    (gaussianReal 0 v.toNNReal).real (Set.Iic a) = Phi (a / √v) := by
  have hs : 0 < √v := Real.sqrt_pos.2 hv
  rw [gauss_scaled hv, map_measureReal_apply (by fun_prop) measurableSet_Iic, ← gauss_Iic]
  congr 1
  ext x
  simp only [Set.mem_preimage, Set.mem_Iic]
  rw [le_div_iff₀ hs, mul_comm]

theorem gauss_scaled_Ici {v : ℝ} (hv : 0 < v) (a : ℝ) :
    (gaussianReal 0 v.toNNReal).real (Set.Ici a) = 1 - Phi (a / √v) := by
  have := nullSingletonClass_gaussianReal (μ := 0) (v := v.toNNReal) (by simpa using hv)
  rw [measureReal_congr (Ioi_ae_eq_Ici (μ := gaussianReal 0 v.toNNReal) (a := a)).symm, ← Set.compl_Iic,
    probReal_compl_eq_one_sub measurableSet_Iic, gauss_scaled_Iic hv]

section limit
variable {x : ℕ → ℝ} {n : ℕ → ℕ} {m v c : ℝ} {U : ℕ → ℕ → ℕ → Ω → ℕ}

theorem drawDev_weak (hU : ∀ N, 0 < N → FairDraws Q N (U N))
    (h1 : Tendsto (fun N => (∑ i ∈ Finset.range N, x i) / (N : ℝ)) atTop (𝓝 m))
    (h2 : Tendsto (fun N => (∑ i ∈ Finset.range N, x i ^ 2) / (N : ℝ)) atTop (𝓝 (m ^ 2 + v))) (hv : 0 < v) (hc : 0 < c)
    (hn : Tendsto (fun N => (n N : ℝ) / N) atTop (𝓝 c)) (t : ℝ) :
    Tendsto (fun N => charFun (Q.map fun ω => drawDev x N (n N) fun j => U N 0 j ω) t) atTop
      (𝓝 (charFun (gaussianReal 0 v.toNNReal) t)) := by
  have hN : Tendsto (fun N : ℕ => (N : ℝ)) atTop atTop := tendsto_natCast_atTop_atTop
  have hnr : Tendsto (fun N => (n N : ℝ)) atTop atTop := by
    have := hn.pos_mul_atTop hc hN
    refine this.congr' ?_
    filter_upwards [eventually_gt_atTop 0] with N hN
    have : (N : ℝ) ≠ 0 := by exact_mod_cast hN.ne'
    field_simp
  have hnn : Tendsto n atTop atTop := tendsto_natCast_atTop_iff.1 hnr
  have e : charFun (gaussianReal 0 v.toNNReal) t = Complex.exp (-((v * t ^ 2 / 2 : ℝ) : ℂ)) := by
    rw [charFun_gaussianReal]
    congr 1
    simp only [Complex.ofReal_zero, mul_zero, zero_mul, zero_sub, Real.coe_toNNReal _ hv.le]
    push_cast
    ring
  rw [e]
  have hclt := ecf_clt (y := fun N i => x i - (∑ i ∈ Finset.range N, x i) / N) (n := n) (v := v) hnn ?_ ?_ ?_ hv.le t
  · refine hclt.congr' ?_
    filter_upwards [eventually_gt_atTop 0] with N hN
    exact (charFun_drawDev (hU N hN) hN x (n N) t).symm
  · intro N
    rw [Finset.sum_sub_distrib, Finset.sum_const, Finset.card_range, nsmul_eq_mul]
    rcases Nat.eq_zero_or_pos N with rfl | hN
    · simp
    · have : (N : ℝ) ≠ 0 := by exact_mod_cast hN.ne'
      field_simp
      ring
  · have h3 := h2.sub (h1.pow 2)
    rw [add_sub_cancel_left] at h3
    refine h3.congr' ?_
    filter_upwards [eventually_gt_atTop 0] with N hN
    have hNr : (N : ℝ) ≠ 0 := by exact_mod_cast hN.ne'
    simp only [sub_sq]
    rw [Finset.sum_add_distrib, Finset.sum_sub_distrib, ← Finset.sum_mul, ← Finset.mul_sum, Finset.sum_const,
      Finset.card_range, nsmul_eq_mul]
    field_simp
    ring
  · intro ε hε
    have hc2 : 0 < √(c / 2) := Real.sqrt_pos.2 (by linarith)
    have hsq : Tendsto (fun N : ℕ => √(N : ℝ)) atTop atTop := Real.tendsto_sqrt_atTop.comp hN
    filter_upwards [no_peak h2 (ε := ε * √(c / 2) / 2) (by positivity),
      (h1.abs).eventually_le_const (show |m| < |m| + 1 by linarith),
      hsq.eventually_ge_atTop ((|m| + 1) / (ε * √(c / 2) / 2)),
      hn.eventually_const_le (show c / 2 < c by linarith), eventually_gt_atTop 0] with N hp hm hl hnN hN i hi
    have hNr : (0 : ℝ) < N := by exact_mod_cast hN
    rw [div_le_iff₀ (by positivity)] at hl
    have hns : √(c / 2) * √(N : ℝ) ≤ √(n N : ℝ) := by
      rw [← Real.sqrt_mul (by linarith)]
      refine Real.sqrt_le_sqrt ?_
      rwa [le_div_iff₀ hNr] at hnN
    calc |x i - (∑ i ∈ Finset.range N, x i) / N| ≤ |x i| + |(∑ i ∈ Finset.range N, x i) / N| := abs_sub _ _
      _ ≤ ε * √(c / 2) / 2 * √(N : ℝ) + (|m| + 1) := add_le_add (hp i hi) hm
      _ ≤ ε * √(c / 2) / 2 * √(N : ℝ) + √(N : ℝ) * (ε * √(c / 2) / 2) := by linarith
      _ = ε * (√(c / 2) * √(N : ℝ)) := by ring
      _ ≤ ε * √(n N : ℝ) := mul_le_mul_of_nonneg_left hns hε.le

/-- the central limit theorem for resampled means -/
theorem drawDev_prob (hU : ∀ N, 0 < N → FairDraws Q N (U N))
    (h1 : Tendsto (fun N => (∑ i ∈ Finset.range N, x i) / (N : ℝ)) atTop (𝓝 m))
    (h2 : Tendsto (fun N => (∑ i ∈ Finset.range N, x i ^ 2) / (N : ℝ)) atTop (𝓝 (m ^ 2 + v))) (hv : 0 < v) (hc : 0 < c)
    (hn : Tendsto (fun N => (n N : ℝ) / N) atTop (𝓝 c)) {S : Set ℝ} (hS : MeasurableSet S)
    (hf : gaussianReal 0 v.toNNReal (frontier S) = 0) :
    Tendsto (fun N => Q.real {ω | drawDev x N (n N) (fun j => U N 0 j ω) ∈ S}) atTop
      (𝓝 ((gaussianReal 0 v.toNNReal).real S)) := by
  have hm : ∀ N, 0 < N → Measurable fun ω => drawDev x N (n N) fun j => U N 0 j ω := fun N hN =>
    (measurable_drawDev x N (n N)).comp ((hU N hN).rows.meas 0)
  let L : ℕ → ProbabilityMeasure ℝ := fun N => ⟨Q.map fun ω => drawDev x (N + 1) (n (N + 1)) fun j => U (N + 1) 0 j ω,
    Measure.isProbabilityMeasure_map (hm (N + 1) (by omega)).aemeasurable⟩
  let G : ProbabilityMeasure ℝ := ⟨gaussianReal 0 v.toNNReal, inferInstance⟩
  have hw : Tendsto L atTop (𝓝 G) := by
    refine ProbabilityMeasure.tendsto_iff_tendsto_charFun.2 fun t => ?_
    exact (tendsto_add_atTop_iff_nat 1).2 (drawDev_weak hU h1 h2 hv hc hn t)
  have := ProbabilityMeasure.tendsto_measure_of_null_frontier_of_tendsto' hw (E := S) (by
    simpa only [G, ProbabilityMeasure.coe_mk] using hf)
  simp only [L, G, ProbabilityMeasure.coe_mk] at this
  have h3 := (ENNReal.tendsto_toReal (measure_ne_top _ _)).comp this
  rw [← tendsto_add_atTop_iff_nat 1]
  refine h3.congr fun N => ?_
  rw [Function.comp_apply, Measure.map_apply (hm (N + 1) (by omega)) hS]
  rfl

theorem drawDev_le (hU : ∀ N, 0 < N → FairDraws Q N (U N))
    (h1 : Tendsto (fun N => (∑ i ∈ Finset.range N, x i) / (N : ℝ)) atTop (𝓝 m))
    (h2 : Tendsto (fun N => (∑ i ∈ Finset.range N, x i ^ 2) / (N : ℝ)) atTop (𝓝 (m ^ 2 + v))) (hv : 0 < v) (hc : 0 < c)
    (hn : Tendsto (fun N => (n N : ℝ) / N) atTop (𝓝 c)) (a : ℝ) :
    Tendsto (fun N => Q.real {ω | drawDev x N (n N) (fun j => U N 0 j ω) ≤ a}) atTop (𝓝 (Phi (a / √v))) := by
  have := nullSingletonClass_gaussianReal (μ := 0) (v := v.toNNReal) (by simpa using hv)
  rw [← gauss_scaled_Iic hv]
  exact drawDev_prob hU h1 h2 hv hc hn (S := Set.Iic a) measurableSet_Iic (by rw [frontier_Iic]; exact measure_singleton a)

theorem le_drawDev (hU : ∀ N, 0 < N → FairDraws Q N (U N))
    (h1 : Tendsto (fun N => (∑ i ∈ Finset.range N, x i) / (N : ℝ)) atTop (𝓝 m))
    (h2 : Tendsto (fun N => (∑ i ∈ Finset.range N, x i ^ 2) / (N : ℝ)) atTop (𝓝 (m ^ 2 + v))) (hv : 0 < v) (hc : 0 < c)
    (hn : Tendsto (fun N => (n N : ℝ) / N) atTop (𝓝 c)) (a : ℝ) :
    Tendsto (fun N => Q.real {ω | a ≤ drawDev x N (n N) (fun j => U N 0 j ω)}) atTop (𝓝 (1 - Phi (a / √v))) := by
  have := nullSingletonClass_gaussianReal (μ := 0) (v := v.toNNReal) (by simpa using hv)
  rw [← gauss_scaled_Ici hv]
  exact drawDev_prob hU h1 h2 hv hc hn (S := Set.Ici a) measurableSet_Ici (by rw [frontier_Ici]; exact measure_singleton a)

end limit

end Lemmas
