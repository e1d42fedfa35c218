import Verif.Lemmas.DmLimit
import Verif.Lemmas.PsGaussian
import Mathlib.Probability.CentralLimitTheorem

/-! The statistic of the Diebold-Mariano test for equally good forecasts is nearly normal. -/

namespace Lemmas
open Np Model Spec Props MeasureTheory ProbabilityTheory Filter Topology

theorem gauss_Iic (x : ℝ) : (gaussianReal 0 1).real (Set.Iic x) = Phi x := by
  have h0 : 0 ≤ ∫ t in Set.Iic x, gaussianPDFReal 0 1 t :=
    setIntegral_nonneg measurableSet_Iic fun t _ => gaussianPDFReal_nonneg _ _ _
  rw [measureReal_def, gaussianReal_apply_eq_integral _ one_ne_zero, ENNReal.toReal_ofReal h0]
  unfold Phi
  exact setIntegral_congr_fun measurableSet_Iic fun t _ => (phi_eq t).symm

theorem gauss_tails {c : ℝ} (hc : 0 < c) : (gaussianReal 0 1).real {x | c ≤ |x|} = 2 * Phi (-c) := by
  have := nullSingletonClass_gaussianReal (μ := 0) (v := 1) one_ne_zero
  have hset : {x : ℝ | c ≤ |x|} = Set.Iic (-c) ∪ Set.Ici c := by
    ext x
    simp only [Set.mem_ofPred_eq, Set.mem_union, Set.mem_Iic, Set.mem_Ici, le_abs']
  have hd : Disjoint (Set.Iic (-c)) (Set.Ici c) := Set.disjoint_left.2 fun x hx hx' => by
    simp only [Set.mem_Iic, Set.mem_Ici] at hx hx'; linarith
  have hI : (gaussianReal 0 1).real (Set.Ici c) = 1 - Phi c := by
    rw [measureReal_congr (Ioi_ae_eq_Ici (μ := gaussianReal 0 1) (a := c)).symm, ← Set.compl_Iic,
      probReal_compl_eq_one_sub measurableSet_Iic, gauss_Iic]
  rw [hset, measureReal_union hd measurableSet_Ici, gauss_Iic, hI, Phi_neg]
  ring

section
variable {Ω : Type} [MeasurableSpace Ω] {P : Measure Ω} [IsProbabilityMeasure P] {D : ℕ → Ω → ℝ}

omit [IsProbabilityMeasure P] in
theorem aemeasurable_longVar (hm : ∀ t, AEMeasurable (D t) P) (h n : ℕ) :
    AEMeasurable (fun ω => longVar (fun t => D t ω) h n) P := by
  have hS : AEMeasurable (fun ω => (∑ t ∈ Finset.range n, D t ω) / n) P :=
    (Finset.aemeasurable_fun_sum _ fun t _ => hm t).div_const _
  have hA : ∀ k, AEMeasurable (fun ω => autocovSpec (fun t => D t ω) n ((∑ t ∈ Finset.range n, D t ω) / n) k) P := by
    intro k
    unfold autocovSpec
    exact (Finset.aemeasurable_fun_sum _ fun t _ => ((hm _).sub hS).mul ((hm _).sub hS)).div_const _
  unfold longVar
  exact (hA 0).add ((Finset.aemeasurable_fun_sum _ fun k _ => hA (k + 1)).const_mul 2)

/-- the probability of a variance estimate that is not positive vanishes -/
theorem longVar_pos (hi : iIndepFun D P) (hs : ∀ t, IdentDistrib (D t) (D 0) P P) (h2 : MemLp (D 0) 2 P)
    (hv : 0 < Var[D 0; P]) (h : ℕ) :
    Tendsto (fun n => P.real {ω | ¬ 0 < longVar (fun t => D t ω) h n}) atTop (𝓝 0) := by
  have hm : ∀ t, AEMeasurable (D t) P := fun t => (hs t).aemeasurable_fst
  have ht := tendstoInMeasure_of_tendsto_ae (fun n => (aemeasurable_longVar hm h n).aestronglyMeasurable)
    (longVar_limit hi hs h2 h)
  rw [tendstoInMeasure_iff_measureReal_norm] at ht
  refine squeeze_zero (fun n => measureReal_nonneg) (fun n => ?_) (ht _ hv)
  refine measureReal_mono ?_
  intro ω hω
  simp only [Set.mem_ofPred_eq, not_lt] at hω ⊢
  rw [Real.norm_eq_abs, abs_sub_comm]
  exact le_trans (by linarith) (le_abs_self _)

/-- the statistic of equally good forecasts -/
theorem dmValue_normal (hi : iIndepFun D P) (hs : ∀ t, IdentDistrib (D t) (D 0) P P) (h2 : MemLp (D 0) 2 P)
    (h0 : ∫ ω, D 0 ω ∂P = 0) (hv : 0 < Var[D 0; P]) (h : ℕ) :
    TendstoInDistribution (fun n ω => dmValue (fun t => D t ω) h n) atTop (fun x : ℝ => x) (fun _ => P)
      (gaussianReal 0 1) := by
  have hm : ∀ t, AEMeasurable (D t) P := fun t => (hs t).aemeasurable_fst
  have hsv : 0 < √Var[D 0; P] := Real.sqrt_pos.2 hv
  have hY : HasLaw (fun x : ℝ => √Var[D 0; P] * x) (gaussianReal 0 Var[D 0; P].toNNReal) (gaussianReal 0 1) := by
    refine ⟨by fun_prop, ?_⟩
    rw [gaussianReal_map_const_mul, mul_zero, mul_one]
    congr 1
    ext
    simp [Real.sq_sqrt hv.le, hv.le]
  have hclt := tendstoInDistribution_inv_sqrt_mul_sum_sub hY h2 hi hs
  simp only [h0, mul_zero, sub_zero] at hclt
  have hr : ∀ᵐ ω ∂P, Tendsto (fun n => √(harveyTerm (K := ℝ) n h) * (√(longVar (fun t => D t ω) h n))⁻¹) atTop
      (𝓝 ((√Var[D 0; P])⁻¹)) := by
    filter_upwards [longVar_limit hi hs h2 h] with ω hω
    have := ((harvey_limit h).sqrt).mul ((hω.sqrt).inv₀ hsv.ne')
    rwa [Real.sqrt_one, one_mul] at this
  have hrm : ∀ n, AEMeasurable (fun ω => √(harveyTerm (K := ℝ) n h) * (√(longVar (fun t => D t ω) h n))⁻¹) P :=
    fun n => ((aemeasurable_longVar hm h n).sqrt.inv).const_mul _
  have hmeas := tendstoInMeasure_of_tendsto_ae (fun n => (hrm n).aestronglyMeasurable) hr
  have := hclt.continuous_comp_prodMk_of_tendstoInMeasure_const (g := fun x : ℝ × ℝ => x.1 * x.2)
    (continuous_fst.mul continuous_snd) hmeas hrm
  refine this.congr (fun n => Eventually.of_forall fun ω => (dmValue_split _ h n).symm)
    (Eventually.of_forall fun x => ?_)
  simp only
  field_simp

theorem dmValue_prob (hi : iIndepFun D P) (hs : ∀ t, IdentDistrib (D t) (D 0) P P) (h2 : MemLp (D 0) 2 P)
    (h0 : ∫ ω, D 0 ω ∂P = 0) (hv : 0 < Var[D 0; P]) (h : ℕ) {S : Set ℝ} (hS : MeasurableSet S)
    (hf : gaussianReal 0 1 (frontier S) = 0) :
    Tendsto (fun n => P.real {ω | dmValue (fun t => D t ω) h n ∈ S}) atTop (𝓝 ((gaussianReal 0 1).real S)) := by
  have ht := dmValue_normal hi hs h2 h0 hv h
  have := ProbabilityMeasure.tendsto_measure_of_null_frontier_of_tendsto' ht.tendsto (E := S) (by
    simp only [ProbabilityMeasure.coe_mk, Measure.map_id']
    exact hf)
  simp only [ProbabilityMeasure.coe_mk, Measure.map_id'] at this
  have h3 := (ENNReal.tendsto_toReal (measure_ne_top _ _)).comp this
  refine h3.congr fun n => ?_
  rw [Function.comp_apply, Measure.map_apply_of_aemeasurable (ht.forall_aemeasurable n) hS]
  rfl

end

end Lemmas
