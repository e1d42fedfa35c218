import Verif.Lemmas.DecompChance
import Mathlib.Probability.Moments.SubGaussian

/-!
# Averages of independent bounded numbers are close to their mean
-/

namespace Lemmas
open Np NDArr Spec MeasureTheory ProbabilityTheory

variable {Ω : Type} [MeasurableSpace Ω] {P : Measure Ω} [IsProbabilityMeasure P] {ι : Type}
  {L : List ι} {X : ι → Ω → ℝ} {a b : ι → ℝ} {pr : ι → Prop}

theorem avg_integrable (hX : ∀ i ∈ L, Integrable (X i) P) :
    Integrable (fun ω => avg (L.map fun i => X i ω)) P ∧
      ∫ ω, avg (L.map fun i => X i ω) ∂P = avg (L.map fun i => ∫ ω, X i ω ∂P) := by
  have h : Integrable (fun ω => (L.map fun i => X i ω).sum) P ∧
      ∫ ω, (L.map fun i => X i ω).sum ∂P = (L.map fun i => ∫ ω, X i ω ∂P).sum := by
    induction L with
    | nil => simp
    | cons x L ih =>
      obtain ⟨h1, h2⟩ := ih fun i hi => hX i (List.mem_cons_of_mem _ hi)
      have hx := hX x List.mem_cons_self
      simp only [List.map_cons, List.sum_cons]
      refine ⟨hx.add h1, ?_⟩
      rw [integral_add (f := fun ω => X x ω) hx h1, h2]
  simp only [avg, List.length_map]
  refine ⟨h.1.div_const _, ?_⟩
  rw [integral_div, h.2]

/-- the average of independent numbers between `a` and `b` exceeds its mean by `ε` or more with a probability of at most
`exp (-2 N ε² / mean (b - a)²)` -/
theorem avg_exceeds (hL : L.Nodup) (hne : L ≠ []) (hpr : ∀ i ∈ L, pr i) (hi : iIndepFun (fun i : {i // pr i} => X i.1) P)
    (hm : ∀ i ∈ L, Measurable (X i)) (hX : ∀ i ∈ L, ∀ ω, X i ω ∈ Set.Icc (a i) (b i)) {ε : ℝ} (hε : 0 ≤ ε) :
    P.real {ω | ε ≤ avg (L.map fun i => X i ω) - ∫ ω, avg (L.map fun i => X i ω) ∂P} ≤
      Real.exp (-(2 * L.length * ε ^ 2 / avg (L.map fun i => (b i - a i) ^ 2))) := by
  classical
  have hl : (0 : ℝ) < L.length := by exact_mod_cast List.length_pos_iff.2 hne
  have hint : ∀ i ∈ L, Integrable (X i) P := fun i h =>
    Integrable.of_mem_Icc (a i) (b i) (hm i h).aemeasurable (ae_of_all _ (hX i h))
  let s : Finset {i // pr i} := L.toFinset.subtype pr
  have hs : ∀ i ∈ s, i.1 ∈ L := fun i h => List.mem_toFinset.1 (Finset.mem_subtype.1 h)
  have hsum : ∀ g : ι → ℝ, ∑ i ∈ s, g i.1 = (L.map g).sum := fun g => by
    rw [Finset.sum_subtype_of_mem g fun i h => hpr i (List.mem_toFinset.1 h), List.sum_toFinset _ hL]
  let Z : {i // pr i} → Ω → ℝ := fun i ω => X i.1 ω - ∫ ω, X i.1 ω ∂P
  have hZ : iIndepFun Z P := hi.comp (fun i x => x - ∫ ω, X i.1 ω ∂P) fun i => measurable_id.sub_const _
  have hsub : ∀ i ∈ s, HasSubgaussianMGF (Z i) ((‖b i.1 - a i.1‖₊ / 2) ^ 2) P := fun i h =>
    hasSubgaussianMGF_of_mem_Icc (hm i.1 (hs i h)).aemeasurable (ae_of_all _ (hX i.1 (hs i h)))
  have hN : 0 ≤ L.length * ε := mul_nonneg hl.le hε
  have main := HasSubgaussianMGF.measure_sum_ge_le_of_iIndepFun hZ hsub hN
  have hset : {ω | ε ≤ avg (L.map fun i => X i ω) - ∫ ω, avg (L.map fun i => X i ω) ∂P} =
      {ω | L.length * ε ≤ ∑ i ∈ s, Z i ω} := by
    ext ω
    simp only [Set.mem_ofPred_eq]
    rw [(avg_integrable hint).2, Finset.sum_sub_distrib, hsum fun i => X i ω, hsum fun i => ∫ ω, X i ω ∂P]
    simp only [avg, List.length_map]
    rw [← sub_div, le_div_iff₀ hl, mul_comm]
  rw [hset]
  refine main.trans (le_of_eq ?_)
  congr 1
  have hc : ((∑ i ∈ s, (‖b i.1 - a i.1‖₊ / 2) ^ 2 : NNReal) : ℝ) = (L.map fun i => (b i - a i) ^ 2).sum / 4 := by
    rw [← hsum fun i => (b i - a i) ^ 2, NNReal.coe_sum, Finset.sum_div]
    refine Finset.sum_congr rfl fun i _ => ?_
    push_cast
    rw [Real.norm_eq_abs, div_pow, sq_abs]
    norm_num
  rw [hc, avg, List.length_map]
  by_cases h0 : (L.map fun i => (b i - a i) ^ 2).sum = 0
  · simp [h0]
  · field_simp
    ring

/-- the same on the other side -/
theorem avg_below (hL : L.Nodup) (hne : L ≠ []) (hpr : ∀ i ∈ L, pr i) (hi : iIndepFun (fun i : {i // pr i} => X i.1) P)
    (hm : ∀ i ∈ L, Measurable (X i)) (hX : ∀ i ∈ L, ∀ ω, X i ω ∈ Set.Icc (a i) (b i)) {ε : ℝ} (hε : 0 ≤ ε) :
    P.real {ω | ε ≤ ∫ ω, avg (L.map fun i => X i ω) ∂P - avg (L.map fun i => X i ω)} ≤
      Real.exp (-(2 * L.length * ε ^ 2 / avg (L.map fun i => (b i - a i) ^ 2))) := by
  have h := avg_exceeds (X := fun i ω => -X i ω) (a := fun i => -b i) (b := fun i => -a i) hL hne hpr
    (hi.comp (fun _ x => -x) fun _ => measurable_neg) (fun i h => (hm i h).neg)
    (fun i h ω => ⟨neg_le_neg (hX i h ω).2, neg_le_neg (hX i h ω).1⟩) hε
  have e : ∀ ω, avg (L.map fun i => -X i ω) = -avg (L.map fun i => X i ω) := fun ω => by
    have := avg_times L (-1) fun i => X i ω
    simpa using this
  simp only [e, integral_neg] at h
  have e2 : ∀ i, (-a i - -b i) ^ 2 = (b i - a i) ^ 2 := fun i => by ring
  simp only [e2] at h
  refine le_trans (le_of_eq ?_) h
  congr 1
  ext ω
  simp only [Set.mem_ofPred_eq]
  rw [sub_neg_eq_add, neg_add_eq_sub]

/-- both sides, numbers between 0 and 1 -/
theorem avg_deviates (hL : L.Nodup) (hne : L ≠ []) (hpr : ∀ i ∈ L, pr i) (hi : iIndepFun (fun i : {i // pr i} => X i.1) P)
    (hm : ∀ i ∈ L, Measurable (X i)) (hX : ∀ i ∈ L, ∀ ω, X i ω ∈ Set.Icc 0 1) {ε : ℝ} (hε : 0 ≤ ε) :
    P.real {ω | ε ≤ |avg (L.map fun i => X i ω) - ∫ ω, avg (L.map fun i => X i ω) ∂P|} ≤
      2 * Real.exp (-(2 * L.length * ε ^ 2)) := by
  have h1 := avg_exceeds (a := fun _ => 0) (b := fun _ => 1) hL hne hpr hi hm hX hε
  have h2 := avg_below (a := fun _ => 0) (b := fun _ => 1) hL hne hpr hi hm hX hε
  have e : avg (L.map fun _ => ((1 : ℝ) - 0) ^ 2) = 1 := by rw [avg_fixed hne]; norm_num
  rw [e, div_one] at h1 h2
  refine (measureReal_mono ?_ (measure_ne_top _ _)).trans ((measureReal_union_le _ _).trans ((add_le_add h1 h2).trans
    (two_mul _).ge))
  intro ω h
  simp only [Set.mem_ofPred_eq, Set.mem_union] at h ⊢
  rcases le_abs.1 h with h | h
  · exact .inl h
  · exact .inr (by linarith)

end Lemmas
