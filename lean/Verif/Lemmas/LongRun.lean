import Verif.Lemmas.Pool
import Verif.Lemmas.Ensemble
import Verif.Lemmas.HonestMean
import Verif.Spec.LongRun
import Verif.Spec.PitUniform
import Mathlib.Analysis.SpecialFunctions.Gamma.Deriv
import Mathlib.Probability.StrongLaw

/-! Averages over the days of growing archives. -/

namespace Lemmas
open Spec Np NDArr MeasureTheory ProbabilityTheory Filter Topology

theorem sel_only (t : Nat) (k : List Nat) (d : Nat) (h : t ≤ k.length) :
    sel (fun a => decide (a = t)) (k.insertIdx t d) = [d] ∧ sel (fun a => !decide (a = t)) (k.insertIdx t d) = k := by
  have hall : ∀ l : List Nat, sel (fun _ => false) l = [] ∧ sel (fun _ => true) l = l := by
    intro l
    induction l with
    | nil => exact ⟨rfl, rfl⟩
    | cons x l ih => exact ⟨by simpa [sel] using ih.1, by simpa [sel] using ih.2⟩
  induction t generalizing k with
  | zero =>
    simp only [List.insertIdx_zero, sel, decide_true, if_true, Nat.add_eq_zero_iff, one_ne_zero, and_false, decide_false,
      Bool.not_true, Bool.not_false, Bool.false_eq_true, if_false]
    exact ⟨by rw [(hall k).1], (hall k).2⟩
  | succ t ih =>
    cases k with
    | nil => simp at h
    | cons x k =>
      have := ih k (by simpa using h)
      simp only [List.insertIdx_succ_cons, sel, Nat.add_right_cancel_iff] at this ⊢
      constructor
      · simpa using this.1
      · simpa using this.2

theorem dropAxes_insertIdx {t : Nat} {k : List Nat} (d : Nat) (h : t ≤ k.length) :
    dropAxes [t] (k.insertIdx t d) = k ∧ takeAxes [t] (k.insertIdx t d) = [d] := by
  rw [dropAxes_eq_sel, takeAxes_eq_sel]
  have := sel_only t k d h
  simp only [List.mem_singleton]
  exact ⟨by simpa using this.2, this.1⟩

/-- the positions that are averaged: all days -/
theorem fiberIdx_days {s k : List Nat} {t : Nat} (ht : t ≤ s.length) (hk : InB s k) (n : Nat) :
    fiberIdx (s.insertIdx t n) [t] k = (List.range n).map fun d => k.insertIdx t d := by
  have hl := hk.length
  have hd := dropAxes_insertIdx (t := t) (k := s) n ht
  refine map_inj_on (takeAxes [t]) ?_ ?_
  · rw [map_takeAxes_fiberIdx _ _ _ (by rw [hd.1]; exact hk), hd.2, List.map_map]
    have : ∀ d ∈ List.range n, (takeAxes [t] ∘ fun d => k.insertIdx t d) d = [d] := fun d _ =>
      (dropAxes_insertIdx d (by rw [hl]; exact ht)).2
    rw [List.map_congr_left this, allIdx_cons]
    simp only [allIdx, List.map_cons, List.map_nil]
    induction List.range n with
    | nil => rfl
    | cons x l ih => simpa using ih
  · intro x hx y hy hxy
    obtain ⟨d, hd, rfl⟩ := List.mem_map.1 hy
    obtain ⟨h1, h2⟩ := mem_fiberIdx.1 hx
    refine axes_inj ?_ hxy ?_
    · rw [h1.length, List.length_insertIdx, List.length_insertIdx, hl]
    · rw [h2, (dropAxes_insertIdx d (by rw [hl]; exact ht)).1]

theorem zero_notMem_days {s : List Nat} (h0 : 0 ∉ s) (t n : Nat) : 0 ∉ s.insertIdx t (n + 1) := by
  intro h
  rcases List.eq_or_mem_of_mem_insertIdx h with h | h
  · cases h
  · exact h0 h

variable {Ω : Type} [MeasurableSpace Ω] {P : Measure Ω} {E : Type} [MeasurableSpace E]

theorem repeats_comp {R : Nat → Ω → E} (h : SameDays P R) {E' : Type} [MeasurableSpace E'] {g : E → E'} (hg : Measurable g) :
    SameDays P fun d ω => g (R d ω) :=
  ⟨fun d => hg.comp (h.meas d), fun _ _ hde => (h.indep hde).comp hg hg, fun d => (h.same d).comp hg⟩

/-- the strong law of large numbers for averages over lists -/
theorem settles_avg {R : Nat → Ω → E} (h : SameDays P R) {g : E → ℝ} (hg : Measurable g)
    (hi : Integrable (fun ω => g (R 0 ω)) P) :
    Settles P (fun n ω => avg ((List.range (n + 1)).map fun d => g (R d ω))) (∫ ω, g (R 0 ω) ∂P) := by
  have := strong_law_ae_real (μ := P) (fun d ω => g (R d ω)) hi
    (fun d e hde => (h.indep hde).comp hg hg) (fun d => (h.same d).comp hg)
  filter_upwards [this] with ω hω
  refine (hω.comp (tendsto_add_atTop_nat 1)).congr fun n => ?_
  simp only [Function.comp_apply, avg, List.length_map, List.length_range, Finset.sum_range]
  rw [← List.sum_ofFn, List.ofFn_eq_map, ← List.map_coe_finRange_eq_range, List.map_map]
  rfl

/-- what settles at a smaller number is smaller in the long run -/
theorem settles_lt {S S' : Nat → Ω → ℝ} {l l' : ℝ} (h : Settles P S l) (h' : Settles P S' l') (hl : l < l') :
    ∀ᵐ ω ∂P, ∃ N, ∀ n, N ≤ n → S n ω < S' n ω := by
  filter_upwards [h, h'] with ω h1 h2
  exact eventually_atTop.1 (h1.eventually_lt h2 hl)

/-- scores of distribution functions that depend measurably on parameters are measurable -/
theorem measurable_crpsOf {Θ : Type} [MeasurableSpace Θ] {L : Θ → ℝ → ℝ} (hL : Measurable fun p : Θ × ℝ => L p.1 p.2) :
    Measurable fun p : Θ × ℝ => crpsOf (L p.1) p.2 := by
  unfold crpsOf
  refine StronglyMeasurable.measurable ?_
  refine StronglyMeasurable.integral_prod_right' (f := fun p : (Θ × ℝ) × ℝ => crpsIntegrand (L p.1.1) p.1.2 p.2) ?_
  refine Measurable.stronglyMeasurable ?_
  unfold crpsIntegrand
  refine Measurable.pow_const (Measurable.sub ?_ ?_) 2
  · exact hL.comp ((measurable_fst.comp measurable_fst).prodMk measurable_snd)
  · exact Measurable.ite (measurableSet_le (measurable_snd.comp measurable_fst) measurable_snd) measurable_const measurable_const

theorem measurable_Phi : Measurable Phi := strictMono_Phi.monotone.measurable

theorem measurable_gaussLaw (tr : Bool) : Measurable fun p : (ℝ × ℝ) × ℝ => gaussLaw tr p.1.1 p.1.2 p.2 := by
  have h1 : Measurable fun p : (ℝ × ℝ) × ℝ => Phi ((p.2 - p.1.1) / p.1.2) := measurable_Phi.comp (by fun_prop)
  have h2 : Measurable fun p : (ℝ × ℝ) × ℝ => Phi ((0 - p.1.1) / p.1.2) := measurable_Phi.comp (by fun_prop)
  cases tr with
  | false => exact h1
  | true =>
    simp only [gaussLaw, if_true, truncNormalCdf]
    exact Measurable.ite (measurableSet_lt measurable_snd measurable_const) measurable_const
      ((h1.sub h2).div (measurable_const.sub h2))

theorem measurable_Gamma : Measurable fun k : ℝ => if 0 < k then Real.Gamma k else 0 := by
  classical
  have h : ContinuousOn Real.Gamma (Set.Ioi 0) := fun k hk =>
    (Real.differentiableAt_Gamma fun m => by
      have : (0 : ℝ) ≤ m := Nat.cast_nonneg m
      have := Set.mem_Ioi.1 hk
      linarith).continuousAt.continuousWithinAt
  have := h.measurable_piecewise (continuousOn_const (c := (0 : ℝ))) measurableSet_Ioi
  exact this

theorem measurable_gammaCdf : Measurable fun p : ℝ × ℝ => gammaCdf (p.1 ^ 2) p.2 := by
  have e : ∀ k : ℝ, Real.Gamma (k ^ 2) = if 0 < k ^ 2 then Real.Gamma (k ^ 2) else 0 := by
    intro k
    split_ifs with h
    · rfl
    · rw [le_antisymm (not_lt.1 h) (sq_nonneg k), Real.Gamma_zero]
  have hg : Measurable fun k : ℝ => Real.Gamma (k ^ 2) := by
    rw [funext e]
    exact measurable_Gamma.comp (by fun_prop : Measurable fun k : ℝ => k ^ 2)
  have hp : Measurable fun p : ℝ × ℝ => gammaPdf (p.1 ^ 2) p.2 := by
    unfold gammaPdf
    refine Measurable.ite (measurableSet_lt measurable_const measurable_snd) ?_ measurable_const
    exact (Measurable.mul (by fun_prop) (by fun_prop)).div (hg.comp measurable_fst)
  have e2 : ∀ p : ℝ × ℝ, gammaCdf (p.1 ^ 2) p.2 = ∫ t, if t ≤ p.2 then gammaPdf (p.1 ^ 2) t else 0 := by
    intro p
    rw [gammaCdf, ← integral_indicator measurableSet_Iic]
    rfl
  rw [funext e2]
  refine StronglyMeasurable.measurable ?_
  refine StronglyMeasurable.integral_prod_right'
    (f := fun p : (ℝ × ℝ) × ℝ => if p.2 ≤ p.1.2 then gammaPdf (p.1.1 ^ 2) p.2 else 0) ?_
  refine Measurable.stronglyMeasurable ?_
  refine Measurable.ite (measurableSet_le measurable_snd (measurable_snd.comp measurable_fst)) ?_ measurable_const
  exact hp.comp ((measurable_fst.comp measurable_fst).prodMk measurable_snd)

theorem measurable_censored :
    Measurable fun p : (ℝ × ℝ × ℝ) × ℝ => censoredGammaCdf p.1.1 p.1.2.1 p.1.2.2 p.2 := by
  unfold censoredGammaCdf
  refine Measurable.ite (measurableSet_lt measurable_snd measurable_const) measurable_const ?_
  exact measurable_gammaCdf.comp (Measurable.prodMk (by fun_prop) (by fun_prop))

theorem measurable_hurdle :
    Measurable fun p : (ℝ × ℝ × ℝ) × ℝ => hurdleLaw p.1.1 p.1.2.1 p.1.2.2 p.2 := by
  unfold hurdleLaw
  refine Measurable.ite (measurableSet_lt measurable_snd measurable_const) measurable_const ?_
  refine Measurable.add (by fun_prop) (Measurable.mul (by fun_prop) ?_)
  exact measurable_gammaCdf.comp (Measurable.prodMk (by fun_prop) (by fun_prop))

end Lemmas
