import Verif.Spec.RandomEns
import Verif.Lemmas.PitUniform
import Verif.Lemmas.EnsCrps
import Mathlib.MeasureTheory.Integral.Prod

/-! The mean distance of two independent numbers, and the expected score of a random ensemble. -/

namespace Lemmas
open Spec MeasureTheory Set Np NDArr ProbabilityTheory

theorem mean_avg {Ω α : Type} [MeasurableSpace Ω] {P : Measure Ω} (l : List α) {g : α → Ω → ℝ} {e : α → ℝ}
    (h : ∀ a ∈ l, Integrable (g a) P ∧ ∫ ω, g a ω ∂P = e a) :
    Integrable (fun ω => avg (l.map fun a => g a ω)) P ∧ ∫ ω, avg (l.map fun a => g a ω) ∂P = avg (l.map e) := by
  have sums : Integrable (fun ω => (l.map fun a => g a ω).sum) P ∧ ∫ ω, (l.map fun a => g a ω).sum ∂P = (l.map e).sum := by
    induction l with
    | nil => simp
    | cons a l ih =>
      obtain ⟨i1, i2⟩ := ih fun b hb => h b (List.mem_cons_of_mem _ hb)
      obtain ⟨k1, k2⟩ := h a List.mem_cons_self
      simp only [List.map_cons, List.sum_cons]
      refine ⟨k1.add i1, ?_⟩
      rw [integral_add k1 i1, k2, i2]
  simp only [avg, List.length_map]
  refine ⟨sums.1.div_const _, ?_⟩
  rw [integral_div, sums.2]

theorem crps_point (x y : ℝ) : crpsOf (ecdf [x]) y = |x - y| := by
  rw [← score_single]
  exact (crps_ecdf (by simp) y).2

theorem dist_point (x : ℝ) (G : ℝ → ℝ) : cdfDist (ecdf [x]) G = crpsOf G x := by
  unfold cdfDist crpsOf crpsIntegrand
  congr 1
  funext t
  simp only [ecdf, List.map_cons, List.map_nil, List.sum_cons, List.sum_nil, List.length_cons, List.length_nil]
  norm_num
  ring

theorem cdfDist_comm (F G : ℝ → ℝ) : cdfDist F G = cdfDist G F := by
  unfold cdfDist
  congr 1
  funext t
  ring

variable {μ ν : Measure ℝ} [IsProbabilityMeasure μ] [IsProbabilityMeasure ν] {F G : ℝ → ℝ}

/-- the mean distance of two independent numbers -/
theorem mean_dist_prod (hF : HasLaw μ F) (hG : HasLaw ν G) (hm : Integrable (fun x : ℝ => x) μ)
    (hn : Integrable (fun x : ℝ => x) ν) :
    Integrable (fun p : ℝ × ℝ => |p.1 - p.2|) (μ.prod ν) ∧
      ∫ p, |p.1 - p.2| ∂μ.prod ν = cdfDist F G + cdfSpread F + cdfSpread G := by
  have hint : Integrable (fun p : ℝ × ℝ => |p.1 - p.2|) (μ.prod ν) := ((hm.comp_fst ν).sub (hn.comp_snd μ)).abs
  refine ⟨hint, ?_⟩
  have one : ∀ x, Integrable (fun t => (ecdf [x] t - G t) ^ 2) ∧
      ∫ y, |x - y| ∂ν = crpsOf G x + cdfSpread G := by
    intro x
    obtain ⟨-, h2, -, h4⟩ := expected_crps (unit_ecdf [x]) hG hn (y₀ := x) (crps_ecdf (by simp) x).1
    refine ⟨h2, ?_⟩
    rw [← dist_point, ← h4]
    congr 1
    funext y
    exact (crps_point x y).symm
  have hi : Integrable (crpsIntegrand G 0) := by
    refine (one 0).1.congr (Filter.Eventually.of_forall fun t => ?_)
    simp only [ecdf, crpsIntegrand, List.map_cons, List.map_nil, List.sum_cons, List.sum_nil, List.length_cons, List.length_nil]
    norm_num
    ring
  obtain ⟨h1, -, -, h4⟩ := expected_crps (law_unit hG) hF hm hi
  rw [integral_prod _ hint]
  simp only [fun x => (one x).2]
  rw [integral_add h1 (integrable_const _), h4, integral_const, cdfDist_comm]
  simp

variable {Ω : Type} [MeasurableSpace Ω] {P : Measure Ω} [IsProbabilityMeasure P] {X Y : Ω → ℝ}

theorem mean_dist (hX : Measurable X) (hY : Measurable Y) (iX : Integrable X P) (iY : Integrable Y P)
    (lX : ∀ x, P.real {ω | X ω ≤ x} = F x) (lY : ∀ x, P.real {ω | Y ω ≤ x} = G x) (hi : IndepFun X Y P) :
    Integrable (fun ω => |X ω - Y ω|) P ∧ ∫ ω, |X ω - Y ω| ∂P = cdfDist F G + cdfSpread F + cdfSpread G := by
  have : IsProbabilityMeasure (P.map X) := Measure.isProbabilityMeasure_map hX.aemeasurable
  have : IsProbabilityMeasure (P.map Y) := Measure.isProbabilityMeasure_map hY.aemeasurable
  have hmap := (indepFun_iff_map_prod_eq_prod_map_map hX.aemeasurable hY.aemeasurable).1 hi
  obtain ⟨h1, h2⟩ := mean_dist_prod (law_of hX lX) (law_of hY lY)
    ((integrable_map_measure measurable_id.aestronglyMeasurable hX.aemeasurable).2 iX)
    ((integrable_map_measure measurable_id.aestronglyMeasurable hY.aemeasurable).2 iY)
  have hXY : Measurable fun ω => (X ω, Y ω) := hX.prodMk hY
  have hms : AEStronglyMeasurable (fun p : ℝ × ℝ => |p.1 - p.2|) (P.map fun ω => (X ω, Y ω)) :=
    (by fun_prop : Measurable fun p : ℝ × ℝ => |p.1 - p.2|).aestronglyMeasurable
  rw [← hmap] at h1 h2
  refine ⟨(integrable_map_measure hms hXY.aemeasurable).1 h1, ?_⟩
  rw [← h2, integral_map hXY.aemeasurable hms]

theorem avg_same {α : Type} {l : List α} (hl : l ≠ []) (c : ℝ) : avg (l.map fun _ => c) = c := by
  have : (l.length : ℝ) ≠ 0 := by
    have := List.length_pos_iff.2 hl
    exact_mod_cast this.ne'
  simp only [avg, List.map_const', List.sum_replicate, nsmul_eq_mul, List.length_replicate]
  field_simp

theorem avg_diag {n j : Nat} (hj : j < n) (c : ℝ) :
    avg ((List.range n).map fun l => if j = l then (0 : ℝ) else c) = c - c / n := by
  have h0 : (n : ℝ) ≠ 0 := by exact_mod_cast (Nat.zero_lt_of_lt hj).ne'
  have key : ∀ m, ((List.range m).map fun l => if j = l then (0 : ℝ) else c).sum = m * c - if j < m then c else 0 := by
    intro m
    induction m with
    | zero => simp
    | succ m ih =>
      rw [List.range_succ, List.map_append, List.sum_append, ih]
      simp only [List.map_cons, List.map_nil, List.sum_cons, List.sum_nil, add_zero]
      push_cast
      rcases lt_trichotomy j m with h | h | h
      · rw [if_pos h, if_neg (by omega), if_pos (by omega)]; ring
      · rw [if_neg (by omega), if_pos h, if_pos (by omega)]; ring
      · rw [if_neg (by omega), if_neg (by omega), if_neg (by omega)]; ring
  simp only [avg, List.length_map, List.length_range]
  rw [key, if_pos hj]
  field_simp

/-- the expected score of `n` independent members -/
theorem expected_energy {n : Nat} (hn : 0 < n) {X : Nat → Ω → ℝ} (hX : ∀ j, j < n → Measurable (X j))
    (hY : Measurable Y) (iX : ∀ j, j < n → Integrable (X j) P) (iY : Integrable Y P)
    (lX : ∀ j, j < n → ∀ x, P.real {ω | X j ω ≤ x} = F x) (lY : ∀ x, P.real {ω | Y ω ≤ x} = G x)
    (hi : ∀ j, j < n → IndepFun (X j) Y P) (hx : ∀ j l, j < n → l < n → j ≠ l → IndepFun (X j) (X l) P) :
    Integrable (fun ω => energyScore ((List.range n).map fun j => X j ω) (Y ω)) P ∧
      ∫ ω, energyScore ((List.range n).map fun j => X j ω) (Y ω) ∂P =
        cdfDist F G + cdfSpread G + cdfSpread F / n := by
  have h0 : (n : ℝ) ≠ 0 := by exact_mod_cast hn.ne'
  have hne : List.range n ≠ [] := by simpa using hn.ne'
  obtain ⟨a1, a2⟩ := mean_avg (P := P) (List.range n) (g := fun j ω => |X j ω - Y ω|)
    (e := fun _ => cdfDist F G + cdfSpread F + cdfSpread G) fun j hj => by
      have hj := List.mem_range.1 hj
      exact mean_dist (hX j hj) hY (iX j hj) iY (lX j hj) lY (hi j hj)
  obtain ⟨b1, b2⟩ := mean_avg (P := P) (List.range n) (g := fun j ω => avg ((List.range n).map fun l => |X j ω - X l ω|))
    (e := fun _ => 2 * cdfSpread F - 2 * cdfSpread F / n) fun j hj => by
      have hj := List.mem_range.1 hj
      rw [← avg_diag hj]
      refine mean_avg (P := P) (List.range n) (g := fun l ω => |X j ω - X l ω|) fun l hl => ?_
      have hl := List.mem_range.1 hl
      split_ifs with e
      · subst e
        simp
      · obtain ⟨d1, d2⟩ := mean_dist (hX j hj) (hX l hl) (iX j hj) (iX l hl) (lX j hj) (lX l hl) (hx j l hj hl e)
        refine ⟨d1, ?_⟩
        rw [d2, cdfDist_self]
        ring
  rw [avg_same hne] at a2 b2
  simp only [energyScore, List.map_map, Function.comp_def]
  refine ⟨a1.sub (b1.div_const 2), ?_⟩
  rw [integral_sub a1 (b1.div_const 2), integral_div, a2, b2]
  field_simp
  ring

end Lemmas
