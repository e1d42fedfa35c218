import Verif.Lemmas.RelPooled
import Verif.Lemmas.LongRun
import Verif.Spec.OverAxes

/-! Averages over the days and other axes: C145. -/

namespace Lemmas
open Np Spec MeasureTheory ProbabilityTheory Filter Topology

/-- what is kept does not depend on the day -/
theorem dropAxes_day {t : Nat} {B : List Nat} (hB : t ∈ B) (p : List Nat) (d : Nat) :
    dropAxes B (p.insertIdx t d) = dropAxes B (p.insertIdx t 0) := by
  unfold dropAxes
  simp only [List.length_insertIdx]
  refine List.map_congr_left fun a ha => ?_
  have hne : a ≠ t := fun h => by
    have := (List.mem_filter.1 ha).2
    rw [h] at this
    simp [hB] at this
  simp only [List.getD_eq_getElem?_getD, List.getElem?_insertIdx, if_neg hne]

variable {Ω : Type} [MeasurableSpace Ω] {P : Measure Ω} [IsProbabilityMeasure P] {E : Type} [MeasurableSpace E] {s : List Nat} {t : Nat}
  {R : List Nat → Ω → E} {B k : List Nat}

theorem avg_scale {n : Nat} (a : ℝ) (f : Nat → ℝ) : avg ((List.range (n + 1)).map fun d => a * f d) = a * avg ((List.range (n + 1)).map f) := by
  simp only [avg, List.length_map, List.sum_map_mul_left]
  ring

theorem avg_fiber (ht : t ≤ s.length) (hB : t ∈ B) (n : Nat) (f : List Nat → ℝ) :
    avg ((fiberIdx (s.insertIdx t (n + 1)) B k).map f) =
      avg ((placesOf s t B k).map fun p => avg ((List.range (n + 1)).map fun d => f (p.insertIdx t d))) := by
  have h1 := avg_part (allIdx (s.insertIdx t (n + 1))) (fun i => dropAxes B i = k) f
  have h2 := avg_part (allIdx s) (fun p => dropAxes B (p.insertIdx t 0) = k)
    fun p => avg ((List.range (n + 1)).map fun d => f (p.insertIdx t d))
  have h3 : ∀ p : List Nat, ∀ d, (indicator (dropAxes B (p.insertIdx t d) = k) : ℝ) = indicator (dropAxes B (p.insertIdx t 0) = k) := by
    intro p d
    rw [dropAxes_day hB p d]
  have h4 : ∀ a : ℝ, avg ((List.range (n + 1)).map fun _ => a) = a := by
    intro a
    have : ((n : ℝ) + 1) ≠ 0 := by positivity
    simp [avg, this]
  show avg (((allIdx (s.insertIdx t (n + 1))).filter fun i => decide (dropAxes B i = k)).map f) = _
  rw [h1, placesOf, h2, avg_places ht (n + 1) fun i => (indicator (dropAxes B i = k) : ℝ) * f i,
    avg_places ht (n + 1) fun i => (indicator (dropAxes B i = k) : ℝ)]
  simp only [h3, avg_scale, h4]

/-- what settles at every place settles over the places that are averaged -/
theorem settles_fiber (ht : t ≤ s.length) (hB : t ∈ B) {f : List Nat → Ω → ℝ} {l : List Nat → ℝ}
    (h : ∀ p ∈ placesOf s t B k, Settles P (fun n ω => avg ((List.range (n + 1)).map fun d => f (p.insertIdx t d) ω)) (l p)) :
    Settles P (fun n ω => avg ((fiberIdx (s.insertIdx t (n + 1)) B k).map fun i => f i ω)) (avg ((placesOf s t B k).map l)) := by
  have : ∀ᵐ ω ∂P, ∀ p : {p // p ∈ placesOf s t B k}, Tendsto (fun n => avg ((List.range (n + 1)).map fun d => f (p.1.insertIdx t d) ω))
      atTop (𝓝 (l p.1)) := ae_all_iff.2 fun p => h p.1 p.2
  filter_upwards [this] with ω hω
  simp only [fun n => avg_fiber (k := k) ht hB n fun i => f i ω]
  exact avg_tendsto fun p hp => hω ⟨p, hp⟩

/-- reliability, resolution and uncertainty of growing lists -/
theorem decomp_tendsto (m : Nat) {Z : Nat → List (ℝ × ℝ)} (hZ : ∀ n, ∀ z ∈ Z n, (0 ≤ z.1 ∧ z.1 ≤ 1) ∧ 0 ≤ z.2 ∧ z.2 ≤ 1)
    {F G H : Nat → ℝ} {q : ℝ}
    (hf : ∀ b, Tendsto (fun n => avg ((Z n).map fun z => (indicator (InDecompBin m b z.1) : ℝ))) atTop (𝓝 (F b)))
    (hd : ∀ b, Tendsto (fun n => avg ((Z n).map fun z => (indicator (InDecompBin m b z.1) : ℝ) * (z.1 - z.2))) atTop (𝓝 (G b)))
    (ho : ∀ b, Tendsto (fun n => avg ((Z n).map fun z => (indicator (InDecompBin m b z.1) : ℝ) * z.2)) atTop (𝓝 (H b)))
    (hq : Tendsto (fun n => avg ((Z n).map fun z => z.2)) atTop (𝓝 q)) :
    Tendsto (fun n => specRel m (Z n)) atTop (𝓝 (∑ b ∈ Finset.range (m + 1), G b ^ 2 / F b)) ∧
    Tendsto (fun n => specRes m (Z n)) atTop (𝓝 (∑ b ∈ Finset.range (m + 1), (H b - F b * q) ^ 2 / F b)) ∧
    Tendsto (fun n => specUnc (Z n)) atTop (𝓝 (q * (1 - q))) := by
  have ind : ∀ n b, 0 ≤ avg ((Z n).map fun z => (indicator (InDecompBin m b z.1) : ℝ)) :=
    fun n b => avg_nonneg_of fun _ _ => (indicator_unit _).1
  refine ⟨?_, ?_, ?_⟩
  · simp only [rel_bins]
    refine tendsto_finsetSum _ fun b _ => tendsto_term (fun n => ?_) (hd b) (hf b)
    refine abs_avg_le_of fun z hz => ?_
    have hb := indicator_unit (InDecompBin m b z.1)
    have := hZ n z hz
    rw [abs_mul, abs_of_nonneg hb.1]
    exact mul_le_of_le_one_right hb.1 (abs_le.2 ⟨by linarith, by linarith⟩)
  · simp only [res_bins]
    refine tendsto_finsetSum _ fun b _ => tendsto_term (fun n => ?_) ((ho b).sub ((hf b).mul hq)) (hf b)
    have a1 := ind n b
    have a2 : avg ((Z n).map fun z => (indicator (InDecompBin m b z.1) : ℝ) * z.2) ≤
        avg ((Z n).map fun z => (indicator (InDecompBin m b z.1) : ℝ)) :=
      avg_le_avg fun z hz => mul_le_of_le_one_right (indicator_unit _).1 (hZ n z hz).2.2
    have a3 : 0 ≤ avg ((Z n).map fun z => (indicator (InDecompBin m b z.1) : ℝ) * z.2) :=
      avg_nonneg_of fun z hz => mul_nonneg (indicator_unit _).1 (hZ n z hz).2.1
    have a4 : 0 ≤ avg ((Z n).map fun z => z.2) := avg_nonneg_of fun z hz => (hZ n z hz).2.1
    have a5 : avg ((Z n).map fun z => z.2) ≤ 1 := avg_le_one_of fun z hz => (hZ n z hz).2.2
    have a6 := mul_nonneg a1 a4
    have a7 := mul_le_of_le_one_right a1 a5
    exact abs_le.2 ⟨by linarith, by linarith⟩
  · simp only [specUnc]
    exact hq.mul (tendsto_const_nhds.sub hq)

/-- averages of what is computed from the record of each day -/
theorem settles_fiber_avg (ht : t ≤ s.length) (hB : t ∈ B) (h : ∀ p ∈ placesOf s t B k, SameDays P fun d => R (p.insertIdx t d))
    {g : E → ℝ} (hg : Measurable g) (hi : ∀ p ∈ placesOf s t B k, Integrable (fun ω => g (R (p.insertIdx t 0) ω)) P) :
    Settles P (fun n ω => avg (((fiberIdx (s.insertIdx t (n + 1)) B k).map fun i => R i ω).map g))
      (avg ((placesOf s t B k).map fun p => ∫ ω, g (R (p.insertIdx t 0) ω) ∂P)) := by
  have := settles_fiber (P := P) (k := k) ht hB (f := fun i ω => g (R i ω)) (l := fun p => ∫ ω, g (R (p.insertIdx t 0) ω) ∂P)
    fun p hp => settles_avg (R := fun d => R (p.insertIdx t d)) (h p hp) hg (hi p hp)
  filter_upwards [this] with ω hω
  simpa only [List.map_map, Function.comp_def] using hω

/-- reliability, resolution and uncertainty in the long run -/
theorem settles_decomp_over (m : Nat) (ht : t ≤ s.length) (hB : t ∈ B) {R : List Nat → Ω → ℝ × ℝ}
    (h : ∀ p ∈ placesOf s t B k, SameDays P fun d => R (p.insertIdx t d))
    (hR : ∀ i ω, (0 ≤ (R i ω).1 ∧ (R i ω).1 ≤ 1) ∧ 0 ≤ (R i ω).2 ∧ (R i ω).2 ≤ 1)
    {F G H : Nat → ℝ} {q : ℝ}
    (hF : ∀ b, F b = avg ((placesOf s t B k).map fun p => ∫ ω, (indicator (InDecompBin m b (R (p.insertIdx t 0) ω).1) : ℝ) ∂P))
    (hG : ∀ b, G b = avg ((placesOf s t B k).map fun p => ∫ ω, (indicator (InDecompBin m b (R (p.insertIdx t 0) ω).1) : ℝ) *
      ((R (p.insertIdx t 0) ω).1 - (R (p.insertIdx t 0) ω).2) ∂P))
    (hH : ∀ b, H b = avg ((placesOf s t B k).map fun p => ∫ ω, (indicator (InDecompBin m b (R (p.insertIdx t 0) ω).1) : ℝ) *
      (R (p.insertIdx t 0) ω).2 ∂P))
    (hq : q = avg ((placesOf s t B k).map fun p => ∫ ω, (R (p.insertIdx t 0) ω).2 ∂P)) :
    Settles P (fun n ω => specRel m ((fiberIdx (s.insertIdx t (n + 1)) B k).map fun i => R i ω))
      (∑ b ∈ Finset.range (m + 1), G b ^ 2 / F b) ∧
    Settles P (fun n ω => specRes m ((fiberIdx (s.insertIdx t (n + 1)) B k).map fun i => R i ω))
      (∑ b ∈ Finset.range (m + 1), (H b - F b * q) ^ 2 / F b) ∧
    Settles P (fun n ω => specUnc ((fiberIdx (s.insertIdx t (n + 1)) B k).map fun i => R i ω)) (q * (1 - q)) := by
  classical
  have hmI : ∀ b, Measurable fun z : ℝ × ℝ => (indicator (InDecompBin m b z.1) : ℝ) := by
    intro b
    have : (fun z : ℝ × ℝ => (indicator (InDecompBin m b z.1) : ℝ)) = {z : ℝ × ℝ | InDecompBin m b z.1}.indicator fun _ => 1 := by
      funext z; exact indicator_set (fun z : ℝ × ℝ => InDecompBin m b z.1) z
    rw [this]
    exact measurable_const.indicator (measurable_decompBin m b)
  have hint : ∀ {g : ℝ × ℝ → ℝ}, Measurable g → (∀ i ω, |g (R i ω)| ≤ 1) → ∀ p ∈ placesOf s t B k,
      Integrable (fun ω => g (R (p.insertIdx t 0) ω)) P := fun hg hb p hp =>
    Integrable.of_bound (C := 1) (hg.comp ((h p hp).meas 0)).aestronglyMeasurable (.of_forall fun ω => hb _ ω)
  have hI : ∀ b i ω, |(indicator (InDecompBin m b (R i ω).1) : ℝ)| ≤ 1 := fun b i ω => by
    rw [abs_of_nonneg (indicator_unit _).1]; exact (indicator_unit _).2
  have hE : ∀ i ω, |(R i ω).2| ≤ 1 := fun i ω => by rw [abs_of_nonneg (hR i ω).2.1]; exact (hR i ω).2.2
  have hX : ∀ i ω, |(R i ω).1 - (R i ω).2| ≤ 1 := fun i ω => by
    have := hR i ω
    exact abs_le.2 ⟨by linarith, by linarith⟩
  have hmul : ∀ {x y : ℝ}, |x| ≤ 1 → |y| ≤ 1 → |x * y| ≤ 1 := fun hx hy => by
    rw [abs_mul]; exact mul_le_one₀ hx (abs_nonneg _) hy
  have tf := fun b => settles_fiber_avg (P := P) ht hB h (hmI b) (hint (hmI b) (hI b))
  have md : ∀ b, Measurable fun z : ℝ × ℝ => (indicator (InDecompBin m b z.1) : ℝ) * (z.1 - z.2) := fun b =>
    (hmI b).mul (measurable_fst.sub measurable_snd)
  have mo : ∀ b, Measurable fun z : ℝ × ℝ => (indicator (InDecompBin m b z.1) : ℝ) * z.2 := fun b => (hmI b).mul measurable_snd
  have td := fun b => settles_fiber_avg (P := P) ht hB h (md b) (hint (md b) fun i ω => hmul (hI b i ω) (hX i ω))
  have te := fun b => settles_fiber_avg (P := P) ht hB h (mo b) (hint (mo b) fun i ω => hmul (hI b i ω) (hE i ω))
  have tq := settles_fiber_avg (P := P) ht hB h measurable_snd (hint measurable_snd hE)
  simp only [← hF] at tf
  simp only [← hG] at td
  simp only [← hH] at te
  rw [← hq] at tq
  have all : ∀ᵐ ω ∂P, _ := (ae_all_iff.2 tf).and ((ae_all_iff.2 td).and ((ae_all_iff.2 te).and tq))
  have main : ∀ᵐ ω ∂P, _ := all.mono fun ω hω =>
    decomp_tendsto m (Z := fun n => (fiberIdx (s.insertIdx t (n + 1)) B k).map fun i => R i ω)
      (fun n z hz => by obtain ⟨i, -, rfl⟩ := List.mem_map.1 hz; exact hR i ω) hω.1 hω.2.1 hω.2.2.1 hω.2.2.2
  exact ⟨main.mono fun ω hω => hω.1, main.mono fun ω hω => hω.2.1, main.mono fun ω hω => hω.2.2⟩

end Lemmas
