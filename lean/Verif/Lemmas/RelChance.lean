import Verif.Spec.RelChance
import Verif.Lemmas.BrierChance
import Verif.Props.Reliability

/-! Lemmas for C121. -/

namespace Lemmas
open Np NDArr Spec Model Props MeasureTheory

variable {Ω : Type} [MeasurableSpace Ω] {P : Measure Ω} [IsProbabilityMeasure P]

theorem relGroup_positions {nbins b : Nat} (hb : b < nbins) (p : List Nat → ℝ) (e : List Nat → Bool) (L : List (List Nat)) :
    relGroup nbins b (L.map fun i => (some (p i), e i)) = (binPositions nbins b p L).map fun i => (some (p i), e i) := by
  unfold relGroup binPositions
  rw [List.filter_map]
  congr 1
  refine List.filter_congr fun i _ => ?_
  simp only [Function.comp, inRelBin, hb.ne, decide_false, Bool.false_or]
  rw [← Bool.decide_and]

theorem relGroup_last {nbins : Nat} (hn : 1 ≤ nbins) {p : List Nat → ℝ} {e : List Nat → Bool} {L : List (List Nat)}
    (hp : ∀ i ∈ L, p i ≤ 1) : relGroup nbins nbins (L.map fun i => (some (p i), e i)) = [] := by
  unfold relGroup
  rw [List.filter_eq_nil_iff]
  intro x hx
  obtain ⟨i, hi, rfl⟩ := List.mem_map.1 hx
  have h0 : (nbins : ℝ) ≠ 0 := by exact_mod_cast (by omega : nbins ≠ 0)
  have := hp i hi
  simp only [inRelBin, decide_true, Bool.true_or, Bool.and_true, decide_eq_true_eq, not_le]
  rw [relEdge, mul_div_cancel₀ _ h0]
  have : (0 : ℝ) < 1 / 10 ^ 8 := by positivity
  linarith

theorem relNonEmpty_positions {nbins : Nat} (hn : 1 ≤ nbins) {p : List Nat → ℝ} (e : List Nat → Bool) {L : List (List Nat)}
    (hp : ∀ i ∈ L, p i ≤ 1) : relNonEmpty nbins (L.map fun i => (some (p i), e i)) =
      (List.range nbins).filter fun b => binPositions nbins b p L ≠ [] := by
  unfold relNonEmpty
  rw [List.range_succ, List.filter_append, List.filter_singleton]
  simp only [relGroup_last hn hp, ne_eq, not_true_eq_false, decide_false, Bool.cond_false, List.append_nil]
  refine List.filter_congr fun b hb => ?_
  rw [relGroup_positions (List.mem_range.1 hb)]
  simp

/-- the curve of one outcome -/
theorem curve_positions {nbins : Nat} (hn : 1 ≤ nbins) {p : List Nat → ℝ} {e : List Nat → Bool} {L : List (List Nat)}
    (hp : ∀ i ∈ L, p i ≤ 1) {pp pt : List (Fl ℝ)} {pc : List Nat}
    (h : IsRelCurve nbins (L.map fun i => (some (p i), e i)) pp pt pc) :
    let bs := (List.range nbins).filter fun b => binPositions nbins b p L ≠ []
    pp = (bs.map fun b => avg ((binPositions nbins b p L).map p)).map some ∧
      pt = (bs.map fun b => avg ((binPositions nbins b p L).map fun i => if e i then (1 : ℝ) else 0)).map some ∧
      pc = bs.map fun b => (binPositions nbins b p L).length := by
  intro bs
  obtain ⟨h1, h2, h3⟩ := h
  rw [relNonEmpty_positions hn e hp] at h1 h2 h3
  refine ⟨?_, ?_, ?_⟩
  · rw [h1, List.map_map]
    refine List.map_congr_left fun b hb => ?_
    have hb' := List.mem_filter.1 hb
    have hne : binPositions nbins b p L ≠ [] := by simpa using hb'.2
    rw [relGroup_positions (List.mem_range.1 hb'.1), List.map_map]
    have : (binPositions nbins b p L).map (Prod.fst ∘ fun i => ((some (p i) : Fl ℝ), e i)) =
        ((binPositions nbins b p L).map p).map some := by rw [List.map_map]; rfl
    rw [this, mean_some _ (by simpa using hne)]
    rfl
  · rw [h2, List.map_map]
    refine List.map_congr_left fun b hb => ?_
    have hb' := List.mem_filter.1 hb
    have hne : binPositions nbins b p L ≠ [] := by simpa using hb'.2
    rw [relGroup_positions (List.mem_range.1 hb'.1), List.map_map]
    have : (binPositions nbins b p L).map ((fun p => (ind p.2 : Fl ℝ)) ∘ fun i => ((some (p i) : Fl ℝ), e i)) =
        ((binPositions nbins b p L).map fun i => if e i then (1 : ℝ) else 0).map some := by rw [List.map_map]; rfl
    rw [this, mean_some _ (by simpa using hne)]
    rfl
  · rw [h3]
    refine List.map_congr_left fun b hb => ?_
    have hb' := List.mem_filter.1 hb
    rw [relGroup_positions (List.mem_range.1 hb'.1), List.length_map]

/-- the curve over all outcomes -/
theorem expectedCurve {nbins : Nat} {p : List Nat → ℝ} {L : List (List Nat)} {Q : List Nat → Ω → Prop}
    (hQ : ∀ i ∈ L, MeasurableSet {ω | Q i ω}) :
    ExpectedCurve P nbins L p (fun i => P.real {ω | Q i ω})
      ((List.range nbins).filter fun b => binPositions nbins b p L ≠ [])
      (((List.range nbins).filter fun b => binPositions nbins b p L ≠ []).map fun b => avg ((binPositions nbins b p L).map p))
      (fun ω => ((List.range nbins).filter fun b => binPositions nbins b p L ≠ []).map fun b =>
        avg ((binPositions nbins b p L).map fun i => (indicator (Q i ω) : ℝ)))
      (((List.range nbins).filter fun b => binPositions nbins b p L ≠ []).map fun b => (binPositions nbins b p L).length) := by
  have obs : ∀ b, Integrable (fun ω => avg ((binPositions nbins b p L).map fun i => (indicator (Q i ω) : ℝ))) P ∧
      ∫ ω, avg ((binPositions nbins b p L).map fun i => (indicator (Q i ω) : ℝ)) ∂P =
        avg ((binPositions nbins b p L).map fun i => P.real {ω | Q i ω}) := by
    intro b
    refine mean_avg _ fun i hi => ?_
    have hi' : i ∈ L := (List.mem_filter.1 hi).1
    obtain ⟨m1, m2, -⟩ := indicator_moments (P := P) (hQ i hi')
    simp only [indicator_set]
    exact ⟨m1.integrable (by norm_num), m2⟩
  refine ⟨?_, ?_, rfl, rfl, ?_, ?_, ?_⟩
  · exact List.pairwise_lt_range.filter _
  · intro b
    simp [List.mem_filter]
  · intro ω
    rw [List.length_map]
  · intro j b hb
    refine ⟨_, fun ω => ?_, obs b⟩
    rw [List.getElem?_map, hb]
    rfl
  · intro he j x T hx hT
    rw [List.getElem?_map, Option.map_eq_some_iff] at hx
    obtain ⟨b, hb, rfl⟩ := hx
    have hT' : T = fun ω => avg ((binPositions nbins b p L).map fun i => (indicator (Q i ω) : ℝ)) := by
      funext ω
      have := hT ω
      rw [List.getElem?_map, hb] at this
      exact (Option.some.inj this).symm
    rw [hT', (obs b).2]
    congr 1
    exact List.map_congr_left fun i hi => (he i (List.mem_filter.1 hi).1).symm

end Lemmas
