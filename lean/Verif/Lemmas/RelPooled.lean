import Verif.Lemmas.RocPooled
import Verif.Lemmas.BinLimits
import Verif.Spec.RelPooled

/-! One reliability diagram for many places: C144. -/

namespace Lemmas
open Np Spec MeasureTheory ProbabilityTheory Filter Topology

variable {Ω : Type} [MeasurableSpace Ω] {P : Measure Ω} [IsProbabilityMeasure P] {E : Type} [MeasurableSpace E] {s : List Nat} {t : Nat}
  {R : List Nat → Ω → E}

/-- what settles at every place settles over all places -/
theorem settles_places (ht : t ≤ s.length) {f : List Nat → Ω → ℝ} {l : List Nat → ℝ}
    (h : ∀ k, InB s k → Settles P (fun n ω => avg ((List.range (n + 1)).map fun d => f (k.insertIdx t d) ω)) (l k)) :
    Settles P (fun n ω => avg ((allIdx (s.insertIdx t (n + 1))).map fun i => f i ω)) (avg ((allIdx s).map l)) := by
  have : ∀ᵐ ω ∂P, ∀ k : {k // k ∈ allIdx s}, Tendsto (fun n => avg ((List.range (n + 1)).map fun d => f (k.1.insertIdx t d) ω))
      atTop (𝓝 (l k.1)) := ae_all_iff.2 fun k => h k.1 (mem_allIdx.1 k.2)
  filter_upwards [this] with ω hω
  simp only [fun n => avg_places ht (n + 1) fun i => f i ω]
  exact avg_tendsto fun k hk => hω ⟨k, hk⟩

/-- the share of all positions where `B` is the case -/
theorem settles_share_over (ht : t ≤ s.length) (h : ∀ k, InB s k → SameDays P fun d => R (k.insertIdx t d)) {B : Set E}
    (hB : MeasurableSet B) :
    Settles P (fun n ω => avg ((allIdx (s.insertIdx t (n + 1))).map fun i => (indicator (R i ω ∈ B) : ℝ)))
      (shareOver P (allIdx s) fun k => {ω | R (k.insertIdx t 0) ω ∈ B}) :=
  settles_places ht (f := fun i ω => (indicator (R i ω ∈ B) : ℝ)) (l := fun k => P.real {ω | R (k.insertIdx t 0) ω ∈ B})
    fun k hk => settles_share (h k hk) hB

/-- averages over the positions where `B` is the case -/
theorem settles_mean_over (ht : t ≤ s.length) (h : ∀ k, InB s k → SameDays P fun d => R (k.insertIdx t d)) {B : Set E}
    [DecidablePred fun e => e ∈ B] (hB : MeasurableSet B) {g : E → ℝ} (hg : Measurable g)
    (hi : ∀ k, InB s k → Integrable (fun ω => g (R (k.insertIdx t 0) ω)) P)
    (hp : shareOver P (allIdx s) (fun k => {ω | R (k.insertIdx t 0) ω ∈ B}) ≠ 0) :
    Settles P (fun n ω => avg (((allIdx (s.insertIdx t (n + 1))).filter fun i => decide (R i ω ∈ B)).map fun i => g (R i ω)))
      (meanOver P (allIdx s) (fun k => {ω | R (k.insertIdx t 0) ω ∈ B}) fun k ω => g (R (k.insertIdx t 0) ω)) := by
  have h0 := settles_places (P := P) ht (f := fun i ω => (indicator (R i ω ∈ B) : ℝ) * g (R i ω))
    (l := fun k => ∫ ω in {ω | R (k.insertIdx t 0) ω ∈ B}, g (R (k.insertIdx t 0) ω) ∂P)
    fun k hk => settles_part (h k hk) hB hg (hi k hk)
  filter_upwards [h0, settles_share_over ht h hB] with ω h1 h2
  have h3 := h1.div h2 hp
  have e : meanOver P (allIdx s) (fun k => {ω | R (k.insertIdx t 0) ω ∈ B}) (fun k ω => g (R (k.insertIdx t 0) ω)) =
      avg ((allIdx s).map fun k => ∫ ω in {ω | R (k.insertIdx t 0) ω ∈ B}, g (R (k.insertIdx t 0) ω) ∂P) /
        shareOver P (allIdx s) fun k => {ω | R (k.insertIdx t 0) ω ∈ B} := by
    have hn : ((allIdx s).length : ℝ) ≠ 0 := by
      intro h0
      refine hp ?_
      rw [shareOver, avg, List.length_map, h0, div_zero]
    simp only [meanOver, shareOver, avg, List.length_map]
    rw [div_div_div_cancel_right₀ hn]
  rw [e]
  exact h3.congr fun n => (avg_part _ (fun i => R i ω ∈ B) _).symm

end Lemmas
