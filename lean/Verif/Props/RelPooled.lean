import Verif.Lemmas.RelPooled
import Verif.Props.BinLimits

/-!
# One reliability diagram for many places: C144
-/

set_option linter.unusedSectionVars false

namespace Props
open Np NDArr Model Spec Lemmas MeasureTheory ProbabilityTheory Filter Topology

variable {A : Type} {I : ArgInfo A} {c : Cfg ℝ} {emb : A → Arg ℝ} {mids : FS (PyVal ℝ) → Model.Path → List (FS (PyVal ℝ))}
variable {Ω : Type} [MeasurableSpace Ω] {P : Measure Ω} [IsProbabilityMeasure P] {s : List Nat} {t : Nat}
  {Y : List Nat → Ω → ℝ} {E : Type} [MeasurableSpace E]
variable {X : Type} {C : Cls} {Q : Prims X (PyVal ℝ) A} {obs : X → NDArr (Fl ℝ)}

theorem fiberIdx_everything {sh : List Nat} {axes : Option (List Int)} (h : AllAxes sh axes) :
    fiberIdx sh (nums sh.length axes) [] = allIdx sh := by
  unfold fiberIdx
  rw [List.filter_eq_self]
  intro i hi
  rw [decide_eq_true_eq]
  cases axes with
  | none =>
    have := (mem_allIdx.1 hi).length
    rw [nums, ← this, dropAxes_all]
  | some axes =>
    rw [(plain_optOK h.1).2]
    have := inB_dropAxes (axes.map Int.toNat) (mem_allIdx.1 hi)
    rw [h.2] at this
    exact List.length_eq_zero_iff.1 (by simpa using this.length)

/-- **C144**, the reliability diagram of a verifier of any class and any shape that gives the probabilities `D` for one
threshold and averages over all its axes. If at each place the days have nothing to do with each other and the same
probabilities, whatever the places have to do with each other: the share of a bin settles at its probability at a place drawn
at random, and where that is not zero the bin shows up for good and its mean forecast and observed frequency settle at those
of all places together. -/
theorem C144_reliability (hQ : Shared c obs emb Q) {o : Nat → Ω → Obj X} {w : Nat → Ω → World (PyVal ℝ)} {isOver : Bool} {a : A}
    {D : List Nat → Ω → ℝ} {axes : Option (List Int)}
    (hp : ∀ n ω, Says (s.insertIdx t (n + 1)) (fun i => Y i ω) C I Q mids obs (o n ω) (w n ω) isOver a (fun i => D i ω) axes)
    (ht : t ≤ s.length) (hD : ∀ i ω, 0 ≤ D i ω ∧ D i ω ≤ 1) {τ : ℝ} (hemb : emb a = .thr (.scalar (some τ)))
    {nb : A} {nbins : Nat} (hnb : emb nb = .num nbins) (hpn : Printable I nb) (hn1 : 1 ≤ nbins)
    (hall : ∀ n, AllAxes (s.insertIdx t (n + 1)) axes) :
    ∃ (sl : Nat → Ω → RelSlice (Fl ℝ)) (bs : Nat → Ω → List Nat) (V T : Nat → Nat → Ω → ℝ) (M : Nat → Nat → Ω → Nat),
      (∀ n ω, result C I Q mids (.slot (.reliability nb (overArg isOver a) (belowArg isOver a))) (unsaved (o n ω)) (w n ω) =
        .ok (some (.rel (.slice (sl n ω))))) ∧
      (∀ n ω, (bs n ω).Pairwise (· < ·) ∧
        (∀ b, b ∈ bs n ω ↔ b < nbins ∧ ∃ i, InB (s.insertIdx t (n + 1)) i ∧ InRelBin nbins b (D i ω)) ∧
        (sl n ω).probPred = (bs n ω).map (fun b => some (V b n ω)) ∧ (sl n ω).probTrue = (bs n ω).map (fun b => some (T b n ω)) ∧
        (sl n ω).predCount.map Prod.snd = (bs n ω).map fun b => M b n ω) ∧
      ((∀ k, InB s k → SameDays P (fun d ω => (D (k.insertIdx t d) ω, Y (k.insertIdx t d) ω))) → ∀ b, b < nbins →
        let B := fun k => {ω | InRelBin nbins b (D (k.insertIdx t 0) ω)}
        Settles P (fun n ω => (M b n ω : ℝ) / (allIdx (s.insertIdx t (n + 1))).length) (shareOver P (allIdx s) B) ∧
        (shareOver P (allIdx s) B ≠ 0 → (∀ᵐ ω ∂P, ∃ N, ∀ n, N ≤ n → b ∈ bs n ω) ∧
          Settles P (V b) (meanOver P (allIdx s) B fun k => D (k.insertIdx t 0)) ∧
          Settles P (T b) (((allIdx s).map fun k => P.real (B k ∩ {ω | Beyond isOver τ (Y (k.insertIdx t 0)) ω})).sum /
            ((allIdx s).map fun k => P.real (B k)).sum))) := by
  classical
  have main := fun n ω => rel_values (mids := mids) (w1 := fun _ => w n ω) hQ (says_iff.1 (hp n ω)).observed hnb hpn hn1 hemb
    trivial (τ := fun _ => τ) (fun _ _ => rfl) isOver (says_iff.1 (hp n ω)).cdf (fun i _ => hD i ω) (says_iff.1 (hp n ω)).boot
    (says_iff.1 (hp n ω)).avg (hall n) ()
  choose sl r1 r2 r3 r4 using main
  let pos := fun b n ω => (allIdx (s.insertIdx t (n + 1))).filter fun i => decide (InRelBin nbins b (D i ω))
  have hbin : ∀ b n ω, binPositions nbins b (fun i => D i ω)
      (fiberIdx (s.insertIdx t (n + 1)) (nums (s.insertIdx t (n + 1)).length axes) []) = pos b n ω := by
    intro b n ω
    rw [fiberIdx_everything (hall n), binPositions]
    exact List.filter_congr fun d _ => decide_eq_decide.2 Iff.rfl
  simp only [hbin, List.map_map, Function.comp_def, ne_eq] at r2 r3 r4
  have hmem : ∀ b n ω, pos b n ω ≠ [] ↔ ∃ i, InB (s.insertIdx t (n + 1)) i ∧ InRelBin nbins b (D i ω) := by
    intro b n ω
    rw [ne_eq, List.filter_eq_nil_iff]
    simp only [mem_allIdx, decide_eq_true_eq, not_forall, not_not, exists_prop]
  refine ⟨sl, fun n ω => (List.range nbins).filter fun b => decide (¬ pos b n ω = []),
    fun b n ω => Spec.avg ((pos b n ω).map fun i => D i ω),
    fun b n ω => Spec.avg ((pos b n ω).map fun i => (indicator (Beyond isOver τ (Y i) ω) : ℝ)),
    fun b n ω => (pos b n ω).length, r1, fun n ω => ⟨List.pairwise_lt_range.filter _, fun b => ?_, ?_, ?_, ?_⟩, fun rep b hb => ?_⟩
  · rw [List.mem_filter, List.mem_range, decide_eq_true_eq, ← hmem]
  · rw [r2]
  · rw [r3]; rfl
  · rw [r4]
  intro B
  have hBm := measurableSet_relBin nbins b
  have hlen : ∀ n ω, ((pos b n ω).length : ℝ) / (allIdx (s.insertIdx t (n + 1))).length =
      Spec.avg ((allIdx (s.insertIdx t (n + 1))).map fun i => (indicator (InRelBin nbins b (D i ω)) : ℝ)) := by
    intro n ω
    simp only [pos, Spec.avg, List.length_map]
    congr 1
    induction allIdx (s.insertIdx t (n + 1)) with
    | nil => simp
    | cons x L ih =>
      by_cases hx : InRelBin nbins b (D x ω)
      · rw [List.filter_cons_of_pos (by simpa using hx)]
        simp only [List.length_cons, Nat.cast_add, Nat.cast_one, ih, List.map_cons, List.sum_cons, indicator, if_pos hx]
        ring
      · rw [List.filter_cons_of_neg (by simpa using hx)]
        simp only [ih, List.map_cons, List.sum_cons, indicator, if_neg hx, zero_add]
  have hshare := settles_share_over (R := fun i ω => (D i ω, Y i ω)) ht rep hBm
  simp only [Set.mem_ofPred_eq] at hshare
  refine ⟨?_, fun h0 => ⟨?_, ?_, ?_⟩⟩
  · simp only [hlen]
    exact hshare
  · filter_upwards [hshare] with ω hω
    have hpos : 0 < shareOver P (allIdx s) B := by
      refine lt_of_le_of_ne (div_nonneg (List.sum_nonneg fun x hx => ?_) (Nat.cast_nonneg _)) (Ne.symm h0)
      obtain ⟨k, -, rfl⟩ := List.mem_map.1 hx
      exact measureReal_nonneg
    obtain ⟨N, hN⟩ := eventually_atTop.1 (hω.eventually_const_lt hpos)
    refine ⟨N, fun n hn' => ?_⟩
    have := hN n hn'
    rw [← hlen] at this
    rw [List.mem_filter, List.mem_range, decide_eq_true_eq]
    refine ⟨hb, fun h => ?_⟩
    rw [h] at this
    simp at this
  · refine settles_mean_over (R := fun i ω => (D i ω, Y i ω)) ht rep hBm (g := fun p => p.1) measurable_fst (fun k hk => ?_) h0
    exact Integrable.of_bound (C := 1) (measurable_fst.comp ((rep k hk).meas 0)).aestronglyMeasurable (.of_forall fun ω => by
      rw [Real.norm_of_nonneg (hD _ ω).1]; exact (hD _ ω).2)
  · have hev : ∀ k, InB s k → MeasurableSet {ω | Beyond isOver τ (Y (k.insertIdx t 0)) ω} := fun k hk =>
      measurableSet_beyond isOver τ (measurable_snd.comp ((rep k hk).meas 0))
    have := settles_mean_over (R := fun i ω => (D i ω, Y i ω)) ht rep hBm (g := fun p => (indicator (Beyond isOver τ (fun y : ℝ => y) p.2) : ℝ))
      ((measurable_event isOver τ).comp measurable_snd) (fun k hk => by
        have e : (fun ω => (indicator (Beyond isOver τ (Y (k.insertIdx t 0)) ω) : ℝ)) =
            {ω | Beyond isOver τ (Y (k.insertIdx t 0)) ω}.indicator fun _ => 1 := by
          funext ω; exact indicator_set _ ω
        show Integrable (fun ω => (indicator (Beyond isOver τ (Y (k.insertIdx t 0)) ω) : ℝ)) P
        rw [e]
        exact (integrable_const 1).indicator (hev k hk)) h0
    refine settles_to this ?_
    rw [meanOver]
    congr 1
    refine congrArg List.sum (List.map_congr_left fun k hk => ?_)
    exact (integral_event (hev k (mem_allIdx.1 hk)) ((rep k (mem_allIdx.1 hk)).meas 0 hBm)).symm

/-- **C144**: the point of a bin settles on the diagonal if the forecasts are at each place the probabilities of the event
given what is known there. -/
theorem C144_diagonal {κ : Type} {ks : List κ} {K : κ → Ω → E} {S : κ → Set Ω} {p : κ → E → ℝ} (H : Honest P ks K S p)
    (nbins b : Nat) :
    let B := fun k => {ω | InRelBin nbins b (p k (K k ω))}
    (ks.map fun k => P.real (B k ∩ S k)).sum / (ks.map fun k => P.real (B k)).sum = meanOver P ks B fun k ω => p k (K k ω) := by
  intro B
  rw [meanOver]
  congr 1
  refine congrArg List.sum (List.map_congr_left fun k hk => ?_)
  have hm : MeasurableSet {e | InRelBin nbins b (p k e)} :=
    (measurableSet_le measurable_const (H.prob k hk)).inter (measurableSet_lt (H.prob k hk) measurable_const)
  exact H.given k hk {e | InRelBin nbins b (p k e)} hm

/-- **C144**: at one place it is the diagram of C132. -/
theorem C144_one {κ : Type} (k : κ) (B : κ → Set Ω) (f : κ → Ω → ℝ) :
    shareOver P [k] B = P.real (B k) ∧ meanOver P [k] B f = meanOn P (B k) (f k) := by
  simp [shareOver, meanOver, meanOn, avg]

end Props
