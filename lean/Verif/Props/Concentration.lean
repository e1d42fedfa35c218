import Verif.Lemmas.Concentration
import Verif.Spec.Concentration
import Verif.Lemmas.Pool
import Verif.Props.RelChance

/-!
# Scores of many independent observations: C130
-/

set_option linter.unusedSectionVars false

namespace Props
open Np NDArr Model Spec Lemmas MeasureTheory ProbabilityTheory

variable {A : Type} {I : ArgInfo A} {mids : FS (PyVal ℝ) → Path → List (FS (PyVal ℝ))} {c : Cfg ℝ} {emb : A → Arg ℝ}
variable {F : ProbFns ℝ} {Ω : Type} [MeasurableSpace Ω] {P : Measure Ω} [IsProbabilityMeasure P]
  {sh : List Nat} {Y : List Nat → Ω → ℝ} {G : List Nat → ℝ → ℝ}

/-- Verifiers, one for every outcome, whose observations are `Y`, whose `cdf(over=...)` or `cdf(below=...)` at the threshold
`a` gives the probabilities `D` whatever the outcome, that do not bootstrap and average over `axes`. -/
structure Announces (P : Measure Ω) (sh : List Nat) (Y : List Nat → Ω → ℝ) {X : Type} (C : Cls) (I : ArgInfo A)
    (Q : Prims X (PyVal ℝ) A) (mids : FS (PyVal ℝ) → Path → List (FS (PyVal ℝ))) (obs : X → NDArr (Fl ℝ)) (o : Ω → Obj X)
    (w : Ω → World (PyVal ℝ)) (isOver : Bool) (a : A) (D : List Nat → ℝ) (axes : Option (List Int)) : Prop where
  observed : Observed P sh (fun ω => obs (o ω).ext) Y fun i x => P.real {ω | Y i ω ≤ x}
  cdf : ∀ ω, ∃ p, result C I Q mids (.slot (.cdf (overArg isOver a) (belowArg isOver a))) (unsaved (o ω)) (w ω) =
      .ok (some (.num p)) ∧ p.shape = sh ∧ ∀ k, InB sh k → p.get k = some (D k)
  boot : ∀ ω, (o ω).boot = .none
  avg : ∀ ω, axisArg (o ω).avg = .ok axes

variable {X X' : Type} {C C' : Cls} {Q : Prims X (PyVal ℝ) A} {Q' : Prims X' (PyVal ℝ) A} {obs : X → NDArr (Fl ℝ)}
  {obs' : X' → NDArr (Fl ℝ)} {o : Ω → Obj X} {o' : Ω → Obj X'} {w w' : Ω → World (PyVal ℝ)} {isOver : Bool} {a : A}
  {D D' : List Nat → ℝ} {axes : Option (List Int)} {t : Thr ℝ} {τ : List Nat → ℝ}

/-- the Brier score of such a verifier -/
theorem brier_values (hP : Shared c obs emb Q) (n : Announces P sh Y C I Q mids obs o w isOver a D axes)
    (hemb : emb a = .thr t) (ht : ThrOK t sh) (hτ : ∀ i, InB sh i → thrAt t i = some (τ i))
    (hok : OptOK sh.length axes) (h0 : 0 ∉ sh) (ω : Ω) :
    ∃ r, result C I Q mids (.slot (.brier (overArg isOver a) (belowArg isOver a))) (unsaved (o ω)) (w ω) =
        .ok (some (.num r)) ∧ r.shape = dropAxes (nums sh.length axes) sh ∧
      ∀ k, InB (dropAxes (nums sh.length axes) sh) k → r.get k =
        some (avg ((fiberIdx sh (nums sh.length axes) k).map fun i =>
          (D i - (indicator (Beyond isOver (τ i) (Y i) ω) : ℝ)) ^ 2)) := by
  have hsh := n.observed.shape ω
  obtain ⟨p, p1, p2, p3⟩ := n.cdf ω
  obtain ⟨r, r1, r2, r3⟩ := C75_brier hP hemb isOver (n.boot ω) (n.avg ω) p1 (by rw [hsh]; exact ht) (p2.trans hsh.symm)
    (by rw [hsh]; exact hok) (w ω)
  simp only [hsh] at r2 r3
  refine ⟨r, r1, r2, fun k hk => ?_⟩
  have h3 := r3 k (by rw [r2]; exact hk)
  unfold brierAt at h3
  rw [hsh] at h3
  refine isAvg_some (fiberIdx_ne h0 hk) (fun i hi => ?_) h3
  have hi' := (mem_fiberIdx.1 hi).1
  rw [p3 i hi', event_beyond (hτ i hi') (n.observed.value i hi' ω)]
  rfl

theorem measurable_event (isOver : Bool) (τ : ℝ) :
    Measurable fun y : ℝ => (indicator (Beyond isOver τ (fun y : ℝ => y) y) : ℝ) := by
  classical
  have e : (fun y : ℝ => (indicator (Beyond isOver τ (fun y : ℝ => y) y) : ℝ)) =
      {y | Beyond isOver τ (fun y : ℝ => y) y}.indicator fun _ => 1 := by
    funext y; exact indicator_set _ y
  rw [e]
  exact measurable_const.indicator (measurableSet_beyond isOver τ measurable_id)

/-- functions of the events are independent if the observations are -/
theorem indep_events (hi : IndependentAt P sh Y) (isOver : Bool) (τ : List Nat → ℝ) {g : List Nat → ℝ → ℝ}
    (hg : ∀ i, Measurable (g i)) :
    iIndepFun (fun i : {i // InB sh i} => fun ω => g i.1 (indicator (Beyond isOver (τ i.1) (Y i.1) ω))) P :=
  hi.comp (fun i y => g i.1 (indicator (Beyond isOver (τ i.1) (fun y : ℝ => y) y)))
    fun i => (hg i.1).comp (measurable_event isOver (τ i.1))

theorem indicator_or (p : Prop) : (indicator p : ℝ) = 0 ∨ (indicator p : ℝ) = 1 := by
  unfold indicator
  split_ifs
  · exact .inr rfl
  · exact .inl rfl

/-- the mean of the score -/
theorem brier_mean {L : List (List Nat)} (hY : ∀ i ∈ L, Measurable (Y i)) (D τ : List Nat → ℝ) (isOver : Bool) :
    Integrable (fun ω => avg (L.map fun i => (D i - (indicator (Beyond isOver (τ i) (Y i) ω) : ℝ)) ^ 2)) P ∧
    ∫ ω, avg (L.map fun i => (D i - (indicator (Beyond isOver (τ i) (Y i) ω) : ℝ)) ^ 2) ∂P =
      avg (L.map fun i => (D i - eventChance P isOver (τ i) (Y i)) ^ 2 +
        eventChance P isOver (τ i) (Y i) * (1 - eventChance P isOver (τ i) (Y i))) := by
  have h := expectedBrier_avg (P := P) (L := L) (Q := fun i => Beyond isOver (τ i) (Y i))
    (fun i hi => measurableSet_beyond isOver (τ i) (hY i hi)) D
  exact ⟨h.integrable, h.mean⟩

/-- **C130**: every number of `brier(...)` of independent observations deviates by `ε` or more from its expected value with a
probability of at most `2 exp (-2 N ε²)`, `N` being the number of positions averaged. -/
theorem C130_brier (hP : Shared c obs emb Q) (n : Announces P sh Y C I Q mids obs o w isOver a D axes)
    (hi : IndependentAt P sh Y) (hD : ∀ i, InB sh i → 0 ≤ D i ∧ D i ≤ 1)
    (hemb : emb a = .thr t) (ht : ThrOK t sh) (hτ : ∀ i, InB sh i → thrAt t i = some (τ i))
    (hok : OptOK sh.length axes) (h0 : 0 ∉ sh) :
    ∃ r : Ω → NDArr (Fl ℝ),
      (∀ ω, result C I Q mids (.slot (.brier (overArg isOver a) (belowArg isOver a))) (unsaved (o ω)) (w ω) =
        .ok (some (.num (r ω)))) ∧
      ∀ k, InB (dropAxes (nums sh.length axes) sh) k → ∃ S : Ω → ℝ, (∀ ω, (r ω).get k = some (S ω)) ∧
        ∫ ω, S ω ∂P = avg ((fiberIdx sh (nums sh.length axes) k).map fun i => (D i - eventChance P isOver (τ i) (Y i)) ^ 2 +
          eventChance P isOver (τ i) (Y i) * (1 - eventChance P isOver (τ i) (Y i))) ∧
        Concentrated P S (fiberIdx sh (nums sh.length axes) k).length := by
  choose r r1 r2 r3 using brier_values hP n hemb ht hτ hok h0
  have hm := n.observed.meas
  refine ⟨r, r1, fun k hk => ⟨_, fun ω => r3 ω k hk, ?_, fun ε hε => ?_⟩⟩
  · exact (brier_mean (fun i hi => hm i (mem_fiberIdx.1 hi).1) D τ isOver).2
  · refine avg_deviates (X := fun i ω => (D i - (indicator (Beyond isOver (τ i) (Y i) ω) : ℝ)) ^ 2) (nodup_fiberIdx _ _ _)
      (fiberIdx_ne h0 hk) (fun i hi => (mem_fiberIdx.1 hi).1) ?_ (fun i hi => ?_) (fun i hi ω => ?_) hε
    · exact indep_events (g := fun i x => (D i - x) ^ 2) hi isOver τ fun i => by fun_prop
    · exact ((measurable_event isOver (τ i)).comp (hm i (mem_fiberIdx.1 hi).1)).const_sub (D i) |>.pow_const 2
    · obtain ⟨d0, d1⟩ := hD i (mem_fiberIdx.1 hi).1
      rcases indicator_or (Beyond isOver (τ i) (Y i) ω) with e | e <;> rw [e] <;> constructor <;> nlinarith

/-- **C130**: two verifiers, of whatever classes, of the same independent observations. If the expected score of the first is
smaller by `γ`, the score of the second comes out smaller or equal with a probability of at most `exp (-N γ² / (2 δ))`,
`δ` being the mean squared difference of their probabilities. If the first announces the true probabilities, `γ` is `δ`. -/
theorem C130_compare (hP : Shared c obs emb Q) (hP' : Shared c obs' emb Q')
    (n : Announces P sh Y C I Q mids obs o w isOver a D axes) (n' : Announces P sh Y C' I Q' mids obs' o' w' isOver a D' axes)
    (hi : IndependentAt P sh Y) (hemb : emb a = .thr t) (ht : ThrOK t sh) (hτ : ∀ i, InB sh i → thrAt t i = some (τ i))
    (hok : OptOK sh.length axes) (h0 : 0 ∉ sh) :
    ∃ r r' : Ω → NDArr (Fl ℝ),
      (∀ ω, result C I Q mids (.slot (.brier (overArg isOver a) (belowArg isOver a))) (unsaved (o ω)) (w ω) =
        .ok (some (.num (r ω)))) ∧
      (∀ ω, result C' I Q' mids (.slot (.brier (overArg isOver a) (belowArg isOver a))) (unsaved (o' ω)) (w' ω) =
        .ok (some (.num (r' ω)))) ∧
      ∀ k, InB (dropAxes (nums sh.length axes) sh) k → ∃ S S' : Ω → ℝ,
        (∀ ω, (r ω).get k = some (S ω) ∧ (r' ω).get k = some (S' ω)) ∧
        (let L := fiberIdx sh (nums sh.length axes) k
         let δ := avg (L.map fun i => (D i - D' i) ^ 2)
         (∫ ω, S ω ∂P ≤ ∫ ω, S' ω ∂P → P.real {ω | S' ω ≤ S ω} ≤
            Real.exp (-(L.length * (∫ ω, S' ω ∂P - ∫ ω, S ω ∂P) ^ 2 / (2 * δ)))) ∧
         ((∀ i ∈ L, D i = eventChance P isOver (τ i) (Y i)) → P.real {ω | S' ω ≤ S ω} ≤ Real.exp (-(L.length * δ / 2)))) := by
  choose r r1 r2 r3 using brier_values hP n hemb ht hτ hok h0
  choose r' r1' r2' r3' using brier_values hP' n' hemb ht hτ hok h0
  have hm := n.observed.meas
  refine ⟨r, r', r1, r1', fun k hk => ⟨_, _, fun ω => ⟨r3 ω k hk, r3' ω k hk⟩, ?_⟩⟩
  intro L δ
  have hL : ∀ i ∈ L, InB sh i := fun i hi => (mem_fiberIdx.1 hi).1
  obtain ⟨i1, m1⟩ := brier_mean (P := P) (L := L) (fun i hi => hm i (hL i hi)) D τ isOver
  obtain ⟨i2, m2⟩ := brier_mean (P := P) (L := L) (fun i hi => hm i (hL i hi)) D' τ isOver
  have hsub : ∀ ω, avg (L.map fun i => (D' i - (indicator (Beyond isOver (τ i) (Y i) ω) : ℝ)) ^ 2 -
      (D i - (indicator (Beyond isOver (τ i) (Y i) ω) : ℝ)) ^ 2) =
      avg (L.map fun i => (D' i - (indicator (Beyond isOver (τ i) (Y i) ω) : ℝ)) ^ 2) -
        avg (L.map fun i => (D i - (indicator (Beyond isOver (τ i) (Y i) ω) : ℝ)) ^ 2) := by
    intro ω
    simp only [sub_eq_add_neg (a := (D' _ - _) ^ 2)]
    rw [avg_plus]
    have := avg_times L (-1) fun i => (D i - (indicator (Beyond isOver (τ i) (Y i) ω) : ℝ)) ^ 2
    simp only [neg_one_mul] at this
    rw [this, ← sub_eq_add_neg]
  have first : ∫ ω, avg (L.map fun i => (D i - (indicator (Beyond isOver (τ i) (Y i) ω) : ℝ)) ^ 2) ∂P ≤
      ∫ ω, avg (L.map fun i => (D' i - (indicator (Beyond isOver (τ i) (Y i) ω) : ℝ)) ^ 2) ∂P →
      P.real {ω | avg (L.map fun i => (D' i - (indicator (Beyond isOver (τ i) (Y i) ω) : ℝ)) ^ 2) ≤
        avg (L.map fun i => (D i - (indicator (Beyond isOver (τ i) (Y i) ω) : ℝ)) ^ 2)} ≤
      Real.exp (-(L.length * (∫ ω, avg (L.map fun i => (D' i - (indicator (Beyond isOver (τ i) (Y i) ω) : ℝ)) ^ 2) ∂P -
        ∫ ω, avg (L.map fun i => (D i - (indicator (Beyond isOver (τ i) (Y i) ω) : ℝ)) ^ 2) ∂P) ^ 2 / (2 * δ))) := by
    intro hle
    have main := avg_below (P := P) (pr := InB sh) (L := L)
      (X := fun i ω => (D' i - (indicator (Beyond isOver (τ i) (Y i) ω) : ℝ)) ^ 2 -
        (D i - (indicator (Beyond isOver (τ i) (Y i) ω) : ℝ)) ^ 2)
      (a := fun i => D' i ^ 2 - D i ^ 2 - (D' i - D i) - |D i - D' i|)
      (b := fun i => D' i ^ 2 - D i ^ 2 - (D' i - D i) + |D i - D' i|) (nodup_fiberIdx _ _ _) (fiberIdx_ne h0 hk) hL
      (indep_events (g := fun i x => (D' i - x) ^ 2 - (D i - x) ^ 2) hi isOver τ fun i => by fun_prop)
      (fun i hi => by
        have := (measurable_event isOver (τ i)).comp (hm i (hL i hi))
        exact ((this.const_sub (D' i)).pow_const 2).sub ((this.const_sub (D i)).pow_const 2))
      (fun i hi ω => by
        have h1 := le_abs_self (D i - D' i)
        have h2 := neg_abs_le (D i - D' i)
        have h3 : (D' i - 1) ^ 2 - (D i - 1) ^ 2 = D' i ^ 2 - D i ^ 2 - 2 * (D' i - D i) := by ring
        rcases indicator_or (Beyond isOver (τ i) (Y i) ω) with e | e
        · rw [e, sub_zero, sub_zero]
          constructor <;> linarith
        · rw [e, h3]
          constructor <;> linarith)
      (sub_nonneg.2 hle)
    simp only [hsub] at main
    rw [integral_sub i2 i1] at main
    refine (measureReal_mono ?_ (measure_ne_top _ _)).trans (main.trans (le_of_eq ?_))
    · intro ω h
      simp only [Set.mem_ofPred_eq] at h ⊢
      linarith
    · congr 2
      have e : avg (L.map fun i => (D' i ^ 2 - D i ^ 2 - (D' i - D i) + |D i - D' i| -
          (D' i ^ 2 - D i ^ 2 - (D' i - D i) - |D i - D' i|)) ^ 2) = 4 * δ := by
        rw [← avg_times]
        refine congrArg avg (List.map_congr_left fun i _ => ?_)
        rw [← sq_abs (D i - D' i)]
        ring
      rw [e]
      by_cases hδ : δ = 0
      · simp [hδ]
      · field_simp
        ring
  refine ⟨first, fun hq => ?_⟩
  have hγ : ∫ ω, avg (L.map fun i => (D' i - (indicator (Beyond isOver (τ i) (Y i) ω) : ℝ)) ^ 2) ∂P -
      ∫ ω, avg (L.map fun i => (D i - (indicator (Beyond isOver (τ i) (Y i) ω) : ℝ)) ^ 2) ∂P = δ := by
    rw [m1, m2, sub_eq_iff_eq_add, ← avg_plus]
    refine congrArg avg (List.map_congr_left fun i hi => ?_)
    rw [← hq i hi]
    ring
  have hδ : 0 ≤ δ := by
    refine div_nonneg (List.sum_nonneg fun x hx => ?_) (Nat.cast_nonneg _)
    obtain ⟨i, -, rfl⟩ := List.mem_map.1 hx
    exact sq_nonneg _
  have h := first (by linarith)
  rw [hγ] at h
  refine h.trans (le_of_eq ?_)
  congr 2
  by_cases hδ : δ = 0
  · simp [hδ]
  · field_simp

/-- **C130**, all axes averaged: the observed frequency of each bin that `reliability(nbins, ...)` shows deviates by `ε` or
more from the mean probability of the events in the bin with a probability of at most `2 exp (-2 n ε²)`, `n` being the
number of forecasts in the bin. -/
theorem C130_reliability (hP : Shared c obs emb Q) (n : Announces P sh Y C I Q mids obs o w isOver a D axes)
    (hi : IndependentAt P sh Y) (hD : ∀ i, InB sh i → 0 ≤ D i ∧ D i ≤ 1) {nb : A} {nbins : Nat} (hnb : emb nb = .num nbins)
    (hpn : Printable I nb) (hn : 1 ≤ nbins) (hemb : emb a = .thr t) (ht : ThrOK t sh)
    (hτ : ∀ i, InB sh i → thrAt t i = some (τ i)) (hall : AllAxes sh axes) :
    ∃ (s : Ω → RelSlice (Fl ℝ)) (bs : List Nat) (T : Nat → Ω → ℝ),
      (∀ ω, result C I Q mids (.slot (.reliability nb (overArg isOver a) (belowArg isOver a))) (unsaved (o ω)) (w ω) =
        .ok (some (.rel (.slice (s ω))))) ∧
      (let B := fun b => binPositions nbins b D (fiberIdx sh (nums sh.length axes) [])
       (∀ b, b ∈ bs ↔ b < nbins ∧ B b ≠ []) ∧ bs.Pairwise (· < ·) ∧
       (∀ ω, (s ω).probPred = bs.map fun b => some (avg ((B b).map D))) ∧
       (∀ ω, (s ω).probTrue = bs.map fun b => some (T b ω)) ∧
       (∀ ω, (s ω).predCount.map Prod.snd = bs.map fun b => (B b).length) ∧
       ∀ b ∈ bs, ∫ ω, T b ω ∂P = avg ((B b).map fun i => eventChance P isOver (τ i) (Y i)) ∧
         Concentrated P (T b) (B b).length) := by
  classical
  choose s s1 s2 s3 s4 using rel_values (mids := mids) (w1 := w) hP n.observed hnb hpn hn hemb ht hτ isOver n.cdf hD n.boot
    n.avg hall
  have hL : ∀ i ∈ fiberIdx sh (nums sh.length axes) [], InB sh i := fun i hi => (mem_fiberIdx.1 hi).1
  have hm := n.observed.meas
  refine ⟨s, _, fun b ω => avg ((binPositions nbins b D (fiberIdx sh (nums sh.length axes) [])).map
    fun i => (indicator (Beyond isOver (τ i) (Y i) ω) : ℝ)), s1, fun b => ?_, ?_, fun ω => ?_, fun ω => ?_, s4, fun b hb => ?_⟩
  · simp only [List.mem_filter, List.mem_range, decide_eq_true_eq]
  · exact List.Pairwise.filter _ List.pairwise_lt_range
  · rw [s2, List.map_map]
    rfl
  · rw [s3, List.map_map]
    rfl
  · have hB : ∀ i ∈ binPositions nbins b D (fiberIdx sh (nums sh.length axes) []), InB sh i := fun i hi =>
      hL i (List.mem_filter.1 hi).1
    have hne : binPositions nbins b D (fiberIdx sh (nums sh.length axes) []) ≠ [] := by
      have := (List.mem_filter.1 hb).2
      simpa only [decide_eq_true_eq] using this
    have hme : ∀ i ∈ binPositions nbins b D (fiberIdx sh (nums sh.length axes) []),
        Measurable fun ω => (indicator (Beyond isOver (τ i) (Y i) ω) : ℝ) := fun i hi =>
      (measurable_event isOver (τ i)).comp (hm i (hB i hi))
    have h01 : ∀ (i : List Nat) (ω : Ω), (indicator (Beyond isOver (τ i) (Y i) ω) : ℝ) ∈ Set.Icc 0 1 := fun i ω => by
      rcases indicator_or (Beyond isOver (τ i) (Y i) ω) with e | e <;> rw [e] <;> simp
    refine ⟨?_, fun ε hε => ?_⟩
    · rw [(avg_integrable (X := fun i ω => (indicator (Beyond isOver (τ i) (Y i) ω) : ℝ)) fun i hi =>
        Integrable.of_mem_Icc 0 1 (hme i hi).aemeasurable (ae_of_all _ (h01 i))).2]
      refine congrArg avg (List.map_congr_left fun i hi => ?_)
      have hms := measurableSet_beyond isOver (τ i) (hm i (hB i hi))
      have e : (fun ω => (indicator (Beyond isOver (τ i) (Y i) ω) : ℝ)) =
          {ω | Beyond isOver (τ i) (Y i) ω}.indicator fun _ => 1 := by
        funext ω; exact indicator_set _ ω
      rw [e, integral_indicator hms, eventChance]
      simp
    · exact avg_deviates (X := fun i ω => (indicator (Beyond isOver (τ i) (Y i) ω) : ℝ)) ((nodup_fiberIdx _ _ _).filter _) hne hB
        (indep_events (g := fun _ x => x) hi isOver τ fun i => measurable_id) hme (fun i _ => h01 i) hε

/-- **C130**: if the announced probabilities are right, all points of the reliability diagram together are closer to the
diagonal than `sqrt (ln (2 nbins / α) / (2 n))`, with a probability of at least `1 - α`. -/
theorem C130_band (hP : Shared c obs emb Q) (n : Announces P sh Y C I Q mids obs o w isOver a D axes)
    (hi : IndependentAt P sh Y) (hD : ∀ i, InB sh i → 0 ≤ D i ∧ D i ≤ 1) {nb : A} {nbins : Nat} (hnb : emb nb = .num nbins)
    (hpn : Printable I nb) (hn : 1 ≤ nbins) (hemb : emb a = .thr t) (ht : ThrOK t sh)
    (hτ : ∀ i, InB sh i → thrAt t i = some (τ i)) (hall : AllAxes sh axes)
    (hq : ∀ i, InB sh i → D i = eventChance P isOver (τ i) (Y i)) {α : ℝ} (hα : 0 < α) (hα1 : α ≤ 1) :
    ∃ s : Ω → RelSlice (Fl ℝ),
      (∀ ω, result C I Q mids (.slot (.reliability nb (overArg isOver a) (belowArg isOver a))) (unsaved (o ω)) (w ω) =
        .ok (some (.rel (.slice (s ω))))) ∧
      P.real {ω | ∃ (j : Nat) (x y : ℝ) (m : Nat), (s ω).probPred[j]? = some (some x) ∧ (s ω).probTrue[j]? = some (some y) ∧
        ((s ω).predCount.map Prod.snd)[j]? = some m ∧ Real.sqrt (Real.log (2 * nbins / α) / (2 * m)) ≤ |y - x|} ≤ α := by
  obtain ⟨s, bs, T, s1, s2, s3, s4, s5, s6, s7⟩ := C130_reliability (mids := mids) hP n hi hD hnb hpn hn hemb ht hτ hall
  refine ⟨s, s1, ?_⟩
  set B := fun b => binPositions nbins b D (fiberIdx sh (nums sh.length axes) []) with hB
  have hnb0 : (0 : ℝ) < nbins := by exact_mod_cast hn
  have hlog : 0 ≤ Real.log (2 * nbins / α) := by
    refine Real.log_nonneg ?_
    rw [le_div_iff₀ hα]
    have : (1 : ℝ) ≤ nbins := by exact_mod_cast hn
    linarith
  have hone : ∀ b ∈ bs, P.real {ω | Real.sqrt (Real.log (2 * nbins / α) / (2 * (B b).length)) ≤
      |T b ω - ∫ ω, T b ω ∂P|} ≤ α / nbins := by
    intro b hb
    have hl : (0 : ℝ) < (B b).length := by exact_mod_cast List.length_pos_iff.2 ((s2 b).1 hb).2
    refine ((s7 b hb).2 _ (Real.sqrt_nonneg _)).trans (le_of_eq ?_)
    rw [Real.sq_sqrt (by positivity)]
    have e : 2 * ((B b).length : ℝ) * (Real.log (2 * nbins / α) / (2 * (B b).length)) = Real.log (2 * nbins / α) := by
      field_simp
    rw [e, Real.exp_neg, Real.exp_log (by positivity)]
    field_simp
  have hnd : bs.Nodup := s3.imp fun h => ne_of_lt h
  have hcard : (bs.toFinset.card : ℝ) ≤ nbins := by
    have : bs.toFinset ⊆ Finset.range nbins := fun b hb =>
      Finset.mem_range.2 ((s2 b).1 (List.mem_toFinset.1 hb)).1
    exact_mod_cast (Finset.card_le_card this).trans (Finset.card_range _).le
  have hsub : {ω | ∃ (j : Nat) (x y : ℝ) (m : Nat), (s ω).probPred[j]? = some (some x) ∧
      (s ω).probTrue[j]? = some (some y) ∧ ((s ω).predCount.map Prod.snd)[j]? = some m ∧
      Real.sqrt (Real.log (2 * nbins / α) / (2 * m)) ≤ |y - x|} ⊆
      ⋃ b ∈ bs.toFinset, {ω | Real.sqrt (Real.log (2 * nbins / α) / (2 * (B b).length)) ≤ |T b ω - ∫ ω, T b ω ∂P|} := by
    rintro ω ⟨j, x, y, m, h1, h2, h3, h4⟩
    rw [s4] at h1
    rw [s5] at h2
    rw [s6] at h3
    rw [List.getElem?_map] at h1 h2 h3
    cases hj : bs[j]? with
    | none => rw [hj] at h1; cases h1
    | some b =>
      rw [hj] at h1 h2 h3
      simp only [Option.map_some, Option.some.injEq] at h1 h2 h3
      have hb : b ∈ bs := List.mem_of_getElem? hj
      simp only [Set.mem_iUnion, List.mem_toFinset]
      refine ⟨b, hb, ?_⟩
      have hmean : ∫ ω, T b ω ∂P = x := by
        rw [(s7 b hb).1, ← h1]
        refine congrArg avg (List.map_congr_left fun i hi => ?_)
        exact (hq i (mem_fiberIdx.1 (List.mem_filter.1 hi).1).1).symm
      rw [Set.mem_ofPred_eq, hmean, h2]
      rw [← h3] at h4
      exact h4
  refine (measureReal_mono hsub (measure_ne_top _ _)).trans ((measureReal_biUnion_finset_le _ _).trans ?_)
  refine (Finset.sum_le_card_nsmul _ _ (α / nbins) fun b hb => hone b (List.mem_toFinset.1 hb)).trans ?_
  rw [nsmul_eq_mul, mul_div_assoc', div_le_iff₀ hnb0, mul_comm]
  exact mul_le_mul_of_nonneg_left hcard hα.le

/-- the Gaussian class, from the constructor on -/
theorem C130_announces_gauss {oi o : Ω → Obj (ProbX ℝ)} {w w' w1 : Ω → World (PyVal ℝ)}
    (h : ∀ ω, construct (gaussPrims c F emb) mids (oi ω) (w ω) = (.ok (o ω), w' ω))
    (hE : ExactLib F.scipy) (hL : UnitLib F.scipy) (hpool : PoolOK c.workers c.mapAxis sh)
    (d : Observed P sh (fun ω => (oi ω).ext.o) Y fun i x => P.real {ω | Y i ω ≤ x})
    {tr : Bool} (htr : ∀ ω, (oi ω).ext.truncated = some tr)
    {mu sigma : NDArr (Fl ℝ)} (hmu : ∀ ω, HasPar (oi ω).ext "mu" mu) (hsg : ∀ ω, HasPar (oi ω).ext "sigma" sigma)
    {m sd : List Nat → ℝ} (hv : ∀ i, InB sh i → mu.get i = some (m i) ∧ sigma.get i = some (sd i) ∧ 0 < sd i)
    {a : A} (ha : Printable I a) {t : Thr ℝ} (hemb : emb a = .thr t) (ht : ThrOK t sh) {τ : List Nat → ℝ}
    (hτ : ∀ i, InB sh i → thrAt t i = some (τ i)) (hb : ∀ ω, (oi ω).boot = .none) {av : PyAxis}
    (hav : ∀ ω, (oi ω).avg = av) (isOver : Bool) :
    Announces P sh Y .gaussian I (gaussPrims c F emb) mids (fun x => x.o) o w1 isOver a
      (fun i => beyondProb isOver (gaussLaw tr (m i) (sd i) (τ i))) (axesOf av) := by
  have hc := fun ω => construct_prob (shared_gauss c F emb) (h ω)
  have hx : ∀ ω, (o ω).ext = (oi ω).ext := fun ω => (hc ω).1
  have hp := fun ω => gaussCdf_law (c := c) (F := F) (d.shape ω) hE hL hpool (htr ω) (hmu ω) (hsg ω) hv ht hτ
  simp only [← hx] at hp d
  exact ⟨d, fun ω => cdf_result (shared_gauss c F emb) (by decide) ha hemb (d.shape ω) (hp ω) isOver,
    fun ω => (hc ω).2.2.1.trans (hb ω), fun ω => by rw [(hc ω).2.2.2, hav]⟩

/-- the gamma class, thresholds that are not negative -/
theorem C130_announces_gamma {oi o : Ω → Obj (ProbX ℝ)} {w w' w1 : Ω → World (PyVal ℝ)}
    (h : ∀ ω, construct (gammaPrims c F emb) mids (oi ω) (w ω) = (.ok (o ω), w' ω))
    (hE : ExactLib F.scipy) (hL : UnitLib F.scipy) (hpool : PoolOK c.workers c.mapAxis sh)
    (d : Observed P sh (fun ω => (oi ω).ext.o) Y fun i x => P.real {ω | Y i ω ≤ x})
    (htr : ∀ ω, (oi ω).ext.truncated = some false)
    {umu sigma shift : NDArr (Fl ℝ)} (humu : ∀ ω, HasPar (oi ω).ext "unshifted_mu" umu)
    (hsigma : ∀ ω, HasPar (oi ω).ext "sigma" sigma) (hshift : ∀ ω, HasPar (oi ω).ext "shift" shift)
    {m sd δ : List Nat → ℝ} (hv : ∀ i, InB sh i → umu.get i = some (m i) ∧ sigma.get i = some (sd i) ∧
      shift.get i = some (δ i) ∧ 0 < m i ∧ 0 < sd i)
    {a : A} (ha : Printable I a) {t : Thr ℝ} (hemb : emb a = .thr t) (ht : ThrOK t sh) {τ : List Nat → ℝ}
    (hτ : ∀ i, InB sh i → thrAt t i = some (τ i) ∧ 0 ≤ τ i) (hb : ∀ ω, (oi ω).boot = .none) {av : PyAxis}
    (hav : ∀ ω, (oi ω).avg = av) (isOver : Bool) :
    Announces P sh Y .gamma I (gammaPrims c F emb) mids (fun x => x.o) o w1 isOver a
      (fun i => beyondProb isOver (censoredGammaCdf (m i) (sd i) (δ i) (τ i))) (axesOf av) := by
  have hc := fun ω => construct_prob (shared_gamma c F emb) (h ω)
  have hx : ∀ ω, (o ω).ext = (oi ω).ext := fun ω => (hc ω).1
  have hp := fun ω => gammaCdf_law (c := c) (F := F) (d.shape ω) hE hL hpool (htr ω) (humu ω) (hsigma ω) (hshift ω) hv ht hτ
  simp only [← hx] at hp d
  exact ⟨d, fun ω => cdf_result (shared_gamma c F emb) (by decide) ha hemb (d.shape ω) (hp ω) isOver,
    fun ω => (hc ω).2.2.1.trans (hb ω), fun ω => by rw [(hc ω).2.2.2, hav]⟩

/-- the hurdle class, thresholds that are not negative -/
theorem C130_announces_hurdle {ofNum : ℝ → A} {oi o : Ω → Obj (ProbX ℝ)} {w w' w1 : Ω → World (PyVal ℝ)}
    (h : ∀ ω, construct (hurdlePrims c F emb ofNum) mids (oi ω) (w ω) = (.ok (o ω), w' ω))
    (hE : ExactLib F.scipy) (hL : UnitLib F.scipy) (hpool : PoolOK c.workers c.mapAxis sh)
    (d : Observed P sh (fun ω => (oi ω).ext.o) Y fun i x => P.real {ω | Y i ω ≤ x})
    {pop mu sigma : NDArr (Fl ℝ)} (hpop : ∀ ω, HasPar (oi ω).ext "pop" pop) (hmu : ∀ ω, HasPar (oi ω).ext "mu" mu)
    (hsigma : ∀ ω, HasPar (oi ω).ext "sigma" sigma)
    {p m sd : List Nat → ℝ} (hv : ∀ i, InB sh i → pop.get i = some (p i) ∧ mu.get i = some (m i) ∧
      sigma.get i = some (sd i) ∧ 0 ≤ p i ∧ p i ≤ 1 ∧ 0 < m i ∧ 0 < sd i)
    {a : A} (ha : Printable I a) {t : Thr ℝ} (hemb : emb a = .thr t) (ht : ThrOK t sh) {τ : List Nat → ℝ}
    (hτ : ∀ i, InB sh i → thrAt t i = some (τ i) ∧ 0 ≤ τ i) (hb : ∀ ω, (oi ω).boot = .none) {av : PyAxis}
    (hav : ∀ ω, (oi ω).avg = av) (isOver : Bool) :
    Announces P sh Y .hurdle I (hurdlePrims c F emb ofNum) mids (fun x => x.o) o w1 isOver a
      (fun i => beyondProb isOver (hurdleLaw (p i) (m i) (sd i) (τ i))) (axesOf av) := by
  have hc := fun ω => construct_prob (shared_hurdle c F emb ofNum) (h ω)
  have hx : ∀ ω, (o ω).ext = (oi ω).ext := fun ω => (hc ω).1
  have hp := fun ω => hurdleCdf_law (c := c) (F := F) (d.shape ω) hE hL hpool (hpop ω) (hmu ω) (hsigma ω) hv ht hτ
  simp only [← hx] at hp d
  exact ⟨d, fun ω => cdf_result (shared_hurdle c F emb ofNum) (by decide) ha hemb (d.shape ω) (hp ω) isOver,
    fun ω => (hc ω).2.2.1.trans (hb ω), fun ω => by rw [(hc ω).2.2.2, hav]⟩

/-- the ensemble class with members that do not depend on chance -/
theorem C130_announces_ens {oi o : Ω → Obj (EnsX ℝ)} {w w' w1 : Ω → World (PyVal ℝ)}
    (h : ∀ ω, construct (ensPrims c emb) mids (oi ω) (w ω) = (.ok (o ω), w' ω)) (hb : ∀ ω, (oi ω).boot = .none)
    (hm : c.method = .moments) {ax : Int} (hax : ∀ ω, (o ω).ext.axis = some ax)
    (d : Observed P sh (fun ω => (oi ω).ext.o) Y fun i x => P.real {ω | Y i ω ≤ x}) {M : List Nat → List ℝ}
    (hM : ∀ ω i, InB sh i → membersAt (oi ω).ext.f ax i = (M i).map some ∧ M i ≠ [])
    {a : A} (ha : Printable I a) {t : Thr ℝ} (hemb : emb a = .thr t) (ht : ThrOK t sh) {τ : List Nat → ℝ}
    (hτ : ∀ i, InB sh i → thrAt t i = some (τ i)) {av : PyAxis} (hav : ∀ ω, (oi ω).avg = av)
    (h0 : 0 ∉ sh) (isOver : Bool) :
    Announces P sh Y .ensemble I (ensPrims c emb) mids (fun x => x.o) o w1 isOver a
      (fun i => avg ((M i).map fun x => (indicator (Counts isOver (τ i) x) : ℝ))) (axesOf av) := by
  have hc := fun ω => C75_construct_ens (h ω)
  choose ax' fc h1 h2 h3 h4 h5 h6 h7 using hc
  have hax' : ∀ ω, ax' ω = ax := fun ω => by
    have := hax ω
    rw [(h1 ω).axis] at this
    exact Option.some.inj this
  simp only [← h4] at d
  have hne : sh.prod ≠ 0 := by rw [Ne, List.prod_eq_zero_iff]; exact h0
  refine ⟨d, fun ω => ?_, fun ω => (h5 ω).trans (hb ω), fun ω => by rw [axisArg_ready (h1 ω).avg, hav]⟩
  obtain ⟨p, p1, p2, p3⟩ := C75_ens_cdf (mids := mids) (I := I) (h1 ω) hm ha hemb (by rw [d.shape ω]; exact ht)
    (by rw [d.shape ω]; exact hne) isOver (w1 ω)
  refine ⟨p, p1, p2.trans (d.shape ω), fun k hk => ?_⟩
  rw [p3 k (by rw [d.shape ω]; exact hk), h3 ω, hax' ω]
  exact ensProb_avg (hM ω k hk).2 (hM ω k hk).1 (hτ k hk) isOver

end Props
