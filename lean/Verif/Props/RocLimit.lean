import Verif.Lemmas.RocLimit
import Verif.Props.BinLimits
import Verif.Props.Roc

/-!
# What the area under the ROC curve of growing archives estimates: C140
-/

set_option linter.unusedSectionVars false

namespace Props
open Np NDArr Model Spec Lemmas MeasureTheory ProbabilityTheory Filter Topology

variable {A : Type} {I : ArgInfo A} {c : Cfg ℝ} {emb : A → Arg ℝ}
  {mids : FS (PyVal ℝ) → Model.Path → List (FS (PyVal ℝ))}
variable {Ω : Type} [MeasurableSpace Ω] {P : Measure Ω} [IsProbabilityMeasure P] {Y : List Nat → Ω → ℝ}
variable {X : Type} {C : Cls} {Q : Prims X (PyVal ℝ) A} {obs : X → NDArr (Fl ℝ)}

open Classical in
/-- the forecast of a day, and whether the event happened -/
noncomputable def dayPair (isOver : Bool) (τ : ℝ) (D Y : List Nat → Ω → ℝ) (d : ℕ) (ω : Ω) : ℝ × Bool :=
  (D [d] ω, decide (Beyond isOver τ (Y [d]) ω))

theorem dayPair_iff (isOver : Bool) (τ : ℝ) (D Y : List Nat → Ω → ℝ) (d : ℕ) (ω : Ω) :
    (dayPair isOver τ D Y d ω).2 = true ↔ Beyond isOver τ (Y [d]) ω := by simp [dayPair]

theorem dayPair_days {isOver : Bool} {τ : ℝ} {D : List Nat → Ω → ℝ}
    (h : SameDays P (fun d ω => (D [d] ω, Y [d] ω))) : SameDays P (dayPair isOver τ D Y) := by
  classical
  have hg : Measurable fun p : ℝ × ℝ => (p.1, decide (Beyond isOver τ (fun y : ℝ => y) p.2)) := by
    refine measurable_fst.prodMk (measurable_to_bool ?_)
    have : (fun p : ℝ × ℝ => decide (Beyond isOver τ (fun y : ℝ => y) p.2)) ⁻¹' {true} =
        {p | Beyond isOver τ (fun p : ℝ × ℝ => p.2) p} := by
      ext p
      simp only [Set.mem_preimage, Set.mem_singleton_iff, decide_eq_true_eq]
      exact Iff.rfl
    rw [this]
    exact measurableSet_beyond isOver τ measurable_snd
  exact repeats_comp h hg

theorem allIdx_days (n : ℕ) : allIdx [n + 1] = (List.range (n + 1)).map fun d => [d] := by
  simp [allIdx, List.map_eq_flatMap]

/-- what `roc(...)` returns for one archive -/
theorem roc_values (hQ : Shared c obs emb Q) (hroc : c.rocCurve = skRoc) {o : Obj X} {w : World (PyVal ℝ)} {isOver : Bool} {a : A}
    {D : List Nat → Ω → ℝ} {axes : Option (List Int)} {n : ℕ} {ω : Ω}
    (hp : Says [n + 1] (fun i => Y i ω) C I Q mids obs o w isOver a (fun i => D i ω) axes) {τ : ℝ}
    (hemb : emb a = .thr (.scalar (some τ))) (he : ∃ d ≤ n, Beyond isOver τ (Y [d]) ω) (hn : ∃ d ≤ n, ¬ Beyond isOver τ (Y [d]) ω) :
    ∃ fpr tpr, result C I Q mids (.slot (.roc (overArg isOver a) (belowArg isOver a))) (unsaved o) w =
      .ok (some (.roc fpr tpr (some (discrimination ((List.range (n + 1)).map fun d => dayPair isOver τ D Y d ω))))) := by
  classical
  obtain ⟨p, p1, p2, p3⟩ := hp.cdf
  obtain ⟨ob, o1, o2, o3⟩ := binarize_spec (x := o.ext) hQ hemb isOver trivial
  have hr := C75_roc (I := I) (C := C) (mids := mids) hQ hemb isOver p1 trivial (p2.trans hp.shape.symm) ⟨o2, o3⟩ w
  simp only at hr
  have hin : ∀ d ∈ List.range (n + 1), InB [n + 1] [d] := fun d hd =>
    List.Forall₂.cons (List.mem_range.1 hd) List.Forall₂.nil
  let q := (List.range (n + 1)).map fun d => dayPair isOver τ D Y d ω
  have hob : ∀ d ∈ List.range (n + 1), ob.get [d] = (dayPair isOver τ D Y d ω).2 := by
    intro d hd
    have h1 := (o3 [d] (by rw [hp.shape]; exact hin d hd)).trans (event_beyond (τ := τ) (Y := Y [d]) (ω := ω) rfl
      (hp.value _ (hin d hd)) isOver)
    rw [Bool.eq_iff_iff, dayPair_iff]
    exact h1
  have hL : ((allIdx p.shape).map fun i => (p.get i, (some (if ob.get i then 1 else 0) : Fl ℝ))) =
      q.map fun x => (some x.1, some (if x.2 then 1 else 0)) := by
    rw [p2, allIdx_days, List.map_map, List.map_map]
    refine List.map_congr_left fun d hd => ?_
    simp only [Function.comp_def]
    rw [p3 _ (hin d hd), hob d hd]
    rfl
  have hf : ((q.map fun x => ((some x.1 : Fl ℝ), (some (if x.2 then 1 else 0) : Fl ℝ))).filter
      fun x => !(c.skipNan && x.1.isNone)) = q.map fun x => (some x.1, some (if x.2 then 1 else 0)) := by
    rw [List.filter_eq_self]
    intro x hx
    obtain ⟨y, -, rfl⟩ := List.mem_map.1 hx
    simp
  have e1 : ∀ l : List (ℝ × Bool), (l.map fun x => ((some x.1 : Fl ℝ), (some (if x.2 then 1 else 0) : Fl ℝ))).map Prod.fst =
      scoresOf l := fun l => by rw [List.map_map]; rfl
  have e2 : ∀ l : List (ℝ × Bool), (l.map fun x => ((some x.1 : Fl ℝ), (some (if x.2 then 1 else 0) : Fl ℝ))).map Prod.snd =
      eventsOf l := fun l => by rw [List.map_map]; rfl
  rw [hL, hf, hroc, e1, e2] at hr
  have hmem : ∀ d, d ≤ n → dayPair isOver τ D Y d ω ∈ q := fun d hd =>
    List.mem_map_of_mem (List.mem_range.2 (Nat.lt_succ_of_le hd))
  obtain ⟨d1, l1, b1⟩ := he
  obtain ⟨d2, l2, b2⟩ := hn
  obtain ⟨pts, h1, -⟩ := C90_area q
    (List.ne_nil_of_mem (List.mem_map_of_mem (List.mem_filter.2 ⟨hmem d1 l1, (dayPair_iff ..).2 b1⟩)))
    (List.ne_nil_of_mem (List.mem_map_of_mem (List.mem_filter.2 ⟨hmem d2 l2, by
      rw [Bool.not_eq_true']
      exact Bool.eq_false_iff.2 fun h => b2 ((dayPair_iff ..).1 h)⟩)))
  rw [h1] at hr
  exact ⟨_, _, hr⟩

/-- **C140**, `roc(...)` of a verifier of any class that gives the probabilities `D` for one threshold, the days being its only
axis. As soon as both an event and a non-event are recorded it returns a curve and an area; with probability one both are
recorded from some day on, and the area settles at the probability that, of two days that have nothing to do with each other,
one with the event and one without, the one with the event had the higher forecast, ties counted one half. -/
theorem C140_roc (hQ : Shared c obs emb Q) (hroc : c.rocCurve = skRoc) {o : Nat → Ω → Obj X} {w : Nat → Ω → World (PyVal ℝ)}
    {isOver : Bool} {a : A} {D : List Nat → Ω → ℝ} {axes : Option (List Int)}
    (hp : ∀ n ω, Says [n + 1] (fun i => Y i ω) C I Q mids obs (o n ω) (w n ω) isOver a (fun i => D i ω) axes) {τ : ℝ}
    (hemb : emb a = .thr (.scalar (some τ))) :
    ∃ S : Nat → Ω → ℝ,
      (∀ n ω, (∃ d ≤ n, Beyond isOver τ (Y [d]) ω) → (∃ d ≤ n, ¬ Beyond isOver τ (Y [d]) ω) → ∃ fpr tpr,
        result C I Q mids (.slot (.roc (overArg isOver a) (belowArg isOver a))) (unsaved (o n ω)) (w n ω) =
          .ok (some (.roc fpr tpr (some (S n ω))))) ∧
      (SameDays P (fun d ω => (D [d] ω, Y [d] ω)) → let B := {ω | Beyond isOver τ (Y [0]) ω}
        P.real B ≠ 0 → P.real Bᶜ ≠ 0 → Settles P S (trueArea P (D [0]) B) ∧
          ∀ᵐ ω ∂P, ∃ N, ∀ n, N ≤ n → (∃ d ≤ n, Beyond isOver τ (Y [d]) ω) ∧ ∃ d ≤ n, ¬ Beyond isOver τ (Y [d]) ω) := by
  refine ⟨fun n ω => discrimination ((List.range (n + 1)).map fun d => dayPair isOver τ D Y d ω),
    fun n ω he hn => roc_values hQ hroc (hp n ω) hemb he hn, fun rep => ?_⟩
  intro B h0 h1
  obtain ⟨s1, s2⟩ := settles_area (dayPair_days (isOver := isOver) (τ := τ) rep) (A := B) (fun ω => dayPair_iff ..) h0 h1
  refine ⟨s1, ?_⟩
  filter_upwards [s2] with ω hω
  obtain ⟨N, hN⟩ := hω
  refine ⟨N, fun n hn => ?_⟩
  obtain ⟨⟨d1, l1, b1⟩, ⟨d2, l2, b2⟩⟩ := hN n hn
  refine ⟨⟨d1, l1, (dayPair_iff ..).1 b1⟩, ⟨d2, l2, fun h => ?_⟩⟩
  rw [(dayPair_iff isOver τ D Y d2 ω).2 h] at b2
  exact Bool.noConfusion b2

/-! ### what the limit says -/

theorem measurable_wins : Measurable fun p : ℝ × ℝ => wins p.1 p.2 :=
  Measurable.ite (measurableSet_lt measurable_snd measurable_fst) measurable_const
    (Measurable.ite (measurableSet_eq_fun measurable_snd measurable_fst) measurable_const measurable_const)

theorem pair_event {B : Set Ω} (z : Ω × Ω) : (indicator (z.1 ∈ B ∧ z.2 ∉ B) : ℝ) =
    (indicator (z.1 ∈ B) : ℝ) * (indicator (z.2 ∈ Bᶜ) : ℝ) := by
  by_cases h1 : z.1 ∈ B <;> by_cases h2 : z.2 ∈ B <;> simp [indicator, h1, h2]

theorem event_mean {B : Set Ω} (hB : MeasurableSet B) : ∫ ω, (indicator (ω ∈ B) : ℝ) ∂P = P.real B := by
  have := integral_event (P := P) (S := Set.univ) (p := fun ω => ω ∈ B) hB MeasurableSet.univ
  rwa [setIntegral_univ, Set.univ_inter] at this

theorem pair_mean {B : Set Ω} (hB : MeasurableSet B) :
    ∫ z : Ω × Ω, (indicator (z.1 ∈ B ∧ z.2 ∉ B) : ℝ) ∂(P.prod P) = P.real B * P.real Bᶜ := by
  simp only [pair_event]
  rw [integral_prod_mul (fun ω => (indicator (ω ∈ B) : ℝ)) (fun ω => (indicator (ω ∈ Bᶜ) : ℝ)), event_mean hB, event_mean hB.compl]

/-- **C140**: only the order of the forecasts matters. -/
theorem C140_order {D : Ω → ℝ} {B : Set Ω} {φ : ℝ → ℝ} (hφ : StrictMono φ) : trueArea P (fun ω => φ (D ω)) B = trueArea P D B := by
  have : ∀ x y, wins (φ x) (φ y) = wins x y := by
    intro x y
    simp only [wins, hφ.lt_iff_lt, hφ.injective.eq_iff]
  simp only [trueArea, this]

/-- **C140**: forecasts that are higher on all days with the event than on all days without have the area 1. -/
theorem C140_perfect {D : Ω → ℝ} {B : Set Ω} (hB : MeasurableSet B) (h : ∀ ω ∈ B, ∀ ω' ∉ B, D ω' < D ω) (h0 : P.real B ≠ 0)
    (h1 : P.real Bᶜ ≠ 0) : trueArea P D B = 1 := by
  have : ∀ z : Ω × Ω, (indicator (z.1 ∈ B ∧ z.2 ∉ B) : ℝ) * wins (D z.1) (D z.2) = (indicator (z.1 ∈ B ∧ z.2 ∉ B) : ℝ) := by
    intro z
    by_cases hz : z.1 ∈ B ∧ z.2 ∉ B
    · simp only [wins, if_pos (h _ hz.1 _ hz.2), mul_one]
    · simp only [indicator, if_neg hz, zero_mul]
  simp only [trueArea, this]
  rw [pair_mean hB, div_self (mul_ne_zero h0 h1)]

/-- **C140**: forecasts that have nothing to do with the event have the area one half. -/
theorem C140_no_skill {D : Ω → ℝ} (hD : Measurable D) {B : Set Ω} (hB : MeasurableSet B)
    (h : D ⟂ᵢ[P] fun ω => (indicator (ω ∈ B) : ℝ)) (h0 : P.real B ≠ 0) (h1 : P.real Bᶜ ≠ 0) : trueArea P D B = 1 / 2 := by
  classical
  have hw : ∀ x y : ℝ, 0 ≤ wins x y ∧ wins x y ≤ 1 := wins_unit
  have hind : ∀ {S : Set Ω}, MeasurableSet S → Measurable fun ω => (indicator (ω ∈ S) : ℝ) := by
    intro S hS
    have : (fun ω => (indicator (ω ∈ S) : ℝ)) = S.indicator fun _ => 1 := by
      funext ω; exact indicator_set (fun ω => ω ∈ S) ω
    rw [this]
    exact measurable_const.indicator hS
  have hmw : Measurable fun z : Ω × Ω => wins (D z.1) (D z.2) :=
    measurable_wins.comp ((hD.comp measurable_fst).prodMk (hD.comp measurable_snd))
  have iw : Integrable (fun z : Ω × Ω => wins (D z.1) (D z.2)) (P.prod P) := Integrable.of_bound (C := 1)
    hmw.aestronglyMeasurable (.of_forall fun z => by rw [Real.norm_of_nonneg (hw _ _).1]; exact (hw _ _).2)
  have hmi : Measurable fun z : Ω × Ω => (indicator (z.1 ∈ B) : ℝ) * (indicator (z.2 ∈ Bᶜ) : ℝ) :=
    ((hind hB).comp measurable_fst).mul ((hind hB.compl).comp measurable_snd)
  have ij : Integrable (fun z : Ω × Ω => (indicator (z.1 ∈ B) : ℝ) * (indicator (z.2 ∈ Bᶜ) : ℝ) * wins (D z.1) (D z.2))
      (P.prod P) := by
    refine Integrable.of_bound (C := 1) (hmi.mul hmw).aestronglyMeasurable (.of_forall fun z => ?_)
    have := hw (D z.1) (D z.2)
    rcases indicator_or (z.1 ∈ B) with e | e <;> rcases indicator_or (z.2 ∈ Bᶜ) with e' | e' <;> rw [e, e'] <;>
      simp [abs_of_nonneg this.1, this.2]
  have hhalf : ∫ z : Ω × Ω, wins (D z.1) (D z.2) ∂(P.prod P) = 1 / 2 := by
    have e1 : ∫ z : Ω × Ω, wins (D z.2) (D z.1) ∂(P.prod P) = ∫ z : Ω × Ω, wins (D z.1) (D z.2) ∂(P.prod P) :=
      integral_prod_swap (fun z : Ω × Ω => wins (D z.1) (D z.2))
    have e2 : ∫ z : Ω × Ω, (wins (D z.1) (D z.2) + wins (D z.2) (D z.1)) ∂(P.prod P) = 1 := by
      have : ∀ x y : ℝ, wins x y + wins y x = 1 := by
        intro x y
        rcases lt_trichotomy x y with h | h | h
        · simp [wins, h, h.not_gt, h.ne']
        · simp only [wins, h, lt_irrefl, if_false, if_true]; norm_num
        · simp [wins, h, h.not_gt, h.ne']
      simp [this]
    have iw2 : Integrable (fun z : Ω × Ω => wins (D z.2) (D z.1)) (P.prod P) := iw.swap
    rw [integral_add iw iw2, e1] at e2
    linarith
  have hsec : ∀ x, Measurable fun ω' => wins x (D ω') := fun x => measurable_wins.comp (measurable_const.prodMk hD)
  let hx : ℝ → ℝ := fun x => ∫ ω', wins x (D ω') ∂P
  have hhx : Measurable hx := by
    have : StronglyMeasurable fun p : ℝ × Ω => wins p.1 (D p.2) :=
      (measurable_wins.comp (measurable_fst.prodMk (hD.comp measurable_snd))).stronglyMeasurable
    exact this.integral_prod_right.measurable
  have hc : D ⟂ᵢ[P] fun ω => (indicator (ω ∈ Bᶜ) : ℝ) := by
    have e : (fun ω => (indicator (ω ∈ Bᶜ) : ℝ)) = (fun v : ℝ => 1 - v) ∘ fun ω => (indicator (ω ∈ B) : ℝ) := by
      funext ω
      by_cases hω : ω ∈ B <;> simp [indicator, hω]
    rw [e]
    exact h.comp measurable_id (measurable_const.sub measurable_id)
  have inner : ∀ x, ∫ ω', (indicator (ω' ∈ Bᶜ) : ℝ) * wins x (D ω') ∂P = P.real Bᶜ * hx x := by
    intro x
    have hi := (hc.comp (measurable_wins.comp (measurable_const.prodMk measurable_id) : Measurable fun y => wins x y)
      measurable_id).symm
    rw [← event_mean hB.compl]
    exact hi.integral_fun_mul_eq_mul_integral (hind hB.compl).aestronglyMeasurable (hsec x).aestronglyMeasurable
  have outer : ∫ ω, (indicator (ω ∈ B) : ℝ) * hx (D ω) ∂P = P.real B * ∫ ω, hx (D ω) ∂P := by
    have hi := (h.comp hhx measurable_id).symm
    rw [← event_mean hB]
    exact hi.integral_fun_mul_eq_mul_integral (hind hB).aestronglyMeasurable (hhx.comp hD).aestronglyMeasurable
  have hnum : ∫ z : Ω × Ω, (indicator (z.1 ∈ B ∧ z.2 ∉ B) : ℝ) * wins (D z.1) (D z.2) ∂(P.prod P) =
      P.real B * P.real Bᶜ * (1 / 2) := by
    simp only [pair_event]
    rw [integral_prod _ ij]
    simp only [mul_assoc, integral_const_mul, inner]
    have e3 : ∀ ω, (indicator (ω ∈ B) : ℝ) * (P.real Bᶜ * hx (D ω)) = P.real Bᶜ * ((indicator (ω ∈ B) : ℝ) * hx (D ω)) :=
      fun ω => by ring
    simp only [e3]
    rw [integral_const_mul, outer, ← hhalf, integral_prod _ iw]
    ring
  rw [trueArea, hnum, mul_comm, mul_div_assoc, div_self (mul_ne_zero h0 h1), mul_one]

end Props
