import Verif.Lemmas.RocPooled
import Verif.Props.RocLimit

/-!
# What the area under one ROC curve for many places estimates: C142
-/

set_option linter.unusedSectionVars false

namespace Props
open Np NDArr Model Spec Lemmas MeasureTheory ProbabilityTheory Filter Topology

variable {A : Type} {I : ArgInfo A} {c : Cfg ℝ} {emb : A → Arg ℝ}
  {mids : FS (PyVal ℝ) → Model.Path → List (FS (PyVal ℝ))}
variable {Ω : Type} [MeasurableSpace Ω] {P : Measure Ω} [IsProbabilityMeasure P] {Y : List Nat → Ω → ℝ}
variable {X : Type} {C : Cls} {Q : Prims X (PyVal ℝ) A} {obs : X → NDArr (Fl ℝ)} {s : List Nat} {t : Nat}

open Classical in
/-- the forecast at a position, and whether the event happened -/
noncomputable def posPair (isOver : Bool) (τ : ℝ) (D Y : List Nat → Ω → ℝ) (i : List Nat) (ω : Ω) : ℝ × Bool :=
  (D i ω, decide (Beyond isOver τ (Y i) ω))

theorem posPair_iff (isOver : Bool) (τ : ℝ) (D Y : List Nat → Ω → ℝ) (i : List Nat) (ω : Ω) :
    (posPair isOver τ D Y i ω).2 = true ↔ Beyond isOver τ (Y i) ω := by simp [posPair]

theorem posPair_days {isOver : Bool} {τ : ℝ} {D : List Nat → Ω → ℝ} {j : ℕ → List Nat}
    (h : SameDays P (fun d ω => (D (j d) ω, Y (j d) ω))) : SameDays P fun d => posPair isOver τ D Y (j d) :=
  dayPair_days (D := fun i => D (j (i.headD 0))) (Y := fun i => Y (j (i.headD 0))) (isOver := isOver) (τ := τ) h

/-- what `roc(...)` returns for one archive -/
theorem roc_values_all (hQ : Shared c obs emb Q) (hroc : c.rocCurve = skRoc) {o : Obj X} {w : World (PyVal ℝ)} {isOver : Bool}
    {a : A} {D : List Nat → Ω → ℝ} {axes : Option (List Int)} {sh : List Nat} {ω : Ω}
    (hp : Says sh (fun i => Y i ω) C I Q mids obs o w isOver a (fun i => D i ω) axes) {τ : ℝ}
    (hemb : emb a = .thr (.scalar (some τ))) (he : ∃ i, InB sh i ∧ Beyond isOver τ (Y i) ω)
    (hn : ∃ i, InB sh i ∧ ¬ Beyond isOver τ (Y i) ω) :
    ∃ fpr tpr, result C I Q mids (.slot (.roc (overArg isOver a) (belowArg isOver a))) (unsaved o) w =
      .ok (some (.roc fpr tpr (some (discrimination ((allIdx sh).map fun i => posPair isOver τ D Y i ω))))) := by
  classical
  obtain ⟨p, p1, p2, p3⟩ := hp.cdf
  obtain ⟨ob, o1, o2, o3⟩ := binarize_spec (x := o.ext) hQ hemb isOver trivial
  have hr := C75_roc (I := I) (C := C) (mids := mids) hQ hemb isOver p1 trivial (p2.trans hp.shape.symm) ⟨o2, o3⟩ w
  simp only at hr
  let q := (allIdx sh).map fun i => posPair isOver τ D Y i ω
  have hob : ∀ i ∈ allIdx sh, ob.get i = (posPair isOver τ D Y i ω).2 := by
    intro i hi
    have hi' := mem_allIdx.1 hi
    have h1 := (o3 i (by rw [hp.shape]; exact hi')).trans (event_beyond (τ := τ) (Y := Y i) (ω := ω) rfl (hp.value _ hi') isOver)
    rw [Bool.eq_iff_iff, posPair_iff]
    exact h1
  have hL : ((allIdx p.shape).map fun i => (p.get i, (some (if ob.get i then 1 else 0) : Fl ℝ))) =
      q.map fun x => (some x.1, some (if x.2 then 1 else 0)) := by
    rw [p2, List.map_map]
    refine List.map_congr_left fun i hi => ?_
    simp only [Function.comp_def]
    rw [p3 _ (mem_allIdx.1 hi), hob i hi]
    rfl
  have hf : ((q.map fun x => ((some x.1 : Fl ℝ), (some (if x.2 then 1 else 0) : Fl ℝ))).filter
      fun x => !(c.skipNan && x.1.isNone)) = q.map fun x => (some x.1, some (if x.2 then 1 else 0)) := by
    rw [List.filter_eq_self]
    intro x hx
    obtain ⟨y, -, rfl⟩ := List.mem_map.1 hx
    simp
  have e1 : ∀ l : List (ℝ × Bool), (l.map fun x => ((some x.1 : Fl ℝ), (some (if x.2 then 1 else 0) : Fl ℝ))).map Prod.fst =
      scoresOf l := fun l => by rw [List.map_map]; rfl
  have e2 : ∀ l : List (ℝ × Bool), (l.map fun x => ((some x.1 : Fl ℝ), (some (if x.2 then 1 else 0) : Fl ℝ))).map Prod.snd =
      eventsOf l := fun l => by rw [List.map_map]; rfl
  rw [hL, hf, hroc, e1, e2] at hr
  have hmem : ∀ i, InB sh i → posPair isOver τ D Y i ω ∈ q := fun i hi => List.mem_map_of_mem (mem_allIdx.2 hi)
  obtain ⟨i1, l1, b1⟩ := he
  obtain ⟨i2, l2, b2⟩ := hn
  obtain ⟨pts, h1, -⟩ := C90_area q
    (List.ne_nil_of_mem (List.mem_map_of_mem (List.mem_filter.2 ⟨hmem i1 l1, (posPair_iff ..).2 b1⟩)))
    (List.ne_nil_of_mem (List.mem_map_of_mem (List.mem_filter.2 ⟨hmem i2 l2, by
      rw [Bool.not_eq_true']
      exact Bool.eq_false_iff.2 fun h => b2 ((posPair_iff ..).1 h)⟩)))
  rw [h1] at hr
  exact ⟨_, _, hr⟩

/-- **C142**, `roc(...)` of a verifier of any class and any shape that gives the probabilities `D` for one threshold. As soon as
an event and a non-event are recorded anywhere it returns a curve and an area. If at each place the days have nothing to do with
each other and the same probabilities, whatever the places have to do with each other, the area settles at the probability
that, of an event at some place and a non-event at some place on independent days, the event had the higher forecast. -/
theorem C142_roc (hQ : Shared c obs emb Q) (hroc : c.rocCurve = skRoc) {o : Nat → Ω → Obj X} {w : Nat → Ω → World (PyVal ℝ)}
    {isOver : Bool} {a : A} {D : List Nat → Ω → ℝ} {axes : Option (List Int)}
    (hp : ∀ n ω, Says (s.insertIdx t (n + 1)) (fun i => Y i ω) C I Q mids obs (o n ω) (w n ω) isOver a (fun i => D i ω) axes)
    {τ : ℝ} (hemb : emb a = .thr (.scalar (some τ))) (ht : t ≤ s.length) :
    ∃ S : Nat → Ω → ℝ,
      (∀ n ω, (∃ i, InB (s.insertIdx t (n + 1)) i ∧ Beyond isOver τ (Y i) ω) →
        (∃ i, InB (s.insertIdx t (n + 1)) i ∧ ¬ Beyond isOver τ (Y i) ω) → ∃ fpr tpr,
        result C I Q mids (.slot (.roc (overArg isOver a) (belowArg isOver a))) (unsaved (o n ω)) (w n ω) =
          .ok (some (.roc fpr tpr (some (S n ω))))) ∧
      ((∀ k, InB s k → SameDays P (fun d ω => (D (k.insertIdx t d) ω, Y (k.insertIdx t d) ω))) →
        let B := fun k => {ω | Beyond isOver τ (Y (k.insertIdx t 0)) ω}
        (∃ k, InB s k ∧ P.real (B k) ≠ 0) → (∃ k, InB s k ∧ P.real (B k)ᶜ ≠ 0) →
        Settles P S (pooledArea P (allIdx s) (fun k => D (k.insertIdx t 0)) B) ∧
          ∀ᵐ ω ∂P, ∃ N, ∀ n, N ≤ n → (∃ i, InB (s.insertIdx t (n + 1)) i ∧ Beyond isOver τ (Y i) ω) ∧
            ∃ i, InB (s.insertIdx t (n + 1)) i ∧ ¬ Beyond isOver τ (Y i) ω) := by
  refine ⟨fun n ω => discrimination ((allIdx (s.insertIdx t (n + 1))).map fun i => posPair isOver τ D Y i ω),
    fun n ω he hn => roc_values_all hQ hroc (hp n ω) hemb he hn, fun rep => ?_⟩
  intro B h0 h1
  have hsum : ∀ f : List Nat → ℝ, (∀ k, 0 ≤ f k) → (∃ k, InB s k ∧ f k ≠ 0) → ((allIdx s).map f).sum ≠ 0 := by
    rintro f hf ⟨k, hk, hne⟩ hz
    have h2 : f k ≤ ((allIdx s).map f).sum :=
      List.single_le_sum (fun x hx => by obtain ⟨j, -, rfl⟩ := List.mem_map.1 hx; exact hf j) _
        (List.mem_map_of_mem (mem_allIdx.2 hk))
    rw [hz] at h2
    exact hne (le_antisymm h2 (hf k))
  obtain ⟨s1, s2⟩ := settles_pooled (P := P) (R := posPair isOver τ D Y) ht
    (fun k hk => posPair_days (j := fun d => k.insertIdx t d) (rep k hk)) (A := B) (fun k ω => posPair_iff ..)
    (hsum _ (fun _ => measureReal_nonneg) h0) (hsum _ (fun _ => measureReal_nonneg) h1)
  refine ⟨s1, ?_⟩
  filter_upwards [s2] with ω hω
  obtain ⟨N, hN⟩ := hω
  refine ⟨N, fun n hn => ?_⟩
  obtain ⟨⟨i1, l1, b1⟩, ⟨i2, l2, b2⟩⟩ := hN n hn
  refine ⟨⟨i1, l1, (posPair_iff ..).1 b1⟩, ⟨i2, l2, fun h => ?_⟩⟩
  rw [(posPair_iff isOver τ D Y i2 ω).2 h] at b2
  exact Bool.noConfusion b2

/-- **C142**: at one place it is the area of C140. -/
theorem C142_one {κ : Type} (k : κ) (D : κ → Ω → ℝ) (B : κ → Set Ω) : pooledArea P [k] D B = trueArea P (D k) (B k) := by
  simp [pooledArea, trueArea]

/-- **C142**: forecasts that are the same every day, but not at every place -/
theorem C142_same {κ : Type} (ks : List κ) (v : κ → ℝ) {B : κ → Set Ω} (hB : ∀ k, MeasurableSet (B k)) :
    pooledArea P ks (fun k _ => v k) B =
      (ks.map fun k => (ks.map fun l => P.real (B k) * P.real (B l)ᶜ * wins (v k) (v l)).sum).sum /
        ((ks.map fun k => P.real (B k)).sum * (ks.map fun k => P.real (B k)ᶜ).sum) := by
  have e : ∀ k l : κ, ∫ z : Ω × Ω, (indicator (z.1 ∈ B k ∧ z.2 ∉ B l) : ℝ) * wins (v k) (v l) ∂(P.prod P) =
      P.real (B k) * P.real (B l)ᶜ * wins (v k) (v l) := by
    intro k l
    have e1 : ∀ z : Ω × Ω, (indicator (z.1 ∈ B k ∧ z.2 ∉ B l) : ℝ) = (indicator (z.1 ∈ B k) : ℝ) * (indicator (z.2 ∈ (B l)ᶜ) : ℝ) := by
      intro z
      by_cases h1 : z.1 ∈ B k <;> by_cases h2 : z.2 ∈ B l <;> simp [indicator, h1, h2]
    rw [integral_mul_const]
    simp only [e1]
    rw [integral_prod_mul (fun ω => (indicator (ω ∈ B k) : ℝ)) (fun ω => (indicator (ω ∈ (B l)ᶜ) : ℝ)), event_mean (hB k),
      event_mean (hB l).compl]
  simp only [pooledArea, e]

end Props
