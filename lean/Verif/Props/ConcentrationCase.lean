import Verif.Props.Concentration
import Verif.Props.RelChanceCase
import Verif.Props.RightErrors

/-! # Concrete cases for C130 -/

namespace Props
open Np NDArr Model Spec Lemmas MeasureTheory ProbabilityTheory

/-- two independent standard normal numbers -/
noncomputable def normalPair : Measure (Fin 2 → ℝ) := Measure.pi fun _ => stdNormal

instance : IsProbabilityMeasure normalPair := by unfold normalPair; infer_instance

/-- the observations at two positions -/
noncomputable def drawnAt (i : List Nat) (ω : Fin 2 → ℝ) : ℝ := ω (if i = [0] then 0 else 1)

theorem drawnAt_independent : IndependentAt normalPair [2] drawnAt := by
  have h : iIndepFun (fun (i : Fin 2) (ω : Fin 2 → ℝ) => ω i) normalPair :=
    iIndepFun_pi (μ := fun _ : Fin 2 => stdNormal) (X := fun _ x => x) fun _ => aemeasurable_id
  refine h.precomp (g := fun i : {i // InB [2] i} => if i.1 = [0] then (0 : Fin 2) else 1) ?_
  rintro ⟨i, hi⟩ ⟨j, hj⟩ hij
  rcases two_positions hi with rfl | rfl <;> rcases two_positions hj with rfl | rfl
  · rfl
  · simp at hij
  · simp at hij
  · rfl

theorem drawnAt_law (i : List Nat) (x : ℝ) : normalPair.real {ω | drawnAt i ω ≤ x} = normalCdf 0 1 x := by
  have hp : MeasurePreserving (fun ω : Fin 2 → ℝ => ω (if i = [0] then 0 else 1)) normalPair stdNormal :=
    measurePreserving_eval (fun _ : Fin 2 => stdNormal) _
  rw [← stdNormal_law 0 one_pos x]
  have := hp.measureReal_preimage (s := {ω | 0 + 1 * ω ≤ x}) (measurableSet_le (by fun_prop) (by fun_prop)).nullMeasurableSet
  rw [← this]
  simp [drawnAt]

theorem drawnAt_meas (i : List Nat) : Measurable (drawnAt i) := measurable_pi_apply _

/-- Gaussian verifiers that announce mean `m` and standard deviation 1 at both positions -/
noncomputable def meanX (m : ℝ) (ω : Fin 2 → ℝ) : Obj (ProbX ℝ) :=
  probObj (pitX { (gaussX false : ProbX ℝ) with
    f := [("mu", ⟨[2], [some m, some m], rfl⟩), ("sigma", ⟨[2], [some 1, some 1], rfl⟩)] } false (ω 0) (ω 1))

theorem meanX_announces (m : ℝ) : ∃ o, (∀ ω, ∃ w, construct (gaussPrims caseCfg (fnsPit 0) embBoth) noMids (meanX m ω) world0 =
      (.ok (o ω), w)) ∧
    Announces normalPair [2] drawnAt .gaussian bothInfo (gaussPrims caseCfg (fnsPit 0) embBoth) noMids (fun x => x.o) o
      (fun _ => world0) true (.inl 0) (fun _ => beyondProb true (gaussLaw false m 1 0)) none := by
  have hb : ∀ ω, ∃ o w, construct (gaussPrims caseCfg (fnsPit 0) embBoth) noMids (meanX m ω) world0 = (.ok o, w) :=
    fun ω => ⟨_, _, rfl⟩
  choose o w h using hb
  refine ⟨o, fun ω => ⟨w ω, h ω⟩, ?_⟩
  exact C130_announces_gauss (I := bothInfo) (P := normalPair) (sh := [2]) (tr := false) h realLib_exact realLib_unit
    (.inl ⟨rfl, by simp⟩)
    { shape := fun _ => rfl
      value := fun i hi ω => by rcases two_positions hi with rfl | rfl <;> rfl
      meas := fun i _ => drawnAt_meas i
      law := fun _ _ _ => rfl }
    (fun _ => rfl) (mu := ⟨[2], [some m, some m], rfl⟩) (sigma := ⟨[2], [some 1, some 1], rfl⟩)
    (fun _ => ⟨rfl, rfl⟩) (fun _ => ⟨rfl, rfl⟩) (m := fun _ => m) (sd := fun _ => 1)
    (fun i hi => by rcases two_positions hi with rfl | rfl <;> simp [NDArr.get, ravel])
    (a := .inl 0) (by simp [Printable, bothInfo]) rfl trivial (τ := fun _ => 0) (fun _ _ => rfl) (fun _ => rfl)
    (av := .none) (fun _ => rfl) true

/-- Independent standard normal observations at two positions: the verifier that announces mean `m` gets a `brier(over=0)`
that is not larger than that of the verifier that announces the true mean with a probability below one, given here. -/
example (m : ℝ) : ∃ o o' r r' : (Fin 2 → ℝ) → _,
    (∀ ω, ∃ w, construct (gaussPrims caseCfg (fnsPit 0) embBoth) noMids (meanX 0 ω) world0 = (.ok (o ω), w)) ∧
    (∀ ω, ∃ w, construct (gaussPrims caseCfg (fnsPit 0) embBoth) noMids (meanX m ω) world0 = (.ok (o' ω), w)) ∧
    (∀ ω, result .gaussian bothInfo (gaussPrims caseCfg (fnsPit 0) embBoth) noMids (.slot (.brier (some (.inl 0)) none))
      (unsaved (o ω)) world0 = .ok (some (.num (r ω)))) ∧
    (∀ ω, result .gaussian bothInfo (gaussPrims caseCfg (fnsPit 0) embBoth) noMids (.slot (.brier (some (.inl 0)) none))
      (unsaved (o' ω)) world0 = .ok (some (.num (r' ω)))) ∧
    ∃ S S' : (Fin 2 → ℝ) → ℝ, (∀ ω, (r ω).get [] = some (S ω) ∧ (r' ω).get [] = some (S' ω)) ∧
      normalPair.real {ω | S' ω ≤ S ω} ≤ Real.exp (-(1 / 2 - Phi m) ^ 2) := by
  obtain ⟨o, h1, n1⟩ := meanX_announces 0
  obtain ⟨o', h2, n2⟩ := meanX_announces m
  obtain ⟨r, r', r1, r2, r3⟩ := C130_compare (shared_gauss caseCfg (fnsPit 0) embBoth).base
    (shared_gauss caseCfg (fnsPit 0) embBoth).base n1 n2 drawnAt_independent (t := .scalar (some 0)) rfl trivial
    (τ := fun _ => 0) (fun _ _ => rfl) trivial (by decide)
  obtain ⟨S, S', s1, -, s2⟩ := r3 [] (by decide)
  refine ⟨o, o', r, r', h1, h2, r1, r2, S, S', s1, (s2 fun i _ => ?_).trans (le_of_eq ?_)⟩
  · rw [eventChance_over (drawnAt_meas i) (drawnAt_law i)]
    rfl
  · have hf : fiberIdx [2] (nums [2].length none) [] = [[0], [1]] := by decide
    have h0 : Phi 0 = 1 / 2 := by
      have := Phi_neg 0
      rw [neg_zero] at this
      linarith
    have e : ∀ m : ℝ, beyondProb true (gaussLaw false m 1 0) = Phi m := by
      intro m
      simp only [beyondProb, gaussLaw, normalCdf, if_true, Bool.false_eq_true, if_false, div_one, zero_sub]
      rw [Phi_neg]
      ring
    rw [hf]
    simp only [e, h0]
    congr 1
    norm_num [avg]

/-- The right verifier's point of `reliability(1, over=0)`: with a probability of at least 9/10 it is closer to the diagonal
than the band for two forecasts. -/
example : ∃ o s : (Fin 2 → ℝ) → _,
    (∀ ω, ∃ w, construct (gaussPrims caseCfg (fnsPit 0) embBoth) noMids (meanX 0 ω) world0 = (.ok (o ω), w)) ∧
    (∀ ω, result .gaussian bothInfo (gaussPrims caseCfg (fnsPit 0) embBoth) noMids
      (.slot (.reliability (.inr 1) (some (.inl 0)) none)) (unsaved (o ω)) world0 = .ok (some (.rel (.slice (s ω))))) ∧
    normalPair.real {ω | ∃ (j : Nat) (x y : ℝ) (m : Nat), (s ω).probPred[j]? = some (some x) ∧
      (s ω).probTrue[j]? = some (some y) ∧ ((s ω).predCount.map Prod.snd)[j]? = some m ∧
      Real.sqrt (Real.log (2 * (1 : ℕ) / (1 / 10)) / (2 * m)) ≤ |y - x|} ≤ 1 / 10 := by
  obtain ⟨o, h1, n1⟩ := meanX_announces 0
  obtain ⟨s, s1, s2⟩ := C130_band (shared_gauss caseCfg (fnsPit 0) embBoth).base n1 drawnAt_independent
    (fun i _ => beyondProb_unit ((unit_normal _ _).lo _) ((unit_normal _ _).hi _)) (nb := .inr 1) (nbins := 1) rfl
    (by simp [Printable, bothInfo]) le_rfl (t := .scalar (some 0)) rfl trivial (τ := fun _ => 0) (fun _ _ => rfl) trivial
    (fun i _ => by
      rw [eventChance_over (drawnAt_meas i) (drawnAt_law i)]
      rfl) (α := 1 / 10) (by norm_num) (by norm_num)
  exact ⟨o, s, h1, s1, s2⟩

theorem drawnAt_observed {f : (Fin 2 → ℝ) → NDArr (Fl ℝ)} (h1 : ∀ ω, (f ω).shape = [2])
    (h2 : ∀ ω, (f ω).get [0] = some (ω 0) ∧ (f ω).get [1] = some (ω 1)) :
    Observed normalPair [2] f drawnAt fun i x => normalPair.real {ω | drawnAt i ω ≤ x} where
  shape := h1
  value i hi ω := by
    rcases two_positions hi with rfl | rfl
    · exact (h2 ω).1
    · exact (h2 ω).2
  meas i _ := drawnAt_meas i
  law _ _ _ := rfl

/-- the hypotheses on the hurdle class -/
example (isOver : Bool) : ∃ (o : (Fin 2 → ℝ) → Obj (ProbX ℝ)) (D : List Nat → ℝ),
    (∀ ω, ∃ w, construct (hurdlePrims caseCfg (fnsPit 0) embBoth .inl) noMids (probObj (pitX dryX false (ω 0) (ω 1))) world0 =
      (.ok (o ω), w)) ∧
    Announces normalPair [2] drawnAt .hurdle bothInfo (hurdlePrims caseCfg (fnsPit 0) embBoth .inl) noMids (fun x => x.o) o
      (fun _ => world0) isOver (.inl 0) D none := by
  have hb : ∀ ω : Fin 2 → ℝ, ∃ o w, construct (hurdlePrims caseCfg (fnsPit 0) embBoth .inl) noMids
      (probObj (pitX dryX false (ω 0) (ω 1))) world0 = (.ok o, w) := fun ω => ⟨_, _, rfl⟩
  choose o w h using hb
  exact ⟨o, _, fun ω => ⟨w ω, h ω⟩, C130_announces_hurdle (I := bothInfo) (P := normalPair) (sh := [2])
    h realLib_exact realLib_unit (.inl ⟨rfl, by simp⟩) (drawnAt_observed (fun _ => rfl) fun _ => ⟨rfl, rfl⟩)
    (pop := ⟨[2], [some (1 / 2), some (1 / 2)], rfl⟩) (mu := ⟨[2], [some 1, some 1], rfl⟩)
    (sigma := ⟨[2], [some 1, some 1], rfl⟩) (fun _ => ⟨rfl, rfl⟩) (fun _ => ⟨rfl, rfl⟩) (fun _ => ⟨rfl, rfl⟩)
    (p := fun _ => 1 / 2) (m := fun _ => 1) (sd := fun _ => 1)
    (fun i hi => by rcases two_positions hi with rfl | rfl <;> norm_num [NDArr.get, ravel])
    (a := .inl 0) (by simp [Printable, bothInfo]) rfl trivial (τ := fun _ => 0) (fun _ _ => ⟨rfl, le_rfl⟩) (fun _ => rfl)
    (av := .none) (fun _ => rfl) isOver⟩

/-- gamma verifiers of the two observations -/
noncomputable def pairGamma (ω : Fin 2 → ℝ) : Obj (ProbX ℝ) :=
  probObj (pitX { gammaX false with f := [("mu", ⟨[2], [some 0, some 3], rfl⟩),
    ("sigma", ⟨[2], [some 1, some 2], rfl⟩), ("shift", ⟨[2], [some (-1), some 1], rfl⟩),
    ("unshifted_mu", ⟨[2], [some 1, some 2], rfl⟩)] } false (ω 0) (ω 1))

/-- the hypotheses on the gamma class -/
example (isOver : Bool) : ∃ (o : (Fin 2 → ℝ) → Obj (ProbX ℝ)) (D : List Nat → ℝ),
    (∀ ω, ∃ w, construct (gammaPrims caseCfg (fnsPit 0) embBoth) noMids (pairGamma ω) world0 = (.ok (o ω), w)) ∧
    Announces normalPair [2] drawnAt .gamma bothInfo (gammaPrims caseCfg (fnsPit 0) embBoth) noMids (fun x => x.o) o
      (fun _ => world0) isOver (.inl 2) D none := by
  have hb : ∀ ω : Fin 2 → ℝ, ∃ o w, construct (gammaPrims caseCfg (fnsPit 0) embBoth) noMids (pairGamma ω) world0 =
      (.ok o, w) := fun ω => ⟨_, _, rfl⟩
  choose o w h using hb
  exact ⟨o, _, fun ω => ⟨w ω, h ω⟩, C130_announces_gamma (I := bothInfo) (P := normalPair) (sh := [2])
    h realLib_exact realLib_unit (.inl ⟨rfl, by simp⟩) (drawnAt_observed (fun _ => rfl) fun _ => ⟨rfl, rfl⟩) (fun _ => rfl)
    (umu := ⟨[2], [some 1, some 2], rfl⟩) (sigma := ⟨[2], [some 1, some 2], rfl⟩) (shift := ⟨[2], [some (-1), some 1], rfl⟩)
    (fun _ => ⟨rfl, rfl⟩) (fun _ => ⟨rfl, rfl⟩) (fun _ => ⟨rfl, rfl⟩)
    (m := fun i => if i = [0] then 1 else 2) (sd := fun i => if i = [0] then 1 else 2) (δ := fun i => if i = [0] then -1 else 1)
    (fun i hi => by rcases two_positions hi with rfl | rfl <;> simp [NDArr.get, ravel])
    (a := .inl 2) (by simp [Printable, bothInfo]) rfl trivial (τ := fun _ => 2) (fun _ _ => ⟨rfl, two_pos.le⟩) (fun _ => rfl)
    (av := .none) (fun _ => rfl) isOver⟩

/-- ensemble verifiers of the two observations -/
noncomputable def pairEns (ω : Fin 2 → ℝ) : Obj (EnsX ℝ) :=
  { fixedE 0 with ext := { (fixedE 0).ext with o := ⟨[2], [some (ω 0), some (ω 1)], rfl⟩ } }

theorem pairEns_built (ω : Fin 2 → ℝ) : ∃ o w', construct (ensPrims cfgR embBoth) noMids (pairEns ω) world0 = (.ok o, w') ∧
    o.ext.axis = some 0 := ⟨_, _, rfl, rfl⟩

/-- Members that give the events the probabilities 0 and 1: `brier(over=3)` deviates from its expected value by 1 or more
with a probability of at most 2 exp(-4). -/
example : ∃ o r : (Fin 2 → ℝ) → _,
    (∀ ω, ∃ w, construct (ensPrims cfgR embBoth) noMids (pairEns ω) world0 = (.ok (o ω), w)) ∧
    (∀ ω, result .ensemble bothInfo (ensPrims cfgR embBoth) noMids (.slot (.brier (some (.inl 3)) none))
      (unsaved (o ω)) world0 = .ok (some (.num (r ω)))) ∧
    ∃ S : (Fin 2 → ℝ) → ℝ, (∀ ω, (r ω).get [] = some (S ω)) ∧
      normalPair.real {ω | 1 ≤ |S ω - ∫ ω, S ω ∂normalPair|} ≤ 2 * Real.exp (-4) := by
  choose o w h hax using pairEns_built
  have n := C130_announces_ens (I := bothInfo) (P := normalPair) (sh := [2]) (w1 := fun _ => world0) h
    (fun _ => rfl) rfl hax (drawnAt_observed (fun _ => rfl) fun _ => ⟨rfl, rfl⟩)
    (M := fun i => if i = [0] then [1, 2] else [5, 6])
    (fun ω i hi => by rcases two_positions hi with rfl | rfl <;> exact ⟨rfl, by simp⟩)
    (a := .inl 3) (by simp [Printable, bothInfo]) rfl trivial (τ := fun _ => 3) (fun _ _ => rfl)
    (av := .none) (fun _ => rfl) (by decide) true
  have hD : ∀ i, InB [2] i → 0 ≤ avg ((if i = [0] then [1, 2] else [5, 6]).map fun x => (indicator (Counts true 3 x) : ℝ)) ∧
      avg ((if i = [0] then [1, 2] else [5, 6]).map fun x => (indicator (Counts true 3 x) : ℝ)) ≤ 1 := fun i hi => by
    rcases two_positions hi with rfl | rfl <;> norm_num [avg, indicator, Counts]
  obtain ⟨r, r1, r2⟩ := C130_brier (shared_ens cfgR embBoth) n drawnAt_independent hD (t := .scalar (some 3)) rfl
    trivial (τ := fun _ => 3) (fun _ _ => rfl) trivial (by decide)
  obtain ⟨S, s1, -, s2⟩ := r2 [] (by decide)
  refine ⟨o, r, fun ω => ⟨w ω, h ω⟩, r1, S, s1, (s2 1 one_pos.le).trans (le_of_eq ?_)⟩
  rw [show (fiberIdx [2] (nums [2].length (axesOf .none)) []).length = 2 by decide]
  norm_num

end Props
