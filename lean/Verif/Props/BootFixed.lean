import Verif.Lemmas.BootFixed
import Verif.Props.BootCoverageCase

/-!
# Bootstrap intervals with a fixed number of draws: C138
-/

set_option linter.unusedSectionVars false

namespace Props
open Np NDArr Model Spec Lemmas MeasureTheory ProbabilityTheory Filter Topology

variable {Ω Ω' : Type} [MeasurableSpace Ω] [MeasurableSpace Ω'] {P : Measure Ω} [IsProbabilityMeasure P] {Q : Measure Ω'}
  [IsProbabilityMeasure Q] {Z : ℕ → Ω → ℝ} {n : ℕ} {U : ℕ → ℕ → ℕ → Ω' → ℕ} {conf μ : ℝ} {skip : Bool}

/-- **C138**, `boot_vec`. The data are independent random numbers `Z` with the same probabilities and an expectation, and
`n` of them are drawn however many there are. Whatever the number `μ`: if averages of `n` data are below it with more than
the probability `(1 - conf) / 2` and above it with more than that, then with many data and enough repeats the interval holds
`μ` almost surely; if one of the two, including `μ` itself, has less than that, then the interval almost surely does not. -/
theorem C138_boot_vec (hZ : ∀ t, Measurable (Z t)) (hi : iIndepFun Z P) (hs : ∀ t, IdentDistrib (Z t) (Z 0) P P)
    (hint : Integrable (Z 0) P) (hU : ∀ N, 0 < N → FairDraws Q N (U N)) (hn : 0 < n) (h0 : 0 ≤ conf) (h1 : conf ≤ 1) :
    ((1 - conf) / 2 < P.real {ω | (∑ j ∈ Finset.range n, Z j ω) / n < μ} →
      (1 - conf) / 2 < P.real {ω | μ < (∑ j ∈ Finset.range n, Z j ω) / n} →
      LongRunProb (P.prod Q) (fun N R => {p | Covers μ
        (bootVec (firstDays Z N p.1) n R conf skip fun r j => U N r j p.2)}) 1) ∧
    (P.real {ω | (∑ j ∈ Finset.range n, Z j ω) / n ≤ μ} < (1 - conf) / 2 ∨
      P.real {ω | μ ≤ (∑ j ∈ Finset.range n, Z j ω) / n} < (1 - conf) / 2 →
      LongRunProb (P.prod Q) (fun N R => {p | Covers μ
        (bootVec (firstDays Z N p.1) n R conf skip fun r j => U N r j p.2)}) 0) :=
  ⟨fun hl hr => fixed_inside hZ hU hi hs hint hn h0 h1 skip hl hr, fun hlr => fixed_outside hZ hU hi hs hint hn h0 h1 skip hlr⟩

/-- **C138**, `boot_arr`: the same for every kept position of an array. -/
theorem C138_boot_arr (hZ : ∀ t, Measurable (Z t)) (hi : iIndepFun Z P) (hs : ∀ t, IdentDistrib (Z t) (Z 0) P P)
    (hint : Integrable (Z 0) P) (hU : ∀ N, 0 < N → FairDraws Q N (U N)) (hn : 0 < n) (h0 : 0 ≤ conf) (h1 : conf ≤ 1)
    {m : ℕ → Ω → NDArr (Fl ℝ)} {axes : Option (List Int)} (hok : ∀ N ω, BootAxes (m N ω).shape.length axes) {k : List ℕ}
    (hk : ∀ N ω, 0 < N → InB (dropAxes (nums (m N ω).shape.length axes) (m N ω).shape) k)
    (hdata : ∀ N ω, 0 < N → fiber (m N ω) (nums (m N ω).shape.length axes) k = firstDays Z N ω)
    {draw : ℕ → Ω' → ℕ → ℕ → ℕ → ℕ}
    (hdraw : ∀ N ω ω' r j, draw N ω' (ravel (dropAxes (nums (m N ω).shape.length axes) (m N ω).shape) k) r j = U N r j ω') :
    ((1 - conf) / 2 < P.real {ω | (∑ j ∈ Finset.range n, Z j ω) / n < μ} →
      (1 - conf) / 2 < P.real {ω | μ < (∑ j ∈ Finset.range n, Z j ω) / n} →
      LongRunProb (P.prod Q) (fun N R => {p | ∃ r, bootArr (m N p.1) axes n R conf skip (draw N p.2) = .ok r ∧
        HoldsAt μ k r}) 1) ∧
    (P.real {ω | (∑ j ∈ Finset.range n, Z j ω) / n ≤ μ} < (1 - conf) / 2 ∨
      P.real {ω | μ ≤ (∑ j ∈ Finset.range n, Z j ω) / n} < (1 - conf) / 2 →
      LongRunProb (P.prod Q) (fun N R => {p | ∃ r, bootArr (m N p.1) axes n R conf skip (draw N p.2) = .ok r ∧
        HoldsAt μ k r}) 0) :=
  ⟨fun hl hr => longRun_arr (n := fun _ => n) h0 h1 ((C138_boot_vec hZ hi hs hint hU hn h0 h1).1 hl hr) hok hk hdata hdraw,
    fun hlr => longRun_arr (n := fun _ => n) h0 h1 ((C138_boot_vec hZ hi hs hint hU hn h0 h1).2 hlr) hok hk hdata hdraw⟩

variable {A X : Type} {C : Cls} {I : ArgInfo A} {mids : FS (PyVal ℝ) → Model.Path → List (FS (PyVal ℝ))}
  {obs : X → NDArr (Fl ℝ)} {emb : A → Arg ℝ}

/-- **C138**, any class: `error()`, `ab_error()` and `sq_error()` with `boot_samples = n` in archives of growing length. -/
theorem C138_errors (hZ : ∀ t, Measurable (Z t)) (hi : iIndepFun Z P) (hs : ∀ t, IdentDistrib (Z t) (Z 0) P P)
    (hint : Integrable (Z 0) P) (hU : ∀ N, 0 < N → FairDraws Q N (U N)) (hn : 0 < n) (h0 : 0 ≤ conf) (h1 : conf ≤ 1)
    {cf : ℕ → ℕ → Ω' → Cfg ℝ} {Pr : ℕ → ℕ → Ω' → Prims X (PyVal ℝ) A} (hP : ∀ N R ω', Shared (cf N R ω') obs emb (Pr N R ω'))
    (hcf : ∀ N R ω', (cf N R ω').reps = R ∧ (cf N R ω').conf = conf) {o : ℕ → Ω → Obj X}
    (hb : ∀ N ω, (o N ω).boot = .int n) {axes : Option (List Int)} (hax : ∀ N ω, axisArg (o N ω).avg = .ok axes)
    {w : ℕ → ℕ → Ω → Ω' → World (PyVal ℝ)} {f : ℕ → Ω → NDArr (Fl ℝ)}
    (hf : ∀ N R ω ω', ∃ w0, result C I (Pr N R ω') mids (.slot .fDeterm) (unsaved (o N ω)) w0 = .ok (some (.num (f N ω))))
    (hsh : ∀ N ω, (f N ω).shape = (obs (o N ω).ext).shape) (hok : ∀ N ω, BootAxes (f N ω).shape.length axes) {k : List ℕ}
    (hk : ∀ N ω, 0 < N → InB (dropAxes (nums (f N ω).shape.length axes) (f N ω).shape) k) {s : Slot A} {g : ℝ → ℝ → ℝ}
    (hsg : (s = .error ∧ g = fun x y => x - y) ∨ (s = .abError ∧ g = fun x y => |x - y|) ∨
      (s = .sqError ∧ g = fun x y => (x - y) ^ 2))
    (hdata : ∀ N ω, 0 < N → (pairsAt (f N ω) (obs (o N ω).ext) (nums (f N ω).shape.length axes) k).map (both g) =
      firstDays Z N ω)
    (hrng : ∀ N R ω ω' i r j, (cf N R ω').rng i 0 (ravel (dropAxes (nums (f N ω).shape.length axes) (f N ω).shape) k) r j =
      U N r j ω') :
    ((1 - conf) / 2 < P.real {ω | (∑ j ∈ Finset.range n, Z j ω) / n < μ} →
      (1 - conf) / 2 < P.real {ω | μ < (∑ j ∈ Finset.range n, Z j ω) / n} →
      LongRunProb (P.prod Q) (fun N R => {p | Returns μ k
        (result C I (Pr N R p.2) mids (.slot s) (unsaved (o N p.1)) (w N R p.1 p.2))}) 1) ∧
    (P.real {ω | (∑ j ∈ Finset.range n, Z j ω) / n ≤ μ} < (1 - conf) / 2 ∨
      P.real {ω | μ ≤ (∑ j ∈ Finset.range n, Z j ω) / n} < (1 - conf) / 2 →
      LongRunProb (P.prod Q) (fun N R => {p | Returns μ k
        (result C I (Pr N R p.2) mids (.slot s) (unsaved (o N p.1)) (w N R p.1 p.2))}) 0) :=
  ⟨fun hl hr => longRun_errors (n := fun _ => n) h0 h1 (Eventually.of_forall fun _ => hn)
      ((C138_boot_vec hZ hi hs hint hU hn h0 h1).1 hl hr) hP hcf hb hax hf hsh hok hk hsg hdata hrng,
    fun hlr => longRun_errors (n := fun _ => n) h0 h1 (Eventually.of_forall fun _ => hn)
      ((C138_boot_vec hZ hi hs hint hU hn h0 h1).2 hlr) hP hcf hb hax hf hsh hok hk hsg hdata hrng⟩

/-! ### a case -/

theorem day_event (S : Set ℝ) (hS : MeasurableSet S) :
    normalDays.real {ω | (∑ j ∈ Finset.range 1, ω j) / ((1 : ℕ) : ℝ) ∈ S} = (gaussianReal 0 1).real S := by
  rw [← (normalDays_eval 0).measureReal_preimage hS.nullMeasurableSet]
  congr 1
  ext ω
  simp

theorem day_below (μ : ℝ) : normalDays.real {ω | (∑ j ∈ Finset.range 1, ω j) / ((1 : ℕ) : ℝ) < μ} = Phi μ := by
  have h : (gaussianReal 0 1).real (Set.Iio μ) = Phi μ := by
    have : NullSingletonClass (gaussianReal 0 1) := nullSingletonClass_gaussianReal one_ne_zero
    rw [← gauss_Iic, measureReal_def, measureReal_def, measure_congr Iio_ae_eq_Iic]
  rw [← h]
  exact day_event (Set.Iio μ) measurableSet_Iio

theorem day_above (μ : ℝ) : normalDays.real {ω | μ < (∑ j ∈ Finset.range 1, ω j) / ((1 : ℕ) : ℝ)} = 1 - Phi μ := by
  have h : (gaussianReal 0 1).real (Set.Ioi μ) = 1 - Phi μ := by
    rw [← gauss_Iic, ← probReal_compl_eq_one_sub measurableSet_Iic, Set.compl_Iic]
  rw [← h]
  exact day_event (Set.Ioi μ) measurableSet_Ioi

theorem day_from (μ : ℝ) : normalDays.real {ω | μ ≤ (∑ j ∈ Finset.range 1, ω j) / ((1 : ℕ) : ℝ)} = 1 - Phi μ := by
  have h : (gaussianReal 0 1).real (Set.Ici μ) = 1 - Phi μ := by
    have : NullSingletonClass (gaussianReal 0 1) := nullSingletonClass_gaussianReal one_ne_zero
    have e : (gaussianReal 0 1).real (Set.Iio μ) = Phi μ := by
      rw [← gauss_Iic, measureReal_def, measureReal_def, measure_congr Iio_ae_eq_Iic]
    rw [← e, ← probReal_compl_eq_one_sub measurableSet_Iio, Set.compl_Iio]
  rw [← h]
  exact day_event (Set.Ici μ) measurableSet_Ici

/-- verifiers that draw one day only -/
noncomputable def oneO (N : ℕ) (ω : ℕ → ℝ) : Obj (DetX ℝ) := ⟨.none, .int (1 : ℕ), .none, some true, aimX N ω⟩

/-- With one draw the interval of `error()` does not become shorter with the length of the archive: it holds every number
between the quantiles 0.05 and 0.95 of a single error, and no number outside. -/
example (μ : ℝ) : (∀ N ω, 0 < N → ∃ w, construct (detPrims cfgR embBoth) noMids (oneO N ω) world0 = (.ok (oneO N ω), w)) ∧
    (1 / 20 < Phi μ → Phi μ < 19 / 20 →
      LongRunProb (normalDays.prod spins) (fun N R => {p | Returns μ []
        (result .determ bothInfo (detPrims (aimCfg N R p.2) embBoth) noMids (.slot .error) (unsaved (oneO N p.1)) world0)})
        1) ∧
    (19 / 20 < Phi μ →
      LongRunProb (normalDays.prod spins) (fun N R => {p | Returns μ []
        (result .determ bothInfo (detPrims (aimCfg N R p.2) embBoth) noMids (.slot .error) (unsaved (oneO N p.1)) world0)})
        0) := by
  have main := C138_errors (C := .determ) (I := bothInfo) (mids := noMids) (obs := DetX.o) (emb := embBoth) (n := 1) (μ := μ)
    (Z := fun t (ω : ℕ → ℝ) => ω t) (conf := 9 / 10) (fun t => measurable_pi_apply t) normalDays_indep
    normalDays_same (normalDays_memLp.integrable (by norm_num)) (fun N _ => spins_fair N) one_pos (by norm_num) (by norm_num)
    (cf := aimCfg) (Pr := fun N R u => detPrims (aimCfg N R u) embBoth) (fun N R u => shared_det _ _)
    (fun _ _ _ => ⟨rfl, rfl⟩) (o := oneO) (fun _ _ => rfl) (axes := none) (fun _ _ => rfl)
    (w := fun _ _ _ _ => world0) (f := fun N ω => (aimX N ω).f) (fun N R ω u => ⟨world0, fDeterm_det _ _⟩)
    (fun _ _ => rfl) (fun _ _ => trivial) (k := []) (fun _ _ _ => List.Forall₂.nil) (s := .error) (.inl ⟨rfl, rfl⟩)
    (fun N ω hN => by
      have e : fiberIdx [N] [0] [] = (List.range N).map fun d => [d] :=
        fiberIdx_days (s := []) (t := 0) (k := []) le_rfl List.Forall₂.nil N
      change ((fiberIdx [N] [0] []).map fun i => ((aimX N ω).f.get i, (aimX N ω).o.get i)).map _ = _
      rw [e, List.map_map, List.map_map]
      refine List.map_congr_left fun d hd => ?_
      have hd' : InB [N] [d] := List.Forall₂.cons (by simpa using hd) List.Forall₂.nil
      simp [Function.comp, aimX, get_ofFn _ hd', both])
    (fun _ _ _ _ _ _ _ => rfl)
  rw [day_below, day_above, day_from] at main
  refine ⟨?_, ?_, ?_⟩
  · intro N ω hN
    exact ⟨world0, by simp [construct, validate, validateAxis, validateSaving, oneO, aimX, detPrims]; rfl⟩
  · exact fun a b => main.1 (by linarith) (by linarith)
  · exact fun a => main.2 (.inr (by linarith))

end Props
