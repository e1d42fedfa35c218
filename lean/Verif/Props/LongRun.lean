import Verif.Lemmas.LongRunBest
import Verif.Props.Honest
import Verif.Props.Concentration
import Verif.Props.Members

/-!
# In the long run the scores tell which forecasts are better: C131
-/

set_option linter.unusedSectionVars false

namespace Props
open Np NDArr Model Spec Lemmas MeasureTheory ProbabilityTheory Filter Topology

variable {A : Type} {I : ArgInfo A} {c : Cfg ℝ} {F : ProbFns ℝ} {emb : A → Arg ℝ}
  {mids : FS (PyVal ℝ) → Model.Path → List (FS (PyVal ℝ))}
variable {Ω : Type} [MeasurableSpace Ω] {P : Measure Ω} [IsProbabilityMeasure P] {s : List Nat} {t : Nat}
  {Y : List Nat → Ω → ℝ} {E : Type} [MeasurableSpace E]

theorem days_length (ht : t ≤ s.length) (n : Nat) : (s.insertIdx t n).length = s.length + 1 :=
  List.length_insertIdx_of_le_length ht n

/-- averages over all days settle at the expected value of a day -/
theorem settles_of_values {axes : Option (List Int)} (ht : t ≤ s.length) (hn : nums (s.length + 1) axes = [t])
    {r : Nat → Ω → NDArr (Fl ℝ)} {X : List Nat → Ω → ℝ}
    (hr : ∀ n ω k, InB (dropAxes (nums (s.insertIdx t (n + 1)).length axes) (s.insertIdx t (n + 1))) k →
      (r n ω).get k = some (avg ((fiberIdx (s.insertIdx t (n + 1)) (nums (s.insertIdx t (n + 1)).length axes) k).map
        fun i => X i ω)))
    {k : List Nat} (hk : InB s k) {R : Nat → Ω → E} (rep : SameDays P R) {g : E → ℝ} (hg : Measurable g)
    (hX : ∀ d ω, X (k.insertIdx t d) ω = g (R d ω)) (hi : Integrable (fun ω => X (k.insertIdx t 0) ω) P) :
    ∃ S : Nat → Ω → ℝ, (∀ n ω, (r n ω).get k = some (S n ω)) ∧ Settles P S (∫ ω, X (k.insertIdx t 0) ω ∂P) := by
  simp only [days_length ht, hn, (dropAxes_insertIdx _ ht).1] at hr
  refine ⟨fun n ω => avg ((List.range (n + 1)).map fun d => g (R d ω)), fun n ω => ?_, ?_⟩
  · rw [hr n ω k hk, fiberIdx_days ht hk, List.map_map]
    simp only [Function.comp_def, hX]
  · simp only [hX] at hi ⊢
    exact settles_avg rep hg hi

/-- Gaussian verifiers `o n` of the first `n + 1` days of the random observations `Y`, with the random parameters `m` and
`sd`, built from `oi n` -/
structure GaussArchive (c : Cfg ℝ) (F : ProbFns ℝ) (emb : A → Arg ℝ) (mids : FS (PyVal ℝ) → Model.Path → List (FS (PyVal ℝ)))
    (s : List Nat) (t : Nat) (tr : Bool) (oi o : Nat → Ω → Obj (ProbX ℝ)) (m sd Y : List Nat → Ω → ℝ) (a : PyAxis) : Prop where
  made : ∀ n ω, ∃ w w', construct (gaussPrims c F emb) mids (oi n ω) w = (.ok (o n ω), w')
  observed : Recorded s t (fun n ω => (oi n ω).ext.o) Y
  truncated : ∀ n ω, (oi n ω).ext.truncated = some tr
  mu : ∃ mu : Nat → Ω → NDArr (Fl ℝ), (∀ n ω, HasPar (oi n ω).ext "mu" (mu n ω)) ∧ Recorded s t mu m
  sigma : ∃ sigma : Nat → Ω → NDArr (Fl ℝ), (∀ n ω, HasPar (oi n ω).ext "sigma" (sigma n ω)) ∧ Recorded s t sigma sd
  pos : ∀ i ω, 0 < sd i ω
  avg : ∀ n ω, (oi n ω).avg = a
  boot : ∀ n ω, (oi n ω).boot = .none

/-- **C131**, Gaussian class. Parameters and observations are random; what happens on one day has nothing to do with what
happens on another, and has the same probabilities. Then every number of `crps()` over `n + 1` days settles, with probability
one, at the expected continuous ranked probability score of a day. -/
theorem C131_crps_gauss (hP : F.psGaussian = psGaussianElem realGauss) (hG : F.gauss = realGauss) {tr : Bool}
    {oi o : Nat → Ω → Obj (ProbX ℝ)} {m sd : List Nat → Ω → ℝ} {a : PyAxis}
    (g : GaussArchive c F emb mids s t tr oi o m sd Y a) {w1 : Nat → Ω → World (PyVal ℝ)} (h0 : 0 ∉ s) (ht : t ≤ s.length)
    (hok : OptOK (s.length + 1) (axesOf a)) (hn : nums (s.length + 1) (axesOf a) = [t]) :
    ∃ r : Nat → Ω → NDArr (Fl ℝ),
      (∀ n ω, result .gaussian I (gaussPrims c F emb) mids (.slot .crps) (unsaved (o n ω)) (w1 n ω) =
        .ok (some (.num (r n ω)))) ∧
      ∀ k, InB s k →
        SameDays P (fun d ω => ((m (k.insertIdx t d) ω, sd (k.insertIdx t d) ω), Y (k.insertIdx t d) ω)) →
        Integrable (fun ω => crpsOf (gaussLaw tr (m (k.insertIdx t 0) ω) (sd (k.insertIdx t 0) ω)) (Y (k.insertIdx t 0) ω)) P →
        ∃ S : Nat → Ω → ℝ, (∀ n ω, (r n ω).get k = some (S n ω)) ∧
          Settles P S (∫ ω, crpsOf (gaussLaw tr (m (k.insertIdx t 0) ω) (sd (k.insertIdx t 0) ω)) (Y (k.insertIdx t 0) ω) ∂P) := by
  have hy := g.observed
  obtain ⟨mu, hmu, hm⟩ := g.mu
  obtain ⟨sigma, hsg, hsd⟩ := g.sigma
  choose w w' h using g.made
  have main := fun n ω => gauss_crps_values (I := I) (w1 := w1 n ω) (h n ω) hP hG (hy.shape n ω) (hy.value n ω)
    (g.truncated n ω) (hmu n ω) (hsg n ω) (fun i hi => ⟨hm.value n ω i hi, hsd.value n ω i hi, g.pos i ω⟩) (g.avg n ω)
    (g.boot n ω)
    (zero_notMem_days h0 t n) (by rw [days_length ht]; exact hok)
  choose r r1 r2 r3 using main
  refine ⟨r, r1, fun k hk rep hi => ?_⟩
  exact settles_of_values (X := fun i ω => crpsOf (gaussLaw tr (m i ω) (sd i ω)) (Y i ω)) ht hn r3 hk rep
    (measurable_crpsOf (L := fun θ : ℝ × ℝ => gaussLaw tr θ.1 θ.2) (measurable_gaussLaw tr)) (fun _ _ => rfl) hi

/-- **C131**, gamma class -/
theorem C131_crps_gamma {oi o : Nat → Ω → Obj (ProbX ℝ)} {w w' w1 : Nat → Ω → World (PyVal ℝ)}
    (h : ∀ n ω, construct (gammaPrims c F emb) mids (oi n ω) (w n ω) = (.ok (o n ω), w' n ω)) (hG : F.gam = realGamma)
    (hy : Recorded s t (fun n ω => (oi n ω).ext.o) Y) (hY : ∀ i ω, 0 ≤ Y i ω)
    (htr : ∀ n ω, (oi n ω).ext.truncated = some false)
    {umu sigma shift : Nat → Ω → NDArr (Fl ℝ)} (hmu : ∀ n ω, HasPar (oi n ω).ext "unshifted_mu" (umu n ω))
    (hsg : ∀ n ω, HasPar (oi n ω).ext "sigma" (sigma n ω)) (hsf : ∀ n ω, HasPar (oi n ω).ext "shift" (shift n ω))
    {m sd δ : List Nat → Ω → ℝ} (hm : Recorded s t umu m) (hsd : Recorded s t sigma sd) (hδ : Recorded s t shift δ)
    (hpos : ∀ i ω, 0 < m i ω ∧ 0 < sd i ω)
    {a : PyAxis} (ha : ∀ n ω, (oi n ω).avg = a) (hb : ∀ n ω, (oi n ω).boot = .none) (h0 : 0 ∉ s) (ht : t ≤ s.length)
    (hok : OptOK (s.length + 1) (axesOf a)) (hn : nums (s.length + 1) (axesOf a) = [t]) :
    ∃ r : Nat → Ω → NDArr (Fl ℝ),
      (∀ n ω, result .gamma I (gammaPrims c F emb) mids (.slot .crps) (unsaved (o n ω)) (w1 n ω) =
        .ok (some (.num (r n ω)))) ∧
      ∀ k, InB s k →
        SameDays P (fun d ω => ((m (k.insertIdx t d) ω, sd (k.insertIdx t d) ω, δ (k.insertIdx t d) ω),
          Y (k.insertIdx t d) ω)) →
        let X := fun ω => crpsOf (censoredGammaCdf (m (k.insertIdx t 0) ω) (sd (k.insertIdx t 0) ω) (δ (k.insertIdx t 0) ω))
          (Y (k.insertIdx t 0) ω)
        Integrable X P → ∃ S : Nat → Ω → ℝ, (∀ n ω, (r n ω).get k = some (S n ω)) ∧ Settles P S (∫ ω, X ω ∂P) := by
  have main := fun n ω => gamma_crps_values (I := I) (w1 := w1 n ω) (h n ω) hG (hy.shape n ω)
    (fun i hi => ⟨hy.value n ω i hi, hY i ω⟩) (htr n ω) (hmu n ω) (hsg n ω) (hsf n ω)
    (fun i hi => ⟨hm.value n ω i hi, hsd.value n ω i hi, hδ.value n ω i hi, hpos i ω⟩) (ha n ω) (hb n ω)
    (zero_notMem_days h0 t n) (by rw [days_length ht]; exact hok)
  choose r r1 r2 r3 using main
  refine ⟨r, r1, fun k hk rep hi => ?_⟩
  exact settles_of_values (X := fun i ω => crpsOf (censoredGammaCdf (m i ω) (sd i ω) (δ i ω)) (Y i ω)) ht hn r3 hk rep
    (measurable_crpsOf (L := fun θ : ℝ × ℝ × ℝ => censoredGammaCdf θ.1 θ.2.1 θ.2.2) measurable_censored) (fun _ _ => rfl) hi

theorem measurable_ecdf (N : Nat) : Measurable fun p : (Fin N → ℝ) × ℝ => ecdf (List.ofFn p.1) p.2 := by
  have e : ∀ p : (Fin N → ℝ) × ℝ, ecdf (List.ofFn p.1) p.2 = (∑ j, if p.1 j ≤ p.2 then (1 : ℝ) else 0) / N := by
    intro p
    rw [ecdf, List.map_ofFn, List.sum_ofFn, List.length_ofFn]
    rfl
  rw [funext e]
  refine Measurable.div_const (Finset.measurable_sum _ fun j _ => ?_) _
  exact Measurable.ite (measurableSet_le ((measurable_pi_apply j).comp measurable_fst) measurable_snd) measurable_const
    measurable_const

/-- **C131**, ensemble class, `N` members -/
theorem C131_crps_ens {oi o : Nat → Ω → Obj (EnsX ℝ)} {w w' w1 : Nat → Ω → World (PyVal ℝ)}
    (h : ∀ n ω, construct (ensPrims c emb) mids (oi n ω) (w n ω) = (.ok (o n ω), w' n ω)) (hb : ∀ n ω, (oi n ω).boot = .none)
    {pt : Fl ℝ → List (Fl ℝ) → Fl ℝ} (hpt : IsEnergyScore pt) {split : Bool}
    (hc : ∀ o f ax, c.crpsEns o f ax = ensembleCrps pt split ax o f) (hy : Recorded s t (fun n ω => (oi n ω).ext.o) Y)
    (hf0 : ∀ n ω, 0 ∉ (oi n ω).ext.f.shape) (hf : ∀ n ω, none ∉ (oi n ω).ext.f.data) {ax : Int}
    (hax : ∀ n ω, (o n ω).ext.axis = some ax) {N : Nat} {x : List Nat → Ω → Fin N → ℝ}
    (hM : ∀ n ω i, InB (s.insertIdx t (n + 1)) i → membersAt (oi n ω).ext.f ax i = (List.ofFn (x i ω)).map some)
    {a : PyAxis} (ha : ∀ n ω, (oi n ω).avg = a) (ht : t ≤ s.length)
    (hok : OptOK (s.length + 1) (axesOf a)) (hn : nums (s.length + 1) (axesOf a) = [t]) :
    ∃ r : Nat → Ω → NDArr (Fl ℝ),
      (∀ n ω, result .ensemble I (ensPrims c emb) mids (.slot .crps) (unsaved (o n ω)) (w1 n ω) =
        .ok (some (.num (r n ω)))) ∧
      ∀ k, InB s k → SameDays P (fun d ω => (x (k.insertIdx t d) ω, Y (k.insertIdx t d) ω)) →
        let X := fun ω => crpsOf (ecdf (List.ofFn (x (k.insertIdx t 0) ω))) (Y (k.insertIdx t 0) ω)
        Integrable X P → ∃ S : Nat → Ω → ℝ, (∀ n ω, (r n ω).get k = some (S n ω)) ∧ Settles P S (∫ ω, X ω ∂P) := by
  have main := fun n ω => ens_crps_values (I := I) (w1 := w1 n ω) (h n ω) (hb n ω) hpt hc (hy.shape n ω) (hy.value n ω)
    (by rw [← List.length_pos_iff, days_length ht]; omega) (hf0 n ω) (hf n ω) (hax n ω) (M := fun i => List.ofFn (x i ω))
    (hM n ω) (ha n ω) (by rw [days_length ht]; exact hok)
  choose r r1 r2 r3 r4 using main
  refine ⟨r, r1, fun k hk rep hi => ?_⟩
  exact settles_of_values (X := fun i ω => crpsOf (ecdf (List.ofFn (x i ω))) (Y i ω)) ht hn r4 hk rep
    (measurable_crpsOf (L := fun v : Fin N → ℝ => ecdf (List.ofFn v)) (measurable_ecdf N)) (fun _ _ => rfl) hi

variable {X X' : Type} {C C' : Cls} {Q : Prims X (PyVal ℝ) A} {Q' : Prims X' (PyVal ℝ) A} {obs : X → NDArr (Fl ℝ)}
  {obs' : X' → NDArr (Fl ℝ)}

/-- **C131**, the deterministic metrics of a verifier of any class whose `f_determ()` gives the forecasts `f`: `error()`,
`ab_error()`, `sq_error()` and `rmse()` settle at the expected difference, absolute difference and squared difference of a
day and the root of the last. -/
theorem C131_errors (hQ : Shared c obs emb Q) (hs : IsSqrt c.sqrt) {o : Nat → Ω → Obj X} {w w1 : Nat → Ω → World (PyVal ℝ)}
    {f : Nat → Ω → NDArr (Fl ℝ)} {D : List Nat → Ω → ℝ}
    (hf : ∀ n ω, result C I Q mids (.slot .fDeterm) (unsaved (o n ω)) (w n ω) = .ok (some (.num (f n ω))))
    (hD : Recorded s t f D) (hy : Recorded s t (fun n ω => obs (o n ω).ext) Y) {axes : Option (List Int)}
    (ha : ∀ n ω, axisArg (o n ω).avg = .ok axes) (hb : ∀ n ω, (o n ω).boot = .none) (h0 : 0 ∉ s) (ht : t ≤ s.length)
    (hok : OptOK (s.length + 1) axes) (hn : nums (s.length + 1) axes = [t]) :
    ∃ e a q r : Nat → Ω → NDArr (Fl ℝ),
      (∀ n ω, result C I Q mids (.slot .error) (unsaved (o n ω)) (w1 n ω) = .ok (some (.num (e n ω))) ∧
        result C I Q mids (.slot .abError) (unsaved (o n ω)) (w1 n ω) = .ok (some (.num (a n ω))) ∧
        result C I Q mids (.slot .sqError) (unsaved (o n ω)) (w1 n ω) = .ok (some (.num (q n ω))) ∧
        result C I Q mids .rmse (unsaved (o n ω)) (w1 n ω) = .ok (some (.num (r n ω)))) ∧
      ∀ k, InB s k → SameDays P (fun d ω => (D (k.insertIdx t d) ω, Y (k.insertIdx t d) ω)) →
        let Z := fun ω => D (k.insertIdx t 0) ω - Y (k.insertIdx t 0) ω
        (Integrable Z P → ∃ S S' : Nat → Ω → ℝ, (∀ n ω, (e n ω).get k = some (S n ω) ∧ (a n ω).get k = some (S' n ω)) ∧
          Settles P S (∫ ω, Z ω ∂P) ∧ Settles P S' (∫ ω, |Z ω| ∂P)) ∧
        (Integrable (fun ω => Z ω ^ 2) P → ∃ S S' : Nat → Ω → ℝ,
          (∀ n ω, (q n ω).get k = some (S n ω) ∧ (r n ω).get k = some (S' n ω)) ∧
          Settles P S (∫ ω, Z ω ^ 2 ∂P) ∧ Settles P S' (Real.sqrt (∫ ω, Z ω ^ 2 ∂P))) := by
  have hsq : ∀ x, 0 ≤ x → c.sqrt x = Real.sqrt x := fun x hx => by
    rw [eq_comm, Real.sqrt_eq_iff_mul_self_eq hx (hs.1 x hx)]
    exact (hs.2 x hx).symm
  have main : ∀ n ω, _ := fun n ω => C75_errors (mids := mids) hQ (hb n ω) (ha n ω) (hf n ω)
    ((hD.shape n ω).trans (hy.shape n ω).symm) (by rw [hD.shape, days_length ht]; exact hok) (w1 n ω)
  choose e a q r r1 r2 r3 r4 r5 r6 using main
  have val : ∀ n ω k, InB (dropAxes (nums (s.insertIdx t (n + 1)).length axes) (s.insertIdx t (n + 1))) k →
      let L := fiberIdx (s.insertIdx t (n + 1)) (nums (s.insertIdx t (n + 1)).length axes) k
      (e n ω).get k = some (avg (L.map fun i => D i ω - Y i ω)) ∧ (a n ω).get k = some (avg (L.map fun i => |D i ω - Y i ω|)) ∧
      (q n ω).get k = some (avg (L.map fun i => (D i ω - Y i ω) ^ 2)) ∧
      (r n ω).get k = some (Real.sqrt (avg (L.map fun i => (D i ω - Y i ω) ^ 2))) := by
    intro n ω k hk L
    obtain ⟨g1, g2, g3, g4⟩ := r6 n ω k (by rw [(r5 n ω).1, hD.shape]; exact hk)
    have hL : L ≠ [] := fiberIdx_ne (zero_notMem_days h0 t n) hk
    have hin : ∀ i ∈ L, InB (s.insertIdx t (n + 1)) i := fun i hi => (mem_fiberIdx.1 hi).1
    simp only [pairsAt, hD.shape, List.map_map] at g1 g2 g3
    have hv : ∀ i ∈ L, (f n ω).get i = some (D i ω) ∧ (obs (o n ω).ext).get i = some (Y i ω) := fun i hi =>
      ⟨hD.value n ω i (hin i hi), hy.value n ω i (hin i hi)⟩
    have hq := isAvg_some hL (h := fun i => (D i ω - Y i ω) ^ 2) (fun i hi => by
      simp only [Function.comp, (hv i hi).1, (hv i hi).2, both]) g3
    have hnn : 0 ≤ avg (L.map fun i => (D i ω - Y i ω) ^ 2) := by
      refine div_nonneg (List.sum_nonneg fun x hx => ?_) (Nat.cast_nonneg _)
      obtain ⟨i, -, rfl⟩ := List.mem_map.1 hx
      exact sq_nonneg _
    refine ⟨isAvg_some hL (fun i hi => by simp only [Function.comp, (hv i hi).1, (hv i hi).2, both]) g1,
      isAvg_some hL (fun i hi => by simp only [Function.comp, (hv i hi).1, (hv i hi).2, both]) g2, hq, ?_⟩
    rw [g4, hq, Option.map_some, hsq _ hnn]
  refine ⟨e, a, q, r, fun n ω => ⟨r1 n ω, r2 n ω, r3 n ω, r4 n ω⟩, fun k hk rep => ⟨fun hi => ?_, fun hi => ?_⟩⟩
  · obtain ⟨S, s1, s2⟩ := settles_of_values (X := fun i ω => D i ω - Y i ω) ht hn (fun n ω k hk => (val n ω k hk).1) hk rep
      (g := fun p : ℝ × ℝ => p.1 - p.2) (by fun_prop) (fun _ _ => rfl) hi
    obtain ⟨S', s3, s4⟩ := settles_of_values (X := fun i ω => |D i ω - Y i ω|) ht hn (fun n ω k hk => (val n ω k hk).2.1) hk
      rep (g := fun p : ℝ × ℝ => |p.1 - p.2|) (by fun_prop) (fun _ _ => rfl) hi.abs
    exact ⟨S, S', fun n ω => ⟨s1 n ω, s3 n ω⟩, s2, s4⟩
  · obtain ⟨S, s1, s2⟩ := settles_of_values (X := fun i ω => (D i ω - Y i ω) ^ 2) ht hn
      (fun n ω k hk => (val n ω k hk).2.2.1) hk rep (g := fun p : ℝ × ℝ => (p.1 - p.2) ^ 2) (by fun_prop) (fun _ _ => rfl) hi
    refine ⟨S, fun n ω => Real.sqrt (S n ω), fun n ω => ⟨s1 n ω, ?_⟩, s2, ?_⟩
    · have hk' : InB (dropAxes (nums (s.insertIdx t (n + 1)).length axes) (s.insertIdx t (n + 1))) k := by
        rw [days_length ht, hn, (dropAxes_insertIdx _ ht).1]
        exact hk
      obtain ⟨-, -, g3, g4⟩ := val n ω k hk'
      rw [g4, Option.some.inj (g3.symm.trans (s1 n ω))]
    · filter_upwards [s2] with ω hω
      exact (Real.continuous_sqrt.tendsto _).comp hω

/-- One verifier of the observations `y` that gives, for the threshold `a`, the probabilities `D`. -/
structure Says (sh : List Nat) (y : List Nat → ℝ) (C : Cls) (I : ArgInfo A) (Q : Prims X (PyVal ℝ) A)
    (mids : FS (PyVal ℝ) → Model.Path → List (FS (PyVal ℝ))) (obs : X → NDArr (Fl ℝ)) (o : Obj X) (w : World (PyVal ℝ))
    (isOver : Bool) (a : A) (D : List Nat → ℝ) (axes : Option (List Int)) : Prop where
  shape : (obs o.ext).shape = sh
  value : ∀ i, InB sh i → (obs o.ext).get i = some (y i)
  cdf : ∃ p, result C I Q mids (.slot (.cdf (overArg isOver a) (belowArg isOver a))) (unsaved o) w =
      .ok (some (.num p)) ∧ p.shape = sh ∧ ∀ k, InB sh k → p.get k = some (D k)
  boot : o.boot = .none
  avg : axisArg o.avg = .ok axes

theorem says_iff {sh : List Nat} {y : List Nat → ℝ} {o : Obj X} {w : World (PyVal ℝ)} {isOver : Bool} {a : A}
    {D : List Nat → ℝ} {axes : Option (List Int)} :
    Says sh y C I Q mids obs o w isOver a D axes ↔
      Announces (Measure.dirac ()) sh (fun i _ => y i) C I Q mids obs (fun _ => o) (fun _ => w) isOver a D axes :=
  ⟨fun h => ⟨⟨fun _ => h.shape, fun i hi _ => h.value i hi, fun _ _ => measurable_const, fun _ _ _ => rfl⟩, fun _ => h.cdf,
      fun _ => h.boot, fun _ => h.avg⟩,
    fun h => ⟨h.observed.shape (), fun i hi => h.observed.value i hi (), h.cdf (), h.boot (), h.avg ()⟩⟩

/-- **C131**: what a Gaussian verifier says -/
theorem C131_says_gauss {sh : List Nat} {oi o : Obj (ProbX ℝ)} {w w' w1 : World (PyVal ℝ)}
    (h : construct (gaussPrims c F emb) mids oi w = (.ok o, w')) (hE : ExactLib F.scipy) (hL : UnitLib F.scipy)
    (hpool : PoolOK c.workers c.mapAxis sh)
    (hsh : oi.ext.o.shape = sh) {y : List Nat → ℝ} (hy : ∀ i, InB sh i → oi.ext.o.get i = some (y i)) {tr : Bool}
    (htr : oi.ext.truncated = some tr) {mu sigma : NDArr (Fl ℝ)} (hmu : HasPar oi.ext "mu" mu) (hsg : HasPar oi.ext "sigma" sigma)
    {m sd : List Nat → ℝ} (hv : ∀ i, InB sh i → mu.get i = some (m i) ∧ sigma.get i = some (sd i) ∧ 0 < sd i)
    {a : A} (ha : Printable I a) {τ : ℝ} (hemb : emb a = .thr (.scalar (some τ))) (hb : oi.boot = .none)
    (isOver : Bool) :
    Says sh y .gaussian I (gaussPrims c F emb) mids (fun x => x.o) o w1 isOver a
      (fun i => beyondProb isOver (gaussLaw tr (m i) (sd i) τ)) (axesOf oi.avg) :=
  says_iff.2 (C130_announces_gauss (w1 := fun _ => w1) (fun _ => h) hE hL hpool
    ⟨fun _ => hsh, fun i hi _ => hy i hi, fun _ _ => measurable_const, fun _ _ _ => rfl⟩ (fun _ => htr) (fun _ => hmu)
    (fun _ => hsg) hv ha hemb trivial (τ := fun _ => τ) (fun _ _ => rfl) (fun _ => hb) (fun _ => rfl) isOver)

/-- **C131**: what a gamma verifier says -/
theorem C131_says_gamma {sh : List Nat} {oi o : Obj (ProbX ℝ)} {w w' w1 : World (PyVal ℝ)}
    (h : construct (gammaPrims c F emb) mids oi w = (.ok o, w')) (hE : ExactLib F.scipy) (hL : UnitLib F.scipy)
    (hpool : PoolOK c.workers c.mapAxis sh)
    (hsh : oi.ext.o.shape = sh) {y : List Nat → ℝ} (hy : ∀ i, InB sh i → oi.ext.o.get i = some (y i))
    (htr : oi.ext.truncated = some false) {umu sigma shift : NDArr (Fl ℝ)} (hmu : HasPar oi.ext "unshifted_mu" umu)
    (hsg : HasPar oi.ext "sigma" sigma) (hsf : HasPar oi.ext "shift" shift)
    {m sd δ : List Nat → ℝ} (hv : ∀ i, InB sh i → umu.get i = some (m i) ∧ sigma.get i = some (sd i) ∧
      shift.get i = some (δ i) ∧ 0 < m i ∧ 0 < sd i)
    {a : A} (ha : Printable I a) {τ : ℝ} (hemb : emb a = .thr (.scalar (some τ))) (hτ : 0 ≤ τ) (hb : oi.boot = .none)
    (isOver : Bool) :
    Says sh y .gamma I (gammaPrims c F emb) mids (fun x => x.o) o w1 isOver a
      (fun i => beyondProb isOver (censoredGammaCdf (m i) (sd i) (δ i) τ)) (axesOf oi.avg) :=
  says_iff.2 (C130_announces_gamma (w1 := fun _ => w1) (fun _ => h) hE hL hpool
    ⟨fun _ => hsh, fun i hi _ => hy i hi, fun _ _ => measurable_const, fun _ _ _ => rfl⟩ (fun _ => htr) (fun _ => hmu)
    (fun _ => hsg) (fun _ => hsf) hv ha hemb trivial (τ := fun _ => τ) (fun _ _ => ⟨rfl, hτ⟩) (fun _ => hb) (fun _ => rfl) isOver)

/-- **C131**: what a hurdle verifier says -/
theorem C131_says_hurdle {ofNum : ℝ → A} {sh : List Nat} {oi o : Obj (ProbX ℝ)} {w w' w1 : World (PyVal ℝ)}
    (h : construct (hurdlePrims c F emb ofNum) mids oi w = (.ok o, w')) (hE : ExactLib F.scipy) (hL : UnitLib F.scipy)
    (hpool : PoolOK c.workers c.mapAxis sh)
    (hsh : oi.ext.o.shape = sh) {y : List Nat → ℝ} (hy : ∀ i, InB sh i → oi.ext.o.get i = some (y i))
    {pop mu sigma : NDArr (Fl ℝ)} (hpop : HasPar oi.ext "pop" pop) (hmu : HasPar oi.ext "mu" mu)
    (hsg : HasPar oi.ext "sigma" sigma) {p m sd : List Nat → ℝ} (hv : ∀ i, InB sh i → pop.get i = some (p i) ∧
      mu.get i = some (m i) ∧ sigma.get i = some (sd i) ∧ 0 ≤ p i ∧ p i ≤ 1 ∧ 0 < m i ∧ 0 < sd i)
    {a : A} (ha : Printable I a) {τ : ℝ} (hemb : emb a = .thr (.scalar (some τ))) (hτ : 0 ≤ τ) (hb : oi.boot = .none)
    (isOver : Bool) :
    Says sh y .hurdle I (hurdlePrims c F emb ofNum) mids (fun x => x.o) o w1 isOver a
      (fun i => beyondProb isOver (hurdleLaw (p i) (m i) (sd i) τ)) (axesOf oi.avg) :=
  says_iff.2 (C130_announces_hurdle (w1 := fun _ => w1) (fun _ => h) hE hL hpool
    ⟨fun _ => hsh, fun i hi _ => hy i hi, fun _ _ => measurable_const, fun _ _ _ => rfl⟩ (fun _ => hpop) (fun _ => hmu)
    (fun _ => hsg) hv ha hemb trivial (τ := fun _ => τ) (fun _ _ => ⟨rfl, hτ⟩) (fun _ => hb) (fun _ => rfl) isOver)

/-- **C131**: what an ensemble verifier says -/
theorem C131_says_ens {sh : List Nat} {oi o : Obj (EnsX ℝ)} {w w' w1 : World (PyVal ℝ)}
    (h : construct (ensPrims c emb) mids oi w = (.ok o, w')) (hb : oi.boot = .none) (hm : c.method = .moments) {ax : Int}
    (hax : o.ext.axis = some ax)
    (hsh : oi.ext.o.shape = sh) {y : List Nat → ℝ} (hy : ∀ i, InB sh i → oi.ext.o.get i = some (y i))
    {M : List Nat → List ℝ} (hM : ∀ i, InB sh i → membersAt oi.ext.f ax i = (M i).map some ∧ M i ≠ [])
    {a : A} (ha : Printable I a) {τ : ℝ} (hemb : emb a = .thr (.scalar (some τ))) (h0 : 0 ∉ sh)
    (isOver : Bool) :
    Says sh y .ensemble I (ensPrims c emb) mids (fun x => x.o) o w1 isOver a
      (fun i => avg ((M i).map fun x => (indicator (Counts isOver τ x) : ℝ))) (axesOf oi.avg) :=
  says_iff.2 (C130_announces_ens (w1 := fun _ => w1) (fun _ => h) (fun _ => hb) hm (fun _ => hax)
    ⟨fun _ => hsh, fun i hi _ => hy i hi, fun _ _ => measurable_const, fun _ _ _ => rfl⟩ (fun _ => hM)
    ha hemb trivial (τ := fun _ => τ) (fun _ _ => rfl) (fun _ => rfl) h0 isOver)

/-- **C131**, `brier(...)` of a verifier of any class that gives the probabilities `D` -/
theorem C131_brier (hQ : Shared c obs emb Q) {o : Nat → Ω → Obj X} {w : Nat → Ω → World (PyVal ℝ)} {isOver : Bool} {a : A}
    {D : List Nat → Ω → ℝ} {axes : Option (List Int)}
    (hp : ∀ n ω, Says (s.insertIdx t (n + 1)) (fun i => Y i ω) C I Q mids obs (o n ω) (w n ω) isOver a (fun i => D i ω) axes)
    (hD : ∀ i ω, 0 ≤ D i ω ∧ D i ω ≤ 1) {τ : ℝ} (hemb : emb a = .thr (.scalar (some τ))) (h0 : 0 ∉ s) (ht : t ≤ s.length)
    (hok : OptOK (s.length + 1) axes) (hn : nums (s.length + 1) axes = [t]) :
    ∃ r : Nat → Ω → NDArr (Fl ℝ),
      (∀ n ω, result C I Q mids (.slot (.brier (overArg isOver a) (belowArg isOver a))) (unsaved (o n ω)) (w n ω) =
        .ok (some (.num (r n ω)))) ∧
      ∀ k, InB s k → SameDays P (fun d ω => (D (k.insertIdx t d) ω, Y (k.insertIdx t d) ω)) →
        ∃ S : Nat → Ω → ℝ, (∀ n ω, (r n ω).get k = some (S n ω)) ∧ Settles P S
          (∫ ω, (D (k.insertIdx t 0) ω - (indicator (Beyond isOver τ (Y (k.insertIdx t 0)) ω) : ℝ)) ^ 2 ∂P) := by
  have main := fun n ω => brier_values hQ (says_iff.1 (hp n ω)) hemb trivial (τ := fun _ => τ) (fun _ _ => rfl)
    (by rw [days_length ht]; exact hok) (zero_notMem_days h0 t n) ()
  choose r r1 r2 r3 using main
  refine ⟨r, r1, fun k hk rep => ?_⟩
  have hg : Measurable fun p : ℝ × ℝ => (p.1 - (indicator (Beyond isOver τ (fun y : ℝ => y) p.2) : ℝ)) ^ 2 :=
    (measurable_fst.sub ((measurable_event isOver τ).comp measurable_snd)).pow_const 2
  refine settles_of_values (X := fun i ω => (D i ω - (indicator (Beyond isOver τ (Y i) ω) : ℝ)) ^ 2) ht hn r3 hk rep hg
    (fun _ _ => rfl) ?_
  have hm := (rep.same 0).aemeasurable_fst
  refine Integrable.of_bound (C := 1) (hg.comp_aemeasurable hm).aestronglyMeasurable (.of_forall fun ω => ?_)
  rw [Real.norm_of_nonneg (sq_nonneg _)]
  have := hD (k.insertIdx t 0) ω
  rcases indicator_or (Beyond isOver τ (Y (k.insertIdx t 0)) ω) with e | e <;> rw [e] <;> nlinarith

/-- **C131**, the verifier whose expected score of a day is smaller: with probability one, from some day on its score is
smaller. -/
theorem C131_better {S S' : Nat → Ω → ℝ} {l l' : ℝ} (h : Settles P S l) (h' : Settles P S' l') (hl : l < l') :
    ∀ᵐ ω ∂P, ∃ N, ∀ n, N ≤ n → S n ω < S' n ω := settles_lt h h' hl

/-- **C131**, a verifier that announces the distribution functions `G` that follow from all that is known, `K`, against one
that announces `F` and knows nothing else: with probability one, from some day on the first has the smaller score, unless
both announce the same. -/
theorem C131_best_crps {K : Ω → E} {y : Ω → ℝ} (hy : Measurable y) (hK : Measurable K) {F G : E → ℝ → ℝ} (hF : Family K F)
    (hG : Family K G) (h : LawGiven P K y G) (iF : ∀ ω, Integrable (crpsIntegrand (F (K ω)) (y ω)))
    (iG : ∀ ω, Integrable (crpsIntegrand (G (K ω)) (y ω))) (sF : Integrable (fun ω => crpsOf (F (K ω)) (y ω)) P)
    (sG : Integrable (fun ω => crpsOf (G (K ω)) (y ω)) P)
    (rF : ∀ ω x, ContinuousWithinAt (F (K ω)) (Set.Ici x) x) (rG : ∀ ω x, ContinuousWithinAt (G (K ω)) (Set.Ici x) x)
    (hne : ¬ ∀ᵐ ω ∂P, F (K ω) = G (K ω)) {S S' : Nat → Ω → ℝ}
    (hS : Settles P S (∫ ω, crpsOf (G (K ω)) (y ω) ∂P)) (hS' : Settles P S' (∫ ω, crpsOf (F (K ω)) (y ω) ∂P)) :
    ∀ᵐ ω ∂P, ∃ N, ∀ n, N ≤ n → S n ω < S' n ω := by
  obtain ⟨h1, h2⟩ := given_crps hy hK hF hG h iF iG sF sG
  refine settles_lt hS hS' ?_
  have : ∀ ω, Integrable fun x => (F (K ω) x - G (K ω) x) ^ 2 := by
    intro ω
    have hm : ∀ {F : E → ℝ → ℝ}, Family K F → Measurable fun x => F (K ω) x := fun hF =>
      hF.meas.comp (measurable_const.prodMk measurable_id)
    refine (((iF ω).const_mul 2).add ((iG ω).const_mul 2)).mono (((hm hF).sub (hm hG)).pow_const 2).aestronglyMeasurable
      (.of_forall fun x => ?_)
    rw [Real.norm_of_nonneg (sq_nonneg _), Pi.add_apply, Real.norm_of_nonneg (add_nonneg
      (mul_nonneg two_pos.le (crpsIntegrand_nonneg _ _ _)) (mul_nonneg two_pos.le (crpsIntegrand_nonneg _ _ _)))]
    unfold crpsIntegrand
    nlinarith [sq_nonneg (F (K ω) x + G (K ω) x - 2 * if y ω ≤ x then (1 : ℝ) else 0)]
  have := given_crps_lt h1 this rF rG hne
  linarith

/-- **C131**, the same for probabilities and the Brier score -/
theorem C131_best_brier {K : Ω → E} {y : Ω → ℝ} (hy : Measurable y) (hK : Measurable K) {isOver : Bool} {τ : ℝ} {p q : E → ℝ}
    (hp : Measurable p) (hu : ∀ ω, 0 ≤ p (K ω) ∧ p (K ω) ≤ 1) (h : ProbGiven P K {ω | Beyond isOver τ y ω} p)
    (hq : Measurable q) (hv : ∀ ω, 0 ≤ q (K ω) ∧ q (K ω) ≤ 1) (hne : ¬ ∀ᵐ ω ∂P, q (K ω) = p (K ω)) {S S' : Nat → Ω → ℝ}
    (hS : Settles P S (∫ ω, (p (K ω) - (indicator (Beyond isOver τ y ω) : ℝ)) ^ 2 ∂P))
    (hS' : Settles P S' (∫ ω, (q (K ω) - (indicator (Beyond isOver τ y ω) : ℝ)) ^ 2 ∂P)) :
    ∀ᵐ ω ∂P, ∃ N, ∀ n, N ≤ n → S n ω < S' n ω := by
  classical
  have := given_square (measurableSet_beyond isOver τ hy) hK hp hu h hq hv
  simp only [indicator_set (fun ω => Beyond isOver τ y ω)] at hS hS'
  refine settles_lt hS hS' ?_
  have hi : Integrable (fun ω => (q (K ω) - p (K ω)) ^ 2) P := by
    refine bounded_integrable (((hq.comp hK).sub (hp.comp hK)).pow_const 2) (c := 1) fun ω => ?_
    rw [abs_of_nonneg (sq_nonneg _)]
    have h1 := hv ω
    have h2 := hu ω
    nlinarith
  have hpos : 0 < ∫ ω, (q (K ω) - p (K ω)) ^ 2 ∂P := by
    refine lt_of_le_of_ne (integral_nonneg fun ω => sq_nonneg _) fun h => hne ?_
    filter_upwards [(integral_eq_zero_iff_of_nonneg (fun ω => sq_nonneg _) hi).1 h.symm] with ω hω
    exact sub_eq_zero.1 (pow_eq_zero_iff two_ne_zero |>.1 hω)
  linarith

theorem gauss_family {K : Ω → E} {tr : Bool} {m sd : E → ℝ} (hm : Measurable m) (hs : Measurable sd)
    (hpos : ∀ ω, 0 < sd (K ω)) : Family K (fun e => gaussLaw tr (m e) (sd e)) ∧
      (∀ ω x, ContinuousWithinAt (gaussLaw tr (m (K ω)) (sd (K ω))) (Set.Ici x) x) ∧
      ∀ ω y, Integrable (crpsIntegrand (gaussLaw tr (m (K ω)) (sd (K ω))) y) := by
  have hf : Measurable fun p : E × ℝ => ((m p.1, sd p.1), p.2) :=
    ((hm.comp measurable_fst).prodMk (hs.comp measurable_fst)).prodMk measurable_snd
  have hc := Measurable.comp (g := fun p : (ℝ × ℝ) × ℝ => gaussLaw tr p.1.1 p.1.2 p.2) (measurable_gaussLaw tr) hf
  refine ⟨⟨hc, fun ω x => ?_⟩, fun ω x => ?_, fun ω y => ?_⟩ <;> cases tr
  · exact ⟨(unit_normal _ _).lo x, (unit_normal _ _).hi x⟩
  · exact ⟨(unit_trunc _ (hpos ω) 0).lo x, (unit_trunc _ (hpos ω) 0).hi x⟩
  · exact (continuous_normalCdf _ _).continuousWithinAt
  · exact trunc_right _ _ _ _
  · exact (crps_normal _ _ _ (hpos ω)).1
  · exact (crps_trunc _ _ 0 _ (hpos ω)).1

/-- **C131**, two Gaussian archives of the same observations. The first announces the distributions that follow from all
parameters of both. Then, with probability one, from some day on its `crps()` is smaller than that of the second, unless the
parameters are the same with probability one. -/
theorem C131_best_gauss (hP : F.psGaussian = psGaussianElem realGauss) (hG : F.gauss = realGauss) {tr : Bool}
    {oi o oi' o' : Nat → Ω → Obj (ProbX ℝ)} {m sd m' sd' : List Nat → Ω → ℝ} {a : PyAxis}
    (g : GaussArchive c F emb mids s t tr oi o m sd Y a) (g' : GaussArchive c F emb mids s t tr oi' o' m' sd' Y a)
    {w1 : Nat → Ω → World (PyVal ℝ)} (h0 : 0 ∉ s) (ht : t ≤ s.length)
    (hok : OptOK (s.length + 1) (axesOf a)) (hn : nums (s.length + 1) (axesOf a) = [t]) :
    ∃ r r' : Nat → Ω → NDArr (Fl ℝ),
      (∀ n ω, result .gaussian I (gaussPrims c F emb) mids (.slot .crps) (unsaved (o n ω)) (w1 n ω) =
        .ok (some (.num (r n ω)))) ∧
      (∀ n ω, result .gaussian I (gaussPrims c F emb) mids (.slot .crps) (unsaved (o' n ω)) (w1 n ω) =
        .ok (some (.num (r' n ω)))) ∧
      ∀ k, InB s k →
        let K := fun d ω => ((m (k.insertIdx t d) ω, sd (k.insertIdx t d) ω), (m' (k.insertIdx t d) ω, sd' (k.insertIdx t d) ω))
        SameDays P (fun d ω => (K d ω, Y (k.insertIdx t d) ω)) →
        LawGiven P (K 0) (Y (k.insertIdx t 0)) (fun e => gaussLaw tr e.1.1 e.1.2) →
        Integrable (fun ω => crpsOf (gaussLaw tr (K 0 ω).1.1 (K 0 ω).1.2) (Y (k.insertIdx t 0) ω)) P →
        Integrable (fun ω => crpsOf (gaussLaw tr (K 0 ω).2.1 (K 0 ω).2.2) (Y (k.insertIdx t 0) ω)) P →
        (¬ ∀ᵐ ω ∂P, (K 0 ω).2 = (K 0 ω).1) →
        ∃ S S' : Nat → Ω → ℝ, (∀ n ω, (r n ω).get k = some (S n ω) ∧ (r' n ω).get k = some (S' n ω)) ∧
          ∀ᵐ ω ∂P, ∃ N, ∀ n, N ≤ n → S n ω < S' n ω := by
  obtain ⟨r, r1, r2⟩ := C131_crps_gauss (I := I) (P := P) (w1 := w1) hP hG g h0 ht hok hn
  obtain ⟨r', r1', r2'⟩ := C131_crps_gauss (I := I) (P := P) (w1 := w1) hP hG g' h0 ht hok hn
  refine ⟨r, r', r1, r1', fun k hk rep law i1 i2 hne => ?_⟩
  obtain ⟨S, s1, s2⟩ := r2 k hk (repeats_comp rep (g := fun p : ((ℝ × ℝ) × (ℝ × ℝ)) × ℝ => (p.1.1, p.2)) (by fun_prop)) i1
  obtain ⟨S', s1', s2'⟩ := r2' k hk (repeats_comp rep (g := fun p : ((ℝ × ℝ) × (ℝ × ℝ)) × ℝ => (p.1.2, p.2)) (by fun_prop)) i2
  refine ⟨S, S', fun n ω => ⟨s1 n ω, s1' n ω⟩, ?_⟩
  have hK := measurable_fst.comp (rep.meas 0)
  have hy := measurable_snd.comp (rep.meas 0)
  obtain ⟨f1, f2, f3⟩ := gauss_family (K := fun ω => ((m (k.insertIdx t 0) ω, sd (k.insertIdx t 0) ω),
      (m' (k.insertIdx t 0) ω, sd' (k.insertIdx t 0) ω))) (tr := tr) (m := fun e : (ℝ × ℝ) × (ℝ × ℝ) => e.1.1)
    (sd := fun e => e.1.2) (by fun_prop) (by fun_prop) (fun ω => g.pos _ ω)
  obtain ⟨f1', f2', f3'⟩ := gauss_family (K := fun ω => ((m (k.insertIdx t 0) ω, sd (k.insertIdx t 0) ω),
      (m' (k.insertIdx t 0) ω, sd' (k.insertIdx t 0) ω))) (tr := tr) (m := fun e : (ℝ × ℝ) × (ℝ × ℝ) => e.2.1)
    (sd := fun e => e.2.2) (by fun_prop) (by fun_prop) (fun ω => g'.pos _ ω)
  refine C131_best_crps hy hK f1' f1 law (fun ω => f3' ω _) (fun ω => f3 ω _) i2 i1 f2' f2 (fun h => hne ?_) s2 s2'
  filter_upwards [h] with ω hω
  obtain ⟨e1, e2⟩ := (gaussLaw_inj (g'.pos _ ω) (g.pos _ ω)).1 hω
  exact Prod.ext e1 e2

/-- what makes the expected scores of untruncated Gaussian forecasts finite -/
theorem C131_finite_gauss {m sd y : Ω → ℝ} (hm : Measurable m) (hs : Measurable sd) (hy : Measurable y) (hpos : ∀ ω, 0 < sd ω)
    (i1 : Integrable (fun ω => y ω - m ω) P) (i2 : Integrable sd P) :
    Integrable (fun ω => crpsOf (gaussLaw false (m ω) (sd ω)) (y ω)) P := by
  have hf : Measurable fun ω => ((m ω, sd ω), y ω) := (hm.prodMk hs).prodMk hy
  have hl := measurable_crpsOf (L := fun θ : ℝ × ℝ => gaussLaw false θ.1 θ.2) (measurable_gaussLaw false)
  have hc := Measurable.comp (g := fun p : (ℝ × ℝ) × ℝ => crpsOf (gaussLaw false p.1.1 p.1.2) p.2) hl hf
  refine (i1.abs.add (i2.const_mul |plainCrps 0|)).mono hc.aestronglyMeasurable (.of_forall fun ω => ?_)
  have h1 := crps_normal (m ω) (sd ω) (m ω) (hpos ω)
  have h2 := (integrable_move (unit_normal (m ω) (sd ω)) h1.1 (y ω)).2
  have h3 : 0 ≤ crpsOf (normalCdf (m ω) (sd ω)) (y ω) := integral_nonneg fun x => crpsIntegrand_nonneg _ _ _
  rw [h1.2, sub_self, zero_div] at h2
  have h4 := hpos ω
  have h5 := le_abs_self (plainCrps 0)
  have h6 := (abs_le.1 h2).2
  rw [Real.norm_of_nonneg (by exact h3), Pi.add_apply, Real.norm_of_nonneg (by positivity)]
  show crpsOf (normalCdf (m ω) (sd ω)) (y ω) ≤ _
  nlinarith

/-- what makes the expected score of one and the same law finite -/
theorem C131_finite_fixed {F : ℝ → ℝ} (hF : UnitFn F) {z : ℝ} (h : Integrable (crpsIntegrand F z)) {y : Ω → ℝ}
    (hy : Integrable y P) : Integrable (fun ω => crpsOf F (y ω)) P := by
  have hc : Continuous (crpsOf F) := by
    refine (LipschitzWith.of_dist_le_mul (K := 1) fun a b => ?_).continuous
    rw [NNReal.coe_one, one_mul, Real.dist_eq, Real.dist_eq]
    exact (integrable_move hF (integrable_move hF h b).1 a).2
  refine (hy.abs.add (integrable_const (|z| + |crpsOf F z|))).mono (hc.comp_aestronglyMeasurable hy.aestronglyMeasurable)
    (.of_forall fun ω => ?_)
  have h1 := (integrable_move hF h (y ω)).2
  have h2 := abs_sub (y ω) z
  have h3 := abs_sub_abs_le_abs_sub (crpsOf F (y ω)) (crpsOf F z)
  rw [Real.norm_eq_abs, Pi.add_apply, Real.norm_of_nonneg (by positivity)]
  linarith

end Props
