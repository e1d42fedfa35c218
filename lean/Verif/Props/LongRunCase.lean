import Verif.Props.LongRun
import Verif.Props.ConcentrationCase
import Mathlib.Probability.Independence.InfinitePi

/-! # Concrete cases for C131 -/

namespace Props
open Np NDArr Model Spec Lemmas MeasureTheory ProbabilityTheory

/-- every day a signal and a noise, independent standard normal numbers -/
noncomputable def dayLaw : Measure (ℝ × ℝ) := stdNormal.prod stdNormal

instance : IsProbabilityMeasure dayLaw := by unfold dayLaw; infer_instance

/-- the days -/
noncomputable def days : Measure (ℕ → ℝ × ℝ) := Measure.infinitePi fun _ => dayLaw

instance : IsProbabilityMeasure days := by unfold days; infer_instance

theorem day_preserving (d : ℕ) : MeasurePreserving (fun ω : ℕ → ℝ × ℝ => ω d) days dayLaw :=
  measurePreserving_eval_infinitePi (fun _ => dayLaw) d

theorem days_repeat {E : Type} [MeasurableSpace E] {g : ℝ × ℝ → E} (hg : Measurable g) : SameDays days fun d ω => g (ω d) := by
  have h : SameDays days (fun d ω => ω d : ℕ → (ℕ → ℝ × ℝ) → ℝ × ℝ) := by
    refine ⟨fun d => measurable_pi_apply d, ?_, fun d => ⟨(measurable_pi_apply d).aemeasurable,
      (measurable_pi_apply 0).aemeasurable, ?_⟩⟩
    · have := iIndepFun_infinitePi (P := fun _ : ℕ => dayLaw) (X := fun _ (x : ℝ × ℝ) => x) fun _ => measurable_id
      exact fun d e hde => this.indepFun hde
    · rw [(day_preserving d).map_eq, (day_preserving 0).map_eq]
  exact repeats_comp h hg

/-- what someone who knows the signal knows about the day -/
theorem day_prob {E : Type} [MeasurableSpace E] {k : ℝ → E} (hk : Measurable k) {S : Set (ℝ × ℝ)} (hS : MeasurableSet S)
    {p : E → ℝ} (hp : Measurable p) (law : ∀ x, stdNormal.real {ε | (x, ε) ∈ S} = p (k x)) :
    ProbGiven days (fun ω => k (ω 0).1) {ω | ω 0 ∈ S} p := by
  intro B hB
  have hT : MeasurableSet {q : ℝ × ℝ | k q.1 ∈ B ∧ q ∈ S} := ((hk.comp measurable_fst) hB).inter hS
  have h1 : days.real ((fun ω : ℕ → ℝ × ℝ => k (ω 0).1) ⁻¹' B ∩ {ω | ω 0 ∈ S}) = dayLaw.real {q : ℝ × ℝ | k q.1 ∈ B ∧ q ∈ S} := by
    rw [← (day_preserving 0).measureReal_preimage hT.nullMeasurableSet]
    rfl
  have hf : Measurable fun q : ℝ × ℝ => (k ⁻¹' B).indicator (fun x => p (k x)) q.1 :=
    ((hp.comp hk).indicator (hk hB)).comp measurable_fst
  have h2 : ∫ ω in (fun ω : ℕ → ℝ × ℝ => k (ω 0).1) ⁻¹' B, p (k (ω 0).1) ∂days =
      ∫ q, (k ⁻¹' B).indicator (fun x => p (k x)) q.1 ∂dayLaw := by
    rw [← (day_preserving 0).map_eq, integral_map (measurable_pi_apply 0).aemeasurable hf.aestronglyMeasurable,
      ← integral_indicator (measurableSet_preimage (f := fun ω : ℕ → ℝ × ℝ => k (ω 0).1)
        (hk.comp (measurable_fst.comp (day_preserving 0).measurable)) hB)]
    rfl
  have hbd : ∀ q : ℝ × ℝ, |(k ⁻¹' B).indicator (fun x => p (k x)) q.1| ≤ 1 := by
    intro q
    by_cases hq : q.1 ∈ k ⁻¹' B
    · rw [Set.indicator_of_mem hq, ← law, abs_of_nonneg measureReal_nonneg]
      exact measureReal_le_one
    · rw [Set.indicator_of_notMem hq, abs_zero]
      exact zero_le_one
  rw [h1, h2, ← integral_indicator_one hT]
  unfold dayLaw
  rw [integral_prod (fun q => {q : ℝ × ℝ | k q.1 ∈ B ∧ q ∈ S}.indicator (1 : ℝ × ℝ → ℝ) q)
      ((integrable_const (1 : ℝ)).indicator hT), integral_prod _ (bounded_integrable hf hbd)]
  refine integral_congr_ae (.of_forall fun x => ?_)
  simp only [integral_const, probReal_univ, smul_eq_mul, one_mul]
  by_cases hx : x ∈ k ⁻¹' B
  · rw [Set.indicator_of_mem hx, ← law x, ← integral_indicator_one (s := {ε | (x, ε) ∈ S}) (measurable_prodMk_left hS)]
    refine integral_congr_ae (.of_forall fun ε => ?_)
    have : k x ∈ B := hx
    by_cases hS' : (x, ε) ∈ S <;> simp [Set.indicator, this, hS']
  · rw [Set.indicator_of_notMem hx]
    refine integral_eq_zero_of_ae (.of_forall fun ε => ?_)
    have : k x ∉ B := hx
    simp [Set.indicator, this]

theorem day_law {E : Type} [MeasurableSpace E] {k : ℝ → E} (hk : Measurable k) {h : ℝ × ℝ → ℝ} (hh : Measurable h)
    {G : E → ℝ → ℝ} (hG : ∀ z, Measurable fun e => G e z)
    (law : ∀ x z, stdNormal.real {ε | h (x, ε) ≤ z} = G (k x) z) :
    LawGiven days (fun ω => k (ω 0).1) (fun ω => h (ω 0)) G :=
  fun z => day_prob hk (measurableSet_le hh measurable_const) (hG z) fun x => law x z

/-- the array of the first `n + 1` days -/
noncomputable def dayArr (f : ℝ × ℝ → ℝ) (n : ℕ) (ω : ℕ → ℝ × ℝ) : NDArr (Fl ℝ) :=
  ofFn [n + 1] fun i => some (f (ω (i.headD 0)))

theorem dayArr_recorded (f : ℝ × ℝ → ℝ) : Recorded [] 0 (dayArr f) fun i ω => f (ω (i.headD 0)) :=
  ⟨fun _ _ => rfl, fun _ _ _ hi => get_ofFn _ hi⟩

/-- Gaussian verifiers of the sums of signal and noise that announce mean `m` and standard deviation `s` of the signal -/
noncomputable def dayGauss (m s : ℝ → ℝ) (n : ℕ) (ω : ℕ → ℝ × ℝ) : Obj (ProbX ℝ) :=
  probObj { gaussX false with
    f := [("mu", dayArr (fun p => m p.1) n ω), ("sigma", dayArr (fun p => s p.1) n ω)]
    o := dayArr (fun p => p.1 + p.2) n ω
    members := .none }

theorem dayGauss_archive (c : Cfg ℝ) (m : ℝ → ℝ) {s : ℝ → ℝ} (hs : ∀ x, 0 < s x) : GaussArchive c (fnsPit 0) embBoth noMids []
    0 false (dayGauss m s) (dayGauss m s) (fun i ω => m (ω (i.headD 0)).1) (fun i ω => s (ω (i.headD 0)).1)
    (fun i ω => (ω (i.headD 0)).1 + (ω (i.headD 0)).2) .none where
  made n ω := by
    refine ⟨world0, world0, ?_⟩
    simp [construct, validate, validateAxis, validateSaving, dayGauss, probObj, gaussPrims, probPrims, gaussX, probSettingsOK,
      dictOK, dayArr, ProbX.hasKey]
    rfl
  observed := dayArr_recorded fun p => p.1 + p.2
  truncated _ _ := rfl
  mu := ⟨_, fun _ _ => ⟨rfl, rfl⟩, dayArr_recorded fun p => m p.1⟩
  sigma := ⟨_, fun _ _ => ⟨rfl, rfl⟩, dayArr_recorded fun p => s p.1⟩
  pos _ _ := hs _
  avg _ _ := rfl
  boot _ _ := rfl

theorem dayGauss_says {c : Cfg ℝ} {m s : ℝ → ℝ} {o : ℕ → (ℕ → ℝ × ℝ) → Obj (ProbX ℝ)}
    (g : GaussArchive c (fnsPit 0) embBoth noMids [] 0 false (dayGauss m s) o (fun i ω => m (ω (i.headD 0)).1)
      (fun i ω => s (ω (i.headD 0)).1) (fun i ω => (ω (i.headD 0)).1 + (ω (i.headD 0)).2) .none) (n : ℕ) (ω : ℕ → ℝ × ℝ)
    (hw : c.workers = 1 := by rfl) :
    Says (([] : List Nat).insertIdx 0 (n + 1)) (fun i => (ω (i.headD 0)).1 + (ω (i.headD 0)).2) .gaussian bothInfo
      (gaussPrims c (fnsPit 0) embBoth) noMids (fun x => x.o) (o n ω) world0 true (.inl 0)
      (fun i => beyondProb true (gaussLaw false (m (ω (i.headD 0)).1) (s (ω (i.headD 0)).1) 0)) none := by
  obtain ⟨w, w', h⟩ := g.made n ω
  obtain ⟨mu, hmu, h1⟩ := g.mu
  obtain ⟨sigma, hsg, h2⟩ := g.sigma
  exact C131_says_gauss (I := bothInfo) h realLib_exact realLib_unit (.inl ⟨by simp [hw], by simp⟩) (g.observed.shape n ω)
    (g.observed.value n ω) (g.truncated n ω) (hmu n ω) (hsg n ω)
    (fun i hi => ⟨h1.value n ω i hi, h2.value n ω i hi, g.pos i ω⟩) (a := .inl 0) (by simp [Printable, bothInfo]) rfl
    (g.boot n ω) true

theorem stdNormal_shift (x z : ℝ) : stdNormal.real {ε | x + ε ≤ z} = normalCdf x 1 z := by
  have := stdNormal_law x one_pos z
  simpa using this

theorem integrable_stdNormal : Integrable (fun x : ℝ => x) stdNormal := by
  simpa using stdNormal_mean 0 1

theorem integrable_noise : Integrable (fun ω : ℕ → ℝ × ℝ => (ω 0).2) days := by
  have h1 : Integrable (fun p : ℝ × ℝ => p.2) dayLaw := integrable_stdNormal.comp_snd stdNormal
  exact (day_preserving 0).integrable_comp_of_integrable h1

theorem integrable_signal : Integrable (fun ω : ℕ → ℝ × ℝ => (ω 0).1) days := by
  have h1 : Integrable (fun p : ℝ × ℝ => p.1) dayLaw := integrable_stdNormal.comp_fst stdNormal
  exact (day_preserving 0).integrable_comp_of_integrable h1

theorem signal_varies (μ : ℝ) : ¬ ∀ᵐ ω ∂days, (ω 0).1 = μ := by
  intro h
  have h1 : days.real {ω | (ω 0).1 ≤ μ} = normalCdf 0 1 μ := by
    have hm : MeasurableSet {p : ℝ × ℝ | p.1 ≤ μ} := measurableSet_le measurable_fst measurable_const
    have e : {p : ℝ × ℝ | p.1 ≤ μ} = {x | x ≤ μ} ×ˢ Set.univ := by ext p; simp
    rw [← stdNormal_law 0 one_pos μ, show {ω : ℕ → ℝ × ℝ | (ω 0).1 ≤ μ} = (fun ω => ω 0) ⁻¹' {p : ℝ × ℝ | p.1 ≤ μ} from rfl,
      (day_preserving 0).measureReal_preimage hm.nullMeasurableSet, e, dayLaw, measureReal_prod_prod]
    simp
  have h2 : days.real {ω | (ω 0).1 ≤ μ} = 1 := by
    rw [← probReal_univ (μ := days)]
    refine measureReal_congr ?_
    filter_upwards [h] with ω hω
    exact propext ⟨fun _ => trivial, fun _ => hω.le⟩
  have := Phi_lt_one ((μ - 0) / 1)
  rw [h1, normalCdf] at h2
  linarith

/-- Every day the observation is the sum of a signal and a noise. The verifier that announces the signal as mean and the
standard deviation 1 has, with probability one, from some day on a smaller `crps()` than one that announces the mean `μ` and
the standard deviation `σ` every day, whatever they are. -/
example (μ : ℝ) {σ : ℝ} (hσ : 0 < σ) : ∃ o o' r r' : ℕ → (ℕ → ℝ × ℝ) → _,
    (∀ n ω, ∃ w w', construct (gaussPrims caseCfg (fnsPit 0) embBoth) noMids (dayGauss (fun x => x) (fun _ => 1) n ω) w =
      (.ok (o n ω), w')) ∧
    (∀ n ω, ∃ w w', construct (gaussPrims caseCfg (fnsPit 0) embBoth) noMids (dayGauss (fun _ => μ) (fun _ => σ) n ω) w =
      (.ok (o' n ω), w')) ∧
    (∀ n ω, result .gaussian bothInfo (gaussPrims caseCfg (fnsPit 0) embBoth) noMids (.slot .crps) (unsaved (o n ω)) world0 =
      .ok (some (.num (r n ω)))) ∧
    (∀ n ω, result .gaussian bothInfo (gaussPrims caseCfg (fnsPit 0) embBoth) noMids (.slot .crps) (unsaved (o' n ω)) world0 =
      .ok (some (.num (r' n ω)))) ∧
    ∃ S S' : ℕ → (ℕ → ℝ × ℝ) → ℝ, (∀ n ω, (r n ω).get [] = some (S n ω) ∧ (r' n ω).get [] = some (S' n ω)) ∧
      ∀ᵐ ω ∂days, ∃ N, ∀ n, N ≤ n → S n ω < S' n ω := by
  have g := dayGauss_archive caseCfg (fun x => x) (s := fun _ => 1) fun _ => one_pos
  have g' := dayGauss_archive caseCfg (fun _ => μ) (s := fun _ => σ) fun _ => hσ
  obtain ⟨r, r', r1, r2, r3⟩ := C131_best_gauss (I := bothInfo) (P := days) (w1 := fun _ _ => world0) rfl rfl g g' (by simp)
    le_rfl trivial rfl
  refine ⟨_, _, r, r', g.made, g'.made, r1, r2, r3 [] (by decide) ?_ ?_ ?_ ?_ ?_⟩
  · exact days_repeat (g := fun p : ℝ × ℝ => (((p.1, (1 : ℝ)), ((μ : ℝ), (σ : ℝ))), p.1 + p.2)) (by fun_prop)
  · refine day_law (k := fun x : ℝ => ((x, (1 : ℝ)), ((μ : ℝ), (σ : ℝ)))) (h := fun p => p.1 + p.2) (by fun_prop)
      (by fun_prop) (fun z => ?_) fun x z => stdNormal_shift x z
    exact (measurable_gaussLaw false).comp (g := fun p : (ℝ × ℝ) × ℝ => gaussLaw false p.1.1 p.1.2 p.2)
      (f := fun e : (ℝ × ℝ) × (ℝ × ℝ) => (e.1, z)) (measurable_fst.prodMk measurable_const)
  · refine C131_finite_gauss (m := fun ω : ℕ → ℝ × ℝ => (ω 0).1) (sd := fun _ => 1) (y := fun ω => (ω 0).1 + (ω 0).2)
      (by fun_prop) (by fun_prop) (by fun_prop) (fun _ => one_pos) ?_ (integrable_const 1)
    simpa only [add_sub_cancel_left] using integrable_noise
  · exact C131_finite_gauss (m := fun ω : ℕ → ℝ × ℝ => μ) (sd := fun _ => σ) (y := fun ω => (ω 0).1 + (ω 0).2)
      (by fun_prop) (by fun_prop) (by fun_prop) (fun _ => hσ)
      ((integrable_signal.add integrable_noise).sub (integrable_const μ)) (integrable_const σ)
  · intro h
    exact signal_varies μ (by filter_upwards [h] with ω hω using (congrArg Prod.fst hω).symm)

/-- The same for probabilities: `brier(over=0)` of the verifier that announces the signal as mean settles at a smaller number
than that of a verifier that announces the mean `μ` and standard deviation `σ` every day. -/
example (μ : ℝ) {σ : ℝ} (hσ : 0 < σ) : ∃ o o' r r' : ℕ → (ℕ → ℝ × ℝ) → _,
    (∀ n ω, ∃ w w', construct (gaussPrims caseCfg (fnsPit 0) embBoth) noMids (dayGauss (fun x => x) (fun _ => 1) n ω) w =
      (.ok (o n ω), w')) ∧
    (∀ n ω, ∃ w w', construct (gaussPrims caseCfg (fnsPit 0) embBoth) noMids (dayGauss (fun _ => μ) (fun _ => σ) n ω) w =
      (.ok (o' n ω), w')) ∧
    (∀ n ω, result .gaussian bothInfo (gaussPrims caseCfg (fnsPit 0) embBoth) noMids (.slot (.brier (some (.inl 0)) none))
      (unsaved (o n ω)) world0 = .ok (some (.num (r n ω)))) ∧
    (∀ n ω, result .gaussian bothInfo (gaussPrims caseCfg (fnsPit 0) embBoth) noMids (.slot (.brier (some (.inl 0)) none))
      (unsaved (o' n ω)) world0 = .ok (some (.num (r' n ω)))) ∧
    ∃ S S' : ℕ → (ℕ → ℝ × ℝ) → ℝ, (∀ n ω, (r n ω).get [] = some (S n ω) ∧ (r' n ω).get [] = some (S' n ω)) ∧
      ∀ᵐ ω ∂days, ∃ N, ∀ n, N ≤ n → S n ω < S' n ω := by
  have g := dayGauss_archive caseCfg (fun x => x) (s := fun _ => 1) fun _ => one_pos
  have g' := dayGauss_archive caseCfg (fun _ => μ) (s := fun _ => σ) fun _ => hσ
  obtain ⟨r, r1, r2⟩ := C131_brier (P := days) (shared_gauss caseCfg (fnsPit 0) embBoth).base
    (fun n ω => dayGauss_says g n ω) (fun i ω => beyondProb_unit ((unit_normal _ _).lo _) ((unit_normal _ _).hi _)) rfl (by simp)
    le_rfl trivial rfl
  obtain ⟨r', r1', r2'⟩ := C131_brier (P := days) (shared_gauss caseCfg (fnsPit 0) embBoth).base
    (fun n ω => dayGauss_says g' n ω) (fun i ω => beyondProb_unit ((unit_normal _ _).lo _) ((unit_normal _ _).hi _)) rfl (by simp)
    le_rfl trivial rfl
  have hm : ∀ {m s : ℝ → ℝ}, Measurable m → Measurable s → Measurable fun x => beyondProb true (gaussLaw false (m x) (s x) 0) := by
    intro m s hm hs
    have := (measurable_gaussLaw false).comp (g := fun p : (ℝ × ℝ) × ℝ => gaussLaw false p.1.1 p.1.2 p.2)
      (f := fun x : ℝ => ((m x, s x), (0 : ℝ))) (by fun_prop)
    exact measurable_const.sub this
  obtain ⟨S, s1, s2⟩ := r2 [] (by decide) (days_repeat (g := fun p : ℝ × ℝ =>
    (beyondProb true (gaussLaw false p.1 1 0), p.1 + p.2)) (((hm measurable_id measurable_const).comp measurable_fst).prodMk
      (by fun_prop)))
  obtain ⟨S', s1', s2'⟩ := r2' [] (by decide) (days_repeat (g := fun p : ℝ × ℝ =>
    (beyondProb true (gaussLaw false μ σ 0), p.1 + p.2)) (measurable_const.prodMk (by fun_prop)))
  refine ⟨_, _, r, r', g.made, g'.made, r1, r1', S, S', fun n ω => ⟨s1 n ω, s1' n ω⟩, ?_⟩
  refine C131_best_brier (K := fun ω : ℕ → ℝ × ℝ => (ω 0).1) (y := fun ω => (ω 0).1 + (ω 0).2) (by fun_prop) (by fun_prop)
    (hm measurable_id measurable_const) (fun ω => beyondProb_unit ((unit_normal _ _).lo _) ((unit_normal _ _).hi _))
    (isOver := true) (τ := 0) ?_ (measurable_const (a := beyondProb true (gaussLaw false μ σ 0)))
    (fun ω => beyondProb_unit ((unit_normal _ _).lo _) ((unit_normal _ _).hi _)) (fun h => ?_) s2 s2'
  · refine day_prob (k := fun x => x) (S := {q | 0 < q.1 + q.2}) measurable_id (measurableSet_lt (by fun_prop) (by fun_prop))
      (hm measurable_id measurable_const) fun x => ?_
    have : {ε : ℝ | (x, ε) ∈ {q : ℝ × ℝ | 0 < q.1 + q.2}} = {ε | x + ε ≤ 0}ᶜ := by
      ext ε
      simp
    rw [this, probReal_compl_eq_one_sub (measurableSet_le (by fun_prop) (by fun_prop)), stdNormal_shift]
    rfl
  · refine signal_varies (μ / σ) ?_
    filter_upwards [h] with ω hω
    simp only [beyondProb, gaussLaw, normalCdf, if_true, Bool.false_eq_true, if_false, sub_right_inj, id_eq] at hω
    have := strictMono_Phi.injective hω
    rw [div_one] at this
    linarith [show (0 - μ) / σ = - (μ / σ) by ring]

/-- The errors of the verifier that announces the signal as mean: `error()` settles at 0 and `rmse()` at 1. -/
example : ∃ o e r : ℕ → (ℕ → ℝ × ℝ) → _,
    (∀ n ω, ∃ w w', construct (gaussPrims cfgR (fnsPit 0) embBoth) noMids (dayGauss (fun x => x) (fun _ => 1) n ω) w =
      (.ok (o n ω), w')) ∧
    (∀ n ω, result .gaussian bothInfo (gaussPrims cfgR (fnsPit 0) embBoth) noMids (.slot .error) (unsaved (o n ω)) world0 =
      .ok (some (.num (e n ω)))) ∧
    (∀ n ω, result .gaussian bothInfo (gaussPrims cfgR (fnsPit 0) embBoth) noMids .rmse (unsaved (o n ω)) world0 =
      .ok (some (.num (r n ω)))) ∧
    ∃ S S' : ℕ → (ℕ → ℝ × ℝ) → ℝ, (∀ n ω, (e n ω).get [] = some (S n ω) ∧ (r n ω).get [] = some (S' n ω)) ∧
      Settles days S 0 ∧ Settles days S' 1 := by
  have g := dayGauss_archive cfgR (fun x => x) (s := fun _ => 1) fun _ => one_pos
  have hf : ∀ n ω, result .gaussian bothInfo (gaussPrims cfgR (fnsPit 0) embBoth) noMids (.slot .fDeterm)
      (unsaved (dayGauss (fun x => x) (fun _ => 1) n ω)) world0 = .ok (some (.num (dayArr (fun p => p.1) n ω))) := by
    intro n ω
    obtain ⟨w, w', h⟩ := g.made n ω
    obtain ⟨mu, _, _, _, _, _, _, h1, -, h2, -⟩ := C76_gauss_errors (I := bothInfo) h rfl trivial world0
    have : mu = dayArr (fun p => p.1) n ω := (Option.some.inj h1.1).symm
    rw [h2, this]
  obtain ⟨e, a, q, r, r1, r2⟩ := C131_errors (P := days) (s := []) (t := 0) (shared_gauss cfgR (fnsPit 0) embBoth).base
    isSqrt_real hf (dayArr_recorded fun p => p.1) (dayArr_recorded fun p => p.1 + p.2) (w1 := fun _ _ => world0) (axes := none)
    (fun _ _ => rfl) (fun _ _ => rfl) (by simp) le_rfl trivial rfl
  obtain ⟨h1, h2⟩ := r2 [] (by decide) (days_repeat (g := fun p : ℝ × ℝ => (p.1, p.1 + p.2)) (by fun_prop))
  obtain ⟨m1, m2, m3⟩ := stdNormal_moments 0 1
  have en : ∀ f : ℝ → ℝ, Measurable f → Integrable f stdNormal → Integrable (fun ω : ℕ → ℝ × ℝ => f (ω 0).2) days ∧
      ∫ ω, f (ω 0).2 ∂days = ∫ x, f x ∂stdNormal := by
    intro f hm hf
    have h1 : Integrable (fun p : ℝ × ℝ => f p.2) dayLaw := hf.comp_snd stdNormal
    refine ⟨(day_preserving 0).integrable_comp_of_integrable h1, ?_⟩
    have h3 := integral_map (μ := days) (day_preserving 0).measurable.aemeasurable (f := fun p : ℝ × ℝ => f p.2)
      (hm.comp measurable_snd).aestronglyMeasurable
    rw [← h3, (day_preserving 0).map_eq, dayLaw, integral_prod _ h1]
    simp
  obtain ⟨a1, a2⟩ := en (fun x => -x) measurable_id.neg integrable_stdNormal.neg
  obtain ⟨b1, b2⟩ := en (fun x => (-x) ^ 2) (measurable_id.neg.pow_const 2) (by simpa using m1.integrable_sq)
  have e0 : ∀ ω : ℕ → ℝ × ℝ, (ω 0).1 - ((ω 0).1 + (ω 0).2) = -(ω 0).2 := fun ω => by ring
  simp only [List.insertIdx_zero, List.headD_cons, e0] at h1 h2
  obtain ⟨S, _, s1, s2, -⟩ := h1 a1
  obtain ⟨_, S', s3, -, s4⟩ := h2 b1
  refine ⟨_, e, r, g.made, fun n ω => (r1 n ω).1, fun n ω => (r1 n ω).2.2.2, S, S', fun n ω => ⟨(s1 n ω).1, (s3 n ω).2⟩, ?_, ?_⟩
  · rw [a2, integral_neg] at s2
    have : ∫ x : ℝ, x ∂stdNormal = 0 := by simpa using m2
    rwa [this, neg_zero] at s2
  · rw [b2] at s4
    have : ∫ x : ℝ, (-x) ^ 2 ∂stdNormal = 1 := by simpa using m3
    rwa [this, Real.sqrt_one] at s4

/-- gamma verifiers of the absolute values of the sums of signal and noise -/
noncomputable def dayGamma (n : ℕ) (ω : ℕ → ℝ × ℝ) : Obj (ProbX ℝ) :=
  probObj { gaussX false with
    f := [("mu", dayArr (fun _ => 1) n ω), ("sigma", dayArr (fun _ => 1) n ω), ("shift", dayArr (fun _ => -1) n ω),
      ("unshifted_mu", dayArr (fun _ => 2) n ω)]
    o := dayArr (fun p => |p.1 + p.2|) n ω
    members := .none }

/-- the hypotheses on the gamma class -/
example : ∃ o r : ℕ → (ℕ → ℝ × ℝ) → _,
    (∀ n ω, ∃ w, construct (gammaPrims caseCfg (fnsPit 0) embBoth) noMids (dayGamma n ω) world0 = (.ok (o n ω), w)) ∧
    (∀ n ω, result .gamma bothInfo (gammaPrims caseCfg (fnsPit 0) embBoth) noMids (.slot .crps) (unsaved (o n ω)) world0 =
      .ok (some (.num (r n ω)))) ∧
    ∃ S : ℕ → (ℕ → ℝ × ℝ) → ℝ, (∀ n ω, (r n ω).get [] = some (S n ω)) ∧
      Settles days S (∫ ω, crpsOf (censoredGammaCdf 2 1 (-1)) |(ω 0).1 + (ω 0).2| ∂days) := by
  have hb : ∀ n ω, ∃ o w, construct (gammaPrims caseCfg (fnsPit 0) embBoth) noMids (dayGamma n ω) world0 = (.ok o, w) := by
    intro n ω
    refine ⟨dayGamma n ω, world0, ?_⟩
    simp [construct, validate, validateAxis, validateSaving, dayGamma, probObj, gammaPrims, probPrims, gaussX, probSettingsOK,
      dictOK, dayArr, ProbX.hasKey]
    rfl
  choose o w h using hb
  obtain ⟨r, r1, r2⟩ := C131_crps_gamma (I := bothInfo) (P := days) (s := []) (t := 0) (w1 := fun _ _ => world0) h rfl
    (dayArr_recorded fun p => |p.1 + p.2|) (fun _ _ => abs_nonneg _) (fun _ _ => rfl)
    (umu := dayArr fun _ => 2) (sigma := dayArr fun _ => 1) (shift := dayArr fun _ => -1)
    (fun _ _ => ⟨rfl, rfl⟩) (fun _ _ => ⟨rfl, rfl⟩) (fun _ _ => ⟨rfl, rfl⟩) (dayArr_recorded _) (dayArr_recorded _)
    (dayArr_recorded _) (fun _ _ => ⟨two_pos, one_pos⟩) (a := .none) (fun _ _ => rfl) (fun _ _ => rfl) (by simp) le_rfl trivial rfl
  refine ⟨o, r, fun n ω => ⟨w n ω, h n ω⟩, r1, r2 [] (by decide) ?_ ?_⟩
  · exact days_repeat (g := fun p : ℝ × ℝ => (((2 : ℝ), (1 : ℝ), (-1 : ℝ)), |p.1 + p.2|)) (by fun_prop)
  · exact C131_finite_fixed (unit_gamma two_pos one_pos (-1)) (crps_censoredGamma two_pos one_pos le_rfl).1
      (integrable_signal.add integrable_noise).abs

/-- ensemble verifiers with the members 0 and 1 -/
noncomputable def dayEns (n : ℕ) (ω : ℕ → ℝ × ℝ) : Obj (EnsX ℝ) :=
  { ensR with ext := { ensR.ext with
      f := ofFn [2, n + 1] fun i => some (i.headD 0 : ℝ)
      o := dayArr (fun p => p.1 + p.2) n ω } }

/-- the hypotheses on the ensemble class -/
example : ∃ o r : ℕ → (ℕ → ℝ × ℝ) → _,
    (∀ n ω, ∃ w, construct (ensPrims cfgR embBoth) noMids (dayEns n ω) world0 = (.ok (o n ω), w)) ∧
    (∀ n ω, result .ensemble bothInfo (ensPrims cfgR embBoth) noMids (.slot .crps) (unsaved (o n ω)) world0 =
      .ok (some (.num (r n ω)))) ∧
    ∃ S : ℕ → (ℕ → ℝ × ℝ) → ℝ, (∀ n ω, (r n ω).get [] = some (S n ω)) ∧
      Settles days S (∫ ω, crpsOf (ecdf [0, 1]) ((ω 0).1 + (ω 0).2) ∂days) := by
  have hb : ∀ n ω, ∃ o w, construct (ensPrims cfgR embBoth) noMids (dayEns n ω) world0 = (.ok o, w) ∧ o.ext.axis = some 0 := by
    intro n ω
    have hv : validateEnsembleAxis [2, n + 1] [n + 1] (some 0) = .ok 0 := by
      simp [validateEnsembleAxis, popAt, bind, Except.bind, pure, Except.pure]
    have hr : ∃ g, reduceAxes mean (dayEns n ω).ext.f (some [0]) = .ok g := by
      obtain ⟨g, hg, -⟩ := reduceAxes_spec mean (dayEns n ω).ext.f (axes := some [0]) (by
        show OptOK [2, n + 1].length (some [0])
        exact ⟨by simp [AxisOK], by simp⟩)
      exact ⟨g, hg⟩
    obtain ⟨g, hg⟩ := hr
    refine ⟨{ dayEns n ω with ext := { (dayEns n ω).ext with fc := some g } }, world0, ?_, rfl⟩
    simp only [dayEns, ensR, dayArr] at hg
    simp only [construct, validate, validateAxis, validateSaving, dayEns, ensR, ensPrims, dayArr, shape_ofFn, hv, hg, EnsX.ax,
      bind, Except.bind, pure, Except.pure]
  choose o w h hax using hb
  obtain ⟨r, r1, r2⟩ := C131_crps_ens (I := bothInfo) (P := days) (s := []) (t := 0) (w1 := fun _ _ => world0) h
    (fun _ _ => rfl) psScore_energy (split := false) (fun _ _ _ => rfl) (dayArr_recorded fun p => p.1 + p.2)
    (fun n ω => by simp [dayEns]) (fun n ω => by simp [dayEns, ofFn]) hax (x := fun _ _ => ![0, 1])
    (fun n ω i hi => by
      have := fiberIdx_days (s := [n + 1]) (t := 0) (by simp) hi 2
      simp only [membersAt, fiber, dayEns, shape_ofFn, List.length_cons, List.length_nil]
      rw [show axisNum (0 + 1 + 1) 0 = 0 from rfl, show [2, n + 1] = [n + 1].insertIdx 0 2 from rfl, this]
      have hin : ∀ j < 2, InB [2, n + 1] (j :: i) := fun j hj => .cons hj hi
      have g0 := get_ofFn (fun i : List Nat => (some (i.headD 0 : ℝ) : Fl ℝ)) (hin 0 (by omega))
      have g1 := get_ofFn (fun i : List Nat => (some (i.headD 0 : ℝ) : Fl ℝ)) (hin 1 (by omega))
      simp [List.range_succ] at g0 g1 ⊢
      exact ⟨g0, g1⟩) (a := .none) (fun _ _ => rfl) le_rfl trivial rfl
  refine ⟨o, r, fun n ω => ⟨w n ω, h n ω⟩, r1, r2 [] (by decide) ?_ ?_⟩
  · exact days_repeat (g := fun p : ℝ × ℝ => (![0, 1], p.1 + p.2)) (by fun_prop)
  · exact C131_finite_fixed (unit_ecdf _) (crps_ecdf (y := 0) (by simp)).1 (integrable_signal.add integrable_noise)

end Props
