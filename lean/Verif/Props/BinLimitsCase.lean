import Verif.Props.BinLimits
import Verif.Props.LongRunCase

/-! # Concrete cases for C132 -/

namespace Props
open Np NDArr Model Spec Lemmas MeasureTheory ProbabilityTheory

theorem day_integral {g : ℝ × ℝ → ℝ} (hg : Measurable g) : ∫ ω, g (ω 0) ∂days = ∫ p, g p ∂dayLaw := by
  rw [← (day_preserving 0).map_eq, integral_map (day_preserving 0).measurable.aemeasurable hg.aestronglyMeasurable]

theorem signal_le (z : ℝ) : days.real {ω | (ω 0).1 ≤ z} = normalCdf 0 1 z := by
  have hm : MeasurableSet {p : ℝ × ℝ | p.1 ≤ z} := measurableSet_le measurable_fst measurable_const
  have e : {p : ℝ × ℝ | p.1 ≤ z} = {x | x ≤ z} ×ˢ Set.univ := by ext p; simp
  rw [← stdNormal_law 0 one_pos z, show {ω : ℕ → ℝ × ℝ | (ω 0).1 ≤ z} = (fun ω => ω 0) ⁻¹' {p : ℝ × ℝ | p.1 ≤ z} from rfl,
    (day_preserving 0).measureReal_preimage hm.nullMeasurableSet, e, dayLaw, measureReal_prod_prod]
  simp

theorem measurable_dayProb : Measurable fun x : ℝ => beyondProb true (gaussLaw false x 1 0) := by
  have := (measurable_gaussLaw false).comp (g := fun p : (ℝ × ℝ) × ℝ => gaussLaw false p.1.1 p.1.2 p.2)
    (f := fun x : ℝ => ((x, (1 : ℝ)), (0 : ℝ))) (by fun_prop)
  exact measurable_const.sub this

theorem day_known : ProbGiven days (fun ω => (ω 0).1) {ω | Beyond true 0 (fun ω : ℕ → ℝ × ℝ => (ω 0).1 + (ω 0).2) ω}
    fun x => beyondProb true (gaussLaw false x 1 0) := by
  refine day_prob (k := fun x => x) (S := {q | 0 < q.1 + q.2}) measurable_id (measurableSet_lt (by fun_prop) (by fun_prop))
    measurable_dayProb fun x => ?_
  have : {ε : ℝ | (x, ε) ∈ {q : ℝ × ℝ | 0 < q.1 + q.2}} = {ε | x + ε ≤ 0}ᶜ := by
    ext ε
    simp
  rw [this, probReal_compl_eq_one_sub (measurableSet_le (by fun_prop) (by fun_prop)), stdNormal_shift]
  rfl

/-- Every day the observation is the sum of a signal and a noise, and the verifier announces the signal as mean and the
standard deviation 1. In `reliability(2, over=0)` the first bin shows up for good, and its point settles on the diagonal. -/
example : ∃ (o sl : ℕ → (ℕ → ℝ × ℝ) → _) (bs : ℕ → (ℕ → ℝ × ℝ) → List ℕ) (V T : ℕ → ℕ → (ℕ → ℝ × ℝ) → ℝ) (l : ℝ),
    (∀ n ω, ∃ w w', construct (gaussPrims caseCfg (fnsPit 0) embBoth) noMids (dayGauss (fun x => x) (fun _ => 1) n ω) w =
      (.ok (o n ω), w')) ∧
    (∀ n ω, result .gaussian bothInfo (gaussPrims caseCfg (fnsPit 0) embBoth) noMids
      (.slot (.reliability (.inr 2) (some (.inl 0)) none)) (unsaved (o n ω)) world0 = .ok (some (.rel (.slice (sl n ω))))) ∧
    (∀ n ω, (sl n ω).probPred = (bs n ω).map (fun b => some (V b n ω)) ∧
      (sl n ω).probTrue = (bs n ω).map (fun b => some (T b n ω))) ∧
    (∀ᵐ ω ∂days, ∃ N, ∀ n, N ≤ n → 0 ∈ bs n ω) ∧ Settles days (V 0) l ∧ Settles days (T 0) l := by
  have g := dayGauss_archive caseCfg (fun x => x) (s := fun _ => 1) fun _ => one_pos
  obtain ⟨sl, bs, V, T, M, r1, r2, r3⟩ := C132_reliability (P := days) (shared_gauss caseCfg (fnsPit 0) embBoth).base
    (fun n ω => dayGauss_says g n ω) (fun i ω => beyondProb_unit ((unit_normal _ _).lo _) ((unit_normal _ _).hi _)) rfl
    (nb := .inr 2) (nbins := 2) rfl (by simp [Printable, bothInfo]) (by norm_num) (fun _ => trivial) rfl
  have h0 : days.real {ω | InRelBin 2 0 (beyondProb true (gaussLaw false (ω 0).1 1 0))} ≠ 0 := by
    have h1 : {ω : ℕ → ℝ × ℝ | (ω 0).1 ≤ 0} ⊆ {ω | InRelBin 2 0 (beyondProb true (gaussLaw false (ω 0).1 1 0))} := by
      intro ω hω
      have hω' : (ω 0).1 ≤ 0 := hω
      have hh : Phi 0 = 1 / 2 := by
        have := one_sub_Phi 0
        rw [neg_zero] at this
        linarith
      have h2 : Phi 0 ≤ Phi ((0 - (ω 0).1) / 1) := strictMono_Phi.monotone (by linarith)
      have h3 := beyondProb_unit (isOver := true) ((unit_normal (ω 0).1 1).lo 0) ((unit_normal (ω 0).1 1).hi 0)
      refine ⟨le_trans (by simp [relEdge]) h3.1, ?_⟩
      show 1 - Phi ((0 - (ω 0).1) / 1) < relEdge 2 (0 + 1)
      rw [hh] at h2
      unfold relEdge
      norm_num
      norm_num at h2
      linarith
    have h2 := measureReal_mono (μ := days) h1
    rw [signal_le] at h2
    have := Phi_pos ((0 - 0) / 1)
    rw [normalCdf] at h2
    linarith
  obtain ⟨-, -, h3⟩ := r3 (days_repeat (g := fun p : ℝ × ℝ => (beyondProb true (gaussLaw false p.1 1 0), p.1 + p.2))
    ((measurable_dayProb.comp measurable_fst).prodMk (by fun_prop))) 0 (by norm_num)
  obtain ⟨a1, a2, a3⟩ := h3 h0
  refine ⟨_, sl, bs, V, T, _, g.made, r1, fun n ω => ⟨(r2 n ω).2.2.1, (r2 n ω).2.2.2.1⟩, a1, a2, ?_⟩
  have := C132_diagonal (P := days) (K := fun ω : ℕ → ℝ × ℝ => (ω 0).1) (by fun_prop) measurable_dayProb day_known 2 0
  exact this ▸ a3

/-- the same verifiers with `avg_axis=0` -/
noncomputable def dayGauss0 (n : ℕ) (ω : ℕ → ℝ × ℝ) : Obj (ProbX ℝ) :=
  { dayGauss (fun x => x) (fun _ => 1) n ω with avg := .int 0 }

theorem dayGauss0_made (c : Cfg ℝ) (n : ℕ) (ω : ℕ → ℝ × ℝ) :
    construct (gaussPrims c (fnsPit 0) embBoth) noMids (dayGauss0 n ω) world0 =
      (.ok { dayGauss0 n ω with avg := .tuple [0] }, world0) := by
  simp [construct, validate, validateAxis, validateSaving, dayGauss0, dayGauss, probObj, gaussPrims, probPrims, gaussX,
    probSettingsOK, dictOK, dayArr, ProbX.hasKey]
  rfl

theorem dayGauss0_says (n : ℕ) (ω : ℕ → ℝ × ℝ) :
    Says (([] : List Nat).insertIdx 0 (n + 1)) (fun i => (ω (i.headD 0)).1 + (ω (i.headD 0)).2) .gaussian bothInfo
      (gaussPrims caseCfg (fnsPit 0) embBoth) noMids (fun x => x.o) { dayGauss0 n ω with avg := .tuple [0] } world0 true (.inl 0)
      (fun i => beyondProb true (gaussLaw false (ω (i.headD 0)).1 1 0)) (some [0]) :=
  C131_says_gauss (I := bothInfo) (dayGauss0_made caseCfg n ω) realLib_exact realLib_unit (sh := [n + 1]) (.inl ⟨rfl, by simp⟩) rfl
    ((dayArr_recorded fun p => p.1 + p.2).value n ω) rfl (mu := dayArr (fun p => p.1) n ω) (sigma := dayArr (fun _ => 1) n ω)
    ⟨rfl, rfl⟩ ⟨rfl, rfl⟩
    (fun i hi => ⟨(dayArr_recorded fun p => p.1).value n ω i hi, (dayArr_recorded fun _ => 1).value n ω i hi, one_pos⟩)
    (a := .inl 0) (by simp [Printable, bothInfo]) rfl rfl true

/-- Its `brier_decomp(over=0)`: the reliability settles at 0. -/
example : ∃ (o rel res unc : ℕ → (ℕ → ℝ × ℝ) → _) (R V U : ℕ → (ℕ → ℝ × ℝ) → ℝ) (q : ℝ),
    (∀ n ω, ∃ w, construct (gaussPrims caseCfg (fnsPit 0) embBoth) noMids (dayGauss0 n ω) world0 = (.ok (o n ω), w)) ∧
    (∀ n ω, result .gaussian bothInfo (gaussPrims caseCfg (fnsPit 0) embBoth) noMids
      (.slot (.brierDecomp (some (.inl 0)) none)) (unsaved (o n ω)) world0 =
        .ok (some (.triple (rel n ω) (res n ω) (unc n ω)))) ∧
    (∀ n ω, (rel n ω).get [] = some (R n ω) ∧ (res n ω).get [] = some (V n ω) ∧ (unc n ω).get [] = some (U n ω)) ∧
    Settles days R 0 ∧ Settles days U (q * (1 - q)) := by
  obtain ⟨rel, res, unc, r1, r2⟩ := C132_decomp (P := days) (shared_gauss caseCfg (fnsPit 0) embBoth).base
    (fun n ω => dayGauss0_says n ω) (fun i ω => beyondProb_unit ((unit_normal _ _).lo _) ((unit_normal _ _).hi _)) rfl (by simp)
    le_rfl
  obtain ⟨R, V, U, s1, s2, -, s4⟩ := r2 [] (by decide) (days_repeat (g := fun p : ℝ × ℝ =>
    (beyondProb true (gaussLaw false p.1 1 0), p.1 + p.2)) ((measurable_dayProb.comp measurable_fst).prodMk (by fun_prop)))
  refine ⟨_, rel, res, unc, R, V, U, _, fun n ω => ⟨_, dayGauss0_made caseCfg n ω⟩, r1, s1, ?_, s4⟩
  have := (C132_rel_zero (P := days) (D := fun ω : ℕ → ℝ × ℝ => beyondProb true (gaussLaw false (ω 0).1 1 0))
    (S := {ω | Beyond true 0 (fun ω : ℕ → ℝ × ℝ => (ω 0).1 + (ω 0).2) ω}) 19).1 (K := fun ω : ℕ → ℝ × ℝ => (ω 0).1)
    (by fun_prop) measurable_dayProb day_known rfl
  exact settles_to s2 this.symm

/-- Its `corr()` settles at the correlation of signal and sum, 1/√2. -/
example : ∃ (o r : ℕ → (ℕ → ℝ × ℝ) → _) (S : ℕ → (ℕ → ℝ × ℝ) → ℝ),
    (∀ n ω, ∃ w, construct (gaussPrims cfgR (fnsPit 0) embBoth) noMids (dayGauss0 n ω) world0 = (.ok (o n ω), w)) ∧
    (∀ n ω, result .gaussian bothInfo (gaussPrims cfgR (fnsPit 0) embBoth) noMids (.slot .corr) (unsaved (o n ω)) world0 =
      .ok (some (.num (r n ω)))) ∧
    (∀ᵐ ω ∂days, ∃ N, ∀ n, N ≤ n → (r n ω).get [] = some (S n ω)) ∧ Settles days S (1 / Real.sqrt 2) := by
  have hf : ∀ n ω, result .gaussian bothInfo (gaussPrims cfgR (fnsPit 0) embBoth) noMids (.slot .fDeterm)
      (unsaved { dayGauss0 n ω with avg := .tuple [0] }) world0 = .ok (some (.num (dayArr (fun p => p.1) n ω))) := by
    intro n ω
    obtain ⟨mu, _, _, _, _, _, _, h1, -, h2, -⟩ := C76_gauss_errors (I := bothInfo) (dayGauss0_made cfgR n ω) rfl
      (show AxesOK 1 [0] from ⟨by simp [AxisOK], by decide⟩) world0
    have : mu = dayArr (fun p => p.1) n ω := (Option.some.inj h1.1).symm
    rw [h2, this]
  obtain ⟨r, r1, r2⟩ := C132_corr (P := days) (s := []) (t := 0) (shared_gauss cfgR (fnsPit 0) embBoth).base
    isSqrt_real hf (dayArr_recorded fun p => p.1) (dayArr_recorded fun p => p.1 + p.2) (w1 := fun _ _ => world0)
    (fun _ _ => rfl) (fun _ _ => rfl) (by simp) le_rfl
  obtain ⟨m1, m2, m3⟩ := stdNormal_moments 0 1
  have n1 : MemLp (fun x : ℝ => x) 2 stdNormal := by simpa using m1
  have n2 : ∫ x : ℝ, x ∂stdNormal = 0 := by simpa using m2
  have n3 : ∫ x : ℝ, x * x ∂stdNormal = 1 := by simpa [pow_two] using m3
  have f1 : MemLp (fun p : ℝ × ℝ => p.1) 2 dayLaw := n1.comp_fst stdNormal
  have f2 : MemLp (fun p : ℝ × ℝ => p.2) 2 dayLaw := n1.comp_snd stdNormal
  have hV : MemLp (fun ω : ℕ → ℝ × ℝ => (ω 0).1) 2 days := f1.comp_measurePreserving (day_preserving 0)
  have hW : MemLp (fun ω : ℕ → ℝ × ℝ => (ω 0).1 + (ω 0).2) 2 days := (f1.add f2).comp_measurePreserving (day_preserving 0)
  have prodI : ∀ f g : ℝ → ℝ, ∫ p : ℝ × ℝ, f p.1 * g p.2 ∂dayLaw = (∫ x, f x ∂stdNormal) * ∫ x, g x ∂stdNormal := fun f g =>
    integral_prod_mul f g
  have e1 : ∫ p : ℝ × ℝ, p.1 ∂dayLaw = 0 := by simpa [n2] using prodI (fun x => x) fun _ => 1
  have e2 : ∫ p : ℝ × ℝ, p.2 ∂dayLaw = 0 := by simpa [n2] using prodI (fun _ => 1) fun x => x
  have e3 : ∫ p : ℝ × ℝ, p.1 * p.1 ∂dayLaw = 1 := by simpa [n3] using prodI (fun x => x * x) fun _ => 1
  have e4 : ∫ p : ℝ × ℝ, p.2 * p.2 ∂dayLaw = 1 := by simpa [n3] using prodI (fun _ => 1) fun x => x * x
  have e5 : ∫ p : ℝ × ℝ, p.1 * p.2 ∂dayLaw = 0 := by simpa [n2] using prodI (fun x => x) fun x => x
  have i1 := f1.integrable one_le_two
  have i2 := f2.integrable one_le_two
  have i3 : Integrable (fun p : ℝ × ℝ => p.1 * p.1) dayLaw := f1.integrable_mul f1
  have i4 : Integrable (fun p : ℝ × ℝ => p.2 * p.2) dayLaw := f2.integrable_mul f2
  have i5 : Integrable (fun p : ℝ × ℝ => p.1 * p.2) dayLaw := f1.integrable_mul f2
  have q1 : ∫ ω, (ω 0).1 ∂days = 0 := by rw [day_integral (g := fun p => p.1) (by fun_prop), e1]
  have q2 : ∫ ω, ((ω 0).1 + (ω 0).2) ∂days = 0 := by
    rw [day_integral (g := fun p => p.1 + p.2) (by fun_prop), integral_add i1 i2, e1, e2, add_zero]
  have q3 : ∫ ω, (ω 0).1 ^ 2 ∂days = 1 := by
    rw [day_integral (g := fun p => p.1 ^ 2) (by fun_prop), ← e3]
    simp only [pow_two]
  have q4 : ∫ ω, ((ω 0).1 + (ω 0).2) ^ 2 ∂days = 2 := by
    rw [day_integral (g := fun p => (p.1 + p.2) ^ 2) (by fun_prop)]
    have : ∀ p : ℝ × ℝ, (p.1 + p.2) ^ 2 = p.1 * p.1 + (2 * (p.1 * p.2) + p.2 * p.2) := fun p => by ring
    simp only [this]
    rw [integral_add i3 (show Integrable (fun p : ℝ × ℝ => 2 * (p.1 * p.2) + p.2 * p.2) dayLaw from (i5.const_mul 2).add i4), integral_add (i5.const_mul 2) i4, integral_const_mul, e3, e4, e5]
    norm_num
  have q5 : ∫ ω, (ω 0).1 * ((ω 0).1 + (ω 0).2) ∂days = 1 := by
    rw [day_integral (g := fun p => p.1 * (p.1 + p.2)) (by fun_prop)]
    simp only [mul_add]
    rw [integral_add i3 i5, e3, e5, add_zero]
  have v1 : Var[fun ω : ℕ → ℝ × ℝ => (ω 0).1; days] ≠ 0 := by
    rw [variance_eq_sub hV]
    simp only [Pi.pow_apply, q1, q3]
    norm_num
  have v2 : Var[fun ω : ℕ → ℝ × ℝ => (ω 0).1 + (ω 0).2; days] ≠ 0 := by
    rw [variance_eq_sub hW]
    simp only [Pi.pow_apply, q2, q4]
    norm_num
  obtain ⟨S, s1, s2⟩ := r2 [] (by decide) (days_repeat (g := fun p : ℝ × ℝ => (p.1, p.1 + p.2)) (by fun_prop)) hV hW v1 v2
  refine ⟨_, r, S, fun n ω => ⟨_, dayGauss0_made cfgR n ω⟩, r1, s1, settles_to s2 ?_⟩
  simp only [trueCorr, List.insertIdx_zero, List.headD_cons, q1, q2, q3, q4, q5]
  norm_num

end Props
