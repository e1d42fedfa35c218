import Verif.Props.CountLimits
import Verif.Props.BinLimitsCase

/-! # Concrete cases for C134 -/

namespace Props
open Np NDArr Model Spec Lemmas MeasureTheory ProbabilityTheory

theorem half : Phi 0 = 1 / 2 := by
  have := Phi_neg 0
  rw [neg_zero] at this
  linarith

/-- quarters of the plane -/
theorem day_quarter (a b : Set ℝ) (ha : MeasurableSet a) (hb : MeasurableSet b) :
    days.real {ω | (ω 0).1 ∈ a ∧ (ω 0).2 ∈ b} = stdNormal.real a * stdNormal.real b := by
  have h : {ω : ℕ → ℝ × ℝ | (ω 0).1 ∈ a ∧ (ω 0).2 ∈ b} = (fun ω => ω 0) ⁻¹' (a ×ˢ b) := by
    ext ω
    simp
  rw [h, (day_preserving 0).measureReal_preimage (ha.prod hb).nullMeasurableSet, dayLaw, measureReal_prod_prod]

theorem below_zero : stdNormal.real (Set.Iic 0) = 1 / 2 := by
  have := stdNormal_law 0 one_pos 0
  simp only [one_mul, zero_add] at this
  have e : stdNormal.real (Set.Iic 0) = normalCdf 0 1 0 := this
  rw [e, normalCdf, sub_zero, zero_div, half]

theorem above_zero : stdNormal.real (Set.Ioi 0) = 1 / 2 := by
  rw [← Set.compl_Iic, probReal_compl_eq_one_sub measurableSet_Iic, below_zero]
  norm_num

/-- forecasts that have nothing to do with the observations -/
noncomputable def dayDet (n : ℕ) (ω : ℕ → ℝ × ℝ) : Obj (DetX ℝ) :=
  ⟨.int 0, .none, .none, some true, ⟨dayArr (fun p => p.1) n ω, dayArr (fun p => p.2) n ω⟩⟩

/-- their intersection over union of positive values settles at (1/4) / (3/4) -/
example : ∃ (o r : ℕ → (ℕ → ℝ × ℝ) → _) (S : ℕ → (ℕ → ℝ × ℝ) → ℝ),
    (∀ n ω, ∃ w, construct (detPrims cfgR embBoth) noMids (dayDet n ω) world0 = (.ok (o n ω), w)) ∧
    (∀ n ω, result .determ bothInfo (detPrims cfgR embBoth) noMids (.slot (.iouDeterm (some (.inl 0)) none)) (unsaved (o n ω))
      world0 = .ok (some (.num (r n ω)))) ∧
    (∀ᵐ ω ∂days, ∃ N, ∀ n, N ≤ n → (r n ω).get [] = some (S n ω)) ∧ Settles days S (1 / 3) := by
  have hb : ∀ n ω, construct (detPrims cfgR embBoth) noMids (dayDet n ω) world0 =
      (.ok { dayDet n ω with avg := .tuple [0] }, world0) := by
    intro n ω
    simp [construct, validate, validateAxis, validateSaving, dayDet, detPrims, dayArr]
    rfl
  obtain ⟨r, r1, r2⟩ := C134_iou_determ (I := bothInfo) (P := days) (s := []) (t := 0) (shared_det cfgR embBoth)
    (o := fun n ω => { dayDet n ω with avg := .tuple [0] }) (w := fun _ _ => world0) (w1 := fun _ _ => world0)
    (mids := noMids) (C := .determ) (fun n ω => fDeterm_det _ _) (dayArr_recorded fun p => p.1) (dayArr_recorded fun p => p.2)
    true (a := .inl 0) (by simp [Printable, bothInfo]) rfl (fun _ _ => rfl) le_rfl ⟨by simp [AxisOK], by simp⟩ rfl
  have hr := (r2 [] (by decide) (days_repeat (g := fun p : ℝ × ℝ => (p.1, p.2)) (by fun_prop))).1
  simp only [Beyond, List.insertIdx_zero, List.headD_cons, if_true] at hr
  have q1 := day_quarter (Set.Ioi 0) (Set.Ioi 0) measurableSet_Ioi measurableSet_Ioi
  have q2 := day_quarter (Set.Iic 0) (Set.Iic 0) measurableSet_Iic measurableSet_Iic
  rw [above_zero] at q1
  rw [below_zero] at q2
  have q3 : days.real {ω | 0 < (ω 0).1 ∨ 0 < (ω 0).2} = 3 / 4 := by
    have : {ω : ℕ → ℝ × ℝ | 0 < (ω 0).1 ∨ 0 < (ω 0).2} = {ω | (ω 0).1 ∈ Set.Iic 0 ∧ (ω 0).2 ∈ Set.Iic 0}ᶜ := by
      ext ω
      simp only [Set.mem_ofPred_eq, Set.mem_compl_iff, Set.mem_Iic, not_and_or, not_le]
    rw [this, probReal_compl_eq_one_sub ?_, q2]
    · norm_num
    · exact ((measurable_fst.comp (day_preserving 0).measurable) measurableSet_Iic).inter
        ((measurable_snd.comp (day_preserving 0).measurable) measurableSet_Iic)
  have q1' : days.real {ω | 0 < (ω 0).1 ∧ 0 < (ω 0).2} = 1 / 4 := by
    refine Eq.trans ?_ (q1.trans (by norm_num))
    rfl
  obtain ⟨S, s1, s2⟩ := hr (by rw [q3]; norm_num)
  refine ⟨_, r, S, fun n ω => ⟨_, hb n ω⟩, fun n ω => (r1 n ω).1, s1, settles_to s2 ?_⟩
  rw [q1', q3]
  norm_num

/-- numbers and pairs -/
inductive PairArg
  | num (x : ℝ)
  | pair (a b : Option ℝ)

def pairInfo : ArgInfo PairArg where
  text _ := []
  hasLen
    | .num _ => false
    | _ => true
  isArr _ := false
  ravelLen _ := 1
  len _ := some 2
  items
    | .pair a b => some [a.map .num, b.map .num]
    | _ => none

noncomputable def pairEmb : PairArg → Arg ℝ
  | .num x => .thr (.scalar (some x))
  | .pair a b => .seq [a.map fun x => .scalar (some x), b.map fun x => .scalar (some x)]

/-- The verifier that announces the signal as mean: its `iou_prob(over=(0, 0.5), below=(None, None))` settles at the
probability that the event has a probability above one half and happens, divided by the probability of one of the two. -/
example : ∃ (o r : ℕ → (ℕ → ℝ × ℝ) → _) (S : ℕ → (ℕ → ℝ × ℝ) → ℝ),
    (∀ n ω, ∃ w, construct (gaussPrims caseCfg (fnsPit 0) pairEmb) noMids (dayGauss0 n ω) world0 = (.ok (o n ω), w)) ∧
    (∀ n ω, result .gaussian pairInfo (gaussPrims caseCfg (fnsPit 0) pairEmb) noMids
      (.slot (.iouProb (some (.pair (some 0) (some (1 / 2)))) (some (.pair none none)))) (unsaved (o n ω)) world0 =
        .ok (some (.num (r n ω)))) ∧
    (∀ᵐ ω ∂days, ∃ N, ∀ n, N ≤ n → (r n ω).get [] = some (S n ω)) ∧
    Settles days S (days.real {ω | 1 / 2 < beyondProb true (gaussLaw false (ω 0).1 1 0) ∧ 0 < (ω 0).1 + (ω 0).2} /
      days.real {ω | 1 / 2 < beyondProb true (gaussLaw false (ω 0).1 1 0) ∨ 0 < (ω 0).1 + (ω 0).2}) := by
  have hb : ∀ n ω, construct (gaussPrims caseCfg (fnsPit 0) pairEmb) noMids (dayGauss0 n ω) world0 =
      (.ok { dayGauss0 n ω with avg := .tuple [0] }, world0) := by
    intro n ω
    simp [construct, validate, validateAxis, validateSaving, dayGauss0, dayGauss, probObj, gaussPrims, probPrims, gaussX,
      probSettingsOK, dictOK, dayArr, ProbX.hasKey]
    rfl
  have hs : ∀ n ω, Says (([] : List Nat).insertIdx 0 (n + 1)) (fun i => (ω (i.headD 0)).1 + (ω (i.headD 0)).2) .gaussian pairInfo
      (gaussPrims caseCfg (fnsPit 0) pairEmb) noMids (fun x => x.o) { dayGauss0 n ω with avg := .tuple [0] } world0 true (.num 0)
      (fun i => beyondProb true (gaussLaw false (ω (i.headD 0)).1 1 0)) (some [0]) := fun n ω =>
    C131_says_gauss (I := pairInfo) (hb n ω) realLib_exact realLib_unit (sh := [n + 1]) (.inl ⟨rfl, by simp⟩) rfl
      ((dayArr_recorded fun p => p.1 + p.2).value n ω) rfl (mu := dayArr (fun p => p.1) n ω) (sigma := dayArr (fun _ => 1) n ω)
      ⟨rfl, rfl⟩ ⟨rfl, rfl⟩
      (fun i hi => ⟨(dayArr_recorded fun p => p.1).value n ω i hi, (dayArr_recorded fun _ => 1).value n ω i hi, one_pos⟩)
      (a := .num 0) (by simp [Printable, pairInfo]) rfl rfl true
  choose f f1 f2 f3 using fun n ω => (hs n ω).cdf
  obtain ⟨r, r1, r2⟩ := C134_iou_prob (I := pairInfo) (P := days) (s := []) (t := 0)
    (shared_gauss caseCfg (fnsPit 0) pairEmb).base (o := fun n ω => { dayGauss0 n ω with avg := .tuple [0] })
    (w1 := fun _ _ => world0) (a := .num 0) (b := .num (1 / 2)) (ov := .pair (some 0) (some (1 / 2))) (be := .pair none none)
    rfl rfl (by norm_num) (by norm_num) true true rfl rfl (by simp [Printable, pairInfo]) (by simp [Printable, pairInfo]) f1
    (D := fun i ω => beyondProb true (gaussLaw false (ω (i.headD 0)).1 1 0)) ⟨f2, f3⟩ (dayArr_recorded fun p => p.1 + p.2)
    (l := [0]) (fun _ _ => rfl) le_rfl ⟨by simp [AxisOK], by simp⟩ rfl
  have hr := (r2 [] (by decide) (days_repeat (g := fun p : ℝ × ℝ =>
    (beyondProb true (gaussLaw false p.1 1 0), p.1 + p.2)) ((measurable_dayProb.comp measurable_fst).prodMk (by fun_prop)))).1
  simp only [Beyond, List.insertIdx_zero, List.headD_cons, if_true] at hr
  have hpos : 0 < days.real {ω | 1 / 2 < beyondProb true (gaussLaw false (ω 0).1 1 0) ∨ 0 < (ω 0).1 + (ω 0).2} := by
    have q1 := day_quarter (Set.Ioi 0) (Set.Ioi 0) measurableSet_Ioi measurableSet_Ioi
    rw [above_zero] at q1
    refine lt_of_lt_of_le (b := (1 / 2 * (1 / 2) : ℝ)) (by norm_num) ?_
    rw [← q1]
    refine measureReal_mono fun ω h => Or.inr ?_
    exact add_pos h.1 h.2
  obtain ⟨S, s1, s2⟩ := hr hpos.ne'
  exact ⟨_, r, S, fun n ω => ⟨_, hb n ω⟩, fun n ω => (r1 n ω).1, s1, s2⟩

theorem gaussLaw_false (m s x : ℝ) : gaussLaw false m s x = normalCdf m s x := rfl

theorem day_right : LawGiven days (fun ω => ((ω 0).1, (1 : ℝ))) (fun ω => (ω 0).1 + (ω 0).2) fun e => gaussLaw false e.1 e.2 := by
  have hk : Measurable fun x : ℝ => (x, (1 : ℝ)) := by fun_prop
  have hh : Measurable fun p : ℝ × ℝ => p.1 + p.2 := by fun_prop
  have hG : ∀ z : ℝ, Measurable fun e : ℝ × ℝ => gaussLaw false e.1 e.2 z := by
    intro z
    have h1 : Measurable fun e : ℝ × ℝ => (e, z) := by fun_prop
    have h2 := (measurable_gaussLaw false).comp h1
    simpa only [Function.comp_def] using h2
  have law : ∀ x z, stdNormal.real {ε | x + ε ≤ z} = gaussLaw false x 1 z := by
    intro x z
    rw [stdNormal_shift, gaussLaw_false]
  have := day_law hk hh (G := fun e z => gaussLaw false e.1 e.2 z) hG (fun x z => law x z)
  exact this

/-- The transforms of the verifier that announces the signal as mean and the standard deviation of the noise: the share of
at most `u` settles at `u`. -/
example : ∃ o r : ℕ → (ℕ → ℝ × ℝ) → _,
    (∀ n ω, ∃ w w', construct (gaussPrims caseCfg (fnsPit 0) embBoth) noMids (dayGauss (fun x => x) (fun _ => 1) n ω) w =
      (.ok (o n ω), w')) ∧
    (∀ n ω, result .gaussian bothInfo (gaussPrims caseCfg (fnsPit 0) embBoth) noMids (.slot .pit) (unsaved (o n ω)) world0 =
      .ok (some (.num (r n ω)))) ∧
    ∀ u, 0 ≤ u → u ≤ 1 → Settles days
      (fun n ω => (Spec.numOf (List.range (n + 1)) fun d => ∃ v ≤ u, (r n ω).get [d] = some v : ℝ) / (n + 1)) u := by
  have g := dayGauss_archive caseCfg (fun x => x) (s := fun _ => 1) fun _ => one_pos
  obtain ⟨r, r1, r2⟩ := C134_pit (I := bothInfo) (P := days) (w1 := fun _ _ => world0) g realLib_exact realLib_unit
    (fun n => .inl ⟨rfl, by simp⟩) le_rfl (.inl rfl)
  have rep : SameDays days fun d ω => (((ω d).1, (1 : ℝ)), (ω d).1 + (ω d).2) :=
    days_repeat (g := fun p : ℝ × ℝ => ((p.1, (1 : ℝ)), p.1 + p.2)) (by fun_prop)
  have h0 : LawGiven days (fun ω => ((ω 0).1, (1 : ℝ))) (fun ω => (ω 0).1 + (ω 0).2) fun e => gaussLaw false e.1 e.2 :=
    day_right
  have hl : ∀ d, LawGiven days (fun ω : ℕ → ℝ × ℝ => ((ω d).1, (1 : ℝ))) (fun ω => (ω d).1 + (ω d).2)
      fun e => gaussLaw false e.1 e.2 := fun d =>
    lawGiven_day (K := fun d (ω : ℕ → ℝ × ℝ) => ((ω d).1, (1 : ℝ))) (Y := fun d ω => (ω d).1 + (ω d).2) rep
      (measurable_gaussLaw false) h0 d
  have hm : ∀ d, Measurable (fun ω : ℕ → ℝ × ℝ => ((ω d).1, (1 : ℝ))) ∧ Measurable fun ω : ℕ → ℝ × ℝ => (ω d).1 + (ω d).2 :=
    fun d => ⟨measurable_fst.comp (rep.meas d), measurable_snd.comp (rep.meas d)⟩
  have key := r2 [] (by decide) hm rep.indep hl
  exact ⟨_, r, g.made, r1, key⟩

/-- an ensemble with one member -/
noncomputable def dayOne (n : ℕ) (ω : ℕ → ℝ × ℝ) : Obj (EnsX ℝ) :=
  { ensR with ext := { ensR.ext with
      f := ofFn [1, n + 1] fun i => some (ω (i.getD 1 0)).1
      o := dayArr (fun p => p.2) n ω } }

/-- Observation and member are independent and have the same distribution: in the long run the observation has rank 1 and
rank 2 on half of the days each. -/
example : ∃ o r : ℕ → (ℕ → ℝ × ℝ) → _,
    (∀ n ω, ∃ w, construct (ensPrims cfgR embBoth) noMids (dayOne n ω) world0 = (.ok (o n ω), w)) ∧
    (∀ n ω, result .ensemble bothInfo (ensPrims cfgR embBoth) noMids (.slot .rankHist) (unsaved (o n ω)) world0 =
      .ok (some (.ranks (r n ω)))) ∧
    ∀ j, 1 ≤ j → j ≤ 2 → Settles days
      (fun n ω => (Spec.numOf (List.range (n + 1)) fun d => (r n ω).get [d] = some j : ℝ) / (n + 1)) (1 / 2) := by
  have hb : ∀ n ω, ∃ o w, construct (ensPrims cfgR embBoth) noMids (dayOne n ω) world0 = (.ok o, w) ∧ o.ext.axis = some 0 := by
    intro n ω
    have hv : validateEnsembleAxis [1, n + 1] [n + 1] (some 0) = .ok 0 := by
      simp [validateEnsembleAxis, popAt, bind, Except.bind, pure, Except.pure]
    have hr : ∃ g, reduceAxes mean (dayOne n ω).ext.f (some [0]) = .ok g := by
      obtain ⟨g, hg, -⟩ := reduceAxes_spec mean (dayOne n ω).ext.f (axes := some [0]) (by
        show OptOK [1, n + 1].length (some [0])
        exact ⟨by simp [AxisOK], by simp⟩)
      exact ⟨g, hg⟩
    obtain ⟨g, hg⟩ := hr
    refine ⟨{ dayOne n ω with ext := { (dayOne n ω).ext with fc := some g } }, world0, ?_, rfl⟩
    simp only [dayOne, ensR, dayArr] at hg
    simp only [construct, validate, validateAxis, validateSaving, dayOne, ensR, ensPrims, dayArr, shape_ofFn, hv, hg, EnsX.ax,
      bind, Except.bind, pure, Except.pure]
  choose o w h hax using hb
  obtain ⟨r, r1, r2⟩ := C134_ranks (I := bothInfo) (P := days) (s := []) (t := 0) (w1 := fun _ _ => world0) h rfl
    (fun n => Or.inl rfl) (fun n ω => by simp [dayOne, ofFn]) hax (N := 1)
    (z := fun i ω => ![(ω (i.headD 0)).2, (ω (i.headD 0)).1]) (dayArr_recorded fun p => p.2)
    (fun n ω i hi => by
      have := fiberIdx_days (s := [n + 1]) (t := 0) (by simp) hi 1
      simp only [membersAt, fiber, dayOne, shape_ofFn, List.length_cons, List.length_nil]
      rw [show axisNum (0 + 1 + 1) 0 = 0 from rfl, show [1, n + 1] = [n + 1].insertIdx 0 1 from rfl, this]
      have g0 := get_ofFn (fun i : List Nat => (some (ω (i.getD 1 0)).1 : Fl ℝ)) (s := [1, n + 1]) (i := 0 :: i) (.cons one_pos hi)
      cases hi with
      | cons h1 h2 => simpa [List.range_succ] using g0) le_rfl
  have rep : SameDays days fun d ω => ![(ω d).2, (ω d).1] :=
    days_repeat (g := fun p : ℝ × ℝ => ![p.2, p.1]) (by fun_prop)
  refine ⟨o, r, fun n ω => ⟨w n ω, h n ω⟩, r1, ?_⟩
  have hm : ∀ j : Fin 2, Measurable fun ω : ℕ → ℝ × ℝ => ![(ω 0).2, (ω 0).1] j := fun j =>
    (measurable_pi_apply j).comp (rep.meas 0)
  have hind : iIndepFun (fun (j : Fin 2) (ω : ℕ → ℝ × ℝ) => ![(ω 0).2, (ω 0).1] j) days := by
    rw [iIndepFun_iff_map_fun_eq_pi_map fun j => (hm j).aemeasurable]
    refine (Measure.pi_eq fun a ha => ?_).symm
    rw [Measure.map_apply (measurable_pi_iff.2 hm) (MeasurableSet.univ_pi ha), Fin.prod_univ_two,
      Measure.map_apply (hm 0) (ha 0), Measure.map_apply (hm 1) (ha 1)]
    have e : (fun (ω : ℕ → ℝ × ℝ) (i : Fin 2) => ![(ω 0).2, (ω 0).1] i) ⁻¹' Set.univ.pi a =
        (fun ω => ω 0) ⁻¹' (a 1 ×ˢ a 0) := by
      ext ω
      simp [Set.mem_pi, Fin.forall_fin_two, and_comm]
    have e0 : (fun ω : ℕ → ℝ × ℝ => ![(ω 0).2, (ω 0).1] 0) ⁻¹' a 0 = (fun ω => ω 0) ⁻¹' (Set.univ ×ˢ a 0) := by
      ext ω
      simp
    have e1 : (fun ω : ℕ → ℝ × ℝ => ![(ω 0).2, (ω 0).1] 1) ⁻¹' a 1 = (fun ω => ω 0) ⁻¹' (a 1 ×ˢ Set.univ) := by
      ext ω
      simp
    rw [e, e0, e1, (day_preserving 0).measure_preimage ((ha 1).prod (ha 0)).nullMeasurableSet,
      (day_preserving 0).measure_preimage (MeasurableSet.univ.prod (ha 0)).nullMeasurableSet,
      (day_preserving 0).measure_preimage ((ha 1).prod MeasurableSet.univ).nullMeasurableSet, dayLaw, Measure.prod_prod,
      Measure.prod_prod, Measure.prod_prod]
    simp [mul_comm]
  have hlaw : ∀ (j : Fin 2) x, days.real {ω | ![(ω 0).2, (ω 0).1] j ≤ x} = normalCdf 0 1 x := by
    intro j x
    have hs : stdNormal.real (Set.Iic x) = normalCdf 0 1 x := by
      have := stdNormal_law 0 one_pos x
      simp only [one_mul, zero_add] at this
      exact this
    fin_cases j
    · have := day_quarter Set.univ (Set.Iic x) MeasurableSet.univ measurableSet_Iic
      simpa [hs] using this
    · have := day_quarter (Set.Iic x) Set.univ measurableSet_Iic MeasurableSet.univ
      simpa [hs] using this
  intro j h1 h2
  have := (r2 [] (by decide) rep (distinct_of_continuous hm (fun j l hjl => hind.indepFun hjl) hlaw
    fun _ _ _ => .inl (continuous_normalCdf 0 1)) j h1).2 (exch_of_iid hm hind hlaw) h2
  norm_num at this ⊢
  exact this

end Props
