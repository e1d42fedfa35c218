import Verif.Props.DecompChance
import Verif.Props.RelChanceCase
import Verif.Props.RightErrors

/-! # Concrete cases for C129 -/

namespace Props
open Np NDArr Model Spec Lemmas MeasureTheory ProbabilityTheory

/-- two independent standard normal numbers -/
noncomputable def twoNormals : Measure (ℝ × ℝ) := stdNormal.prod stdNormal

instance : IsProbabilityMeasure twoNormals := by unfold twoNormals; infer_instance

theorem twoNormals_fst (x : ℝ) : twoNormals.real {ω | ω.1 ≤ x} = normalCdf 0 1 x := by
  have : {ω : ℝ × ℝ | ω.1 ≤ x} = {ω | 0 + 1 * ω ≤ x} ×ˢ Set.univ := by ext ω; simp
  rw [this, twoNormals, measureReal_def, Measure.prod_prod, ← stdNormal_law 0 one_pos x]
  simp [measureReal_def]

theorem twoNormals_snd (x : ℝ) : twoNormals.real {ω | ω.2 ≤ x} = normalCdf 0 1 x := by
  have : {ω : ℝ × ℝ | ω.2 ≤ x} = Set.univ ×ˢ {ω | 0 + 1 * ω ≤ x} := by ext ω; simp
  rw [this, twoNormals, measureReal_def, Measure.prod_prod, ← stdNormal_law 0 one_pos x]
  simp [measureReal_def]

/-- Independent standard normal observations at two positions, and a verifier that announces exactly that: all forecast
probabilities of more than zero are the true 1/2, yet the expected reliability is 1/8 and not 0, and the expected uncertainty
1/8 and not 1/4. -/
example : ∃ o rel res unc : ℝ × ℝ → _,
    (∀ ω, ∃ w, construct (gaussPrims caseCfg (fnsPit 0) embReal) noMids
      { probObj (pitX { (gaussX false : ProbX ℝ) with
        f := [("mu", ⟨[2], [some 0, some 0], rfl⟩), ("sigma", ⟨[2], [some 1, some 1], rfl⟩)] } false ω.1 ω.2) with
        avg := .int 0 } world0 = (.ok (o ω), w)) ∧
    (∀ ω, result .gaussian realInfo (gaussPrims caseCfg (fnsPit 0) embReal) noMids (.slot (.brierDecomp (some 0) none))
      (unsaved (o ω)) world0 = .ok (some (.triple (rel ω) (res ω) (unc ω)))) ∧
    ∃ R S U : ℝ × ℝ → ℝ,
      (∀ ω, (rel ω).get [] = some (R ω) ∧ (res ω).get [] = some (S ω) ∧ (unc ω).get [] = some (U ω)) ∧
      ∫ ω, R ω ∂twoNormals = 1 / 8 ∧ ∫ ω, S ω ∂twoNormals = 0 ∧ ∫ ω, U ω ∂twoNormals = 1 / 8 := by
  have hb : ∀ ω : ℝ × ℝ, ∃ o w, construct (gaussPrims caseCfg (fnsPit 0) embReal) noMids
      { probObj (pitX { (gaussX false : ProbX ℝ) with
        f := [("mu", ⟨[2], [some 0, some 0], rfl⟩), ("sigma", ⟨[2], [some 1, some 1], rfl⟩)] } false ω.1 ω.2) with
        avg := .int 0 } world0 = (.ok o, w) := fun ω => ⟨_, _, rfl⟩
  choose o w h using hb
  have hY : ∀ i, InB [2] i → Measurable fun ω : ℝ × ℝ => if i = [0] then ω.1 else ω.2 := fun i hi => by
    rcases two_positions hi with rfl | rfl <;> simp <;> fun_prop
  have hlaw : ∀ i, InB [2] i → ∀ x, twoNormals.real {ω | (if i = [0] then ω.1 else ω.2) ≤ x} = normalCdf 0 1 x := by
    intro i hi x
    rcases two_positions hi with rfl | rfl
    · exact twoNormals_fst x
    · exact twoNormals_snd x
  have hi1 : (fun ω : ℝ × ℝ => ω.1) ⟂ᵢ[twoNormals] fun ω => ω.2 := indepFun_prod measurable_id measurable_id
  obtain ⟨rel, res, unc, r1, r2⟩ := C129_gauss (I := realInfo) (P := twoNormals) (sh := [2]) (tr := false)
    (w1 := fun _ => world0) h realLib_exact realLib_unit (.inl ⟨rfl, by simp⟩)
    (Y := fun i ω => if i = [0] then ω.1 else ω.2) (G := fun _ => normalCdf 0 1)
    { shape := fun _ => rfl
      value := fun i hi ω => by rcases two_positions hi with rfl | rfl <;> rfl
      meas := hY
      law := hlaw }
    (fun _ => rfl)
    (mu := ⟨[2], [some 0, some 0], rfl⟩) (sigma := ⟨[2], [some 1, some 1], rfl⟩) (fun _ => ⟨rfl, rfl⟩) (fun _ => ⟨rfl, rfl⟩)
    (m := fun _ => 0) (sd := fun _ => 1)
    (fun i hi => by rcases two_positions hi with rfl | rfl <;> simp [NDArr.get, ravel])
    (fun i j hi hj hij => by
      rcases two_positions hi with rfl | rfl <;> rcases two_positions hj with rfl | rfl
      · exact absurd rfl hij
      · exact hi1
      · exact hi1.symm
      · exact absurd rfl hij)
    (a := (0 : ℝ)) (by simp [Printable, realInfo]) rfl trivial (τ := fun _ => 0) (fun _ _ => rfl) (fun _ => rfl)
    (av := .int 0) (fun _ => rfl) (B := [0]) rfl ⟨by decide, by decide, by decide, by decide⟩ (by decide) true
  obtain ⟨R, S, U, s1, s2⟩ := r2 [] (by decide)
  refine ⟨o, rel, res, unc, fun ω => ⟨w ω, h ω⟩, r1, R, S, U, s1, ?_⟩
  have hhalf : normalCdf 0 1 0 = 1 / 2 := by
    have := one_sub_Phi 0
    simp only [normalCdf, sub_zero, div_one, neg_zero] at *
    linarith
  have hq : ∀ i, InB [2] i → eventChance twoNormals true 0 (fun ω : ℝ × ℝ => if i = [0] then ω.1 else ω.2) = 1 / 2 := by
    intro i hi
    rw [eventChance_over (hY i hi) (hlaw i hi), hhalf]
    norm_num
  have hp : beyondProb true (gaussLaw false 0 1 0) = 1 / 2 := by
    simp only [beyondProb, gaussLaw, Bool.false_eq_true, if_false, if_true, hhalf]
    norm_num
  rw [show fiberIdx [2] [0] [] = [[0], [1]] by decide, hp] at s2
  generalize hqf : (fun i => eventChance twoNormals true 0 fun ω : ℝ × ℝ => if i = [0] then ω.1 else ω.2) = q at s2
  have hq0 : q [0] = 1 / 2 := by rw [← hqf]; exact hq [0] (by decide)
  have hq1 : q [1] = 1 / 2 := by rw [← hqf]; exact hq [1] (by decide)
  have hm : ∀ i, binMates 19 (fun _ => 1 / 2) [[0], [1]] i = [[0], [1]] := by
    intro i
    refine List.filter_eq_self.2 fun j _ => ?_
    simp only [decide_eq_true_eq]
    exact fun _ _ _ => Iff.rfl
  have hbm : ∀ f i, binMean 19 (fun _ => 1 / 2) [[0], [1]] f i = avg [f [0], f [1]] := by
    intro f i
    rw [binMean, hm]
    rfl
  rw [s2.reliability, s2.resolution, s2.uncertainty]
  simp only [binNoise, allNoise, hbm, hm, List.map_cons, List.map_nil, hq0, hq1]
  norm_num [avg]

/-- two independent observations -/
noncomputable def pairObs (i : List Nat) (ω : ℝ × ℝ) : ℝ := if i = [0] then ω.1 else ω.2

theorem pairObs_meas {i : List Nat} (hi : InB [2] i) : Measurable (pairObs i) := by
  rcases two_positions hi with rfl | rfl
  · exact measurable_fst
  · exact measurable_snd

theorem pairObs_indep (i j : List Nat) (hi : InB [2] i) (hj : InB [2] j) (hij : i ≠ j) :
    pairObs i ⟂ᵢ[twoNormals] pairObs j := by
  have hi1 : pairObs [0] ⟂ᵢ[twoNormals] pairObs [1] :=
    indepFun_prod (μ := stdNormal) (ν := stdNormal) measurable_id measurable_id
  rcases two_positions hi with rfl | rfl <;> rcases two_positions hj with rfl | rfl
  · exact absurd rfl hij
  · exact hi1
  · exact hi1.symm
  · exact absurd rfl hij

theorem pairObs_observed {f : ℝ × ℝ → NDArr (Fl ℝ)} (h1 : ∀ ω, (f ω).shape = [2])
    (h2 : ∀ ω, (f ω).get [0] = some ω.1 ∧ (f ω).get [1] = some ω.2) :
    Observed twoNormals [2] f pairObs fun i x => twoNormals.real {ω | pairObs i ω ≤ x} where
  shape := h1
  value i hi ω := by
    rcases two_positions hi with rfl | rfl
    · exact (h2 ω).1
    · exact (h2 ω).2
  meas i hi := pairObs_meas hi
  law _ _ _ := rfl

/-- the hypotheses on the hurdle class -/
example (isOver : Bool) : ∃ o rel res unc : ℝ × ℝ → _,
    (∀ ω, ∃ w, construct (hurdlePrims caseCfg (fnsPit 0) embBoth .inl) noMids
      { probObj (pitX dryX false ω.1 ω.2) with avg := .int 0 } world0 = (.ok (o ω), w)) ∧
    (∀ ω, result .hurdle bothInfo (hurdlePrims caseCfg (fnsPit 0) embBoth .inl) noMids
      (.slot (.brierDecomp (overArg isOver (.inl 0)) (belowArg isOver (.inl 0)))) (unsaved (o ω)) world0 =
        .ok (some (.triple (rel ω) (res ω) (unc ω)))) := by
  have hb : ∀ ω : ℝ × ℝ, ∃ o w, construct (hurdlePrims caseCfg (fnsPit 0) embBoth .inl) noMids
      { probObj (pitX dryX false ω.1 ω.2) with avg := .int 0 } world0 = (.ok o, w) := fun ω => ⟨_, _, rfl⟩
  choose o w h using hb
  obtain ⟨rel, res, unc, r1, -⟩ := C129_hurdle (I := bothInfo) (P := twoNormals) (sh := [2])
    (w1 := fun _ => world0) h realLib_exact realLib_unit (.inl ⟨rfl, by simp⟩)
    (pairObs_observed (fun _ => rfl) fun _ => ⟨rfl, rfl⟩)
    (pop := ⟨[2], [some (1 / 2), some (1 / 2)], rfl⟩) (mu := ⟨[2], [some 1, some 1], rfl⟩)
    (sigma := ⟨[2], [some 1, some 1], rfl⟩) (fun _ => ⟨rfl, rfl⟩) (fun _ => ⟨rfl, rfl⟩) (fun _ => ⟨rfl, rfl⟩)
    (p := fun _ => 1 / 2) (m := fun _ => 1) (sd := fun _ => 1)
    (fun i hi => by rcases two_positions hi with rfl | rfl <;> norm_num [NDArr.get, ravel]) pairObs_indep
    (a := .inl 0) (by simp [Printable, bothInfo]) rfl trivial (τ := fun _ => 0) (fun _ _ => ⟨rfl, le_rfl⟩) (fun _ => rfl)
    (av := .int 0) (fun _ => rfl) (B := [0]) rfl ⟨by decide, by decide, by decide, by decide⟩ (by decide) isOver
  exact ⟨o, rel, res, unc, fun ω => ⟨w ω, h ω⟩, r1⟩

/-- the hypotheses on the gamma class -/
example : ∃ o rel res unc : ℝ × ℝ → _,
    (∀ ω, ∃ w, construct (gammaPrims caseCfg (fnsPit 0) embBoth) noMids
      { probObj (pitX { gammaX false with f := [("mu", ⟨[2], [some 0, some 3], rfl⟩),
        ("sigma", ⟨[2], [some 1, some 2], rfl⟩), ("shift", ⟨[2], [some (-1), some 1], rfl⟩),
        ("unshifted_mu", ⟨[2], [some 1, some 2], rfl⟩)] } false ω.1 ω.2) with avg := .int 0 } world0 = (.ok (o ω), w)) ∧
    (∀ ω, result .gamma bothInfo (gammaPrims caseCfg (fnsPit 0) embBoth) noMids (.slot (.brierDecomp (some (.inl 2)) none))
      (unsaved (o ω)) world0 = .ok (some (.triple (rel ω) (res ω) (unc ω)))) := by
  have hb : ∀ ω : ℝ × ℝ, ∃ o w, construct (gammaPrims caseCfg (fnsPit 0) embBoth) noMids
      { probObj (pitX { gammaX false with f := [("mu", ⟨[2], [some 0, some 3], rfl⟩),
        ("sigma", ⟨[2], [some 1, some 2], rfl⟩), ("shift", ⟨[2], [some (-1), some 1], rfl⟩),
        ("unshifted_mu", ⟨[2], [some 1, some 2], rfl⟩)] } false ω.1 ω.2) with avg := .int 0 } world0 = (.ok o, w) :=
    fun ω => ⟨_, _, rfl⟩
  choose o w h using hb
  obtain ⟨rel, res, unc, r1, -⟩ := C129_gamma (I := bothInfo) (P := twoNormals) (sh := [2])
    (w1 := fun _ => world0) h realLib_exact realLib_unit (.inl ⟨rfl, by simp⟩)
    (pairObs_observed (fun _ => rfl) fun _ => ⟨rfl, rfl⟩) (fun _ => rfl)
    (umu := ⟨[2], [some 1, some 2], rfl⟩) (sigma := ⟨[2], [some 1, some 2], rfl⟩) (shift := ⟨[2], [some (-1), some 1], rfl⟩)
    (fun _ => ⟨rfl, rfl⟩) (fun _ => ⟨rfl, rfl⟩) (fun _ => ⟨rfl, rfl⟩)
    (m := fun i => if i = [0] then 1 else 2) (sd := fun i => if i = [0] then 1 else 2) (δ := fun i => if i = [0] then -1 else 1)
    (fun i hi => by rcases two_positions hi with rfl | rfl <;> simp [NDArr.get, ravel]) pairObs_indep
    (a := .inl 2) (by simp [Printable, bothInfo]) rfl trivial (τ := fun _ => 2) (fun _ _ => ⟨rfl, two_pos.le⟩) (fun _ => rfl)
    (av := .int 0) (fun _ => rfl) (B := [0]) rfl ⟨by decide, by decide, by decide, by decide⟩ (by decide) true
  exact ⟨o, rel, res, unc, fun ω => ⟨w ω, h ω⟩, r1⟩

/-- members that do not depend on chance, two independent observations -/
noncomputable def pairE (ω : ℝ × ℝ) : Obj (EnsX ℝ) :=
  { fixedE 0 with
    avg := .int 0
    ext := { (fixedE 0).ext with o := ⟨[2], [some ω.1, some ω.2], rfl⟩ } }

theorem pairE_built (ω : ℝ × ℝ) : ∃ o w', construct (ensPrims cfgR embBoth) noMids (pairE ω) world0 = (.ok o, w') ∧
    o.ext.axis = some 0 := ⟨_, _, rfl, rfl⟩

/-- Members that say 0 and 1 of events that have the same probability: resolution is on average positive. -/
example : ∃ o rel res unc : ℝ × ℝ → _,
    (∀ ω, ∃ w, construct (ensPrims cfgR embBoth) noMids (pairE ω) world0 = (.ok (o ω), w)) ∧
    (∀ ω, result .ensemble bothInfo (ensPrims cfgR embBoth) noMids (.slot (.brierDecomp (some (.inl 3)) none))
      (unsaved (o ω)) world0 = .ok (some (.triple (rel ω) (res ω) (unc ω)))) ∧
    ∃ S : ℝ × ℝ → ℝ, (∀ ω, (res ω).get [] = some (S ω)) ∧ 0 < ∫ ω, S ω ∂twoNormals := by
  choose o w h hax using pairE_built
  obtain ⟨rel, res, unc, r1, r2⟩ := C129_ens (I := bothInfo) (P := twoNormals) (sh := [2]) (w1 := fun _ => world0) h
    (fun _ => rfl) rfl hax (pairObs_observed (fun _ => rfl) fun _ => ⟨rfl, rfl⟩)
    (M := fun i => if i = [0] then [1, 2] else [5, 6])
    (fun ω i hi => by rcases two_positions hi with rfl | rfl <;> exact ⟨rfl, by simp⟩) pairObs_indep
    (a := .inl 3) (by simp [Printable, bothInfo]) rfl trivial (τ := fun _ => 3) (fun _ _ => rfl)
    (av := .int 0) (fun _ => rfl) (B := [0]) rfl ⟨by decide, by decide, by decide, by decide⟩ (by decide) true
  obtain ⟨R, S, U, s1, s2⟩ := r2 [] (by decide)
  refine ⟨o, rel, res, unc, fun ω => ⟨w ω, h ω⟩, r1, S, fun ω => (s1 ω).2.1, ?_⟩
  rw [show fiberIdx [2] [0] [] = [[0], [1]] by decide] at s2
  have hq : ∀ i ∈ ([[0], [1]] : List (List Nat)), eventChance twoNormals true 3 (pairObs i) = 1 - normalCdf 0 1 3 := by
    intro i hi
    have hlaw : ∀ x, twoNormals.real {ω | pairObs i ω ≤ x} = normalCdf 0 1 x := by
      intro x
      rcases List.mem_pair.1 hi with rfl | rfl
      · exact twoNormals_fst x
      · exact twoNormals_snd x
    refine eventChance_over (pairObs_meas ?_) hlaw 3
    rcases List.mem_pair.1 hi with rfl | rfl <;> decide
  have hc : 0 < 1 - normalCdf 0 1 3 ∧ 1 - normalCdf 0 1 3 < 1 := by
    have h1 := Phi_pos (-3)
    have h2 := Phi_pos 3
    rw [Phi_neg] at h1
    simp only [normalCdf, sub_zero, div_one]
    constructor <;> linarith
  have := C129_useless (by simp) hc.1.le hc.2.le hq s2
  refine lt_of_le_of_ne this.1 fun h => ?_
  rcases this.2.1 h.symm with h | h | h
  · exact hc.1.ne' h
  · exact hc.2.ne h
  · have := (h [0] (by simp) [1] (by simp) 10 (by norm_num) (by norm_num)).2
    norm_num [avg, indicator, Counts] at this

end Props
