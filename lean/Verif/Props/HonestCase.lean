import Verif.Lemmas.HonestCase
import Verif.Props.Honest

/-! # Concrete cases for C116 -/

namespace Props
open Np NDArr Model Spec Lemmas MeasureTheory

/-- observations `y 0` and `y 1` at two positions, parameters of `gaussX` -/
noncomputable def chanceX (tr : Bool) (y₀ y₁ : ℝ) : ProbX ℝ := { gaussX tr with o := ⟨[2], [some y₀, some y₁], rfl⟩ }

noncomputable def chanceG (y₀ y₁ : ℝ) : ProbX ℝ := { gammaX false with o := ⟨[2], [some y₀, some y₁], rfl⟩ }

theorem chance_built (tr : Bool) (y₀ y₁ : ℝ) : ∃ o w,
    construct (gaussPrims caseCfg fnsPs embIntR) noMids (probObj (chanceX tr y₀ y₁)) world0 = (.ok o, w) := ⟨_, _, rfl⟩

theorem chanceG_built (y₀ y₁ : ℝ) : ∃ o w,
    construct (gammaPrims caseCfg fnsPs embIntR) noMids (probObj (chanceG y₀ y₁)) world0 = (.ok o, w) := ⟨_, _, rfl⟩

/-- the standard normal distribution -/
noncomputable def stdNormal : Measure ℝ := dens phi

instance : IsProbabilityMeasure stdNormal := dens_prob (fun x => (phi_pos x).le) integrable_phi integral_phi

theorem stdNormal_law (m : ℝ) {s : ℝ} (hs : 0 < s) (x : ℝ) : stdNormal.real {ω | m + s * ω ≤ x} = normalCdf m s x := by
  have : {ω | m + s * ω ≤ x} = Set.Iic ((x - m) / s) := by
    ext ω
    simp only [Set.mem_ofPred_eq, Set.mem_Iic]
    rw [le_div_iff₀ hs]
    constructor <;> intro h <;> linarith
  rw [this, stdNormal, dens_law (fun x => (phi_pos x).le) integrable_phi]
  rfl

theorem stdNormal_mean (m s : ℝ) : Integrable (fun ω => m + s * ω) stdNormal :=
  (integrable_const m).add ((dens_mean (fun x => (phi_pos x).le) continuous_phi.measurable phi_mean).const_mul s)

/-- The observations are `a + ω` and `3 + 2 ω` for a standard normal `ω`; the verifier announces the normal distributions
with means 1, 3 and standard deviations 1, 2. Its expected score is the least one exactly if `a` is 1. -/
example (a : ℝ) : ∃ o r : ℝ → _, (∀ ω, ∃ w, construct (gaussPrims caseCfg fnsPs embIntR) noMids
      (probObj (chanceX false (a + 1 * ω) (3 + 2 * ω))) world0 = (.ok (o ω), w)) ∧
    (∀ ω, result .gaussian intInfo (gaussPrims caseCfg fnsPs embIntR) noMids (.slot .crps) (unsaved (o ω)) world0 =
      .ok (some (.num (r ω)))) ∧
    ∃ S : ℝ → ℝ, (∀ ω, (r ω).get [] = some (S ω)) ∧ Integrable S stdNormal ∧
      (∫ ω, S ω ∂stdNormal = (cdfSpread (normalCdf a 1) + cdfSpread (normalCdf 3 2)) / 2 ↔ 1 = a) := by
  choose o w h using fun ω : ℝ => chance_built false (a + 1 * ω) (3 + 2 * ω)
  obtain ⟨r, r1, -, r3⟩ := C116_gauss_best (I := intInfo) (P := stdNormal) (sh := [2]) (tr := false)
    (w1 := fun _ => world0) h rfl rfl
    (Y := fun i ω => if i = [0] then a + 1 * ω else 3 + 2 * ω) (m' := fun i => if i = [0] then a else 3)
    (sd' := fun i => if i = [0] then 1 else 2)
    { shape := fun _ => rfl
      value := fun i hi ω => by rcases two_positions hi with rfl | rfl <;> rfl
      meas := fun i hi => by rcases two_positions hi with rfl | rfl <;> simp <;> fun_prop
      mean := fun i hi => by
        rcases two_positions hi with rfl | rfl
        · exact stdNormal_mean a 1
        · exact stdNormal_mean 3 2
      law := fun i hi x => by
        rcases two_positions hi with rfl | rfl
        · exact stdNormal_law a one_pos x
        · exact stdNormal_law 3 two_pos x }
    (fun i hi => by rcases two_positions hi with rfl | rfl <;> simp) (fun _ => rfl)
    (mu := ⟨[2], [some 1, some 3], rfl⟩) (sigma := ⟨[2], [some 1, some 2], rfl⟩) (fun _ => ⟨rfl, rfl⟩) (fun _ => ⟨rfl, rfl⟩)
    (m := fun i => if i = [0] then 1 else 3) (sd := fun i => if i = [0] then 1 else 2)
    (fun i hi => by rcases two_positions hi with rfl | rfl <;> simp [NDArr.get, ravel])
    (a := .none) (fun _ => rfl) (fun _ => rfl) (by decide) trivial
  obtain ⟨S, s1, s2, -, s4⟩ := r3 [] (by decide)
  refine ⟨o, r, fun ω => ⟨w ω, h ω⟩, r1, S, s1, s2, ?_⟩
  have hL : fiberIdx [2] (nums 1 (axesOf .none)) [] = [[0], [1]] := by decide
  have s5 := s4
  simp only [List.length_cons, List.length_nil, Nat.zero_add, hL, List.map_cons, List.map_nil, if_true, avg, List.sum_cons,
    List.sum_nil, List.forall_mem_cons, List.not_mem_nil, false_imp_iff, implies_true, and_true,
    List.cons.injEq, one_ne_zero, if_false, gaussLaw, Bool.false_eq_true, add_zero] at s5
  norm_num at s5
  exact s5

/-- the upper half of the standard normal distribution -/
noncomputable def halfNormal : Measure ℝ := dens halfPdf

instance : IsProbabilityMeasure halfNormal := dens_prob halfPdf_nonneg integrable_halfPdf integral_halfPdf

/-- The same verifier with truncation, observations `ω` at both positions with the distribution that the standard normal
distribution has above zero: the expected score is larger than necessary. -/
example : ∃ o r : ℝ → _, (∀ ω, ∃ w, construct (gaussPrims caseCfg fnsPs embIntR) noMids
      (probObj (chanceX true ω ω)) world0 = (.ok (o ω), w)) ∧
    (∀ ω, result .gaussian intInfo (gaussPrims caseCfg fnsPs embIntR) noMids (.slot .crps) (unsaved (o ω)) world0 =
      .ok (some (.num (r ω)))) ∧
    ∃ S : ℝ → ℝ, (∀ ω, (r ω).get [] = some (S ω)) ∧ Integrable S halfNormal ∧
      cdfSpread (truncNormalCdf 0 1 0) < ∫ ω, S ω ∂halfNormal := by
  choose o w h using fun ω : ℝ => chance_built true ω ω
  obtain ⟨r, r1, -, r3⟩ := C116_gauss_best (I := intInfo) (P := halfNormal) (sh := [2]) (tr := true)
    (w1 := fun _ => world0) h rfl rfl
    (Y := fun _ ω => ω) (m' := fun _ => 0) (sd' := fun _ => 1)
    { shape := fun _ => rfl
      value := fun i hi ω => by rcases two_positions hi with rfl | rfl <;> rfl
      meas := fun i hi => measurable_id
      mean := fun i hi => dens_mean halfPdf_nonneg measurable_halfPdf halfPdf_mean
      law := fun i hi x => (dens_law halfPdf_nonneg integrable_halfPdf x).trans (half_law x) }
    (fun i hi => one_pos) (fun _ => rfl)
    (mu := ⟨[2], [some 1, some 3], rfl⟩) (sigma := ⟨[2], [some 1, some 2], rfl⟩) (fun _ => ⟨rfl, rfl⟩) (fun _ => ⟨rfl, rfl⟩)
    (m := fun i => if i = [0] then 1 else 3) (sd := fun i => if i = [0] then 1 else 2)
    (fun i hi => by rcases two_positions hi with rfl | rfl <;> simp [NDArr.get, ravel])
    (a := .none) (fun _ => rfl) (fun _ => rfl) (by decide) trivial
  obtain ⟨S, s1, s2, s3, s4⟩ := r3 [] (by decide)
  refine ⟨o, r, fun ω => ⟨w ω, h ω⟩, r1, S, s1, s2, ?_⟩
  have hL : fiberIdx [2] (nums 1 (axesOf .none)) [] = [[0], [1]] := by decide
  have e : avg ([[0], [1]].map fun _ : List Nat => cdfSpread (truncNormalCdf 0 1 0)) = cdfSpread (truncNormalCdf 0 1 0) := by
    simp [avg]
  simp only [List.length_cons, List.length_nil, Nat.zero_add, hL, gaussLaw, if_true] at s3 s4
  rw [e] at s3 s4
  refine lt_of_le_of_ne s3 fun heq => ?_
  have := (s4.1 heq.symm [0] (by simp)).1
  norm_num at this

/-- a gamma distribution with shape 1 -/
noncomputable def expLaw : Measure ℝ := dens (gammaPdf 1)

instance : IsProbabilityMeasure expLaw :=
  dens_prob (fun x => gammaPdf_nonneg one_pos x) (integrable_gammaPdf one_pos) (integral_gammaPdf one_pos)

theorem expLaw_law {m d : ℝ} (hm : 0 < m) (x : ℝ) : expLaw.real {ω | max (m * ω + d) 0 ≤ x} = censoredGammaCdf m m d x := by
  unfold censoredGammaCdf
  split_ifs with h
  · rw [show {ω | max (m * ω + d) 0 ≤ x} = ∅ from ?_]
    · simp
    · ext ω
      simp only [Set.mem_ofPred_eq, Set.mem_empty_iff_false, iff_false, not_le]
      exact lt_of_lt_of_le h (le_max_right _ _)
  · have : {ω | max (m * ω + d) 0 ≤ x} = Set.Iic ((x - d) / m) := by
      ext ω
      simp only [Set.mem_ofPred_eq, Set.mem_Iic, max_le_iff, not_lt.1 h, and_true]
      rw [le_div_iff₀ hm]
      constructor <;> intro h <;> linarith
    rw [this, expLaw, dens_law (fun x => gammaPdf_nonneg one_pos x) (integrable_gammaPdf one_pos), div_self hm.ne', one_pow,
      show m ^ 2 / m = m by field_simp]
    rfl

/-- The gamma class with mean 1, standard deviation 1, shift 0 and mean 2, standard deviation 2, shift 1. Observations
`max (ω + a) 0` and `max (2 ω + 1) 0`, where `ω` is exponentially distributed: the expected score is least exactly if `a`
is zero. -/
example (a : ℝ) : ∃ o r : ℝ → _, (∀ ω, ∃ w, construct (gammaPrims caseCfg fnsPs embIntR) noMids
      (probObj (chanceG (max (1 * ω + a) 0) (max (2 * ω + 1) 0))) world0 = (.ok (o ω), w)) ∧
    (∀ ω, result .gamma intInfo (gammaPrims caseCfg fnsPs embIntR) noMids (.slot .crps) (unsaved (o ω)) world0 =
      .ok (some (.num (r ω)))) ∧
    ∃ S : ℝ → ℝ, (∀ ω, (r ω).get [] = some (S ω)) ∧ Integrable S expLaw ∧
      (∫ ω, S ω ∂expLaw = (cdfSpread (censoredGammaCdf 1 1 a) + cdfSpread (censoredGammaCdf 2 2 1)) / 2 ↔ 0 = a) := by
  choose o w h using fun ω : ℝ => chanceG_built (max (1 * ω + a) 0) (max (2 * ω + 1) 0)
  have hid : Integrable (fun ω : ℝ => ω) expLaw :=
    dens_mean (fun x => gammaPdf_nonneg one_pos x) (measurable_gammaPdf 1) (gamma_mean one_pos)
  obtain ⟨r, r1, -, r3⟩ := C116_gamma_best (I := intInfo) (P := expLaw) (sh := [2])
    (w1 := fun _ => world0) h rfl
    (Y := fun i ω => if i = [0] then max (1 * ω + a) 0 else max (2 * ω + 1) 0) (m' := fun i => if i = [0] then 1 else 2)
    (sd' := fun i => if i = [0] then 1 else 2) (δ' := fun i => if i = [0] then a else 1)
    { shape := fun _ => rfl
      value := fun i hi ω => by rcases two_positions hi with rfl | rfl <;> rfl
      meas := fun i hi => by rcases two_positions hi with rfl | rfl <;> simp <;> fun_prop
      mean := fun i hi => by
        rcases two_positions hi with rfl | rfl
        · exact ((hid.const_mul 1).add (integrable_const a)).pos_part
        · exact ((hid.const_mul 2).add (integrable_const 1)).pos_part
      law := fun i hi x => by
        rcases two_positions hi with rfl | rfl
        · exact expLaw_law one_pos x
        · exact expLaw_law two_pos x }
    (fun i hi => by rcases two_positions hi with rfl | rfl <;> simp)
    (fun i hi ω => by rcases two_positions hi with rfl | rfl <;> simp) (fun _ => rfl)
    (umu := ⟨[2], [some 1, some 2], rfl⟩) (sigma := ⟨[2], [some 1, some 2], rfl⟩) (shift := ⟨[2], [some 0, some 1], rfl⟩)
    (fun _ => ⟨rfl, rfl⟩) (fun _ => ⟨rfl, rfl⟩) (fun _ => ⟨rfl, rfl⟩)
    (m := fun i => if i = [0] then 1 else 2) (sd := fun i => if i = [0] then 1 else 2) (δ := fun i => if i = [0] then 0 else 1)
    (fun i hi => by rcases two_positions hi with rfl | rfl <;> simp [NDArr.get, ravel])
    (a := .none) (fun _ => rfl) (fun _ => rfl) (by decide) trivial
  obtain ⟨S, s1, s2, -, s4⟩ := r3 [] (by decide)
  refine ⟨o, r, fun ω => ⟨w ω, h ω⟩, r1, S, s1, s2, ?_⟩
  have hL : fiberIdx [2] (nums 1 (axesOf .none)) [] = [[0], [1]] := by decide
  have s5 := s4
  simp only [List.length_cons, List.length_nil, Nat.zero_add, hL, List.map_cons, List.map_nil, if_true, avg, List.sum_cons,
    List.sum_nil, List.forall_mem_cons, List.not_mem_nil, false_imp_iff, implies_true, and_true,
    List.cons.injEq, one_ne_zero, if_false, add_zero] at s5
  norm_num at s5
  exact s5

/-- two members at two positions, observations `y₀` and `y₁` -/
noncomputable def chanceE (y₀ y₁ : ℝ) : Obj (EnsX ℝ) :=
  { ensR with ext := { ensR.ext with o := ⟨[2], [some y₀, some y₁], rfl⟩ } }

theorem chanceE_built (y₀ y₁ : ℝ) : ∃ o w', construct (ensPrims cfgR embReal) noMids (chanceE y₀ y₁) world0 = (.ok o, w') ∧
    o.ext.axis = some 0 := ⟨_, _, rfl, rfl⟩

/-- Normal observations: two members cannot reach the least expected score. -/
example : ∃ o r : ℝ → _, (∀ ω, ∃ w, construct (ensPrims cfgR embReal) noMids (chanceE ω ω) world0 = (.ok (o ω), w)) ∧
    (∀ ω, result .ensemble realInfo (ensPrims cfgR embReal) noMids (.slot .crps) (unsaved (o ω)) world0 =
      .ok (some (.num (r ω)))) ∧
    ∃ S : ℝ → ℝ, (∀ ω, (r ω).get [] = some (S ω)) ∧ Integrable S stdNormal ∧
      cdfSpread (normalCdf 0 1) < ∫ ω, S ω ∂stdNormal := by
  choose o w h hax using fun ω : ℝ => chanceE_built ω ω
  obtain ⟨r, r1, -, r3⟩ := C116_ens (I := realInfo) (P := stdNormal) (sh := [2]) (w1 := fun _ => world0) h (fun _ => rfl)
    psScore_energy (split := false) (fun _ _ _ => rfl) (Y := fun _ ω => ω) (G := fun _ => normalCdf 0 1)
    { shape := fun _ => rfl
      value := fun i hi ω => by rcases two_positions hi with rfl | rfl <;> rfl
      meas := fun i hi => measurable_id
      mean := fun i hi => by simpa using stdNormal_mean 0 1
      law := fun i hi x => by simpa using stdNormal_law 0 one_pos x }
    (by decide) (fun ω => by simp [chanceE, ensR]) (fun ω => by simp [chanceE, ensR]) hax
    (M := fun i => if i = [0] then [1, 2] else [5, 6])
    (fun ω i hi => by
      rcases two_positions hi with rfl | rfl
      · rfl
      · rfl)
    (a := .none) (fun _ => rfl) trivial
  obtain ⟨S, s1, s2⟩ := r3 [] (by decide)
  refine ⟨o, r, fun ω => ⟨w ω, h ω⟩, r1, S, s1, s2.integrable, ?_⟩
  have hL : fiberIdx [2] (nums 1 (axesOf .none)) [] = [[0], [1]] := by decide
  have s3 := s2.least
  have s4 := s2.honest
  have e : avg ([[0], [1]].map fun _ : List Nat => cdfSpread (normalCdf 0 1)) = cdfSpread (normalCdf 0 1) := by
    simp [avg]
  simp only [List.length_cons, List.length_nil, Nat.zero_add, hL] at s3 s4
  rw [e] at s3 s4
  refine lt_of_le_of_ne s3 fun heq => ?_
  have := congrFun (s4.1 heq.symm [0] (by simp)) 2
  have h1 : ecdf [1, 2] 2 = 1 := by norm_num [ecdf]
  simp only [if_true, h1, normalCdf] at this
  exact absurd this.symm (Phi_lt_one _).ne

end Props
