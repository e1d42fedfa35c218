import Verif.Props.PitUniform
import Mathlib.Probability.Independence.Basic

/-! # Concrete cases for C117 -/

namespace Props
open Np NDArr Model Spec Lemmas MeasureTheory

/-- a statistics library that computes the distribution functions exactly -/
noncomputable def realLib : Scipy ℝ where
  norm
    | some x, some m, some s => if 0 < s then some (normalCdf m s x) else none
    | _, _, _ => none
  truncnorm
    | some x, some a, some m, some s => if 0 < s then some (truncNormalCdf m s (m + s * a) x) else none
    | _, _, _, _ => none
  gamma
    | some x, some a, some l, some s => if 0 < a ∧ 0 < s then some (gammaCdf a ((x - l) / s)) else none
    | _, _, _, _ => none
  truncgamma _ _ _ _ _ := none

theorem realLib_exact : ExactLib realLib where
  norm _ _ _ h := if_pos h
  truncnorm _ _ _ _ h := if_pos h
  gamma _ _ _ _ h h' := if_pos ⟨h, h'⟩

theorem realLib_unit : UnitLib realLib where
  norm x m s v h := by
    simp only [realLib] at h
    split at h
    · split_ifs at h
      cases h
      exact ⟨(unit_normal _ _).lo _, (unit_normal _ _).hi _⟩
    · cases h
  truncnorm x a m s v h := by
    simp only [realLib] at h
    split at h
    · split_ifs at h with hs
      cases h
      exact ⟨(unit_trunc _ hs _).lo _, (unit_trunc _ hs _).hi _⟩
    · cases h
  gamma x a l s v h := by
    simp only [realLib] at h
    split at h
    · split_ifs at h with hs
      cases h
      exact ⟨gammaCdf_nonneg' hs.1 _, gammaCdf_le_one hs.1 _⟩
    · cases h
  truncgamma x a b l s v h := by cases h

/-- the library, and a generator of random numbers that returns `u` -/
noncomputable def fnsPit (u : ℝ) : ProbFns ℝ :=
  { fnsPs with scipy := realLib, uni := fun _ _ => if 0 ≤ u ∧ u < 1 then u else 0 }

theorem fnsPit_uni (u : ℝ) (s : Nat) (k : List Nat) : 0 ≤ (fnsPit u).uni s k ∧ (fnsPit u).uni s k < 1 := by
  simp only [fnsPit]
  split_ifs with h
  · exact h
  · exact ⟨le_rfl, one_pos⟩

/-- observations `y₀` and `y₁`, no members to sample -/
noncomputable def pitX (x : ProbX ℝ) (rd : Bool) (y₀ y₁ : ℝ) : ProbX ℝ :=
  { x with o := ⟨[2], [some y₀, some y₁], rfl⟩, randomize := some rd, members := .none }

/-- Normal observations with mean `a`: `rank_hist()` of the verifier that announces mean 1 is uniform exactly if `a` is 1. -/
example (a : ℝ) : ∃ o r : ℝ → _, (∀ ω, ∃ w, construct (gaussPrims caseCfg (fnsPit 0) embIntR) noMids
      (probObj (pitX (gaussX false) false (a + 1 * ω) (3 + 2 * ω))) world0 = (.ok (o ω), w)) ∧
    (∀ ω, result .gaussian intInfo (gaussPrims caseCfg (fnsPit 0) embIntR) noMids (.slot .rankHist) (unsaved (o ω)) world0 =
      .ok (some (.num (r ω)))) ∧
    ∃ Z : ℝ → ℝ, (∀ ω, (r ω).get [0] = some (Z ω)) ∧ (IsUniform stdNormal Z ↔ a = 1) := by
  have hb : ∀ ω : ℝ, ∃ o w, construct (gaussPrims caseCfg (fnsPit 0) embIntR) noMids
      (probObj (pitX (gaussX false) false (a + 1 * ω) (3 + 2 * ω))) world0 = (.ok o, w) := fun ω => ⟨_, _, rfl⟩
  choose o w h using hb
  obtain ⟨r, r1, -, r3⟩ := C117_gauss (I := intInfo) (P := stdNormal) (sh := [2]) (tr := false) (rd := false)
    (w1 := fun _ => world0) (F := fun _ => fnsPit 0) h (fun _ => rfl) realLib_exact realLib_unit (fun _ => fnsPit_uni 0)
    (.inl ⟨rfl, by simp⟩)
    (Y := fun i ω => if i = [0] then a + 1 * ω else 3 + 2 * ω)
    (G := fun i => if i = [0] then normalCdf a 1 else normalCdf 3 2)
    { shape := fun _ => rfl
      value := fun i hi ω => by rcases two_positions hi with rfl | rfl <;> rfl
      meas := fun i hi => by rcases two_positions hi with rfl | rfl <;> simp <;> fun_prop
      law := fun i hi x => by
        rcases two_positions hi with rfl | rfl
        · exact stdNormal_law a one_pos x
        · exact stdNormal_law 3 two_pos x }
    (fun _ => rfl) (fun _ => rfl)
    (mu := ⟨[2], [some 1, some 3], rfl⟩) (sigma := ⟨[2], [some 1, some 2], rfl⟩) (fun _ => ⟨rfl, rfl⟩) (fun _ => ⟨rfl, rfl⟩)
    (m := fun i => if i = [0] then 1 else 3) (sd := fun i => if i = [0] then 1 else 2)
    (fun i hi => by rcases two_positions hi with rfl | rfl <;> simp [NDArr.get, ravel])
    (req := .slot .rankHist) (.inr ⟨rfl, fun _ => rfl⟩)
  obtain ⟨Z, z1, z2, z3⟩ := r3 [0] (by decide)
  refine ⟨o, r, fun ω => ⟨w ω, h ω⟩, r1, Z, z1, fun hU => ?_, fun ha => z2 (by simp [ha, gaussLaw])⟩
  have := z3 (.inl ⟨rfl, rfl⟩) hU
  simp only [if_true, gaussLaw, Bool.false_eq_true, if_false] at this
  have := congrFun this 1
  simp only [normalCdf, sub_self, div_one] at this
  have := strictMono_Phi.injective this
  linarith

/-- a random number and, independently, a uniform one -/
noncomputable def withDraw (μ : Measure ℝ) : Measure (ℝ × ℝ) := μ.prod (volume.restrict (Set.Ico 0 1))

instance : IsProbabilityMeasure (volume.restrict (Set.Ico (0 : ℝ) 1)) := ⟨by simp⟩

instance (μ : Measure ℝ) [IsProbabilityMeasure μ] : IsProbabilityMeasure (withDraw μ) := by
  unfold withDraw; infer_instance

theorem withDraw_fst (μ : Measure ℝ) [IsProbabilityMeasure μ] {f : ℝ → ℝ} (x : ℝ) :
    (withDraw μ).real {ω | f ω.1 ≤ x} = μ.real {ω | f ω ≤ x} := by
  have : {ω : ℝ × ℝ | f ω.1 ≤ x} = {ω | f ω ≤ x} ×ˢ Set.univ := by ext ω; simp
  rw [this, withDraw, measureReal_def, Measure.prod_prod]
  simp [measureReal_def]

theorem withDraw_fresh (μ : Measure ℝ) [IsProbabilityMeasure μ] {Y : List Nat → ℝ × ℝ → ℝ} {f : List Nat → ℝ → ℝ}
    (hY : ∀ i, Y i = fun ω => f i ω.1) (hf : ∀ i, Measurable (f i)) (s : Nat) (sh : List Nat) :
    FreshDraws (withDraw μ) sh Y fun k ω => (fnsPit ω.2).uni s k where
  uniform i _ u h0 h1 := by
    have : {ω : ℝ × ℝ | (fnsPit ω.2).uni s i ≤ u} = Set.univ ×ˢ {v | (if 0 ≤ v ∧ v < 1 then v else 0) ≤ u} := by
      ext ω; simp [fnsPit]
    rw [this, withDraw, measureReal_def, Measure.prod_prod, measure_univ, one_mul]
    have : volume.restrict (Set.Ico (0 : ℝ) 1) {v | (if 0 ≤ v ∧ v < 1 then v else 0) ≤ u} =
        volume.restrict (Set.Ico (0 : ℝ) 1) (Set.Iic u) := by
      refine measure_congr ?_
      filter_upwards [ae_restrict_mem measurableSet_Ico] with v hv
      show ((if 0 ≤ v ∧ v < 1 then v else 0) ≤ u) = (v ≤ u)
      rw [if_pos (show 0 ≤ v ∧ v < 1 from hv)]
    rw [this, Measure.restrict_apply measurableSet_Iic]
    rcases h1.eq_or_lt with rfl | h1
    · rw [show Set.Iic (1 : ℝ) ∩ Set.Ico 0 1 = Set.Ico 0 1 from Set.inter_eq_right.2 fun v hv => hv.2.le]
      simp
    · rw [show Set.Iic u ∩ Set.Ico 0 1 = Set.Icc 0 u from ?_]
      · simp [h0]
      · ext v
        simp only [Set.mem_inter_iff, Set.mem_Iic, Set.mem_Ico, Set.mem_Icc]
        exact ⟨fun h => ⟨h.2.1, h.1⟩, fun h => ⟨h.2, h.1, h.2.trans_lt h1⟩⟩
  indep i _ := by
    rw [hY i]
    have hm : Measurable fun v : ℝ => if 0 ≤ v ∧ v < 1 then v else 0 :=
      Measurable.ite (measurableSet_Ici.inter measurableSet_Iio) measurable_id measurable_const
    exact ProbabilityTheory.indepFun_prod (hf i) hm

/-- The gamma class with mean 1, standard deviation 1, shift -1 at the first position; observations `max (ω - 1) 0` there,
with `ω` exponentially distributed. `pit()` is uniform if randomised and not if not. -/
example (rd : Bool) : ∃ o r : ℝ × ℝ → _, (∀ ω, ∃ w, construct (gammaPrims caseCfg (fnsPit ω.2) embIntR) noMids
      (probObj (pitX { gammaX false with f := [("mu", ⟨[2], [some 0, some 3], rfl⟩), ("sigma", ⟨[2], [some 1, some 2], rfl⟩),
      ("shift", ⟨[2], [some (-1), some 1], rfl⟩), ("unshifted_mu", ⟨[2], [some 1, some 2], rfl⟩)] } rd
        (max (1 * ω.1 + -1) 0) (max (2 * ω.1 + 1) 0))) world0 = (.ok (o ω), w)) ∧
    (∀ ω, result .gamma intInfo (gammaPrims caseCfg (fnsPit ω.2) embIntR) noMids (.slot .pit) (unsaved (o ω)) world0 =
      .ok (some (.num (r ω)))) ∧
    ∃ Z : ℝ × ℝ → ℝ, (∀ ω, (r ω).get [0] = some (Z ω)) ∧ (IsUniform (withDraw expLaw) Z ↔ rd = true) := by
  have hb : ∀ ω : ℝ × ℝ, ∃ o w, construct (gammaPrims caseCfg (fnsPit ω.2) embIntR) noMids
      (probObj (pitX { gammaX false with f := [("mu", ⟨[2], [some 0, some 3], rfl⟩), ("sigma", ⟨[2], [some 1, some 2], rfl⟩),
      ("shift", ⟨[2], [some (-1), some 1], rfl⟩), ("unshifted_mu", ⟨[2], [some 1, some 2], rfl⟩)] } rd
        (max (1 * ω.1 + -1) 0) (max (2 * ω.1 + 1) 0))) world0 = (.ok o, w) := fun ω => ⟨_, _, rfl⟩
  choose o w h using hb
  obtain ⟨r, r1, -, r3⟩ := C117_gamma (I := intInfo) (P := withDraw expLaw) (sh := [2]) (rd := rd)
    (w1 := fun _ => world0) (F := fun ω => fnsPit ω.2) h (fun _ => rfl) realLib_exact realLib_unit
    (fun ω => fnsPit_uni ω.2) (.inl ⟨rfl, by simp⟩)
    (Y := fun i ω => (fun x => if i = [0] then max (1 * x + -1) 0 else max (2 * x + 1) 0) ω.1)
    (G := fun i => if i = [0] then censoredGammaCdf 1 1 (-1) else censoredGammaCdf 2 2 1)
    { shape := fun _ => rfl
      value := fun i hi ω => by rcases two_positions hi with rfl | rfl <;> rfl
      meas := fun i hi => by rcases two_positions hi with rfl | rfl <;> simp <;> fun_prop
      law := fun i hi x => by
        rcases two_positions hi with rfl | rfl
        · exact (withDraw_fst expLaw (f := fun x => max (1 * x + -1) 0) x).trans (expLaw_law one_pos x)
        · exact (withDraw_fst expLaw (f := fun x => max (2 * x + 1) 0) x).trans (expLaw_law two_pos x) }
    (fun i hi ω => by rcases two_positions hi with rfl | rfl <;> simp) (fun _ => rfl) (fun _ => rfl)
    (fun _ => withDraw_fresh expLaw (f := fun i x => if i = [0] then max (1 * x + -1) 0 else max (2 * x + 1) 0)
      (fun i => rfl) (fun i => by split_ifs <;> fun_prop) _ _)
    (umu := ⟨[2], [some 1, some 2], rfl⟩) (sigma := ⟨[2], [some 1, some 2], rfl⟩) (shift := ⟨[2], [some (-1), some 1], rfl⟩)
    (fun _ => ⟨rfl, rfl⟩) (fun _ => ⟨rfl, rfl⟩) (fun _ => ⟨rfl, rfl⟩)
    (m := fun i => if i = [0] then 1 else 2) (sd := fun i => if i = [0] then 1 else 2) (a := fun i => if i = [0] then -1 else 1)
    (fun i hi => by rcases two_positions hi with rfl | rfl <;> simp [NDArr.get, ravel])
    (req := .slot .pit) (.inl rfl)
  obtain ⟨Z, z1, z2, z3⟩ := r3 [0] (by decide)
  refine ⟨o, r, fun ω => ⟨w ω, h ω⟩, r1, Z, z1, fun hU => ?_, fun hrd => (z2 hrd).2 (by simp)⟩
  by_contra hrd
  have hrd : rd = false := by simpa using hrd
  have h0 : 0 < censoredGammaCdf 1 1 (-1) 0 := by
    rw [censoredGammaCdf, if_neg (lt_irrefl _)]
    exact gammaCdf_pos (by norm_num) (by norm_num)
  have h1 : censoredGammaCdf 1 1 (-1) 0 ≤ 1 := (atomLaw_gamma one_pos one_pos _).le_one _
  have hh := z3 hrd (by simp) (censoredGammaCdf 1 1 (-1) 0 / 2) (by linarith) (by linarith)
  rw [hU _ (by linarith) (by linarith)] at hh
  simp only [if_true] at hh
  rw [if_pos (by linarith)] at hh
  linarith

theorem gammaCdf_one {x : ℝ} (hx : 0 ≤ x) : gammaCdf 1 x = 1 - Real.exp (-x) := by
  rw [gammaCdf_eq_interval one_pos, intervalIntegral.integral_eq_sub_of_hasDeriv_right_of_le hx (f := fun t => -Real.exp (-t))
    (by fun_prop) (fun t ht => ?_) (integrable_gammaPdf one_pos).intervalIntegrable]
  · simp
    ring
  · refine HasDerivAt.hasDerivWithinAt ?_
    rw [gammaPdf_of_pos ht.1]
    have h1 : HasDerivAt (fun t : ℝ => -Real.exp (-t)) (-(Real.exp (-t) * -1)) t := ((hasDerivAt_neg t).exp).neg
    rw [mul_neg, mul_one, neg_neg] at h1
    rw [sub_self, Real.rpow_zero, one_mul, Real.Gamma_one, div_one]
    exact h1

theorem expLaw_hurdle (x : ℝ) : expLaw.real {ω | max (ω - Real.log 2) 0 ≤ x} = hurdleLaw (1 / 2) 1 1 x := by
  have h := expLaw_law (m := 1) (d := -Real.log 2) one_pos x
  simp only [one_mul, ← sub_eq_add_neg] at h
  rw [h]
  unfold censoredGammaCdf hurdleLaw
  split_ifs with hx
  · rfl
  · have hl := Real.log_pos (show (1 : ℝ) < 2 by norm_num)
    have hx := not_lt.1 hx
    norm_num
    rw [gammaCdf_one hx, gammaCdf_one (by linarith), neg_add, Real.exp_add, Real.exp_neg (Real.log 2),
      Real.exp_log two_pos]
    ring

/-- The hurdle class, precipitation with probability 1/2 at the first position, then with mean and standard deviation 1;
observations `max (ω - log 2) 0` there, with `ω` exponentially distributed. -/
example (rd : Bool) : ∃ o r : ℝ × ℝ → _, (∀ ω, ∃ w, construct (hurdlePrims caseCfg (fnsPit ω.2) embReal id) noMids
      (probObj (pitX hurdleX rd (max (ω.1 - Real.log 2) 0) 0)) world0 = (.ok (o ω), w)) ∧
    (∀ ω, result .hurdle realInfo (hurdlePrims caseCfg (fnsPit ω.2) embReal id) noMids (.slot .pit) (unsaved (o ω)) world0 =
      .ok (some (.num (r ω)))) ∧
    ∃ Z : ℝ × ℝ → ℝ, (∀ ω, (r ω).get [0] = some (Z ω)) ∧ (IsUniform (withDraw expLaw) Z ↔ rd = true) := by
  have hb : ∀ ω : ℝ × ℝ, ∃ o w, construct (hurdlePrims caseCfg (fnsPit ω.2) embReal id) noMids
      (probObj (pitX hurdleX rd (max (ω.1 - Real.log 2) 0) 0)) world0 = (.ok o, w) := fun ω => ⟨_, _, rfl⟩
  choose o w h using hb
  obtain ⟨r, r1, -, r3⟩ := C117_hurdle (I := realInfo) (P := withDraw expLaw) (sh := [2]) (rd := rd)
    (w1 := fun _ => world0) (F := fun ω => fnsPit ω.2) h (fun _ => rfl) realLib_exact realLib_unit
    (fun ω => fnsPit_uni ω.2) (.inl ⟨rfl, by simp⟩)
    (Y := fun i ω => (fun x => if i = [0] then max (x - Real.log 2) 0 else 0) ω.1)
    (G := fun i => if i = [0] then hurdleLaw (1 / 2) 1 1 else fun x => if 0 ≤ x then 1 else 0)
    { shape := fun _ => rfl
      value := fun i hi ω => by rcases two_positions hi with rfl | rfl <;> rfl
      meas := fun i hi => by rcases two_positions hi with rfl | rfl <;> simp <;> fun_prop
      law := fun i hi x => by
        rcases two_positions hi with rfl | rfl
        · exact (withDraw_fst expLaw (f := fun x => max (x - Real.log 2) 0) x).trans (expLaw_hurdle x)
        · by_cases hx : 0 ≤ x <;> simp [hx] }
    (fun i hi ω => by rcases two_positions hi with rfl | rfl <;> simp) (fun _ => rfl)
    (fun _ => withDraw_fresh expLaw (f := fun i x => if i = [0] then max (x - Real.log 2) 0 else 0)
      (fun i => rfl) (fun i => by split_ifs; fun_prop; fun_prop) _ _)
    (pop := ⟨[2], [some (1 / 2), some 1], rfl⟩) (mu := ⟨[2], [some 1, some 3], rfl⟩) (sigma := ⟨[2], [some 1, some 2], rfl⟩)
    (fun _ => ⟨rfl, rfl⟩) (fun _ => ⟨rfl, rfl⟩) (fun _ => ⟨rfl, rfl⟩)
    (p := fun i => if i = [0] then 1 / 2 else 1) (m := fun i => if i = [0] then 1 else 3) (sd := fun i => if i = [0] then 1 else 2)
    (fun i hi => by rcases two_positions hi with rfl | rfl <;> norm_num [NDArr.get, ravel])
    (req := .slot .pit) (.inl rfl)
  obtain ⟨Z, z1, z2, z3⟩ := r3 [0] (by decide)
  refine ⟨o, r, fun ω => ⟨w ω, h ω⟩, r1, Z, z1, fun hU => ?_, fun hrd => (z2 hrd).2 (by simp)⟩
  by_contra hrd
  have hrd : rd = false := by simpa using hrd
  have h0 : hurdleLaw (1 / 2) 1 1 0 = 1 / 2 := by
    rw [hurdleLaw, if_neg (lt_irrefl _), zero_div, gammaCdf_of_nonpos le_rfl]
    norm_num
  have hh := z3 hrd (by simp) (1 / 4) (by norm_num) (by norm_num)
  rw [hU _ (by norm_num) (by norm_num)] at hh
  simp only [if_true, h0] at hh
  norm_num at hh

end Props
