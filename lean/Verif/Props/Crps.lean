import Verif.Lemmas.Crps
import Verif.Lemmas.Normal
import Verif.Lemmas.GammaDist

/-!
# Ranked probability scores: C38 - C40, C70, C71
-/

set_option linter.unusedSectionVars false

namespace Props
open Np NDArr Model Spec Lemmas

variable {K : Type} [Field K] [LinearOrder K] [IsStrictOrderedRing K]

/-- the functions that `stats.norm` and numpy compute, as real functions -/
noncomputable def realGauss : Gauss ℝ := ⟨Spec.phi, Spec.Phi, √2, √Real.pi⟩

/-- the functions that `stats.gamma`, `special.gamma` and numpy compute, as real functions -/
noncomputable def realGamma : GammaFns ℝ := ⟨Spec.gammaCdf, Real.Gamma, Real.log, Real.exp, Real.pi⟩

/-! ### C38 -/

theorem truncGaussElem_real (y mu s l : ℝ) (hs : 0 < s) :
    truncGaussElem realGauss [some y, some mu, some s, some l] =
      some (stdCrps ((l - mu) / s) ((y - mu) / s) * s) := by
  have hp : 1 - Phi ((l - mu) / s) ≠ 0 := by linarith [Phi_lt_one ((l - mu) / s)] |> ne_of_gt
  have hpi : √Real.pi ≠ 0 := by have := Real.pi_pos; positivity
  have key : ∀ L Y : ℝ, 1 - Phi L ≠ 0 →
      (let z := if Fl.lt (some Y) (some L) then some L else some Y
      let f_z := z.map phi
      let F_z := z.map Phi
      let F_l := (some L).map Phi
      let F_lsqrt2 := (Fl.mul (some L) (some √2)).map Phi
      let frac1 := Fl.div (some 1) (Fl.sub (some 1) F_l)
      let term1 := Fl.abs (Fl.sub (some Y) z)
      let term2 := Fl.mul (Fl.mul frac1 z) (Fl.sub (Fl.sub (Fl.mul (some 2) F_z) (some 1)) F_l)
      let term3 := Fl.mul (Fl.mul frac1 (some 2)) f_z
      let term4 := Fl.mul (Fl.div (Fl.mul (Fl.sq frac1) (some 1)) (some √Real.pi)) (Fl.sub (some 1) F_lsqrt2)
      Fl.mul (Fl.sub (Fl.add (Fl.add term1 term2) term3) term4) (some s)) = some (stdCrps L Y * s) := by
    intro L Y hL
    have hz : (if Fl.lt (some Y) (some L) then some L else some Y) = some (if Y < L then L else Y) := by
      unfold Fl.lt; by_cases h : Y < L <;> simp [h]
    simp only [hz, Option.map_some, Fl.mul_some, Fl.sub_some, Fl.div, hL, hpi, if_false, Fl.sq, Fl.abs, Fl.add_some]
    unfold stdCrps
    simp only [Option.some.injEq]
    ring
  have h := key ((l - mu) / s) ((y - mu) / s) hp
  unfold truncGaussElem
  simp only [List.getD_cons_zero, List.getD_cons_succ, Fl.sub_some, Fl.div, hs.ne', if_false, realGauss]
  exact h

/-- **C38**: for arrays of one shape the result at a position with `scale > 0` is the integral of
`(F(x) - 1[y ≤ x])²`, a convergent one, where `F` is the distribution function of the normal distribution with the
mean and standard deviation at that position conditioned on being at least `l`. -/
theorem C38_integral {y mu scale l : NDArr (Fl ℝ)} {s : List Nat} (hy : y.shape = s) (hmu : mu.shape = s)
    (hsc : scale.shape = s) (hl : l.shape = s) :
    ∃ r, crpsTruncatedGaussian realGauss y (.array mu) (.array scale) (.array l) = .ok r ∧ r.shape = s ∧
      ∀ k, InB s k → ∀ yv m sd lv, y.get k = some yv → mu.get k = some m → scale.get k = some sd →
        l.get k = some lv → 0 < sd →
        MeasureTheory.Integrable (crpsIntegrand (truncNormalCdf m sd lv) yv) ∧
        r.get k = some (crpsOf (truncNormalCdf m sd lv) yv) := by
  rw [crpsTruncatedGaussian_arrays _ hy hmu hsc hl]
  refine ⟨_, elementwise_ok _ (by simp) (s := s) ?_, rfl, ?_⟩
  · intro p hp
    simp only [List.mem_cons, List.not_mem_nil, or_false] at hp
    rcases hp with rfl | rfl | rfl | rfl <;> assumption
  · intro k hk yv m sd lv h1 h2 h3 h4 hs
    obtain ⟨hi, he⟩ := crps_trunc m sd lv yv hs
    refine ⟨hi, ?_⟩
    rw [get_ofFn _ hk]
    simp only [List.map_cons, List.map_nil, h1, h2, h3, h4]
    rw [truncGaussElem_real _ _ _ _ hs, he]

/-- **C38** for the verification class: `VerifyProbGaussian(truncated=True).crps()` is the score of the forecast
distribution truncated at zero. -/
theorem C38_class (psGaussian : List (Fl ℝ) → Fl ℝ) {o mu sigma : NDArr (Fl ℝ)} {s : List Nat} (ho : o.shape = s)
    (hmu : mu.shape = s) (hsc : sigma.shape = s) :
    ∃ r, gaussianCrps realGauss psGaussian true o mu sigma = .ok r ∧ r.shape = s ∧
      ∀ k, InB s k → ∀ yv m sd, o.get k = some yv → mu.get k = some m → sigma.get k = some sd → 0 < sd →
        r.get k = some (crpsOf (truncNormalCdf m sd 0) yv) := by
  unfold gaussianCrps
  rw [if_pos rfl, crpsTruncatedGaussian_same _ rfl (by simp [Param.shape, Param.isNumber, hmu, hsc, ho])]
  simp only [Param.expand]
  refine ⟨_, elementwise_ok _ (by simp) (s := s) ?_, rfl, ?_⟩
  · intro p hp
    simp only [List.mem_cons, List.not_mem_nil, or_false] at hp
    rcases hp with rfl | rfl | rfl | rfl
    · exact ho
    · exact hmu
    · exact hsc
    · exact ho
  · intro k hk yv m sd h1 h2 h3 hs
    rw [get_ofFn _ hk]
    simp only [List.map_cons, List.map_nil, h1, h2, h3]
    rw [get_full _ (by rw [ho]; exact hk), truncGaussElem_real _ _ _ _ hs, (crps_trunc m sd 0 yv hs).2]

/-- the hypotheses of C38 are met by a forecast of mean 1 and standard deviation 2 observed at -1 -/
example : ∃ r, gaussianCrps realGauss (fun _ => none) true (full [2] (some (-1))) (full [2] (some 1))
    (full [2] (some 2)) = .ok r ∧ r.get [1] = some (crpsOf (truncNormalCdf 1 2 0) (-1)) := by
  obtain ⟨r, h1, -, h3⟩ := C38_class (fun _ => none) (o := full [2] (some (-1))) (mu := full [2] (some 1))
    (sigma := full [2] (some 2)) (s := [2]) rfl rfl rfl
  exact ⟨r, h1, h3 [1] (by decide) (-1) 1 2 rfl rfl rfl (by norm_num)⟩

/-- the spec really is a distribution function: 0 below the bound, increasing from the bound on, with limit 1 -/
theorem C38_spec_is_cdf (mu l : ℝ) {sigma : ℝ} (hs : 0 < sigma) :
    (∀ x < l, truncNormalCdf mu sigma l x = 0) ∧ truncNormalCdf mu sigma l l = 0 ∧
    StrictMonoOn (truncNormalCdf mu sigma l) (Set.Ici l) ∧
    Filter.Tendsto (truncNormalCdf mu sigma l) Filter.atTop (nhds 1) := by
  have hp : 0 < 1 - Phi ((l - mu) / sigma) := by linarith [Phi_lt_one ((l - mu) / sigma)]
  refine ⟨fun x hx => if_pos hx, ?_, ?_, ?_⟩
  · unfold truncNormalCdf; simp
  · intro a ha b hb hab
    unfold truncNormalCdf
    rw [if_neg (not_lt.2 ha), if_neg (not_lt.2 hb), div_lt_div_iff_of_pos_right hp]
    have := strictMono_Phi ((div_lt_div_iff_of_pos_right hs).2 (sub_lt_sub_right hab mu))
    linarith
  · have h1 : Filter.Tendsto (fun x => (x - mu) / sigma) Filter.atTop Filter.atTop :=
      (Filter.tendsto_atTop_add_const_right _ (-mu) Filter.tendsto_id).atTop_div_const hs
    have h2 := ((tendsto_Phi.comp h1).sub_const (Phi ((l - mu) / sigma))).div_const (1 - Phi ((l - mu) / sigma))
    rw [div_self hp.ne'] at h2
    refine h2.congr' ?_
    filter_upwards [Filter.eventually_ge_atTop l] with x hx
    unfold truncNormalCdf
    rw [if_neg (not_lt.2 hx)]
    rfl

/-- add a number to every element -/
def addC (c : K) (a : NDArr (Fl K)) : NDArr (Fl K) := a.map fun x => Fl.add x (some c)

/-- multiply every element by a number -/
def mulC (c : K) (a : NDArr (Fl K)) : NDArr (Fl K) := a.map fun x => Fl.mul (some c) x

theorem sub_addC (x y : Fl K) (c : K) : Fl.sub (Fl.add x (some c)) (Fl.add y (some c)) = Fl.sub x y := by
  cases x <;> cases y <;> simp [Fl.sub, Fl.add, Fl.lift2]

theorem sub_mulC (x y : Fl K) (c : K) :
    Fl.sub (Fl.mul (some c) x) (Fl.mul (some c) y) = Fl.mul (some c) (Fl.sub x y) := by
  cases x <;> cases y <;> simp [Fl.sub, Fl.mul, Fl.lift2, mul_sub]

theorem div_mulC (x y : Fl K) {c : K} (hc : c ≠ 0) :
    Fl.div (Fl.mul (some c) x) (Fl.mul (some c) y) = Fl.div x y := by
  cases x with
  | none => cases y <;> rfl
  | some x =>
    cases y with
    | none => rfl
    | some y =>
      simp only [Fl.mul_some, Fl.div, mul_eq_zero, hc, false_or]
      split
      · rfl
      · rw [mul_div_mul_left _ _ hc]

theorem mul_mulC (x y : Fl K) (c : K) : Fl.mul x (Fl.mul (some c) y) = Fl.mul (some c) (Fl.mul x y) := by
  cases x <;> cases y <;> simp [Fl.mul, Fl.lift2, mul_left_comm]

/-- **C38**, translation: adding `c` to observations, means and bounds leaves the scores unchanged, for any density and
distribution function, any arrays (NaN included) and any `c`. -/
theorem C38_translation (G : Gauss K) (c : K) {y mu scale l : NDArr (Fl K)} {s : List Nat} (hy : y.shape = s)
    (hmu : mu.shape = s) (hsc : scale.shape = s) (hl : l.shape = s) :
    ∃ r, crpsTruncatedGaussian G y (.array mu) (.array scale) (.array l) = .ok r ∧
      crpsTruncatedGaussian G (addC c y) (.array (addC c mu)) (.array scale) (.array (addC c l)) = .ok r := by
  rw [crpsTruncatedGaussian_arrays _ hy hmu hsc hl,
    crpsTruncatedGaussian_arrays _ (y := addC c y) (mu := addC c mu) (l := addC c l) hy hmu hsc hl]
  refine ⟨_, elementwise_ok _ (by simp) (s := s) ?_, ?_⟩
  · intro p hp
    simp only [List.mem_cons, List.not_mem_nil, or_false] at hp
    rcases hp with rfl | rfl | rfl | rfl <;> assumption
  · rw [elementwise_ok _ (by simp) (s := s) (by
      intro p hp
      simp only [List.mem_cons, List.not_mem_nil, or_false] at hp
      rcases hp with rfl | rfl | rfl | rfl <;> assumption)]
    congr 1
    refine ext_get (by rfl) ?_
    intro k hk
    replace hk : InB s k := hk
    rw [get_ofFn _ hk, get_ofFn _ hk]
    simp only [List.map_cons, List.map_nil, addC]
    rw [get_map _ _ (by rw [hy]; exact hk), get_map _ _ (by rw [hmu]; exact hk), get_map _ _ (by rw [hl]; exact hk)]
    unfold truncGaussElem
    simp only [List.getD_cons_zero, List.getD_cons_succ, sub_addC]

/-- **C38**, units: multiplying observations, means, scales and bounds by `c > 0` multiplies the scores by `c`. -/
theorem C38_scaling (G : Gauss K) {c : K} (hc : 0 < c) {y mu scale l : NDArr (Fl K)} {s : List Nat}
    (hy : y.shape = s) (hmu : mu.shape = s) (hsc : scale.shape = s) (hl : l.shape = s) :
    ∃ r, crpsTruncatedGaussian G y (.array mu) (.array scale) (.array l) = .ok r ∧
      crpsTruncatedGaussian G (mulC c y) (.array (mulC c mu)) (.array (mulC c scale)) (.array (mulC c l)) =
        .ok (mulC c r) := by
  rw [crpsTruncatedGaussian_arrays _ hy hmu hsc hl, crpsTruncatedGaussian_arrays _ (y := mulC c y) (mu := mulC c mu)
    (scale := mulC c scale) (l := mulC c l) hy hmu hsc hl]
  refine ⟨_, elementwise_ok _ (by simp) (s := s) ?_, ?_⟩
  · intro p hp
    simp only [List.mem_cons, List.not_mem_nil, or_false] at hp
    rcases hp with rfl | rfl | rfl | rfl <;> assumption
  · rw [elementwise_ok _ (by simp) (s := s) (by
      intro p hp
      simp only [List.mem_cons, List.not_mem_nil, or_false] at hp
      rcases hp with rfl | rfl | rfl | rfl <;> assumption)]
    congr 1
    refine ext_get (by rfl) ?_
    intro k hk
    replace hk : InB s k := hk
    simp only [mulC]
    rw [get_ofFn _ hk, get_map _ _ (show InB (ofFn s _).shape k from hk), get_ofFn _ hk]
    simp only [List.map_cons, List.map_nil]
    rw [get_map _ _ (by rw [hy]; exact hk), get_map _ _ (by rw [hmu]; exact hk), get_map _ _ (by rw [hsc]; exact hk),
      get_map _ _ (by rw [hl]; exact hk)]
    unfold truncGaussElem
    simp only [List.getD_cons_zero, List.getD_cons_succ, sub_mulC, div_mulC _ _ hc.ne', mul_mulC]

/-- **C38**, slope one: for an observation at or below the truncation point the score is the score at the truncation
point plus the distance to it. -/
theorem C38_slope (m sd l y : ℝ) (hs : 0 < sd) (hy : y ≤ l) :
    crpsOf (truncNormalCdf m sd l) y = crpsOf (truncNormalCdf m sd l) l + (l - y) := by
  rw [(crps_trunc m sd l y hs).2, (crps_trunc m sd l l hs).2]
  unfold stdCrps
  rw [if_neg (lt_irrefl _)]
  rcases eq_or_lt_of_le hy with rfl | hlt
  · rw [if_neg (lt_irrefl _)]; ring
  · have h1 : (y - m) / sd < (l - m) / sd := (div_lt_div_iff_of_pos_right hs).2 (by linarith)
    rw [if_pos h1]
    have h2 : |(y - m) / sd - (l - m) / sd| = (l - y) / sd := by
      rw [← sub_div, abs_div, abs_of_pos hs, abs_of_nonpos (by linarith)]; ring_nf
    simp only [h2, sub_self, abs_zero]
    have h3 : (l - y) / sd * sd = l - y := by field_simp
    linear_combination h3

/-- missing data: a NaN among observation, mean, scale or bound gives NaN at that position -/
theorem C38_nan (G : Gauss K) {y mu scale l : NDArr (Fl K)} {s : List Nat} (hy : y.shape = s)
    (hmu : mu.shape = s) (hsc : scale.shape = s) (hl : l.shape = s) :
    ∃ r, crpsTruncatedGaussian G y (.array mu) (.array scale) (.array l) = .ok r ∧
      ∀ k, InB s k → (y.get k = none ∨ mu.get k = none ∨ scale.get k = none ∨ l.get k = none) → r.get k = none := by
  rw [crpsTruncatedGaussian_arrays _ hy hmu hsc hl]
  refine ⟨_, elementwise_ok _ (by simp) (s := s) ?_, ?_⟩
  · intro p hp
    simp only [List.mem_cons, List.not_mem_nil, or_false] at hp
    rcases hp with rfl | rfl | rfl | rfl <;> assumption
  · intro k hk h
    rw [get_ofFn _ hk]
    simp only [List.map_cons, List.map_nil]
    have m1 : ∀ x : Fl K, Fl.mul none x = none := fun x => rfl
    have m2 : ∀ x : Fl K, Fl.mul x none = none := fun x => by cases x <;> rfl
    have s1 : ∀ x : Fl K, Fl.sub none x = none := fun x => rfl
    have s2 : ∀ x : Fl K, Fl.sub x none = none := fun x => by cases x <;> rfl
    have d1 : ∀ x : Fl K, Fl.div none x = none := fun x => rfl
    have d2 : ∀ x : Fl K, Fl.div x none = none := fun x => by cases x <;> rfl
    have ab : Fl.abs (none : Fl K) = none := rfl
    have l1 : ∀ x : Fl K, Fl.lt none x = false := fun x => rfl
    have l2 : ∀ x : Fl K, Fl.lt x none = false := fun x => by cases x <;> rfl
    rcases h with h | h | h | h <;> rw [h] <;> unfold truncGaussElem <;>
      simp [m1, m2, s1, s2, d1, d2, ab, l1, l2, Fl.sq]

/-! ### C70 -/

/-- **C70**, the full claim: with the default parameters (`mu=0, scale=1, l=0`) the function returns the scores of the
standard normal truncated at zero -/
def C70_statement : Prop :=
  ∀ y : NDArr (Fl ℝ), ∃ r, crpsTruncatedGaussian realGauss y (.number (some 0)) (.number (some 1)) (.number (some 0)) =
    .ok r ∧ ∀ k, InB y.shape k → ∀ v, y.get k = some v → r.get k = some (crpsOf (truncNormalCdf 0 1 0) v)

/-- **C70** is false: with Python numbers for `mu`, `scale` and `l` - the defaults included - every call raises
`TypeError`, whatever the observations. -/
theorem C70_numbers_false : ¬ C70_statement ∧
    ∀ (G : Gauss K) (y : NDArr (Fl K)) (mu scale l : Fl K),
      crpsTruncatedGaussian G y (.number mu) (.number scale) (.number l) = .error .type := by
  refine ⟨?_, fun G y mu scale l => rfl⟩
  intro h
  obtain ⟨r, h1, -⟩ := h (full [1] (some 0))
  cases h1

/-- **C70**, what is true: one array among the three suffices; numbers are then broadcast. -/
theorem C70_partial (G : Gauss K) {y mu : NDArr (Fl K)} (hmu : mu.shape = y.shape) (scale l : Fl K) :
    crpsTruncatedGaussian G y (.array mu) (.number scale) (.number l) =
      crpsTruncatedGaussian G y (.array mu) (.array (full y.shape scale)) (.array (full y.shape l)) ∧
    ∃ r, crpsTruncatedGaussian G y (.array mu) (.number scale) (.number l) = .ok r ∧ r.shape = y.shape := by
  rw [crpsTruncatedGaussian_arrays _ (scale := full y.shape scale) (l := full y.shape l) rfl hmu rfl rfl,
    crpsTruncatedGaussian_same _ rfl (by simp [Param.shape, Param.isNumber, hmu])]
  refine ⟨rfl, ?_⟩
  simp only [Param.expand]
  rw [elementwise_ok _ (by simp) (s := y.shape) (by
    intro p hp
    simp only [List.mem_cons, List.not_mem_nil, or_false] at hp
    rcases hp with rfl | rfl | rfl | rfl
    · rfl
    · exact hmu
    · rfl
    · rfl)]
  exact ⟨_, rfl, rfl⟩

/-! ### C39 -/

/-- **C39**, `reduce_sum=True`: the average of the scores of `reduce_sum=False`; missing scores are left out or make it
missing, as `pyanen_skip_nan` says. -/
theorem C39_reduced (G : GammaFns K) (skip : Bool) {mu sigma shift obs r : NDArr (Fl K)}
    (hr : crpsGamma G mu sigma shift obs = .ok r) :
    ∃ v, crpsGammaReduced G skip mu sigma shift obs = .ok v ∧ IsAvg skip r.data v := by
  unfold crpsGammaReduced
  rw [hr]
  exact ⟨_, rfl, meanOf_isAvg skip r.data⟩

/-- **C39**, units: multiplying means, standard deviations, shifts and observations by `c > 0` multiplies the scores by
`c`, for any gamma and beta functions and any arrays. -/
theorem C39_scaling (G : GammaFns K) {c : K} (hc : 0 < c) {mu sigma shift obs : NDArr (Fl K)} {s : List Nat}
    (hmu : mu.shape = s) (hsi : sigma.shape = s) (hsh : shift.shape = s) (ho : obs.shape = s) :
    ∃ r, crpsGamma G mu sigma shift obs = .ok r ∧
      crpsGamma G (mulC c mu) (mulC c sigma) (mulC c shift) (mulC c obs) = .ok (mulC c r) := by
  unfold crpsGamma
  refine ⟨_, elementwise_ok _ (by simp) (s := s) ?_, ?_⟩
  · intro p hp
    simp only [List.mem_cons, List.not_mem_nil, or_false] at hp
    rcases hp with rfl | rfl | rfl | rfl <;> assumption
  · rw [elementwise_ok _ (by simp) (s := s) (by
      intro p hp
      simp only [List.mem_cons, List.not_mem_nil, or_false] at hp
      rcases hp with rfl | rfl | rfl | rfl <;> assumption)]
    congr 1
    refine ext_get (by rfl) ?_
    intro k hk
    replace hk : InB s k := hk
    simp only [mulC]
    rw [get_ofFn _ hk, get_map _ _ (show InB (ofFn s _).shape k from hk), get_ofFn _ hk]
    simp only [List.map_cons, List.map_nil]
    rw [get_map _ _ (by rw [hmu]; exact hk), get_map _ _ (by rw [hsi]; exact hk), get_map _ _ (by rw [hsh]; exact hk),
      get_map _ _ (by rw [ho]; exact hk)]
    unfold gammaCrpsElem
    have hscale : ∀ a b : Fl K, Fl.div (Fl.sq (Fl.mul (some c) a)) (Fl.mul (some c) b) =
        Fl.mul (some c) (Fl.div (Fl.sq a) b) := by
      intro a b
      cases a with
      | none => cases b <;> rfl
      | some a =>
        cases b with
        | none => rfl
        | some b =>
          simp only [Fl.mul_some, Fl.sq, Option.map_some, Fl.div, mul_eq_zero, hc.ne', false_or]
          split
          · rfl
          · rename_i hb
            simp only [Fl.mul_some, Option.some.injEq]
            field_simp
    simp only [List.getD_cons_zero, List.getD_cons_succ, sub_mulC, div_mulC _ _ hc.ne', hscale, fun x y => mul_mulC x y c]

theorem gammaCrpsElem_real (mu sigma shift obs : ℝ) (hm : 0 < mu) (hs : 0 < sigma) :
    gammaCrpsElem realGamma [some mu, some sigma, some shift, some obs] =
      some (stdGammaCrps ((mu / sigma) ^ 2) (-shift / (sigma ^ 2 / mu)) ((obs - shift) / (sigma ^ 2 / mu)) *
        (sigma ^ 2 / mu)) := by
  have hk : 0 < (mu / sigma) ^ 2 := by positivity
  have ht : sigma * sigma / mu ≠ 0 := by positivity
  have hpi : Real.pi ≠ 0 := Real.pi_pos.ne'
  have hb : Real.exp (lbeta realGamma (1 / 2) (mu / sigma * (mu / sigma) + 1 / 2)) =
      Real.Gamma (1 / 2) * Real.Gamma ((mu / sigma) ^ 2 + 1 / 2) /
        Real.Gamma (1 / 2 + ((mu / sigma) ^ 2 + 1 / 2)) := by
    have h1 := Real.Gamma_pos_of_pos (by norm_num : (0 : ℝ) < 1 / 2)
    have h2 := Real.Gamma_pos_of_pos (by linarith : 0 < (mu / sigma) ^ 2 + 1 / 2)
    have h3 := Real.Gamma_pos_of_pos (by linarith : 0 < 1 / 2 + ((mu / sigma) ^ 2 + 1 / 2))
    unfold lbeta realGamma
    simp only []
    rw [← pow_two, Real.exp_sub, Real.exp_add, Real.exp_log h1, Real.exp_log h2, Real.exp_log h3]
  unfold gammaCrpsElem
  simp only [List.getD_cons_zero, List.getD_cons_succ, Fl.sub_some, Fl.div, hs.ne', hm.ne', if_false, Fl.sq,
    Option.map_some, ht, Fl.mul_some, Fl.add_some, fl2]
  simp only [show realGamma.pi = Real.pi from rfl, hpi, if_false, show realGamma.exp = Real.exp from rfl, hb,
    Fl.mul_some, Fl.sub_some, show realGamma.cdf = gammaCdf from rfl]
  unfold stdGammaCrps gammaBeta
  simp only [← pow_two, one_mul, neg_mul]

/-- **C39**: at a position with positive mean and standard deviation and a non-negative observation the result is the
integral of `(F(x) - 1[y ≤ x])²`, a convergent one, where `F` is the distribution function of the shifted gamma
distribution with all negative values moved to zero. -/
theorem C39_integral {mu sigma shift obs : NDArr (Fl ℝ)} {s : List Nat}
    (hmu : mu.shape = s) (hsi : sigma.shape = s) (hsh : shift.shape = s) (ho : obs.shape = s) :
    ∃ r, crpsGamma realGamma mu sigma shift obs = .ok r ∧ r.shape = s ∧
      ∀ k, InB s k → ∀ m sd d y, mu.get k = some m → sigma.get k = some sd → shift.get k = some d →
        obs.get k = some y → 0 < m → 0 < sd → 0 ≤ y →
        MeasureTheory.Integrable (crpsIntegrand (censoredGammaCdf m sd d) y) ∧
        r.get k = some (crpsOf (censoredGammaCdf m sd d) y) := by
  unfold crpsGamma
  refine ⟨_, elementwise_ok _ (by simp) (s := s) ?_, rfl, ?_⟩
  · intro p hp
    simp only [List.mem_cons, List.not_mem_nil, or_false] at hp
    rcases hp with rfl | rfl | rfl | rfl <;> assumption
  · intro k hk m sd d y h1 h2 h3 h4 hm hsd hy
    obtain ⟨hi, he⟩ := crps_censoredGamma (shift := d) hm hsd hy
    refine ⟨hi, ?_⟩
    rw [get_ofFn _ hk]
    simp only [List.map_cons, List.map_nil, h1, h2, h3, h4]
    rw [gammaCrpsElem_real _ _ _ _ hm hsd, he]

/-- the hypotheses of C39 are met by a gamma forecast of mean 2 and standard deviation 1, shifted by -1, observed at 3 -/
example : ∃ r, crpsGamma realGamma (full [2] (some 2)) (full [2] (some 1)) (full [2] (some (-1)))
    (full [2] (some 3)) = .ok r ∧ r.get [1] = some (crpsOf (censoredGammaCdf 2 1 (-1)) 3) := by
  obtain ⟨r, h1, -, h3⟩ := C39_integral (mu := full [2] (some 2)) (sigma := full [2] (some 1))
    (shift := full [2] (some (-1))) (obs := full [2] (some 3)) (s := [2]) rfl rfl rfl rfl
  exact ⟨r, h1, (h3 [1] (by decide) 2 1 (-1) 3 rfl rfl rfl rfl (by norm_num) (by norm_num) (by norm_num)).2⟩

/-- outside that range: with a negative shift and a negative observation the result is strictly below the score -/
theorem C39_negative_obs (m sd d y : ℝ) (hm : 0 < m) (hs : 0 < sd) (hd : d < 0) (hy : y < 0) :
    ∃ v, gammaCrpsElem realGamma [some m, some sd, some d, some y] = some v ∧
      v < crpsOf (censoredGammaCdf m sd d) y := by
  refine ⟨_, gammaCrpsElem_real m sd d y hm hs, ?_⟩
  have hk : 0 < (m / sd) ^ 2 := by positivity
  have ht : 0 < sd ^ 2 / m := by positivity
  have hc : 0 < -d / (sd ^ 2 / m) := div_pos (by linarith) ht
  have hlt : (y - d) / (sd ^ 2 / m) < -d / (sd ^ 2 / m) := (div_lt_div_iff_of_pos_right ht).2 (by linarith)
  obtain ⟨hi, he⟩ := crps_stdCensored_below hk hlt
  rw [(crps_scale _ _ d _ y ht (censoredGammaCdf_eq hm hs) hi).2, he]
  have := gammaAnti1_lt hk hc hlt
  exact mul_lt_mul_of_pos_right (by linarith) ht

/-! ### C71 -/

/-- the distribution function that `VerifyProbGamma.cdf` reports for one forecast: gamma, shifted, not truncated -/
noncomputable def shiftedGammaCdf (mu sigma shift x : ℝ) : ℝ :=
  gammaCdf ((mu / sigma) ^ 2) ((x - shift) / (sigma ^ 2 / mu))

/-- `cdf_gamma` with one worker reports it, when scipy's gamma distribution function is the mathematical one -/
theorem C71_cdf (S : Scipy ℝ) (hS : ∀ x a sh sc : ℝ, S.gamma (some x) (some a) (some sh) (some sc) =
      some (gammaCdf a ((x - sh) / sc)))
    {mu sigma shift : NDArr (Fl ℝ)} {s : List Nat} (hmu : mu.shape = s) (hsi : sigma.shape = s)
    (hsh : shift.shape = s) (hne : s ≠ []) (x : ℝ) :
    ∃ r, cdfGamma S 1 (-1) mu sigma shift (.scalar (some x)) false = .ok r ∧ r.shape = s ∧
      ∀ k, InB s k → ∀ m sd d, mu.get k = some m → sigma.get k = some sd → shift.get k = some d → 0 < m → 0 < sd →
        r.get k = some (shiftedGammaCdf m sd d x) := by
  have hz : mu.shape = sigma.shape := by rw [hmu, hsi]
  unfold cdfGamma
  rw [zipWith_ok _ _ _ hz, zipWith_ok _ _ _ hz]
  simp only [bind, Except.bind, cdfGeneric, broadcastBelow, if_true, shape_ofFn]
  rw [runElems_ok _ _ (by simp) (s := s) (by
    intro p hp
    simp only [List.cons_append, List.nil_append, List.mem_cons, List.not_mem_nil, or_false] at hp
    rcases hp with rfl | rfl | rfl | rfl
    · exact hmu
    · exact hmu
    · exact hsh
    · exact hmu)]
  dsimp only
  rw [if_neg (by rw [shape_ofFn]; exact hne)]
  refine ⟨_, rfl, rfl, ?_⟩
  intro k hk m sd d h1 h2 h3 hm hsd
  have hkm : InB mu.shape k := by rw [hmu]; exact hk
  rw [get_map _ _ hk, get_ofFn _ hk]
  simp only [List.cons_append, List.nil_append, List.map_cons, List.map_nil, List.getD_cons_zero, List.getD_cons_succ,
    Bool.false_eq_true, if_false]
  rw [get_ofFn _ hkm, get_ofFn _ hkm, get_full _ hkm, h1, h2, h3]
  have e1 : gammaShape (some m) (some sd) = some ((m / sd) ^ 2) := by
    simp [gammaShape, Fl.div, hsd.ne', Fl.sq, pow_two]
  have e2 : gammaScale (some m) (some sd) = some (sd ^ 2 / m) := by
    simp [gammaScale, Fl.div, hm.ne', Fl.sq, pow_two]
  rw [e1, e2, hS]
  have hk' : 0 < (m / sd) ^ 2 := by positivity
  have b1 := gammaCdf_le_one hk' ((x - d) / (sd ^ 2 / m))
  have b0 : 0 ≤ gammaCdf ((m / sd) ^ 2) ((x - d) / (sd ^ 2 / m)) := by
    rcases le_or_gt ((x - d) / (sd ^ 2 / m)) 0 with h | h
    · rw [gammaCdf_of_nonpos h]
    · exact (gammaCdf_pos hk' h).le
  unfold clip01 shiftedGammaCdf
  simp [Fl.lt, not_lt.2 b0, not_lt.2 b1]

/-- **C71**, the full claim: the score is the score of the reported distribution -/
def C71_statement : Prop :=
  ∀ m sd d y : ℝ, 0 < m → 0 < sd →
    gammaCrpsElem realGamma [some m, some sd, some d, some y] = some (crpsOf (shiftedGammaCdf m sd d) y)

/-- **C71** is false for every forecast with a negative shift: the computed score is strictly smaller than the score of
the distribution whose CDF, PIT and samples the class reports. -/
theorem C71_negative_shift_false : ¬ C71_statement ∧
    ∀ m sd d y : ℝ, 0 < m → 0 < sd → d < 0 →
      ∃ v, gammaCrpsElem realGamma [some m, some sd, some d, some y] = some v ∧
        v < crpsOf (shiftedGammaCdf m sd d) y := by
  have main : ∀ m sd d y : ℝ, 0 < m → 0 < sd → d < 0 →
      ∃ v, gammaCrpsElem realGamma [some m, some sd, some d, some y] = some v ∧
        v < crpsOf (shiftedGammaCdf m sd d) y := by
    intro m sd d y hm hs hd
    refine ⟨_, gammaCrpsElem_real m sd d y hm hs, ?_⟩
    have hk : 0 < (m / sd) ^ 2 := by positivity
    have ht : 0 < sd ^ 2 / m := by positivity
    have hc : 0 < -d / (sd ^ 2 / m) := div_pos (by linarith) ht
    obtain ⟨hi, he⟩ := crps_gammaCdf hk (le_refl 0) ((y - d) / (sd ^ 2 / m))
    rw [(crps_scale (gammaCdf ((m / sd) ^ 2)) (shiftedGammaCdf m sd d) d _ y ht (fun x => rfl) hi).2, he]
    exact mul_lt_mul_of_pos_right (stdGammaCrps_lt hk hc _) ht
  refine ⟨?_, main⟩
  intro h
  obtain ⟨v, h1, h2⟩ := main 1 1 (-1) 0 (by norm_num) (by norm_num) (by norm_num)
  rw [h 1 1 (-1) 0 (by norm_num) (by norm_num), Option.some.injEq] at h1
  exact absurd h2 (by rw [h1]; exact lt_irrefl _)

/-- **C71**, what is true: for a shift that is not negative the score is the score of the reported distribution, for
every observation (negative ones included). -/
theorem C71_partial {mu sigma shift obs : NDArr (Fl ℝ)} {s : List Nat}
    (hmu : mu.shape = s) (hsi : sigma.shape = s) (hsh : shift.shape = s) (ho : obs.shape = s) :
    ∃ r, gammaCrps realGamma false mu sigma shift obs = .ok r ∧ r.shape = s ∧
      ∀ k, InB s k → ∀ m sd d y, mu.get k = some m → sigma.get k = some sd → shift.get k = some d →
        obs.get k = some y → 0 < m → 0 < sd → 0 ≤ d →
        MeasureTheory.Integrable (crpsIntegrand (shiftedGammaCdf m sd d) y) ∧
        r.get k = some (crpsOf (shiftedGammaCdf m sd d) y) := by
  simp only [gammaCrps, crpsGamma, Bool.false_eq_true, if_false]
  refine ⟨_, elementwise_ok _ (by simp) (s := s) ?_, rfl, ?_⟩
  · intro p hp
    simp only [List.mem_cons, List.not_mem_nil, or_false] at hp
    rcases hp with rfl | rfl | rfl | rfl <;> assumption
  · intro k hk m sd d y h1 h2 h3 h4 hm hsd hd
    have hk' : 0 < (m / sd) ^ 2 := by positivity
    have ht : 0 < sd ^ 2 / m := by positivity
    have hc : -d / (sd ^ 2 / m) ≤ 0 := div_nonpos_of_nonpos_of_nonneg (by linarith) ht.le
    obtain ⟨hi, he⟩ := crps_gammaCdf hk' hc ((y - d) / (sd ^ 2 / m))
    have := crps_scale (gammaCdf ((m / sd) ^ 2)) (shiftedGammaCdf m sd d) d _ y ht (fun x => rfl) hi
    refine ⟨this.1, ?_⟩
    rw [get_ofFn _ hk]
    simp only [List.map_cons, List.map_nil, h1, h2, h3, h4]
    rw [gammaCrpsElem_real _ _ _ _ hm hsd, this.2, he]

/-- the truncated class has no closed form: it raises for all inputs -/
theorem C71_truncated (G : GammaFns K) (umu sigma shift o : NDArr (Fl K)) :
    gammaCrps G true umu sigma shift o = .error .notImplemented := rfl

/-! ### C40 -/

/-- **C40**: for every ensemble axis (positive or negative) and all shapes with at least one row of observations,
splitting along the first axis gives the same array, and both are the scores of every observation against its members.
-/
theorem C40_split (pt : Fl K → List (Fl K) → Fl K) {ax : Int} {o f : NDArr (Fl K)}
    (hax : AxisOK f.shape.length ax) (ho : o.shape = f.shape.eraseIdx (axisNum f.shape.length ax))
    (hpos : 0 < o.shape.headD 0) :
    ∃ r, ensembleCrps pt true ax o f = .ok r ∧ ensembleCrps pt false ax o f = .ok r ∧ r.shape = o.shape ∧
      ∀ k, InB o.shape k → r.get k = pt (o.get k)
        ((List.range (f.shape.getD (axisNum f.shape.length ax) 0)).map fun j =>
          f.get (k.insertIdx (axisNum f.shape.length ax) j)) := by
  obtain ⟨m, m1, m2, m3⟩ := moveaxis_end f hax
  set n := axisNum f.shape.length ax with hn
  set M := f.shape.getD n 0 with hM
  rw [← ho] at m2 m3
  obtain ⟨n0, t, hot⟩ : ∃ n0 t, o.shape = n0 :: t := by
    cases h : o.shape with
    | nil => rw [h] at hpos; simp at hpos
    | cons a b => exact ⟨a, b, rfl⟩
  have hn0 : 0 < n0 := by rw [hot] at hpos; simpa using hpos
  -- the unsplit score
  have hun : ensembleCrps pt false ax o f =
      .ok (ofFn o.shape fun k => pt (o.get k) ((List.range M).map fun j => m.get (k ++ [j]))) := by
    have h2 := psCrpsEnsemble_last pt o m M m2
    simp only [ensembleCrps, Bool.false_eq_true, if_false]
    by_cases h1 : ax = -1
    · have hself := moveaxis_end_self f hax (by
        rw [h1]; unfold axisNum; unfold AxisOK at hax; split <;> omega)
      rw [m1] at hself
      have hmf : m = f := by injection hself
      rw [h1, ← hmf]; exact h2
    · rw [← h2]
      unfold psCrpsEnsemble
      simp only [h1, if_false, m1, bind, Except.bind, if_true, pure, Except.pure]
  -- the split score
  have hsp : ensembleCrps pt true ax o f =
      .ok (ofFn o.shape fun k => pt (o.get k) ((List.range M).map fun j => m.get (k ++ [j]))) := by
    have hf : membersLast ax f = .ok m := by
      unfold membersLast
      by_cases h1 : ax = -1 ∨ ax = (f.shape.length : Int) - 1
      · have hself := moveaxis_end_self f hax (by
          unfold axisNum; unfold AxisOK at hax; rcases h1 with h1 | h1 <;> rw [h1] <;> split <;> omega)
        rw [m1] at hself
        have hmf : m = f := by injection hself
        rw [if_pos h1, hmf]
      · rw [if_neg h1, m1]
    simp only [ensembleCrps, if_true]
    rw [hf]
    simp only [bind, Except.bind, hot]
    have hmap : mapE (fun i => if i < m.shape.headD 0 then psCrpsEnsemble pt (o.slice0 i) (m.slice0 i) (-1)
          else .error .index) (List.range n0) =
        .ok ((List.range n0).map fun i => ofFn t fun k =>
          pt (o.get (i :: k)) ((List.range M).map fun j => m.get (i :: k ++ [j]))) := by
      rw [← mapE_pure]
      apply mapE_congr
      intro i hi
      have hi' : i < n0 := List.mem_range.1 hi
      rw [if_pos (by rw [m2, hot]; simpa using hi')]
      have hs1 : (o.slice0 i).shape = t := by simp [slice0, hot]
      have hs2 : (m.slice0 i).shape = (o.slice0 i).shape ++ [M] := by rw [hs1]; simp [slice0, m2, hot]
      rw [psCrpsEnsemble_last pt _ _ M hs2, hs1]
      congr 1
      refine ext_get (by rfl) ?_
      intro k hk
      have hk' : InB t k := hk
      rw [get_ofFn _ hk', get_ofFn _ hk', slice0, get_ofFn _ (by rw [hot]; exact hk')]
      congr 1
      apply List.map_congr_left
      intro j hj
      have hj' : j < M := List.mem_range.1 hj
      rw [slice0, get_ofFn _ (by
        rw [m2, hot]; exact InB.append hk' (List.Forall₂.cons hj' List.Forall₂.nil))]
      rfl
    rw [hmap]
    simp only []
    rw [stack0_ok (fun i k => pt (o.get (i :: k)) ((List.range M).map fun j => m.get (i :: k ++ [j]))) n0 t hn0]
    congr 1
    refine ext_get (by rfl) ?_
    intro k hk
    have hk' : InB (n0 :: t) k := hk
    rw [get_ofFn _ hk', get_ofFn _ hk']
    cases hk' with
    | cons h1 h2 => rfl
  refine ⟨_, hsp, hun, rfl, ?_⟩
  intro k hk
  rw [get_ofFn _ hk]
  congr 1
  apply List.map_congr_left
  intro j hj
  exact m3 k j (by rw [ho] at hk; rw [ho]; exact hk) (List.mem_range.1 hj)

/-- the boundary of C40: without a single row of observations the unsplit score is the empty array but the split one
raises `ValueError` (`np.stack` of nothing) -/
theorem C40_no_rows (pt : Fl K → List (Fl K) → Fl K) {o f : NDArr (Fl K)} {t : List Nat} {M : Nat}
    (ho : o.shape = 0 :: t) (hf : f.shape = o.shape ++ [M]) :
    ensembleCrps pt true (-1) o f = .error .value ∧ ∃ r, ensembleCrps pt false (-1) o f = .ok r ∧ r.shape = o.shape := by
  constructor
  · simp only [ensembleCrps, membersLast, if_true, true_or, bind, Except.bind, ho, List.range_zero, mapE, stack0]
  · exact ⟨_, psCrpsEnsemble_last pt o f M hf, rfl⟩

/-- C40's hypotheses are met by three members in the middle of a `2 x 3 x 4` array -/
example : ∃ r, ensembleCrps (fun x l => Fl.sub (mean l) x) true 1 (full [2, 4] (some (1 : ℚ)))
    (full [2, 3, 4] (some 2)) = .ok r ∧
    ensembleCrps (fun x l => Fl.sub (mean l) x) false (-2) (full [2, 4] (some (1 : ℚ))) (full [2, 3, 4] (some 2)) =
      .ok r := by
  obtain ⟨r, h1, h2, -⟩ := C40_split (fun x l => Fl.sub (mean l) x) (ax := 1) (o := full [2, 4] (some (1 : ℚ)))
    (f := full [2, 3, 4] (some 2)) (by unfold AxisOK; decide) (by decide) (by decide)
  refine ⟨r, h1, ?_⟩
  rw [← h2]
  rfl

end Props
