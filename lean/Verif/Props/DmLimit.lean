import Verif.Lemmas.DmNormal

/-!
# C135: the Diebold-Mariano test of growing archives
-/

namespace Props
open Np Model Spec Lemmas MeasureTheory ProbabilityTheory Filter Topology

section
variable {Ω : Type} [MeasurableSpace Ω] {P : Measure Ω} [IsProbabilityMeasure P] {f : ℝ → ℝ} {crit : Crit}
  {a p q : ℕ → Ω → ℝ}

/-- a large statistic has a small p-value -/
theorem pvalue_small {ε : ℝ} (hε : 0 < ε) : ∃ M : ℝ, ∃ N : ℕ, ∀ ν, N ≤ ν → ∀ stat, Above M stat →
    ∃ v, twiceCdf studentCdf ν (Ext.neg (Ext.abs stat)) = .num v ∧ 0 ≤ v ∧ v < ε := by
  have h0 : Tendsto Phi atBot (𝓝 0) := by
    have h := intervalIntegral_tendsto_integral_Iic (a := id) (l := atBot) 0 integrable_phi.integrableOn tendsto_id
    have h2 : Tendsto (fun x => Phi 0 - ∫ t in x..0, phi t) atBot (𝓝 (Phi 0 - Phi 0)) := h.const_sub _
    rw [sub_self] at h2
    refine h2.congr fun x => ?_
    rw [← intervalIntegral.integral_Iic_sub_Iic integrable_phi.integrableOn integrable_phi.integrableOn]
    unfold Phi
    ring
  obtain ⟨b, hb⟩ := ((h0.eventually_lt_const (show (0 : ℝ) < ε / 2 by linarith)).and (eventually_lt_atBot 0)).exists
  obtain ⟨N, hN⟩ := eventually_atTop.1 ((studentCdf_tendsto b).eventually_lt_const hb.1)
  refine ⟨-b, max N 1, fun ν hν stat hM => ?_⟩
  have h1 : 1 ≤ ν := le_trans (le_max_right _ _) hν
  cases stat with
  | num x =>
    have hx : -b < x := hM
    have hle : -|x| ≤ b := by linarith [le_abs_self x]
    refine ⟨_, rfl, by have := studentCdf_pos h1 (-|x|); positivity, ?_⟩
    have := (studentCdf_strictMono h1).monotone hle
    have := hN ν (le_trans (le_max_left _ _) hν)
    linarith
  | nan => exact absurd hM (by simp [Above])
  | pinf => exact ⟨0, rfl, le_rfl, hε⟩
  | ninf => exact absurd hM (by simp [Above])

/-- **C135** (power): if the first forecast loses more than the second in the mean, then with probability one the
statistic of the first `n` days exceeds every bound and the p-value falls below every bound from some `n` on, for every
criterion and every horizon `h`. -/
theorem C135_power (hc : crit ≠ .unsupported) (ha : crit = .mape → ∀ t ω, a t ω ≠ 0)
    (hi : iIndepFun (dayGap f crit a p q) P)
    (hs : ∀ t, IdentDistrib (dayGap f crit a p q t) (dayGap f crit a p q 0) P P)
    (h2 : MemLp (dayGap f crit a p q 0) 2 P) (hm : 0 < ∫ ω, dayGap f crit a p q 0 ω ∂P) {h : ℕ} (h1 : 1 ≤ h) :
    ∀ᵐ ω ∂P, ∀ M ε : ℝ, 0 < ε → ∀ᶠ n in atTop, ∃ stat v,
      dieboldMariano Real.sqrt studentCdf crit (fun x => some (f x)) h (firstDays a n ω) (firstDays p n ω)
        (firstDays q n ω) = .ok (stat, .num v) ∧ Above M stat ∧ 0 ≤ v ∧ v < ε := by
  have key : ∀ᵐ ω ∂P, ∀ M : ℝ, ∀ᶠ n in atTop,
      Above M (dmStat Real.sqrt ((List.range n).map fun t => some (dayGap f crit a p q t ω)) n h) := by
    by_cases hv : Var[dayGap f crit a p q 0; P] = 0
    · have hconst : ∀ᵐ ω ∂P, ∀ t, dayGap f crit a p q t ω = ∫ ω, dayGap f crit a p q 0 ω ∂P := by
        refine ae_all_iff.2 fun t => ?_
        have hL : MemLp (dayGap f crit a p q t) 2 P := (hs t).memLp_iff.2 h2
        have hv' : Var[dayGap f crit a p q t; P] = 0 := (hs t).variance_eq.trans hv
        have := ae_eq_integral_of_variance_eq_zero hL hv'
        rw [(hs t).integral_eq] at this
        exact this
      filter_upwards [hconst] with ω hω M
      filter_upwards [eventually_gt_atTop h] with n hn
      simp only [hω]
      rw [dmStat_const hm h1 hn]
      trivial
    · have hv0 : 0 < Var[dayGap f crit a p q 0; P] := lt_of_le_of_ne (variance_nonneg _ _) (Ne.symm hv)
      filter_upwards [longVar_limit hi hs h2 h, lag_average hi hs h2 0] with ω w1 w2 M
      have hT : Tendsto (fun n => dmValue (fun t => dayGap f crit a p q t ω) h n) atTop atTop := by
        have hA : Tendsto (fun n : ℕ => (√(n : ℝ))) atTop atTop :=
          Real.tendsto_sqrt_atTop.comp tendsto_natCast_atTop_atTop
        have hB := w2.mul (((harvey_limit h).sqrt).mul
          ((w1.sqrt).inv₀ (Real.sqrt_ne_zero'.2 hv0)))
        have hpos : 0 < (∫ ω, dayGap f crit a p q 0 ω ∂P) * (√1 * (√Var[dayGap f crit a p q 0; P])⁻¹) := by
          have := Real.sqrt_pos.2 hv0
          positivity
        refine (hA.atTop_mul_pos hpos hB).congr' ?_
        filter_upwards [eventually_gt_atTop 0] with n hn
        have hnR : (0 : ℝ) < n := by exact_mod_cast hn
        have hsn : 0 < √(n : ℝ) := Real.sqrt_pos.2 hnR
        rw [dmValue_split]
        have e : √(n : ℝ) * ((∑ t ∈ Finset.range n, dayGap f crit a p q (t + 0) ω) / n) =
            (√(n : ℝ))⁻¹ * ∑ t ∈ Finset.range n, dayGap f crit a p q t ω := by
          simp only [add_zero]
          rw [inv_mul_eq_div, mul_div_assoc', div_eq_div_iff hnR.ne' hsn.ne', mul_right_comm,
            Real.mul_self_sqrt hnR.le, mul_comm]
        rw [← mul_assoc, e]
      filter_upwards [hT.eventually_gt_atTop M, w1.eventually_const_lt hv0, eventually_gt_atTop h] with n t1 t2 t3
      rw [dmStat_value _ h1 t3 t2]
      exact t1
  filter_upwards [key] with ω hω M ε hε
  obtain ⟨M', N, hMN⟩ := pvalue_small hε
  filter_upwards [hω (max M M'), eventually_gt_atTop h, eventually_ge_atTop (N + 1)] with n w1 w2 w3
  have hmono : ∀ {x y : ℝ} {s : Ext ℝ}, x ≤ y → Above y s → Above x s := by
    intro x y s hxy hs
    cases s with
    | num v => exact lt_of_le_of_lt hxy hs
    | nan => exact hs
    | pinf => exact hs
    | ninf => exact hs
  obtain ⟨v, e, v0, v1⟩ := hMN (n - 1) (by omega) _ (hmono (le_max_right M M') w1)
  refine ⟨_, v, ?_, hmono (le_max_left M M') w1, v0, v1⟩
  rw [dm_days f hc (fun e t => ha e t ω) h1 w2, e]

/-- **C135** (power, second forecast worse): if the first forecast loses less than the second in the mean, the
statistic falls below every bound instead. -/
theorem C135_power_second (hc : crit ≠ .unsupported) (ha : crit = .mape → ∀ t ω, a t ω ≠ 0)
    (hi : iIndepFun (dayGap f crit a p q) P)
    (hs : ∀ t, IdentDistrib (dayGap f crit a p q t) (dayGap f crit a p q 0) P P)
    (h2 : MemLp (dayGap f crit a p q 0) 2 P) (hm : ∫ ω, dayGap f crit a p q 0 ω ∂P < 0) {h : ℕ} (h1 : 1 ≤ h) :
    ∀ᵐ ω ∂P, ∀ M ε : ℝ, 0 < ε → ∀ᶠ n in atTop, ∃ stat v,
      dieboldMariano Real.sqrt studentCdf crit (fun x => some (f x)) h (firstDays a n ω) (firstDays p n ω)
        (firstDays q n ω) = .ok (stat, .num v) ∧ Below M stat ∧ 0 ≤ v ∧ v < ε := by
  have hg : dayGap f crit a q p = fun t ω => -dayGap f crit a p q t ω := by
    funext t ω; unfold dayGap; ring
  have := C135_power (P := P) (f := f) (p := q) (q := p) hc ha
    (by rw [hg]; exact hi.comp (fun _ x => -x) fun _ => measurable_neg)
    (by rw [hg]; exact fun t => (hs t).comp measurable_neg) (by rw [hg]; exact h2.neg)
    (by rw [hg, integral_neg]; linarith) h1
  filter_upwards [this] with ω hω M ε hε
  filter_upwards [hω (-M) ε hε] with n hn
  obtain ⟨stat, v, e, hst, hv⟩ := hn
  have hsw := C22_antisymmetric Real.sqrt studentCdf crit (fun x => some (f x)) h (firstDays a n ω) (firstDays q n ω)
    (firstDays p n ω) (by simp [firstDays])
  rw [e] at hsw
  refine ⟨Ext.neg stat, v, hsw, ?_, hv⟩
  cases stat with
  | num x => have hx : -M < x := hst
             exact (by linarith : -x < M)
  | nan => exact absurd hst (by simp [Above])
  | pinf => trivial
  | ninf => exact absurd hst (by simp [Above])

/-- **C135** (the statistic of equally good forecasts): if both forecasts lose the same in the mean, and not the same
amount every day, the probability that the statistic is at most `x` tends to the standard normal distribution function. -/
theorem C135_normal (hc : crit ≠ .unsupported) (ha : crit = .mape → ∀ t ω, a t ω ≠ 0)
    (hi : iIndepFun (dayGap f crit a p q) P)
    (hs : ∀ t, IdentDistrib (dayGap f crit a p q t) (dayGap f crit a p q 0) P P)
    (h2 : MemLp (dayGap f crit a p q 0) 2 P) (h0 : ∫ ω, dayGap f crit a p q 0 ω ∂P = 0)
    (hv : 0 < Var[dayGap f crit a p q 0; P]) {h : ℕ} (h1 : 1 ≤ h) (x : ℝ) :
    Tendsto (fun n => P.real {ω | ∃ v pv, dieboldMariano Real.sqrt studentCdf crit (fun x => some (f x)) h
      (firstDays a n ω) (firstDays p n ω) (firstDays q n ω) = .ok (.num v, pv) ∧ v ≤ x}) atTop (𝓝 (Phi x)) := by
  have := nullSingletonClass_gaussianReal (μ := 0) (v := 1) one_ne_zero
  have ht := dmValue_prob hi hs h2 h0 hv h (measurableSet_Iic (a := x)) (by rw [frontier_Iic]; exact measure_singleton x)
  rw [gauss_Iic] at ht
  have hp := longVar_pos hi hs h2 hv h
  have hlo := ht.sub hp
  have hhi := ht.add hp
  rw [sub_zero] at hlo
  rw [add_zero] at hhi
  refine tendsto_of_tendsto_of_tendsto_of_le_of_le' hlo hhi ?_ ?_
  · filter_upwards [eventually_gt_atTop h] with n hn
    rw [sub_le_iff_le_add]
    refine le_trans (measureReal_mono ?_) (measureReal_union_le _ _)
    intro ω hω
    by_cases hV : 0 < longVar (fun t => dayGap f crit a p q t ω) h n
    · have e := dm_days f hc (fun e t => ha e t ω) (p := p) (q := q) h1 hn
      rw [dmStat_value _ h1 hn hV] at e
      exact Or.inl ⟨_, _, e, hω⟩
    · exact Or.inr hV
  · filter_upwards [eventually_gt_atTop h] with n hn
    refine le_trans (measureReal_mono ?_) (measureReal_union_le _ _)
    rintro ω ⟨v, pv, e, hvx⟩
    by_cases hV : 0 < longVar (fun t => dayGap f crit a p q t ω) h n
    · rw [dm_days f hc (fun e t => ha e t ω) h1 hn, dmStat_value _ h1 hn hV] at e
      injection e with e
      simp only [Prod.mk.injEq, Ext.num.injEq] at e
      refine Or.inl ?_
      change _ ≤ x
      rw [e.1]; exact hvx
    · exact Or.inr hV

/-- **C135** (size): if both forecasts lose the same in the mean, and not the same amount every day, the probability
that the p-value is less than `α` tends to `α`: the test raises as many false alarms as announced. -/
theorem C135_size (hc : crit ≠ .unsupported) (ha : crit = .mape → ∀ t ω, a t ω ≠ 0)
    (hi : iIndepFun (dayGap f crit a p q) P)
    (hs : ∀ t, IdentDistrib (dayGap f crit a p q t) (dayGap f crit a p q 0) P P)
    (h2 : MemLp (dayGap f crit a p q 0) 2 P) (h0 : ∫ ω, dayGap f crit a p q 0 ω ∂P = 0)
    (hv : 0 < Var[dayGap f crit a p q 0; P]) {h : ℕ} (h1 : 1 ≤ h) {α : ℝ} (α0 : 0 < α) (α1 : α < 1) :
    Tendsto (fun n => P.real {ω | ∃ stat v, dieboldMariano Real.sqrt studentCdf crit (fun x => some (f x)) h
      (firstDays a n ω) (firstDays p n ω) (firstDays q n ω) = .ok (stat, .num v) ∧ v < α}) atTop (𝓝 α) := by
  have hna := nullSingletonClass_gaussianReal (μ := 0) (v := 1) one_ne_zero
  have ht : ∀ c : ℝ, 0 < c → Tendsto (fun n => P.real {ω | c ≤ |dmValue (fun t => dayGap f crit a p q t ω) h n|}) atTop
      (𝓝 (2 * Phi (-c))) := by
    intro c c0
    rw [← gauss_tails c0]
    refine dmValue_prob hi hs h2 h0 hv h (S := {x | c ≤ |x|}) (measurableSet_le measurable_const measurable_abs) ?_
    refine measure_mono_null ((frontier_le_subset_eq continuous_const continuous_abs).trans ?_)
      ((Set.toFinite {c, -c}).measure_zero _)
    intro x hx
    have hx : c = |x| := hx
    rcases abs_cases x with ⟨e, -⟩ | ⟨e, -⟩
    · left; rw [hx, e]
    · right; rw [Set.mem_singleton_iff, hx, e, neg_neg]
  have hp := longVar_pos hi hs h2 hv h
  have hhalf : Phi 0 = 1 / 2 := by
    have := Phi_neg 0
    rw [neg_zero] at this; linarith
  -- the critical value
  obtain ⟨z, hz⟩ : ∃ z, Phi (-z) = α / 2 := by
    have hlow : Tendsto (fun x => Phi (-x)) atTop (𝓝 0) := by
      have : Tendsto (fun x => 1 - Phi x) atTop (𝓝 (1 - 1)) := tendsto_Phi.const_sub 1
      rw [sub_self] at this
      exact this.congr fun x => (Phi_neg x).symm
    obtain ⟨b, hb, hb0⟩ := ((hlow.eventually_lt_const (show (0 : ℝ) < α / 2 by linarith)).and
      (eventually_gt_atTop 0)).exists
    obtain ⟨w, -, hw⟩ := intermediate_value_Icc (show -b ≤ 0 by linarith) (continuous_Phi.continuousOn)
      (show α / 2 ∈ Set.Icc (Phi (-b)) (Phi 0) from ⟨hb.le, by rw [hhalf]; linarith⟩)
    exact ⟨-w, by rw [neg_neg]; exact hw⟩
  have z0 : 0 < z := by
    have : Phi (-z) < Phi 0 := by rw [hz, hhalf]; linarith
    have := strictMono_Phi.lt_iff_lt.1 this
    linarith
  have hcont : Continuous fun c => 2 * Phi (-c) := (continuous_Phi.comp continuous_neg).const_mul 2
  have hcz : 2 * Phi (-z) = α := by rw [hz]; ring
  -- the result in terms of the value
  have hres : ∀ n ω, h < n → 0 < longVar (fun t => dayGap f crit a p q t ω) h n →
      ((∃ stat v, dieboldMariano Real.sqrt studentCdf crit (fun x => some (f x)) h (firstDays a n ω) (firstDays p n ω)
        (firstDays q n ω) = .ok (stat, .num v) ∧ v < α) ↔
        2 * studentCdf (n - 1) (-|dmValue (fun t => dayGap f crit a p q t ω) h n|) < α) := by
    intro n ω hn hV
    rw [dm_days f hc (fun e t => ha e t ω) h1 hn, dmStat_value _ h1 hn hV]
    simp only [Ext.abs, Ext.neg, twiceCdf]
    constructor
    · rintro ⟨stat, v, e, hvα⟩
      injection e with e
      simp only [Prod.mk.injEq, Ext.num.injEq] at e
      rw [e.2]; exact hvα
    · intro hlt
      exact ⟨_, _, rfl, hlt⟩
  refine tendsto_order.2 ⟨fun b hb => ?_, fun b hb => ?_⟩
  · -- not too few
    obtain ⟨c, hcb, hzc⟩ : ∃ c, b < 2 * Phi (-c) ∧ z < c := by
      have : ∀ᶠ c in 𝓝[>] z, b < 2 * Phi (-c) :=
        (hcont.tendsto z).mono_left nhdsWithin_le_nhds |>.eventually_const_lt (by rw [hcz]; exact hb)
      exact (this.and self_mem_nhdsWithin).exists
    have hst : ∀ᶠ n : ℕ in atTop, 2 * studentCdf (n - 1) (-c) < α := by
      have hlt : 2 * Phi (-c) < α := by
        rw [← hcz]
        have := strictMono_Phi (show -c < -z by linarith)
        linarith
      exact (((studentCdf_tendsto (-c)).comp (tendsto_sub_atTop_nat 1)).const_mul 2).eventually_lt_const hlt
    have hlim := (ht c (by linarith)).sub hp
    rw [sub_zero] at hlim
    filter_upwards [hlim.eventually_const_lt hcb, hst, eventually_gt_atTop h] with n w1 w2 w3
    refine lt_of_lt_of_le w1 ?_
    rw [sub_le_iff_le_add]
    refine le_trans (measureReal_mono ?_) (measureReal_union_le _ _)
    intro ω hω
    by_cases hV : 0 < longVar (fun t => dayGap f crit a p q t ω) h n
    · refine Or.inl ((hres n ω w3 hV).2 (lt_of_le_of_lt ?_ w2))
      have hω : c ≤ |dmValue (fun t => dayGap f crit a p q t ω) h n| := hω
      have := (studentCdf_strictMono (ν := n - 1) (by omega)).monotone (neg_le_neg hω)
      linarith
    · exact Or.inr hV
  · -- not too many
    obtain ⟨c, hcb, hcz', c0⟩ : ∃ c, 2 * Phi (-c) < b ∧ c < z ∧ 0 < c := by
      have : ∀ᶠ c in 𝓝[<] z, 2 * Phi (-c) < b :=
        (hcont.tendsto z).mono_left nhdsWithin_le_nhds |>.eventually_lt_const (by rw [hcz]; exact hb)
      have h3 : ∀ᶠ c in 𝓝[<] z, 0 < c := (eventually_gt_nhds z0).filter_mono nhdsWithin_le_nhds
      have h4 : ∀ᶠ c in 𝓝[<] z, c < z := self_mem_nhdsWithin
      exact (this.and (h4.and h3)).exists
    have hst : ∀ᶠ n : ℕ in atTop, α < 2 * studentCdf (n - 1) (-c) := by
      have hlt : α < 2 * Phi (-c) := by
        rw [← hcz]
        have := strictMono_Phi (show -z < -c by linarith)
        linarith
      exact (((studentCdf_tendsto (-c)).comp (tendsto_sub_atTop_nat 1)).const_mul 2).eventually_const_lt hlt
    have hlim := (ht c c0).add hp
    rw [add_zero] at hlim
    filter_upwards [hlim.eventually_lt_const hcb, hst, eventually_gt_atTop h] with n w1 w2 w3
    refine lt_of_le_of_lt ?_ w1
    refine le_trans (measureReal_mono ?_) (measureReal_union_le _ _)
    intro ω hω
    by_cases hV : 0 < longVar (fun t => dayGap f crit a p q t ω) h n
    · refine Or.inl ?_
      have hω := (hres n ω w3 hV).1 hω
      by_contra hlt
      have hlt : |dmValue (fun t => dayGap f crit a p q t ω) h n| < c := not_le.1 hlt
      have := (studentCdf_strictMono (ν := n - 1) (by omega)).monotone (neg_le_neg hlt.le)
      linarith
    · exact Or.inr hV

end

end Props
