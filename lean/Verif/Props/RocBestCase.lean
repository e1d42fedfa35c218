import Verif.Props.RocBest
import Verif.Props.RocLimitCase

/-! # Concrete cases for C141 -/

namespace Props
open Np NDArr Model Spec Lemmas MeasureTheory ProbabilityTheory

/-- signals of two days -/
theorem signals_differ : ¬ ∀ᵐ z ∂(days.prod days), ¬ (z.1 0).1 < (z.2 0).1 := by
  intro h
  have h1 : (days.prod days).real ({ω | (ω 0).1 ∈ Set.Iic 0 ∧ (ω 0).2 ∈ Set.univ} ×ˢ
      {ω | (ω 0).1 ∈ Set.Ioi 0 ∧ (ω 0).2 ∈ Set.univ}) = Phi 0 * (1 - Phi 0) := by
    rw [measureReal_prod_prod, day_both measurableSet_Iic MeasurableSet.univ, day_both measurableSet_Ioi MeasurableSet.univ,
      std_below, std_above]
    simp
  rw [ae_iff] at h
  have h2 : (days.prod days).real ({ω | (ω 0).1 ∈ Set.Iic 0 ∧ (ω 0).2 ∈ Set.univ} ×ˢ
      {ω | (ω 0).1 ∈ Set.Ioi 0 ∧ (ω 0).2 ∈ Set.univ}) = 0 := by
    rw [measureReal_def, measure_mono_null (fun z hz => ?_) h, ENNReal.toReal_zero]
    exact not_not.2 (lt_of_le_of_lt hz.1.1 hz.2.1)
  have h3 : 0 < 1 - Phi 0 := by
    have := one_sub_Phi 0
    rw [neg_zero] at this
    rw [this]
    exact Phi_pos _
  have := mul_pos (Phi_pos 0) h3
  linarith

theorem dayProb_strict : StrictMono fun x : ℝ => beyondProb true (gaussLaw false x 1 0) := by
  intro x y hxy
  show 1 - Phi ((0 - x) / 1) < 1 - Phi ((0 - y) / 1)
  have := strictMono_Phi (show (0 - y) / 1 < (0 - x) / 1 by linarith)
  linarith

/-- Every day the observation is the sum of a signal and a noise. One verifier announces the signal as mean and the standard
deviation 1, another the mean 0 and the standard deviation 2. With probability one both `roc(over=0)` return an area from some
day on, and that of the first is larger. -/
example : ∃ (o o' : ℕ → (ℕ → ℝ × ℝ) → _),
    (∀ n ω, ∃ w w', construct (gaussPrims rocCfg (fnsPit 0) embBoth) noMids (dayGauss (fun x => x) (fun _ => 1) n ω) w =
      (.ok (o n ω), w')) ∧
    (∀ n ω, ∃ w w', construct (gaussPrims rocCfg (fnsPit 0) embBoth) noMids (dayGauss (fun _ => 0) (fun _ => 2) n ω) w =
      (.ok (o' n ω), w')) ∧
    ∀ᵐ ω ∂days, ∃ N, ∀ n, N ≤ n → ∃ fpr tpr fpr' tpr' v v',
      result .gaussian bothInfo (gaussPrims rocCfg (fnsPit 0) embBoth) noMids (.slot (.roc (some (.inl 0)) none))
        (unsaved (o n ω)) world0 = .ok (some (.roc fpr tpr (some v))) ∧
      result .gaussian bothInfo (gaussPrims rocCfg (fnsPit 0) embBoth) noMids (.slot (.roc (some (.inl 0)) none))
        (unsaved (o' n ω)) world0 = .ok (some (.roc fpr' tpr' (some v'))) ∧ v' < v := by
  have g := dayGauss_archive rocCfg (fun x => x) (s := fun _ => 1) fun _ => one_pos
  have g' := dayGauss_archive rocCfg (fun _ => 0) (s := fun _ => 2) fun _ => two_pos
  obtain ⟨S, r1, r2⟩ := C140_roc (P := days) (shared_gauss rocCfg (fnsPit 0) embBoth).base rfl (fun n ω => dayGauss_says g n ω)
    (τ := 0) rfl
  obtain ⟨S', r1', r2'⟩ := C140_roc (P := days) (shared_gauss rocCfg (fnsPit 0) embBoth).base rfl
    (fun n ω => dayGauss_says g' n ω) (τ := 0) rfl
  have k := r2 (days_repeat (g := fun p : ℝ × ℝ => (beyondProb true (gaussLaw false p.1 1 0), p.1 + p.2))
    ((measurable_dayProb.comp measurable_fst).prodMk (by fun_prop))) sum_over sum_not_over
  have k' := r2' (days_repeat (g := fun p : ℝ × ℝ => (beyondProb true (gaussLaw false 0 2 0), p.1 + p.2))
    (by fun_prop)) sum_over sum_not_over
  have hm : MeasurableSet {ω | Beyond true 0 daySum ω} := measurableSet_beyond true 0 (by unfold daySum; fun_prop)
  have hov := C141_overtakes (P := days) (K := fun ω : ℕ → ℝ × ℝ => (ω 0).1) (e := fun _ => beyondProb true (gaussLaw false 0 2 0))
    hm (by fun_prop) measurable_dayProb measurable_const
    (fun ω => beyondProb_unit ((unit_normal _ _).lo _) ((unit_normal _ _).hi _)) day_known sum_over sum_not_over
    (fun h => signals_differ (by
      filter_upwards [h] with z hz hlt
      exact lt_irrefl _ (hz (dayProb_strict hlt)))) k'.1 k.1
  refine ⟨_, _, g.made, g'.made, ?_⟩
  filter_upwards [k.2, hov] with ω h1 h2
  obtain ⟨N, hN⟩ := h1
  obtain ⟨M, hM⟩ := h2
  refine ⟨max N M, fun n hn => ?_⟩
  obtain ⟨a1, a2⟩ := hN n ((le_max_left _ _).trans hn)
  obtain ⟨f, t, h3⟩ := r1 n ω a1 a2
  obtain ⟨f', t', h4⟩ := r1' n ω a1 a2
  exact ⟨f, t, f', t', _, _, h3, h4, hM n ((le_max_right _ _).trans hn)⟩

end Props
