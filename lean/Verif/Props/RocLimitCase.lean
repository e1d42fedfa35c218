import Verif.Props.RocLimit
import Verif.Props.BinLimitsCase

/-! # Concrete cases for C140 -/

namespace Props
open Np NDArr Model Spec Lemmas MeasureTheory ProbabilityTheory

noncomputable def rocCfg : Cfg ℝ := { (caseCfg : Cfg ℝ) with rocCurve := skRoc }

/-- the sum of signal and noise -/
def daySum (ω : ℕ → ℝ × ℝ) : ℝ := (ω 0).1 + (ω 0).2

theorem day_both {S T : Set ℝ} (hS : MeasurableSet S) (hT : MeasurableSet T) :
    days.real {ω | (ω 0).1 ∈ S ∧ (ω 0).2 ∈ T} = stdNormal.real S * stdNormal.real T := by
  have e : {ω : ℕ → ℝ × ℝ | (ω 0).1 ∈ S ∧ (ω 0).2 ∈ T} = (fun ω => ω 0) ⁻¹' (S ×ˢ T) := rfl
  rw [e, (day_preserving 0).measureReal_preimage (hS.prod hT).nullMeasurableSet, dayLaw, measureReal_prod_prod]

theorem std_below : stdNormal.real (Set.Iic 0) = Phi 0 := by
  have := stdNormal_law 0 one_pos 0
  have e : {ω : ℝ | 0 + 1 * ω ≤ 0} = Set.Iic 0 := by ext ω; simp
  rw [e, normalCdf] at this
  simpa using this

theorem std_above : stdNormal.real (Set.Ioi 0) = 1 - Phi 0 := by
  rw [← Set.compl_Iic, probReal_compl_eq_one_sub measurableSet_Iic, std_below]

theorem sum_iff (ω : ℕ → ℝ × ℝ) : ω ∈ {ω | Beyond true 0 daySum ω} ↔ 0 < (ω 0).1 + (ω 0).2 := by
  simp [Beyond, daySum]

theorem sum_over : days.real {ω | Beyond true 0 daySum ω} ≠ 0 := by
  have h1 : {ω : ℕ → ℝ × ℝ | (ω 0).1 ∈ Set.Ioi 0 ∧ (ω 0).2 ∈ Set.Ioi 0} ⊆ {ω | Beyond true 0 daySum ω} :=
    fun ω h => (sum_iff ω).2 (add_pos h.1 h.2)
  have h2 := measureReal_mono (μ := days) h1
  rw [day_both measurableSet_Ioi measurableSet_Ioi, std_above] at h2
  have h3 : 0 < 1 - Phi 0 := by
    have := one_sub_Phi 0
    rw [neg_zero] at this
    rw [this]
    exact Phi_pos _
  have := mul_pos h3 h3
  linarith

theorem sum_not_over : days.real {ω | Beyond true 0 daySum ω}ᶜ ≠ 0 := by
  have h1 : {ω : ℕ → ℝ × ℝ | (ω 0).1 ∈ Set.Iic 0 ∧ (ω 0).2 ∈ Set.Iic 0} ⊆ {ω | Beyond true 0 daySum ω}ᶜ :=
    fun ω h h' => not_lt.2 (add_nonpos h.1 h.2) ((sum_iff ω).1 h')
  have h2 := measureReal_mono (μ := days) h1
  rw [day_both measurableSet_Iic measurableSet_Iic, std_below] at h2
  have := mul_pos (Phi_pos 0) (Phi_pos 0)
  linarith

/-- Every day the observation is the sum of a signal and a noise. One verifier announces the signal as mean: the area of its
`roc(over=0)` settles at the probability that the signal is higher on a day with a positive sum than on one without. Another
announces the same every day: its area settles at one half. -/
example : ∃ (o o' : ℕ → (ℕ → ℝ × ℝ) → _) (S S' : ℕ → (ℕ → ℝ × ℝ) → ℝ),
    (∀ n ω, ∃ w w', construct (gaussPrims rocCfg (fnsPit 0) embBoth) noMids (dayGauss (fun x => x) (fun _ => 1) n ω) w =
      (.ok (o n ω), w')) ∧
    (∀ n ω, ∃ w w', construct (gaussPrims rocCfg (fnsPit 0) embBoth) noMids (dayGauss (fun _ => 0) (fun _ => 2) n ω) w =
      (.ok (o' n ω), w')) ∧
    (∀ᵐ ω ∂days, ∃ N, ∀ n, N ≤ n →
      (∃ fpr tpr, result .gaussian bothInfo (gaussPrims rocCfg (fnsPit 0) embBoth) noMids (.slot (.roc (some (.inl 0)) none))
        (unsaved (o n ω)) world0 = .ok (some (.roc fpr tpr (some (S n ω))))) ∧
      ∃ fpr tpr, result .gaussian bothInfo (gaussPrims rocCfg (fnsPit 0) embBoth) noMids (.slot (.roc (some (.inl 0)) none))
        (unsaved (o' n ω)) world0 = .ok (some (.roc fpr tpr (some (S' n ω))))) ∧
    Settles days S (trueArea days (fun ω => (ω 0).1) {ω | Beyond true 0 daySum ω}) ∧ Settles days S' (1 / 2) := by
  have g := dayGauss_archive rocCfg (fun x => x) (s := fun _ => 1) fun _ => one_pos
  have g' := dayGauss_archive rocCfg (fun _ => 0) (s := fun _ => 2) fun _ => two_pos
  obtain ⟨S, r1, r2⟩ := C140_roc (P := days) (shared_gauss rocCfg (fnsPit 0) embBoth).base rfl (fun n ω => dayGauss_says g n ω)
    (τ := 0) rfl
  obtain ⟨S', r1', r2'⟩ := C140_roc (P := days) (shared_gauss rocCfg (fnsPit 0) embBoth).base rfl
    (fun n ω => dayGauss_says g' n ω) (τ := 0) rfl
  have k := r2 (days_repeat (g := fun p : ℝ × ℝ => (beyondProb true (gaussLaw false p.1 1 0), p.1 + p.2))
    ((measurable_dayProb.comp measurable_fst).prodMk (by fun_prop))) sum_over sum_not_over
  have k' := r2' (days_repeat (g := fun p : ℝ × ℝ => (beyondProb true (gaussLaw false 0 2 0), p.1 + p.2))
    (by fun_prop)) sum_over sum_not_over
  have hmono : StrictMono fun x : ℝ => beyondProb true (gaussLaw false x 1 0) := by
    intro x y hxy
    show 1 - Phi ((0 - x) / 1) < 1 - Phi ((0 - y) / 1)
    have := strictMono_Phi (show (0 - y) / 1 < (0 - x) / 1 by linarith)
    linarith
  have hm : MeasurableSet {ω | Beyond true 0 daySum ω} := measurableSet_beyond true 0 (by unfold daySum; fun_prop)
  refine ⟨_, _, S, S', g.made, g'.made, ?_, settles_to k.1 (C140_order hmono).symm, settles_to k'.1
    (C140_no_skill measurable_const hm (indepFun_const_left _ _) sum_over sum_not_over).symm⟩
  filter_upwards [k.2] with ω hω
  obtain ⟨N, hN⟩ := hω
  exact ⟨N, fun n hn => ⟨r1 n ω (hN n hn).1 (hN n hn).2, r1' n ω (hN n hn).1 (hN n hn).2⟩⟩

/-- the forecasts of the observed sum itself have the area 1 -/
example : trueArea days daySum {ω | Beyond true 0 daySum ω} = 1 :=
  C140_perfect (measurableSet_beyond true 0 (by unfold daySum; fun_prop)) (fun ω h ω' h' =>
    lt_of_le_of_lt (not_lt.1 fun hh => h' ((sum_iff ω').2 hh)) ((sum_iff ω).1 h))
    sum_over sum_not_over

end Props
