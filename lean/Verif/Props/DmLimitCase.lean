import Verif.Props.DmLimit
import Mathlib.Probability.Independence.InfinitePi
import Mathlib.Probability.ProductMeasure

/-!
# C135: forecasts by constants of normal numbers
-/

namespace Props
open Np Model Spec Lemmas MeasureTheory ProbabilityTheory Filter Topology

/-- a standard normal number every day -/
noncomputable def normalDays : Measure (ℕ → ℝ) := Measure.infinitePi fun _ => gaussianReal 0 1

instance : IsProbabilityMeasure normalDays := by unfold normalDays; infer_instance

theorem normalDays_eval (t : ℕ) : MeasurePreserving (fun ω : ℕ → ℝ => ω t) normalDays (gaussianReal 0 1) :=
  measurePreserving_eval_infinitePi (fun _ => gaussianReal 0 1) t

theorem normalDays_indep : iIndepFun (fun t (ω : ℕ → ℝ) => ω t) normalDays := by
  have := iIndepFun_infinitePi (P := fun _ : ℕ => gaussianReal 0 1) (X := fun _ (x : ℝ) => x) fun _ => measurable_id
  exact this

theorem normalDays_same (t : ℕ) : IdentDistrib (fun ω : ℕ → ℝ => ω t) (fun ω => ω 0) normalDays normalDays :=
  ⟨(normalDays_eval t).measurable.aemeasurable, (normalDays_eval 0).measurable.aemeasurable,
    (normalDays_eval t).map_eq.trans (normalDays_eval 0).map_eq.symm⟩

theorem normalDays_id : IdentDistrib (fun ω : ℕ → ℝ => ω 0) (fun x => x) normalDays (gaussianReal 0 1) :=
  ⟨(normalDays_eval 0).measurable.aemeasurable, aemeasurable_id, by
    rw [(normalDays_eval 0).map_eq, Measure.map_id']⟩

theorem normalDays_memLp : MemLp (fun ω : ℕ → ℝ => ω 0) 2 normalDays :=
  normalDays_id.memLp_iff.2 (memLp_id_gaussianReal 2)

theorem normalDays_mean : ∫ ω, ω 0 ∂normalDays = 0 :=
  normalDays_id.integral_eq.trans (integral_id_gaussianReal (μ := 0) (v := 1))

theorem normalDays_var : Var[fun ω : ℕ → ℝ => ω 0; normalDays] = 1 := by
  rw [normalDays_id.variance_eq]
  simp

/-- the difference of the squared errors of the forecasts `u` and `v` -/
theorem normalDays_gap (u v : ℝ) : dayGap id .mse (fun t ω => ω t) (fun _ _ => u) (fun _ _ => v) =
    fun t (ω : ℕ → ℝ) => (fun x => 2 * (v - u) * x + (u ^ 2 - v ^ 2)) (ω t) := by
  funext t ω
  simp only [dayGap, lossVal]
  ring

theorem measurable_affine (u v : ℝ) : Measurable fun x : ℝ => u * x + v := (measurable_id.const_mul u).add_const v

/-- Always saying 2 is worse than always saying 1, whichever the number of days ahead: the statistic grows beyond all
bounds. -/
example {h : ℕ} (h1 : 1 ≤ h) : ∀ᵐ ω ∂normalDays, ∀ M ε : ℝ, 0 < ε → ∀ᶠ n in atTop, ∃ stat v,
    dieboldMariano Real.sqrt studentCdf .mse (fun x => some (id x)) h (firstDays (fun t ω => ω t) n ω)
      (firstDays (fun _ _ => 2) n ω) (firstDays (fun _ _ => 1) n ω) = .ok (stat, .num v) ∧ Above M stat ∧
        0 ≤ v ∧ v < ε := by
  have hg := normalDays_gap 2 1
  refine C135_power (by simp) (by simp) ?_ ?_ ?_ ?_ h1
  · rw [hg]; exact normalDays_indep.comp (fun _ x => 2 * (1 - 2) * x + (2 ^ 2 - 1 ^ 2)) fun _ => measurable_affine _ _
  · rw [hg]; exact fun t => (normalDays_same t).comp (measurable_affine _ _)
  · rw [hg]; exact (normalDays_memLp.const_mul _).add (memLp_const _)
  · rw [hg]
    have hI : Integrable (fun ω : ℕ → ℝ => 2 * (1 - 2) * ω 0) normalDays :=
      (normalDays_memLp.integrable (by norm_num)).const_mul _
    simp only
    rw [integral_add hI (integrable_const _), integral_const_mul, normalDays_mean]
    norm_num

/-- Always saying 1 is better than always saying 2. -/
example : ∀ᵐ ω ∂normalDays, ∀ M ε : ℝ, 0 < ε → ∀ᶠ n in atTop, ∃ stat v,
    dieboldMariano Real.sqrt studentCdf .mse (fun x => some (id x)) (1 : ℕ) (firstDays (fun t ω => ω t) n ω)
      (firstDays (fun _ _ => 1) n ω) (firstDays (fun _ _ => 2) n ω) = .ok (stat, .num v) ∧ Below M stat ∧
        0 ≤ v ∧ v < ε := by
  have hg := normalDays_gap 1 2
  refine C135_power_second (by simp) (by simp) ?_ ?_ ?_ ?_ le_rfl
  · rw [hg]; exact normalDays_indep.comp (fun _ x => 2 * (2 - 1) * x + (1 ^ 2 - 2 ^ 2)) fun _ => measurable_affine _ _
  · rw [hg]; exact fun t => (normalDays_same t).comp (measurable_affine _ _)
  · rw [hg]; exact (normalDays_memLp.const_mul _).add (memLp_const _)
  · rw [hg]
    have hI : Integrable (fun ω : ℕ → ℝ => 2 * (2 - 1) * ω 0) normalDays :=
      (normalDays_memLp.integrable (by norm_num)).const_mul _
    simp only
    rw [integral_add hI (integrable_const _), integral_const_mul, normalDays_mean]
    norm_num

theorem balanced_gap : dayGap id .mse (fun t ω => ω t) (fun _ _ => 1) (fun _ _ => -1) =
    fun t (ω : ℕ → ℝ) => (fun x => -4 * x + 0) (ω t) := by
  rw [normalDays_gap]
  funext t ω
  ring

theorem balanced_mean : ∫ ω, dayGap id .mse (fun t ω => ω t) (fun _ _ => 1) (fun _ _ => -1) 0 ω ∂normalDays = 0 := by
  rw [balanced_gap]
  simp only [add_zero]
  rw [integral_const_mul, normalDays_mean, mul_zero]

theorem balanced_var : 0 < Var[dayGap id .mse (fun t (ω : ℕ → ℝ) => ω t) (fun _ _ => 1) (fun _ _ => -1) 0; normalDays] := by
  rw [balanced_gap]
  simp only [add_zero]
  rw [variance_const_mul, normalDays_var]
  norm_num

theorem balanced_memLp : MemLp (dayGap id .mse (fun t (ω : ℕ → ℝ) => ω t) (fun _ _ => 1) (fun _ _ => -1) 0) 2 normalDays := by
  rw [balanced_gap]; exact (normalDays_memLp.const_mul _).add (memLp_const _)

theorem balanced_indep : iIndepFun (dayGap id .mse (fun t (ω : ℕ → ℝ) => ω t) (fun _ _ => 1) (fun _ _ => -1)) normalDays := by
  rw [balanced_gap]; exact normalDays_indep.comp (fun _ x => -4 * x + 0) fun _ => measurable_affine _ _

theorem balanced_same (t : ℕ) : IdentDistrib (dayGap id .mse (fun t (ω : ℕ → ℝ) => ω t) (fun _ _ => 1) (fun _ _ => -1) t)
    (dayGap id .mse (fun t (ω : ℕ → ℝ) => ω t) (fun _ _ => 1) (fun _ _ => -1) 0) normalDays normalDays := by
  rw [balanced_gap]; exact (normalDays_same t).comp (measurable_affine _ _)

/-- Always saying 1 is as good as always saying -1: whichever the number of days ahead, a p-value below 5 percent comes up
with a probability that tends to 5 percent. -/
example {h : ℕ} (h1 : 1 ≤ h) : Tendsto (fun n => normalDays.real {ω | ∃ stat v,
    dieboldMariano Real.sqrt studentCdf .mse (fun x => some (id x)) h (firstDays (fun t ω => ω t) n ω)
      (firstDays (fun _ _ => 1) n ω) (firstDays (fun _ _ => -1) n ω) = .ok (stat, .num v) ∧ v < 0.05}) atTop (𝓝 0.05) :=
  C135_size (by simp) (by simp) balanced_indep balanced_same balanced_memLp balanced_mean balanced_var h1 (by norm_num)
    (by norm_num)

/-- The statistic of this comparison is negative with a probability that tends to one half. -/
example {h : ℕ} (h1 : 1 ≤ h) : Tendsto (fun n => normalDays.real {ω | ∃ v pv,
    dieboldMariano Real.sqrt studentCdf .mse (fun x => some (id x)) h (firstDays (fun t ω => ω t) n ω)
      (firstDays (fun _ _ => 1) n ω) (firstDays (fun _ _ => -1) n ω) = .ok (.num v, pv) ∧ v ≤ 0}) atTop (𝓝 (1 / 2)) := by
  have := C135_normal (by simp) (by simp) balanced_indep balanced_same balanced_memLp balanced_mean balanced_var h1 0
  have hhalf : Phi 0 = 1 / 2 := by
    have := Phi_neg 0
    rw [neg_zero] at this; linarith
  rwa [hhalf] at this

end Props
