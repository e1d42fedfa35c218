import Verif.Spec.Student
import Mathlib.MeasureTheory.Measure.Lebesgue.Integral

/-!
# Student's distribution: symmetry, growth, tails
-/

namespace Lemmas
open MeasureTheory Set Spec Filter Topology

variable {ν : ℕ}

theorem studentShape_pos (x : ℝ) : 0 < studentShape ν x := by
  unfold studentShape
  have : (0 : ℝ) ≤ x ^ 2 / ν := by positivity
  positivity

theorem studentShape_neg (x : ℝ) : studentShape ν (-x) = studentShape ν x := by simp [studentShape]

theorem studentShape_integrable (hν : 1 ≤ ν) : Integrable (studentShape ν) := by
  have hν' : (0 : ℝ) < ν := by exact_mod_cast hν
  have h := integrable_rpow_neg_one_add_norm_sq (E := ℝ) (μ := volume) (r := (ν : ℝ) + 1) (by simp; omega)
  have h2 := h.comp_div (R := Real.sqrt ν) (Real.sqrt_ne_zero'.2 hν')
  refine h2.congr (Eventually.of_forall fun x => ?_)
  simp only [studentShape, Real.norm_eq_abs, sq_abs, div_pow, Real.sq_sqrt hν'.le]

theorem studentShape_total (hν : 1 ≤ ν) : 0 < ∫ t, studentShape ν t := by
  rw [integral_pos_iff_support_of_nonneg (fun x => (studentShape_pos x).le) (studentShape_integrable hν)]
  have : Function.support (studentShape ν) = univ := by
    ext x; simp [(studentShape_pos (ν := ν) x).ne']
  simp [this]

/-- both tails together -/
theorem studentTails_eq (hν : 1 ≤ ν) (x : ℝ) : studentTails ν x = 2 * studentCdf ν (-|x|) := by
  unfold studentTails studentCdf
  have hI := studentShape_integrable hν
  have hset : (∫ t in {t : ℝ | |x| ≤ |t|}, studentShape ν t) = 2 * ∫ t in Iic (-|x|), studentShape ν t := by
    by_cases hx : x = 0
    · subst hx
      have e : {t : ℝ | |(0 : ℝ)| ≤ |t|} = univ := by ext t; simp
      rw [e, setIntegral_univ, abs_zero, neg_zero]
      have h1 := intervalIntegral.integral_Iic_add_Ioi (b := 0) hI.integrableOn hI.integrableOn
      have h2 := integral_comp_neg_Iic 0 (studentShape ν)
      simp only [studentShape_neg, neg_zero] at h2
      rw [← h1, ← h2]; ring
    · have hx' : 0 < |x| := abs_pos.2 hx
      have e : {t : ℝ | |x| ≤ |t|} = Iic (-|x|) ∪ Ici |x| := by
        ext t
        simp only [mem_ofPred_eq, mem_union, mem_Iic, mem_Ici]
        rw [le_abs]
        constructor
        · rintro (h | h)
          · exact Or.inr h
          · exact Or.inl (by linarith)
        · rintro (h | h)
          · exact Or.inr (by linarith)
          · exact Or.inl h
      have hd : Disjoint (Iic (-|x|)) (Ici |x|) := by
        rw [Set.disjoint_left]
        intro t h1 h2
        have h1' : t ≤ -|x| := h1
        have h2' : |x| ≤ t := h2
        linarith
      rw [e, setIntegral_union hd measurableSet_Ici hI.integrableOn hI.integrableOn, integral_Ici_eq_integral_Ioi]
      have h2 := integral_comp_neg_Iic (-|x|) (studentShape ν)
      simp only [studentShape_neg, neg_neg] at h2
      rw [← h2]; ring
  rw [hset, mul_div_assoc]

theorem studentCdf_strictMono (hν : 1 ≤ ν) : StrictMono (studentCdf ν) := by
  intro x y hxy
  have hI := studentShape_integrable hν
  unfold studentCdf
  apply div_lt_div_of_pos_right _ (studentShape_total hν)
  rw [← sub_pos, intervalIntegral.integral_Iic_sub_Iic hI.integrableOn hI.integrableOn]
  apply intervalIntegral.intervalIntegral_pos_of_pos_on hI.intervalIntegrable (fun t _ => studentShape_pos t) hxy

theorem studentCdf_zero (hν : 1 ≤ ν) : studentCdf ν 0 = 1 / 2 := by
  have h := studentTails_eq hν 0
  have e : {t : ℝ | |(0 : ℝ)| ≤ |t|} = univ := by ext t; simp
  unfold studentTails at h
  rw [e, setIntegral_univ, div_self (studentShape_total hν).ne', abs_zero, neg_zero] at h
  linarith

theorem studentCdf_pos (hν : 1 ≤ ν) (x : ℝ) : 0 < studentCdf ν x := by
  have h0 : 0 ≤ studentCdf ν (x - 1) :=
    div_nonneg (setIntegral_nonneg measurableSet_Iic fun t _ => (studentShape_pos t).le) (studentShape_total hν).le
  exact h0.trans_lt (studentCdf_strictMono hν (by linarith))

/-- the distribution function vanishes at minus infinity -/
theorem studentCdf_atBot (hν : 1 ≤ ν) : Tendsto (studentCdf ν) atBot (𝓝 0) := by
  have hI := studentShape_integrable hν
  have h := intervalIntegral_tendsto_integral_Iic (a := id) (l := atBot) 0 hI.integrableOn tendsto_id
  have h2 : Tendsto (fun a => ∫ t in Iic a, studentShape ν t) atBot (𝓝 0) := by
    have h3 := (tendsto_const_nhds (x := ∫ t in Iic (0 : ℝ), studentShape ν t)).sub h
    rw [sub_self] at h3
    refine h3.congr fun a => ?_
    have := intervalIntegral.integral_Iic_sub_Iic (a := a) (b := 0) hI.integrableOn hI.integrableOn
    simp only [id]
    rw [← this]; ring
  have := h2.div_const (∫ t, studentShape ν t)
  rw [zero_div] at this
  exact this

end Lemmas
