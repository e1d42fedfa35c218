import Verif.Lemmas.Normal
import Verif.Lemmas.GammaDist
import Verif.Spec.PsGaussian

/-! The score of an untruncated normal distribution. -/

namespace Lemmas
open Spec MeasureTheory Set Filter Topology

theorem phi_neg (x : ℝ) : phi (-x) = phi x := by unfold phi; simp

theorem Phi_neg (x : ℝ) : Phi (-x) = 1 - Phi x := by
  rw [Phi_compl, Phi]
  have := integral_comp_neg_Iic (-x) phi
  simp only [phi_neg, neg_neg] at this
  exact this

theorem head_sq (z : ℝ) : IntegrableOn (fun x => Phi x ^ 2) (Iic z) ∧
    ∫ x in Iic z, Phi x ^ 2 = -(1 / √Real.pi) - antiSq 1 (-z) := by
  obtain ⟨h1, h2⟩ := tail_sq (-z)
  have hf : (fun x : ℝ => Phi x ^ 2) = fun x => (fun y => (1 - Phi y) ^ 2) (-x) := by
    funext x
    simp only [Phi_neg]
    ring
  constructor
  · rw [hf]
    have := h1.comp_neg
    have hs : -Ioi (-z) = Iio z := by ext x; simp
    rw [hs] at this
    rw [integrableOn_Iic_iff_integrableOn_Iio]
    exact this
  · rw [hf, integral_comp_neg_Iic z fun y => (1 - Phi y) ^ 2, h2]

/-- the closed form of the score of the standard normal distribution -/
noncomputable def plainCrps (y : ℝ) : ℝ := y * (2 * Phi y - 1) + 2 * phi y - 1 / √Real.pi

theorem crps_Phi (y : ℝ) : Integrable (crpsIntegrand Phi y) ∧ crpsOf Phi y = plainCrps y := by
  obtain ⟨i1, e1⟩ := tail_sq y
  obtain ⟨i2, e2⟩ := head_sq y
  rw [integrableOn_Iic_iff_integrableOn_Iio] at i2
  rw [← integrableOn_Ici_iff_integrableOn_Ioi] at i1
  rw [← integral_Ici_eq_integral_Ioi] at e1
  rw [integral_Iic_eq_integral_Iio] at e2
  have h1 : EqOn (crpsIntegrand Phi y) (fun x => (1 - Phi x) ^ 2) (Ici y) := by
    intro x hx
    simp only [crpsIntegrand, if_pos (show y ≤ x from hx)]
    ring
  have h2 : EqOn (crpsIntegrand Phi y) (fun x => Phi x ^ 2) (Iio y) := by
    intro x hx
    simp only [crpsIntegrand, if_neg (not_le.2 (show x < y from hx)), sub_zero]
  have j1 : IntegrableOn (crpsIntegrand Phi y) (Ici y) := by rwa [integrableOn_congr_fun h1 measurableSet_Ici]
  have j2 : IntegrableOn (crpsIntegrand Phi y) (Iio y) := by rwa [integrableOn_congr_fun h2 measurableSet_Iio]
  have hint : Integrable (crpsIntegrand Phi y) := by
    rw [← integrableOn_univ, ← Iio_union_Ici (a := y)]
    exact j2.union j1
  refine ⟨hint, ?_⟩
  have hsplit := integral_add_compl (measurableSet_Iio (a := y)) hint
  rw [compl_Iio, setIntegral_congr_fun measurableSet_Iio h2, setIntegral_congr_fun measurableSet_Ici h1, e1, e2] at hsplit
  rw [crpsOf, ← hsplit]
  have hn : √2 * -y = -(√2 * y) := by ring
  simp only [antiSq, plainCrps, hn, Phi_neg, phi_neg]
  ring

theorem crps_normal (mu sigma y : ℝ) (hs : 0 < sigma) :
    Integrable (crpsIntegrand (normalCdf mu sigma) y) ∧
    crpsOf (normalCdf mu sigma) y = plainCrps ((y - mu) / sigma) * sigma := by
  have h := crps_Phi ((y - mu) / sigma)
  have := crps_scale Phi (normalCdf mu sigma) mu sigma y hs (fun x => rfl) h.1
  rwa [h.2] at this

end Lemmas
