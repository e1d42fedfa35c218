import Verif.Props.RocPooledBest
import Verif.Props.RocPooledCase

/-! # Concrete cases for C143 -/

namespace Props
open Np NDArr Model Spec Lemmas MeasureTheory ProbabilityTheory

/-- the event at a place on the first day -/
def placeOver (j : ℕ) : Set (ℕ → ℝ × ℝ) := {ω | Beyond true 0 (fun ω : ℕ → ℝ × ℝ => seen j (ω 0)) ω}

theorem placeOver_meas (j : ℕ) : MeasurableSet (placeOver j) :=
  measurableSet_beyond true 0 ((measurable_seen j).comp (measurable_pi_apply 0))

theorem place_honest : Honest days [0, 1] (fun _ _ => ()) placeOver (fun j _ => 1 - Phi (-usual j)) where
  event := fun j _ => placeOver_meas j
  known := fun _ _ => measurable_const
  prob := fun _ _ => measurable_const
  unit := fun j _ _ => by
    have h1 := Phi_pos (-usual j)
    have h2 := Phi_pos (usual j)
    rw [one_sub_Phi]
    have h3 := one_sub_Phi (usual j)
    exact ⟨h2.le, by linarith⟩
  given := fun j _ A _ => by
    by_cases h : () ∈ A
    · have e : (fun _ : ℕ → ℝ × ℝ => ()) ⁻¹' A = Set.univ := by ext; simp [h]
      rw [e, Set.univ_inter, Measure.restrict_univ, integral_const]
      simpa [placeOver] using place_chance j
    · have e : (fun _ : ℕ → ℝ × ℝ => ()) ⁻¹' A = ∅ := by ext; simp [h]
      rw [e]
      simp

/-- Two places, and nothing is known but the place. Whoever announces how often the event happens at each place has a strictly
larger area than whoever confuses the two places. -/
example : pooledArea days [0, 1] (fun j _ => 1 - Phi (usual j)) placeOver <
    pooledArea days [0, 1] (fun j _ => 1 - Phi (-usual j)) placeOver := by
  have hb : ∀ j, days.real (placeOver j) = 1 - Phi (-usual j) := place_chance
  have hc : ∀ j, days.real (placeOver j)ᶜ = Phi (-usual j) := fun j => by
    rw [probReal_compl_eq_one_sub (placeOver_meas j), hb]; ring
  have p0 : ∀ j, 0 < days.real (placeOver j) := fun j => by rw [hb, one_sub_Phi]; exact Phi_pos _
  have p1 : ∀ j, 0 < days.real (placeOver j)ᶜ := fun j => by rw [hc]; exact Phi_pos _
  refine C143_strict (K := fun _ _ => ()) (p := fun j _ => 1 - Phi (-usual j)) (e := fun j _ => 1 - Phi (usual j)) place_honest
    (fun _ _ => measurable_const) (by
    have h0 := p0 0
    have h1 := p0 1
    simp only [List.map_cons, List.map_nil, List.sum_cons, List.sum_nil]
    linarith) (by
    have h0 := p1 0
    have h1 := p1 1
    simp only [List.map_cons, List.map_nil, List.sum_cons, List.sum_nil]
    linarith) (k := 0) (l := 1) (by simp) (by simp) fun h => ?_
  obtain ⟨z, hz⟩ := h.exists
  have u0 : usual 0 = -1 := if_pos rfl
  have u1 : usual 1 = 1 := if_neg one_ne_zero
  have n1 : Phi (-1) = 1 - Phi 1 := Phi_neg 1
  have := half_lt
  simp only [u0, u1, neg_neg, n1] at hz
  have := hz (by linarith)
  linarith

end Props
