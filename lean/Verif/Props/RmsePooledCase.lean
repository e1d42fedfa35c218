import Verif.Props.RmsePooled
import Verif.Props.CorrPooledCase

/-! # Concrete cases for C148 -/

namespace Props
open Np NDArr Model Spec Lemmas MeasureTheory ProbabilityTheory

/-- forecasts that add a noise to what is observed, three times as large at the second of two places -/
noncomputable def roughX (n : ℕ) (ω : ℕ → ℝ × ℝ) : DetX ℝ :=
  ⟨placeArr (fun j q => q.1 + (2 * j + 1) * q.2) n ω, placeArr (fun _ q => q.1) n ω⟩

/-- their verifiers -/
noncomputable def roughO (n : ℕ) (ω : ℕ → ℝ × ℝ) : Obj (DetX ℝ) := ⟨.none, .none, .none, some true, roughX n ω⟩

theorem noise_square (a : ℝ) : Integrable (fun ω : ℕ → ℝ × ℝ => ((ω 0).1 + a * (ω 0).2 - (ω 0).1) ^ 2) days ∧
    ∫ ω, ((ω 0).1 + a * (ω 0).2 - (ω 0).1) ^ 2 ∂days = a ^ 2 := by
  have e : ∀ ω : ℕ → ℝ × ℝ, ((ω 0).1 + a * (ω 0).2 - (ω 0).1) ^ 2 = a ^ 2 * ((0 + (ω 0).2) * (0 + (ω 0).2)) := fun ω => by ring
  simp only [e]
  obtain ⟨⟨-, m⟩, -, ⟨-, v⟩, -⟩ := noise_moments 0
  refine ⟨(m.integrable_mul m).const_mul _, ?_⟩
  rw [integral_const_mul, v]
  ring

/-- **C148**: two places with root mean square errors 1 and 3, the average of which is 2; `rmse()` over days and places settles
at the root of 5. -/
theorem C148_places : ∃ (r : ℕ → (ℕ → ℝ × ℝ) → NDArr (Fl ℝ)) (S : ℕ → (ℕ → ℝ × ℝ) → ℝ),
    (∀ n ω, result .determ bothInfo (detPrims cfgR embBoth) noMids .rmse (unsaved (roughO n ω)) world0 =
      .ok (some (.num (r n ω))) ∧ (r n ω).get [] = some (S n ω)) ∧
    Settles days S (Real.sqrt 5) ∧
    ∀ j : ℕ, Real.sqrt (∫ ω, ((ω 0).1 + (2 * j + 1) * (ω 0).2 - (ω 0).1) ^ 2 ∂days) = 2 * j + 1 := by
  obtain ⟨r, r1, r2⟩ := C148_rmse (P := days) (C := .determ) (I := bothInfo) (mids := noMids) (o := roughO)
    (shared_det cfgR embBoth) isSqrt_real (w := fun _ _ => world0) (w1 := fun _ _ => world0) (s := [2]) (t := 0)
    (f := fun n ω => (roughX n ω).f) (fun n ω => fDeterm_det _ _)
    (blind_recorded fun j q => q.1 + (2 * j + 1) * q.2) (blind_recorded fun _ q => q.1) (axes := none) (fun _ _ => rfl)
    (fun _ _ => rfl) (by decide) (Nat.zero_le _) trivial (by decide)
  have d0 : dropAxes (nums ([2].length + 1) none) (([2] : List ℕ).insertIdx 0 0) = [] := by decide
  have k0 : placesOf [2] 0 (nums ([2].length + 1) none) [] = [[0], [1]] := by decide
  obtain ⟨S, s1, s2⟩ := r2 [] (by rw [d0]; exact .nil) (fun p _ => days_repeat (g := fun q : ℝ × ℝ =>
    (q.1 + (2 * ((p.getD 0 0 : ℕ) : ℝ) + 1) * q.2, q.1)) (by fun_prop))
    (fun p _ => (noise_square (2 * ((p.getD 0 0 : ℕ) : ℝ) + 1)).1)
  refine ⟨r, S, fun n ω => ⟨(r1 n ω).1, s1 n ω⟩, settles_to s2 ?_, fun j => ?_⟩
  · congr 1
    rw [k0]
    have e : ∀ p : List ℕ, ∫ ω : ℕ → ℝ × ℝ, ((ω ((p.insertIdx 0 0).getD 0 0)).1 + (2 * (((p.insertIdx 0 0).getD 1 0 : ℕ) : ℝ) + 1) *
        (ω ((p.insertIdx 0 0).getD 0 0)).2 - (ω ((p.insertIdx 0 0).getD 0 0)).1) ^ 2 ∂days =
        (2 * ((p.getD 0 0 : ℕ) : ℝ) + 1) ^ 2 := fun p => (noise_square _).2
    simp only [expectOver, e]
    simp [avg]
    norm_num
  · rw [(noise_square _).2, Real.sqrt_sq (by positivity)]

end Props
