import Verif.Props.CorrPooled
import Verif.Props.AverageLimitsCase

/-! # Concrete cases for C147 -/

namespace Props
open Np NDArr Model Spec Lemmas MeasureTheory ProbabilityTheory

/-- forecasts and observations at two places: what is usual there, and noises that have nothing to do with each other -/
noncomputable def blindX (n : ℕ) (ω : ℕ → ℝ × ℝ) : DetX ℝ :=
  ⟨placeArr (fun j q => usual j + q.1) n ω, placeArr (fun j q => usual j + q.2) n ω⟩

/-- their verifiers -/
noncomputable def blindO (a : PyAxis) (n : ℕ) (ω : ℕ → ℝ × ℝ) : Obj (DetX ℝ) := ⟨a, .none, .none, some true, blindX n ω⟩

theorem blind_recorded (g : ℕ → ℝ × ℝ → ℝ) : Recorded [2] 0 (placeArr g) fun i ω => g (i.getD 1 0) (ω (i.getD 0 0)) :=
  ⟨fun _ _ => rfl, fun _ _ _ hi => get_ofFn _ hi⟩

/-- moments of the two noises -/
theorem noise_moments (u : ℝ) :
    (MemLp (fun ω : ℕ → ℝ × ℝ => u + (ω 0).1) 2 days ∧ MemLp (fun ω : ℕ → ℝ × ℝ => u + (ω 0).2) 2 days) ∧
    (∫ ω, (u + (ω 0).1) ∂days = u ∧ ∫ ω, (u + (ω 0).2) ∂days = u) ∧
    (∫ ω, (u + (ω 0).1) * (u + (ω 0).1) ∂days = u ^ 2 + 1 ∧ ∫ ω, (u + (ω 0).2) * (u + (ω 0).2) ∂days = u ^ 2 + 1) ∧
    ∫ ω, (u + (ω 0).1) * (u + (ω 0).2) ∂days = u ^ 2 := by
  obtain ⟨m1, m2, m3⟩ := stdNormal_moments u 1
  have n1 : MemLp (fun x : ℝ => u + x) 2 stdNormal := by simpa using m1
  have n2 : ∫ x : ℝ, (u + x) ∂stdNormal = u := by simpa using m2
  have n3 : ∫ x : ℝ, (u + x) * (u + x) ∂stdNormal = u ^ 2 + 1 := by
    have h1 : ∫ x : ℝ, (u + 1 * x - u) ^ 2 ∂stdNormal = 1 := by rw [m3]; norm_num
    have e : ∀ x : ℝ, (u + x) * (u + x) = (u + 1 * x - u) ^ 2 + (2 * u * (u + x) - u ^ 2) := fun x => by ring
    have i1 : Integrable (fun x : ℝ => (u + 1 * x - u) ^ 2) stdNormal := by
      have := (stdNormal_moments 0 1).1.integrable_sq
      simpa using this
    have i2 := (n1.integrable one_le_two).const_mul (2 * u)
    simp only [e]
    have i3 : Integrable (fun x : ℝ => 2 * u * (u + x) - u ^ 2) stdNormal := i2.sub (integrable_const _)
    rw [integral_add i1 i3, h1, integral_sub i2 (integrable_const _), integral_const_mul, n2]
    simp
    ring
  have f1 : MemLp (fun p : ℝ × ℝ => u + p.1) 2 dayLaw := n1.comp_fst stdNormal
  have f2 : MemLp (fun p : ℝ × ℝ => u + p.2) 2 dayLaw := n1.comp_snd stdNormal
  have prodI : ∀ f g : ℝ → ℝ, ∫ p : ℝ × ℝ, f p.1 * g p.2 ∂dayLaw = (∫ x, f x ∂stdNormal) * ∫ x, g x ∂stdNormal := fun f g =>
    integral_prod_mul f g
  have e1 : ∫ p : ℝ × ℝ, (u + p.1) ∂dayLaw = u := by simpa [n2] using prodI (fun x => u + x) fun _ => 1
  have e2 : ∫ p : ℝ × ℝ, (u + p.2) ∂dayLaw = u := by simpa [n2] using prodI (fun _ => 1) fun x => u + x
  have e3 : ∫ p : ℝ × ℝ, (u + p.1) * (u + p.1) ∂dayLaw = u ^ 2 + 1 := by
    simpa [n3] using prodI (fun x => (u + x) * (u + x)) fun _ => 1
  have e4 : ∫ p : ℝ × ℝ, (u + p.2) * (u + p.2) ∂dayLaw = u ^ 2 + 1 := by
    simpa [n3] using prodI (fun _ => 1) fun x => (u + x) * (u + x)
  have e5 : ∫ p : ℝ × ℝ, (u + p.1) * (u + p.2) ∂dayLaw = u ^ 2 := by
    rw [prodI (fun x => u + x) fun x => u + x, n2, pow_two]
  refine ⟨⟨f1.comp_measurePreserving (day_preserving 0), f2.comp_measurePreserving (day_preserving 0)⟩, ⟨?_, ?_⟩, ⟨?_, ?_⟩, ?_⟩
  · rw [day_integral (g := fun p => u + p.1) (by fun_prop), e1]
  · rw [day_integral (g := fun p => u + p.2) (by fun_prop), e2]
  · rw [day_integral (g := fun p => (u + p.1) * (u + p.1)) (by fun_prop), e3]
  · rw [day_integral (g := fun p => (u + p.2) * (u + p.2)) (by fun_prop), e4]
  · rw [day_integral (g := fun p => (u + p.1) * (u + p.2)) (by fun_prop), e5]

/-- the covariances at some of the places, from what is usual there -/
theorem blind_cov (ks : List (List ℕ)) (hks : ks ≠ []) :
    let V := fun (p : List ℕ) (ω : ℕ → ℝ × ℝ) => usual ((p.insertIdx 0 0).getD 1 0) + (ω ((p.insertIdx 0 0).getD 0 0)).1
    let W := fun (p : List ℕ) (ω : ℕ → ℝ × ℝ) => usual ((p.insertIdx 0 0).getD 1 0) + (ω ((p.insertIdx 0 0).getD 0 0)).2
    let b := avg (ks.map fun p => usual (p.getD 0 0) ^ 2) - avg (ks.map fun p => usual (p.getD 0 0)) ^ 2
    covOver days ks V V = b + 1 ∧ covOver days ks W W = b + 1 ∧ covOver days ks V W = b := by
  intro V W b
  have hone : avg (ks.map fun p => usual (p.getD 0 0) ^ 2 + 1) = avg (ks.map fun p => usual (p.getD 0 0) ^ 2) + 1 := by
    have hl : (ks.length : ℝ) ≠ 0 := by exact_mod_cast (List.length_pos_iff.2 hks).ne'
    simp only [avg, List.length_map, List.sum_map_add]
    rw [add_div]
    simp [hl]
  have v1 : expectOver days ks V = avg (ks.map fun p => usual (p.getD 0 0)) :=
    congrArg avg (List.map_congr_left fun p _ => (noise_moments (usual (p.getD 0 0))).2.1.1)
  have w1 : expectOver days ks W = avg (ks.map fun p => usual (p.getD 0 0)) :=
    congrArg avg (List.map_congr_left fun p _ => (noise_moments (usual (p.getD 0 0))).2.1.2)
  have v2 : expectOver days ks (fun p ω => V p ω * V p ω) = avg (ks.map fun p => usual (p.getD 0 0) ^ 2 + 1) :=
    congrArg avg (List.map_congr_left fun p _ => (noise_moments (usual (p.getD 0 0))).2.2.1.1)
  have w2 : expectOver days ks (fun p ω => W p ω * W p ω) = avg (ks.map fun p => usual (p.getD 0 0) ^ 2 + 1) :=
    congrArg avg (List.map_congr_left fun p _ => (noise_moments (usual (p.getD 0 0))).2.2.1.2)
  have vw : expectOver days ks (fun p ω => V p ω * W p ω) = avg (ks.map fun p => usual (p.getD 0 0) ^ 2) :=
    congrArg avg (List.map_congr_left fun p _ => (noise_moments (usual (p.getD 0 0))).2.2.2)
  refine ⟨?_, ?_, ?_⟩
  · rw [covOver, v1, v2, hone]; ring
  · rw [covOver, w1, w2, hone]; ring
  · rw [covOver, v1, w1, vw]; ring

theorem blind_corr (a : PyAxis) (B : List ℕ) (ha : axisArg a = .ok (some (B.map Int.ofNat))) (hB : B.Nodup)
    (hlt : ∀ b ∈ B, b ≤ 1) (hn : 0 ∈ B) : ∃ r : ℕ → (ℕ → ℝ × ℝ) → NDArr (Fl ℝ),
    (∀ n ω, result .determ bothInfo (detPrims cfgR embBoth) noMids (.slot .corr) (unsaved (blindO a n ω)) world0 =
      .ok (some (.num (r n ω)))) ∧
    ∀ k, InB (dropAxes B [0, 2]) k → placesOf [2] 0 B k ≠ [] →
      let b := avg ((placesOf [2] 0 B k).map fun p => usual (p.getD 0 0) ^ 2) -
        avg ((placesOf [2] 0 B k).map fun p => usual (p.getD 0 0)) ^ 2
      0 ≤ b → ∃ S : ℕ → (ℕ → ℝ × ℝ) → ℝ, (∀ᵐ ω ∂days, ∃ N, ∀ n, N ≤ n → (r n ω).get k = some (S n ω)) ∧
        Settles days S (b / (b + 1)) := by
  obtain ⟨r, r1, r2⟩ := C147_corr (P := days) (C := .determ) (I := bothInfo) (mids := noMids) (o := blindO a)
    (shared_det cfgR embBoth) isSqrt_real (w := fun _ _ => world0) (w1 := fun _ _ => world0) (s := [2]) (t := 0)
    (f := fun n ω => (blindX n ω).f) (fun n ω => fDeterm_det _ _)
    (blind_recorded fun j q => usual j + q.1) (blind_recorded fun j q => usual j + q.2) (fun _ _ => ha) (fun _ _ => rfl)
    (by decide) (Nat.zero_le _) hB hlt hn
  refine ⟨r, fun n ω => (r1 n ω).1, fun k hk hks => ?_⟩
  intro b hb
  obtain ⟨c1, c2, c3⟩ := blind_cov _ hks
  obtain ⟨S, s1, s2⟩ := r2 k hk (fun p _ => days_repeat (g := fun q : ℝ × ℝ => (usual (p.getD 0 0) + q.1, usual (p.getD 0 0) + q.2))
    (by fun_prop)) (fun p _ => (noise_moments (usual (p.getD 0 0))).1) (by rw [c1]; positivity) (by rw [c2]; positivity)
  refine ⟨S, s1, settles_to s2 ?_⟩
  rw [corrOver, c1, c2, c3, Real.sqrt_mul_self (by positivity)]

/-- **C147**: places that differ give correlation without any skill. Forecasts and observations that have nothing to do with each
other at each of two places: `corr()` over the days settles at 0 at both, `corr()` over days and places at 1/2. -/
theorem C147_places : ∃ (r q : ℕ → (ℕ → ℝ × ℝ) → NDArr (Fl ℝ)) (S T U : ℕ → (ℕ → ℝ × ℝ) → ℝ),
    (∀ n ω, result .determ bothInfo (detPrims cfgR embBoth) noMids (.slot .corr) (unsaved (blindO (.tuple [0, 1]) n ω)) world0 =
      .ok (some (.num (r n ω)))) ∧
    (∀ n ω, result .determ bothInfo (detPrims cfgR embBoth) noMids (.slot .corr) (unsaved (blindO (.int 0) n ω)) world0 =
      .ok (some (.num (q n ω)))) ∧
    (∀ᵐ ω ∂days, ∃ N, ∀ n, N ≤ n → (r n ω).get [] = some (S n ω)) ∧
    (∀ᵐ ω ∂days, ∃ N, ∀ n, N ≤ n → (q n ω).get [0] = some (T n ω)) ∧
    (∀ᵐ ω ∂days, ∃ N, ∀ n, N ≤ n → (q n ω).get [1] = some (U n ω)) ∧
    Settles days S (1 / 2) ∧ Settles days T 0 ∧ Settles days U 0 := by
  have u0 : usual 0 = -1 := if_pos rfl
  have u1 : usual 1 = 1 := if_neg one_ne_zero
  obtain ⟨r, r1, r2⟩ := blind_corr (.tuple [0, 1]) [0, 1] rfl (by decide) (by decide) (by decide)
  obtain ⟨q, q1, q2⟩ := blind_corr (.int 0) [0] rfl (by decide) (by decide) (by decide)
  have d0 : dropAxes [0, 1] [0, 2] = [] := by decide
  have d1 : dropAxes [0] [0, 2] = [2] := by decide
  have k0 : placesOf [2] 0 [0, 1] [] = [[0], [1]] := by decide
  have k1 : placesOf [2] 0 [0] [0] = [[0]] := by decide
  have k2 : placesOf [2] 0 [0] [1] = [[1]] := by decide
  have b0 : avg (([[0], [1]] : List (List ℕ)).map fun p => usual (p.getD 0 0) ^ 2) -
      avg (([[0], [1]] : List (List ℕ)).map fun p => usual (p.getD 0 0)) ^ 2 = 1 := by simp [avg, u0, u1]
  have b1 : avg (([[0]] : List (List ℕ)).map fun p => usual (p.getD 0 0) ^ 2) -
      avg (([[0]] : List (List ℕ)).map fun p => usual (p.getD 0 0)) ^ 2 = 0 := by simp [avg, u0]
  have b2 : avg (([[1]] : List (List ℕ)).map fun p => usual (p.getD 0 0) ^ 2) -
      avg (([[1]] : List (List ℕ)).map fun p => usual (p.getD 0 0)) ^ 2 = 0 := by simp [avg, u1]
  obtain ⟨S, s1, s2⟩ := r2 [] (by rw [d0]; exact .nil) (by rw [k0]; simp) (by rw [k0, b0]; exact zero_le_one)
  obtain ⟨T, t1, t2⟩ := q2 [0] (by rw [d1]; exact .cons (by decide) .nil) (by rw [k1]; simp) (by rw [k1, b1])
  obtain ⟨U, v1, v2⟩ := q2 [1] (by rw [d1]; exact .cons (by decide) .nil) (by rw [k2]; simp) (by rw [k2, b2])
  rw [k0, b0] at s2
  rw [k1, b1] at t2
  rw [k2, b2] at v2
  refine ⟨r, q, S, T, U, r1, q1, s1, t1, v1, settles_to s2 (by norm_num), settles_to t2 (by norm_num), settles_to v2 (by norm_num)⟩

end Props
