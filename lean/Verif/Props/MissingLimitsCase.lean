import Verif.Props.MissingLimits
import Verif.Props.AverageLimitsCase

/-! # Concrete cases for C149 -/

namespace Props
open Np NDArr Model Spec Lemmas MeasureTheory ProbabilityTheory

/-- at the second of two places nothing is observed when the first number of the day is positive -/
noncomputable def there (j : ℕ) (q : ℝ × ℝ) : Bool := decide (j = 0 ∨ q.1 ≤ 0)

/-- forecasts that are 1 too low at the first place and 1 too high at the second -/
noncomputable def gapX (n : ℕ) (ω : ℕ → ℝ × ℝ) : DetX ℝ :=
  ⟨placeArr (fun j _ => usual j) n ω, ofFn [n + 1, 2] fun i => if there (i.getD 1 0) (ω (i.getD 0 0)) then some 0 else none⟩

/-- their verifiers -/
noncomputable def gapO (n : ℕ) (ω : ℕ → ℝ × ℝ) : Obj (DetX ℝ) := ⟨.none, .none, .none, some true, gapX n ω⟩

theorem gap_plain (c : Cfg ℝ) (n : ℕ) (ω : ℕ → ℝ × ℝ) :
    ∃ m, result .determ bothInfo (detPrims c embBoth) noMids (.slot .error) (unsaved (plain (gapO n ω))) world0 =
      .ok (some (.num m)) ∧ m.shape = ([2] : List ℕ).insertIdx 0 (n + 1) ∧
      ∀ i, InB m.shape i → m.get i = if there (i.getD 1 0) (ω (i.getD 0 0)) then some (usual (i.getD 1 0)) else none := by
  obtain ⟨e, _, _, he, _, _, ⟨se, _⟩, hfib⟩ := error_bodies (o := gapO n ω) (mids := noMids) (I := bothInfo) (C := .determ)
    (shared_det c embBoth) (w0 := world0) (f := (gapX n ω).f) (fDeterm_det _ _) rfl
  obtain ⟨nm, hn⟩ := fixed_ok bothInfo (some "error".toList)
  obtain ⟨m, h1, h2, h3⟩ := plain_of_body (mids := noMids) (shared_det c embBoth) Averaged.error hn (he world0)
  have hs : m.shape = (gapX n ω).f.shape := h2.trans se
  refine ⟨m, h1, hs, fun i hi => ?_⟩
  rw [h3 i hi]
  have e0 := (hfib [] i).1
  have hi' : InB (gapX n ω).f.shape i := by rw [← hs]; exact hi
  rw [fiber_none (by rw [se]; exact hi'), pairsAt, fiberIdx_none hi'] at e0
  simp only [List.map_cons, List.map_nil, List.cons.injEq, and_true] at e0
  rw [e0]
  have g1 : (gapX n ω).f.get i = some (usual (i.getD 1 0)) := get_ofFn _ hi'
  have g2 : (gapX n ω).o.get i = if there (i.getD 1 0) (ω (i.getD 0 0)) then some 0 else none := get_ofFn _ hi'
  show both _ ((gapX n ω).f.get i, (gapX n ω).o.get i) = _
  rw [g1, g2]
  split <;> simp [both]

theorem measurable_there (j : ℕ) : Measurable (there j) := by
  by_cases h : j = 0
  · have : there j = fun _ => true := by funext q; simp [there, h]
    rw [this]
    exact measurable_const
  · refine measurable_to_bool ?_
    have : there j ⁻¹' {true} = {q : ℝ × ℝ | q.1 ≤ 0} := by ext q; simp [there, h]
    rw [this]
    exact measurableSet_le measurable_fst measurable_const

theorem half_there : days.real {ω | (ω 0).1 ≤ 0} = 1 / 2 := by
  have hS : MeasurableSet {q : ℝ × ℝ | q.1 ≤ 0} := measurableSet_le measurable_fst measurable_const
  have h1 : days.real {ω | (ω 0).1 ≤ 0} = dayLaw.real {q : ℝ × ℝ | q.1 ≤ 0} :=
    (day_preserving 0).measureReal_preimage hS.nullMeasurableSet
  have h2 : {q : ℝ × ℝ | q.1 ≤ 0} = Set.Iic 0 ×ˢ Set.univ := by ext q; simp
  have h3 : stdNormal.real (Set.Iic 0) = Phi 0 := by
    have := stdNormal_law 0 one_pos 0
    have e : {ω : ℝ | 0 + 1 * ω ≤ 0} = Set.Iic 0 := by ext ω; simp
    rw [e, normalCdf] at this
    simpa using this
  have h4 := Phi_neg 0
  rw [neg_zero] at h4
  rw [h1, h2, dayLaw, measureReal_prod_prod, h3]
  simp
  linarith

/-- **C149**: places with more missing values weigh less. Forecasts that are always 1 too low at one place and 1 too high at the
other, where every second day is missing: with `pyanen_skip_nan` the `error()` over days and places settles at -1/3; without, it
is missing from some day on. -/
theorem C149_places :
    (∃ (r : ℕ → (ℕ → ℝ × ℝ) → NDArr (Fl ℝ)) (S : ℕ → (ℕ → ℝ × ℝ) → ℝ),
      (∀ n ω, result .determ bothInfo (detPrims { cfgR with skipNan := true } embBoth) noMids (.slot .error)
        (unsaved (withAvg (gapO n ω) .none .none)) world0 = .ok (some (.num (r n ω)))) ∧
      (∀ᵐ ω ∂days, ∃ N, ∀ n, N ≤ n → (r n ω).get [] = some (S n ω)) ∧ Settles days S (-(1 / 3))) ∧
    ∃ r : ℕ → (ℕ → ℝ × ℝ) → NDArr (Fl ℝ),
      (∀ n ω, result .determ bothInfo (detPrims cfgR embBoth) noMids (.slot .error)
        (unsaved (withAvg (gapO n ω) .none .none)) world0 = .ok (some (.num (r n ω)))) ∧
      ∀ᵐ ω ∂days, ∃ N, ∀ n, N ≤ n → (r n ω).get [] = none := by
  have u0 : usual 0 = -1 := if_pos rfl
  have u1 : usual 1 = 1 := if_neg one_ne_zero
  have d0 : dropAxes (nums ([2].length + 1) none) (([2] : List ℕ).insertIdx 0 0) = [] := by decide
  have k0 : placesOf [2] 0 (nums ([2].length + 1) none) [] = [[0], [1]] := by decide
  have t0 : {ω : ℕ → ℝ × ℝ | there 0 (ω 0) = true} = Set.univ := by ext ω; simp [there]
  have t1 : {ω : ℕ → ℝ × ℝ | there 1 (ω 0) = true} = {ω | (ω 0).1 ≤ 0} := by ext ω; simp [there]
  have t2 : {ω : ℕ → ℝ × ℝ | there 1 (ω 0) = false} = {ω | (ω 0).1 ≤ 0}ᶜ := by ext ω; simp [there]
  constructor
  · obtain ⟨r, r1, r2⟩ := C149_skip (P := days) (c := { cfgR with skipNan := true }) (shared_det _ embBoth) rfl Averaged.error
      (gap_plain _) (a := .none) (axes := none) rfl (Nat.zero_le _) trivial (by decide)
    obtain ⟨S, s1, s2⟩ := r2 [] (by rw [d0]; exact .nil)
      (fun p _ => days_repeat (g := fun q : ℝ × ℝ => (there (p.getD 0 0) q, usual (p.getD 0 0)))
        ((measurable_there _).prodMk measurable_const)) (fun p _ => integrable_const _)
      ⟨[0], by decide, by
        show days.real {ω : ℕ → ℝ × ℝ | there 0 (ω 0) = true} ≠ 0
        rw [t0, probReal_univ]
        exact one_ne_zero⟩
    refine ⟨r, S, fun n ω => (r1 n ω).1, s1, settles_to s2 ?_⟩
    rw [k0]
    show _ = (∫ _ in {ω : ℕ → ℝ × ℝ | there 0 (ω 0) = true}, usual 0 ∂days +
      (∫ _ in {ω : ℕ → ℝ × ℝ | there 1 (ω 0) = true}, usual 1 ∂days + 0)) /
      (days.real {ω : ℕ → ℝ × ℝ | there 0 (ω 0) = true} + (days.real {ω : ℕ → ℝ × ℝ | there 1 (ω 0) = true} + 0))
    rw [t0, t1, setIntegral_const, setIntegral_const, half_there, probReal_univ, u0, u1]
    norm_num
  · obtain ⟨r, r1, r2⟩ := C149_keep (P := days) (c := cfgR) (shared_det _ embBoth) rfl Averaged.error
      (gap_plain _) (a := .none) (axes := none) rfl (Nat.zero_le _) trivial (by decide)
    refine ⟨r, fun n ω => (r1 n ω).1, r2 [] (by rw [d0]; exact .nil)
      (fun p _ => days_repeat (g := there (p.getD 0 0)) (measurable_there _)) ⟨[1], by decide, ?_⟩⟩
    show days.real {ω : ℕ → ℝ × ℝ | there 1 (ω 0) = false} ≠ 0
    have hS : MeasurableSet {ω : ℕ → ℝ × ℝ | (ω 0).1 ≤ 0} :=
      measurableSet_le (measurable_fst.comp (measurable_pi_apply 0)) measurable_const
    rw [t2, probReal_compl_eq_one_sub hS, half_there]
    norm_num

/-- C149: every second day of a noise is missing, whatever the other noise was; the limit is the expected noise 0 -/
example : meanOver days [0, 1] (fun _ => {ω : ℕ → ℝ × ℝ | there 1 (ω 0) = true}) (fun _ ω => (ω 0).2) = 0 := by
  have hm : Measurable fun ω : ℕ → ℝ × ℝ => ω 0 := measurable_pi_apply 0
  have hp : (fun q : ℝ × ℝ => there 1 (q.1, 0)) ⟂ᵢ[dayLaw] fun q : ℝ × ℝ => q.2 := by
    refine indepFun_prod (X := fun x : ℝ => there 1 (x, 0)) (Y := fun x : ℝ => x) ?_ measurable_id
    exact (measurable_there 1).comp (measurable_id.prodMk measurable_const)
  have hi : (fun ω : ℕ → ℝ × ℝ => there 1 (ω 0)) ⟂ᵢ[days] fun ω => (ω 0).2 := by
    rw [← (day_preserving 0).map_eq] at hp
    rw [indepFun_iff_measure_inter_preimage_eq_mul] at hp ⊢
    intro A B hA hB
    have h1 : MeasurableSet ((fun q : ℝ × ℝ => there 1 (q.1, 0)) ⁻¹' A) :=
      ((measurable_there 1).comp (measurable_fst.prodMk measurable_const)) hA
    have h2 : MeasurableSet ((fun q : ℝ × ℝ => q.2) ⁻¹' B) := measurable_snd hB
    have := hp A B hA hB
    rwa [Measure.map_apply hm (h1.inter h2), Measure.map_apply hm h1, Measure.map_apply hm h2] at this
  have t1 : {ω : ℕ → ℝ × ℝ | there 1 (ω 0) = true} = {ω | (ω 0).1 ≤ 0} := by ext ω; simp [there]
  rw [C149_random (P := days) (M := fun _ ω => there 1 (ω 0)) (Z := fun _ ω => (ω 0).2) (q := 1 / 2) (by norm_num)
    (fun _ _ => (measurable_there 1).comp hm) (fun _ _ => measurable_snd.comp hm) (fun _ _ => hi)
    (fun _ _ => by rw [t1, half_there])]
  simp only [mean_noise]
  simp [avg]

end Props
