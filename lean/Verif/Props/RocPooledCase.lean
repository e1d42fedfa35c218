import Verif.Props.RocPooled
import Verif.Props.RocLimitCase

/-! # Concrete cases for C142 -/

namespace Props
open Np NDArr Model Spec Lemmas MeasureTheory ProbabilityTheory

/-- numbers of two places -/
noncomputable def placeArr (f : ℕ → ℝ × ℝ → ℝ) (n : ℕ) (ω : ℕ → ℝ × ℝ) : NDArr (Fl ℝ) :=
  ofFn [n + 1, 2] fun i => some (f (i.getD 1 0) (ω (i.getD 0 0)))

/-- what is usual at a place: -1 at the first, 1 at the second -/
noncomputable def usual (j : ℕ) : ℝ := if j = 0 then -1 else 1

/-- what is observed at a place: what is usual there, and a noise -/
noncomputable def seen (j : ℕ) (p : ℝ × ℝ) : ℝ := if j = 0 then -1 + p.1 else 1 + p.2

/-- verifiers that announce the mean `m` at each place, every day the same -/
noncomputable def placeGauss (m : ℕ → ℝ) (n : ℕ) (ω : ℕ → ℝ × ℝ) : Obj (ProbX ℝ) :=
  probObj { gaussX false with
    f := [("mu", placeArr (fun j _ => m j) n ω), ("sigma", placeArr (fun _ _ => 1) n ω)]
    o := placeArr seen n ω
    members := .none }

theorem placeGauss_made (m : ℕ → ℝ) (n : ℕ) (ω : ℕ → ℝ × ℝ) :
    construct (gaussPrims rocCfg (fnsPit 0) embBoth) noMids (placeGauss m n ω) world0 = (.ok (placeGauss m n ω), world0) := by
  simp [construct, validate, validateAxis, validateSaving, placeGauss, probObj, gaussPrims, probPrims, gaussX, probSettingsOK,
    dictOK, placeArr, ProbX.hasKey]
  rfl

theorem placeGauss_says (m : ℕ → ℝ) (n : ℕ) (ω : ℕ → ℝ × ℝ) :
    Says (([2] : List Nat).insertIdx 0 (n + 1)) (fun i => seen (i.getD 1 0) (ω (i.getD 0 0))) .gaussian bothInfo
      (gaussPrims rocCfg (fnsPit 0) embBoth) noMids (fun x => x.o) (placeGauss m n ω) world0 true (.inl 0)
      (fun i => beyondProb true (gaussLaw false (m (i.getD 1 0)) 1 0)) none :=
  C131_says_gauss (I := bothInfo) (placeGauss_made m n ω) realLib_exact realLib_unit (sh := [n + 1, 2]) (.inl ⟨rfl, by simp⟩) rfl
    (fun i hi => get_ofFn _ hi) rfl (mu := placeArr (fun j _ => m j) n ω) (sigma := placeArr (fun _ _ => 1) n ω)
    ⟨rfl, rfl⟩ ⟨rfl, rfl⟩ (fun i hi => ⟨get_ofFn _ hi, get_ofFn _ hi, one_pos⟩)
    (a := .inl 0) (by simp [Printable, bothInfo]) rfl rfl true

theorem measurable_seen (j : ℕ) : Measurable (seen j) := by
  unfold seen
  by_cases h : j = 0
  · simp only [h, if_true]; fun_prop
  · simp only [h, if_false]; fun_prop

/-- a place `j` on the first day -/
theorem place_chance (j : ℕ) : days.real {ω | Beyond true 0 (fun ω : ℕ → ℝ × ℝ => seen j (ω 0)) ω} = 1 - Phi (-usual j) := by
  have hc : {ω : ℕ → ℝ × ℝ | Beyond true 0 (fun ω : ℕ → ℝ × ℝ => seen j (ω 0)) ω} =
      (if j = 0 then {ω : ℕ → ℝ × ℝ | (ω 0).1 ∈ Set.Iic (-usual j) ∧ (ω 0).2 ∈ Set.univ}
        else {ω | (ω 0).1 ∈ Set.univ ∧ (ω 0).2 ∈ Set.Iic (-usual j)})ᶜ := by
    ext ω
    by_cases h : j = 0 <;> simp [Beyond, seen, usual, h] <;>
      exact ⟨fun h' => by linarith, fun h' => by linarith⟩
  have hl : ∀ x : ℝ, stdNormal.real (Set.Iic x) = Phi x := by
    intro x
    have := stdNormal_law 0 one_pos x
    have e : {ω : ℝ | 0 + 1 * ω ≤ x} = Set.Iic x := by ext ω; simp
    rw [e, normalCdf] at this
    simpa using this
  have hd : days.real (if j = 0 then {ω : ℕ → ℝ × ℝ | (ω 0).1 ∈ Set.Iic (-usual j) ∧ (ω 0).2 ∈ Set.univ}
        else {ω | (ω 0).1 ∈ Set.univ ∧ (ω 0).2 ∈ Set.Iic (-usual j)}) = Phi (-usual j) := by
    by_cases h : j = 0
    · rw [if_pos h, day_both measurableSet_Iic MeasurableSet.univ, hl]
      simp
    · rw [if_neg h, day_both MeasurableSet.univ measurableSet_Iic, hl]
      simp
  have hm : MeasurableSet {ω | Beyond true 0 (fun ω : ℕ → ℝ × ℝ => seen j (ω 0)) ω} :=
    measurableSet_beyond true 0 ((measurable_seen j).comp (measurable_pi_apply 0))
  have h2 := probReal_compl_eq_one_sub (μ := days) hm
  have h3 : {ω | Beyond true 0 (fun ω : ℕ → ℝ × ℝ => seen j (ω 0)) ω}ᶜ =
      if j = 0 then {ω : ℕ → ℝ × ℝ | (ω 0).1 ∈ Set.Iic (-usual j) ∧ (ω 0).2 ∈ Set.univ}
        else {ω | (ω 0).1 ∈ Set.univ ∧ (ω 0).2 ∈ Set.Iic (-usual j)} := by rw [hc, compl_compl]
  rw [h3, hd] at h2
  linarith

theorem half_lt : 1 / 2 < Phi 1 := by
  have h1 := one_sub_Phi 0
  rw [neg_zero] at h1
  have := strictMono_Phi (show (0 : ℝ) < 1 by norm_num)
  linarith

/-- **C142**: places that differ give a large area without any skill. Two places, at each of which the same
probability is announced every day: the area of each place is one half, but that of both together settles at Φ(1) > 1/2. -/
theorem C142_places : ∃ S : ℕ → (ℕ → ℝ × ℝ) → ℝ,
    (∀ n ω, construct (gaussPrims rocCfg (fnsPit 0) embBoth) noMids (placeGauss usual n ω) world0 = (.ok (placeGauss usual n ω), world0)) ∧
    (∀ᵐ ω ∂days, ∃ N, ∀ n, N ≤ n → ∃ fpr tpr,
      result .gaussian bothInfo (gaussPrims rocCfg (fnsPit 0) embBoth) noMids (.slot (.roc (some (.inl 0)) none))
        (unsaved (placeGauss usual n ω)) world0 = .ok (some (.roc fpr tpr (some (S n ω))))) ∧
    Settles days S (Phi 1) ∧ 1 / 2 < Phi 1 ∧
    ∀ j, trueArea days (fun _ => beyondProb true (gaussLaw false (usual j) 1 0))
      {ω | Beyond true 0 (fun ω : ℕ → ℝ × ℝ => seen j (ω 0)) ω} = 1 / 2 := by
  obtain ⟨S, r1, r2⟩ := C142_roc (P := days) (shared_gauss rocCfg (fnsPit 0) embBoth).base rfl (placeGauss_says usual) (τ := 0) rfl
    (Nat.zero_le _)
  have hp : ∀ j, 0 < 1 - Phi (-usual j) := by
    intro j
    rw [one_sub_Phi]
    exact Phi_pos _
  have hB : ∀ j, MeasurableSet {ω | Beyond true 0 (fun ω : ℕ → ℝ × ℝ => seen j (ω 0)) ω} := fun j =>
    measurableSet_beyond true 0 ((measurable_seen j).comp (measurable_pi_apply 0))
  have hcompl : ∀ j, days.real {ω | Beyond true 0 (fun ω : ℕ → ℝ × ℝ => seen j (ω 0)) ω}ᶜ = Phi (-usual j) := by
    intro j
    rw [probReal_compl_eq_one_sub (hB j), place_chance]
    ring
  have k := r2 (fun k _ => by
    refine days_repeat (g := fun p : ℝ × ℝ => (beyondProb true (gaussLaw false (usual (k.getD 0 0)) 1 0), seen (k.getD 0 0) p)) ?_
    exact measurable_const.prodMk (measurable_seen _))
    ⟨[0], by decide, by
      have := place_chance 0
      exact (this ▸ (hp 0).ne' : days.real {ω | Beyond true 0 (fun ω : ℕ → ℝ × ℝ => seen 0 (ω 0)) ω} ≠ 0)⟩
    ⟨[0], by decide, by
      have := hcompl 0
      exact (this ▸ (Phi_pos _).ne' : days.real {ω | Beyond true 0 (fun ω : ℕ → ℝ × ℝ => seen 0 (ω 0)) ω}ᶜ ≠ 0)⟩
  refine ⟨S, placeGauss_made usual, ?_, ?_, half_lt, fun j => ?_⟩
  · filter_upwards [k.2] with ω hω
    obtain ⟨N, hN⟩ := hω
    exact ⟨N, fun n hn => r1 n ω (hN n hn).1 (hN n hn).2⟩
  · refine settles_to k.1 ?_
    have e := C142_same (P := days) (allIdx [2]) (fun k => beyondProb true (gaussLaw false (usual (k.getD 0 0)) 1 0))
      (B := fun k => {ω | Beyond true 0 (fun ω : ℕ → ℝ × ℝ => seen (k.getD 0 0) (ω 0)) ω}) fun k => hB _
    have v : ∀ i : ℕ, beyondProb true (gaussLaw false (usual i) 1 0) = 1 - Phi (-usual i) := by
      intro i
      show 1 - Phi ((0 - usual i) / 1) = _
      rw [zero_sub, div_one]
    have u0 : usual 0 = -1 := if_pos rfl
    have u1 : usual 1 = 1 := if_neg one_ne_zero
    have hk : allIdx [2] = [[0], [1]] := by decide
    have w0 : ∀ x : ℝ, wins x x = (1 / 2 : ℝ) := fun x => by simp [wins]
    have w1 : wins (Phi 1) (1 - Phi 1) = (1 : ℝ) := by
      have := half_lt
      simp only [wins]
      rw [if_pos (by linarith)]
    have w2 : wins (1 - Phi 1) (Phi 1) = (0 : ℝ) := by
      have := half_lt
      simp only [wins]
      rw [if_neg (by linarith), if_neg (by intro h; linarith)]
    have n1 : Phi (-1) = 1 - Phi 1 := Phi_neg 1
    refine Eq.trans ?_ e.symm
    simp only [hk, List.map_cons, List.map_nil, List.sum_cons, List.sum_nil, List.getD_cons_zero, hcompl, place_chance, v, u0, u1,
      neg_neg, n1, sub_sub_cancel, w0, w1, w2]
    rw [eq_div_iff (by ring_nf; norm_num)]
    ring
  · exact C140_no_skill measurable_const (hB j) (indepFun_const_left _ _) (by rw [place_chance]; exact (hp j).ne')
      (by rw [hcompl]; exact (Phi_pos _).ne')

end Props
