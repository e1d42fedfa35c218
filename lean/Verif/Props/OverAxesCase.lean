import Verif.Props.OverAxes
import Verif.Props.RelPooledCase

/-! # Concrete cases for C145 -/

namespace Props
open Np NDArr Model Spec Lemmas MeasureTheory ProbabilityTheory

/-- the verifiers of C142, averaging over days and places -/
noncomputable def placeTuple (m : ℕ → ℝ) (n : ℕ) (ω : ℕ → ℝ × ℝ) : Obj (ProbX ℝ) := { placeGauss m n ω with avg := .tuple [0, 1] }

theorem placeTuple_made (m : ℕ → ℝ) (n : ℕ) (ω : ℕ → ℝ × ℝ) :
    construct (gaussPrims rocCfg (fnsPit 0) embBoth) noMids (placeTuple m n ω) world0 = (.ok (placeTuple m n ω), world0) := by
  simp [construct, validate, validateAxis, validateSaving, placeTuple, placeGauss, probObj, gaussPrims, probPrims, gaussX,
    probSettingsOK, dictOK, placeArr, ProbX.hasKey]
  rfl

theorem placeTuple_says (m : ℕ → ℝ) (n : ℕ) (ω : ℕ → ℝ × ℝ) :
    Says (([2] : List Nat).insertIdx 0 (n + 1)) (fun i => seen (i.getD 1 0) (ω (i.getD 0 0))) .gaussian bothInfo
      (gaussPrims rocCfg (fnsPit 0) embBoth) noMids (fun x => x.o) (placeTuple m n ω) world0 true (.inl 0)
      (fun i => beyondProb true (gaussLaw false (m (i.getD 1 0)) 1 0)) (some (([0, 1] : List ℕ).map Int.ofNat)) :=
  C131_says_gauss (I := bothInfo) (placeTuple_made m n ω) realLib_exact realLib_unit (sh := [n + 1, 2]) (.inl ⟨rfl, by simp⟩) rfl
    (fun i hi => get_ofFn _ hi) rfl (mu := placeArr (fun j _ => m j) n ω) (sigma := placeArr (fun _ _ => 1) n ω)
    ⟨rfl, rfl⟩ ⟨rfl, rfl⟩ (fun i hi => ⟨get_ofFn _ hi, get_ofFn _ hi, one_pos⟩)
    (a := .inl 0) (by simp [Printable, bothInfo]) rfl rfl true

theorem usual_prob (j : ℕ) : beyondProb true (gaussLaw false (usual j) 1 0) = 1 - Phi (-usual j) := by
  show 1 - Phi ((0 - usual j) / 1) = _
  rw [zero_sub, div_one]

/-- forecasts that are always the same resolve nothing -/
theorem C145_constant {Ω : Type} [MeasurableSpace Ω] {P : Measure Ω} [IsProbabilityMeasure P] (n : ℕ) (v : ℝ) (S : Set Ω) :
    trueRes P n (fun _ => v) S = 0 := by
  refine Finset.sum_eq_zero fun b _ => ?_
  by_cases h : InDecompBin n b v
  · simp [h]
  · simp [h]

theorem resOver_pos : 0 < resOver days [[0], [1]] 19 (fun p _ => 1 - Phi (-usual (p.getD 0 0))) (fun p => placeOver (p.getD 0 0)) := by
  have u0 : usual 0 = -1 := if_pos rfl
  have u1 : usual 1 = 1 := if_neg one_ne_zero
  have n1 : Phi (-1) = 1 - Phi 1 := Phi_neg 1
  have hl := half_lt
  have hb : ∀ j, days.real (placeOver j) = 1 - Phi (-usual j) := place_chance
  have b0 : days.real (placeOver 0) = 1 - Phi 1 := by rw [hb, u0, neg_neg]
  have b1 : days.real (placeOver 1) = Phi 1 := by rw [hb, u1, n1]; ring
  have sh : ∀ S : List ℕ → Set (ℕ → ℝ × ℝ), shareOver days [[0], [1]] S = (days.real (S [0]) + days.real (S [1])) / 2 := by
    intro S
    simp only [shareOver, avg, List.map_cons, List.map_nil, List.sum_cons, List.sum_nil, List.length_cons, List.length_nil]
    norm_num
  have snn : ∀ S : List ℕ → Set (ℕ → ℝ × ℝ), 0 ≤ shareOver days [[0], [1]] S := fun S => by
    rw [sh]
    have h1 : 0 ≤ days.real (S [0]) := measureReal_nonneg
    have h2 : 0 ≤ days.real (S [1]) := measureReal_nonneg
    linarith
  obtain ⟨b, hb19, hin⟩ := decompBin_exists 19 (1 - Phi 1)
  have hb10 : b < 10 := by
    rcases hin.1 with h | h
    · omega
    · have h1 : (b : ℝ) / (19 + 1) < 1 / 2 := by
        have : (b : ℝ) / (((19 : ℕ) : ℝ) + 1) ≤ 1 - Phi 1 := h
        push_cast at this
        linarith
      have h2 : (b : ℝ) < 10 := by linarith
      exact_mod_cast h2
  have hout : ¬ InDecompBin 19 b (Phi 1) := by
    rintro ⟨-, h | h⟩
    · omega
    · have h1 : (b : ℝ) + 1 ≤ 10 := by exact_mod_cast hb10
      push_cast at h
      linarith
  refine Finset.sum_pos' (fun c _ => mul_nonneg (snn _) (sq_nonneg _)) ⟨b, Finset.mem_range.2 (by omega), ?_⟩
  have e0 : {_ω : ℕ → ℝ × ℝ | InDecompBin 19 b (1 - Phi (-usual (([0] : List ℕ).getD 0 0)))} = Set.univ := by
    rw [List.getD_cons_zero, u0, neg_neg]
    exact Set.eq_univ_of_forall fun _ => hin
  have e1 : {_ω : ℕ → ℝ × ℝ | InDecompBin 19 b (1 - Phi (-usual (([1] : List ℕ).getD 0 0)))} = ∅ := by
    rw [List.getD_cons_zero, u1, n1, sub_sub_cancel]
    exact Set.eq_empty_of_forall_notMem fun _ => hout
  simp only [sh]
  rw [e0, e1]
  simp only [Set.univ_inter, Set.empty_inter, measureReal_empty, probReal_univ, List.getD_cons_zero, b0, b1]
  have : (0 : ℝ) < (Phi 1 - 1 / 2) ^ 2 := pow_pos (by linarith) 2
  nlinarith

/-- **C145**: places that differ give resolution without any skill. Two places, at each of which the same probability is
announced every day: the resolution of each place is 0, but that of `brier_decomp(over=0)` over both settles above 0. -/
theorem C145_places : ∃ (rel res unc : ℕ → (ℕ → ℝ × ℝ) → NDArr (Fl ℝ)) (V : ℕ → (ℕ → ℝ × ℝ) → ℝ) (l : ℝ),
    (∀ n ω, construct (gaussPrims rocCfg (fnsPit 0) embBoth) noMids (placeTuple usual n ω) world0 =
      (.ok (placeTuple usual n ω), world0)) ∧
    (∀ n ω, result .gaussian bothInfo (gaussPrims rocCfg (fnsPit 0) embBoth) noMids
      (.slot (.brierDecomp (some (.inl 0)) none)) (unsaved (placeTuple usual n ω)) world0 =
        .ok (some (.triple (rel n ω) (res n ω) (unc n ω))) ∧ (res n ω).get [] = some (V n ω)) ∧
    Settles days V l ∧ 0 < l ∧
    ∀ j, trueRes days 19 (fun _ => beyondProb true (gaussLaw false (usual j) 1 0)) (placeOver j) = 0 := by
  obtain ⟨rel, res, unc, r1, r2⟩ := C145_decomp (P := days) (shared_gauss rocCfg (fnsPit 0) embBoth).base
    (placeTuple_says usual) (fun i ω => beyondProb_unit ((unit_normal _ _).lo _) ((unit_normal _ _).hi _)) rfl
    (by decide) (Nat.zero_le _) (by decide) (by decide) (by decide)
  obtain ⟨R, V, U, h1, -, h2, -⟩ := r2 [] (by
    have : dropAxes [0, 1] (([2] : List ℕ).insertIdx 0 0) = [] := by decide
    rw [this]
    exact .nil) fun p _ => by
    refine days_repeat (g := fun q : ℝ × ℝ => (beyondProb true (gaussLaw false (usual (p.getD 0 0)) 1 0), seen (p.getD 0 0) q)) ?_
    exact measurable_const.prodMk (measurable_seen _)
  refine ⟨rel, res, unc, V, _, placeTuple_made usual, fun n ω => ⟨r1 n ω, (h1 n ω).2.1⟩, h2, ?_, fun j => C145_constant ..⟩
  have hk : placesOf [2] 0 [0, 1] [] = [[0], [1]] := by decide
  have := resOver_pos
  simp only [← usual_prob] at this
  rw [hk]
  exact this

/-- the Brier score of the same archive settles at the average of the scores of the two places -/
example : ∃ (r : ℕ → (ℕ → ℝ × ℝ) → NDArr (Fl ℝ)) (S : ℕ → (ℕ → ℝ × ℝ) → ℝ),
    (∀ n ω, result .gaussian bothInfo (gaussPrims rocCfg (fnsPit 0) embBoth) noMids (.slot (.brier (some (.inl 0)) none))
      (unsaved (placeTuple usual n ω)) world0 = .ok (some (.num (r n ω))) ∧ (r n ω).get [] = some (S n ω)) ∧
    Settles days S (Spec.avg ((placesOf [2] 0 [0, 1] []).map fun p => ∫ ω, (beyondProb true (gaussLaw false (usual (p.getD 0 0)) 1 0) -
      (indicator (Beyond true 0 (fun ω : ℕ → ℝ × ℝ => seen (p.getD 0 0) (ω 0)) ω) : ℝ)) ^ 2 ∂days)) := by
  obtain ⟨r, r1, r2⟩ := C145_brier (P := days) (shared_gauss rocCfg (fnsPit 0) embBoth).base
    (placeTuple_says usual) (fun i ω => beyondProb_unit ((unit_normal _ _).lo _) ((unit_normal _ _).hi _)) rfl
    (by decide) (Nat.zero_le _) (show AxesOK 2 [0, 1] from ⟨by simp [AxisOK], by decide⟩) (by decide)
  obtain ⟨S, h1, h2⟩ := r2 [] (by
    have : dropAxes (nums ([2].length + 1) (some (([0, 1] : List ℕ).map Int.ofNat))) (([2] : List ℕ).insertIdx 0 0) = [] := by decide
    rw [this]
    exact .nil) fun p _ => by
    refine days_repeat (g := fun q : ℝ × ℝ => (beyondProb true (gaussLaw false (usual (p.getD 0 0)) 1 0), seen (p.getD 0 0) q)) ?_
    exact measurable_const.prodMk (measurable_seen _)
  exact ⟨r, S, fun n ω => ⟨(r1 n ω).1, h1 n ω⟩, h2⟩

end Props
