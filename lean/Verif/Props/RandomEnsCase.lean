import Verif.Props.RandomEns
import Verif.Props.HonestCase
import Mathlib.Probability.Distributions.Gaussian.Real

/-! # A concrete case for C118 -/

namespace Props
open Np NDArr Model Spec Lemmas MeasureTheory ProbabilityTheory

/-- three independent standard normal numbers -/
noncomputable def threeNormal : Measure (Fin 3 → ℝ) := Measure.pi fun _ => gaussianReal 0 1

instance : IsProbabilityMeasure threeNormal := by unfold threeNormal; infer_instance

/-- two positions; the observations are the first number and one more than it, the members the other two -/
noncomputable def drawnE (ω : Fin 3 → ℝ) : Obj (EnsX ℝ) :=
  { ensR with ext := { ensR.ext with
      f := ⟨[2, 2], [some (ω 1), some (ω 1), some (ω 2), some (ω 2)], rfl⟩
      o := ⟨[2], [some (0 + ω 0), some (1 + ω 0)], rfl⟩ } }

theorem drawnE_built (ω : Fin 3 → ℝ) : ∃ o w', construct (ensPrims cfgR embReal) noMids (drawnE ω) world0 = (.ok o, w') ∧
    o.ext.axis = some 0 := ⟨_, _, rfl, rfl⟩

noncomputable def shiftAt (i : List Nat) : ℝ := if i = [0] then 0 else 1

noncomputable def drawnX (_ : List Nat) (j : Nat) (ω : Fin 3 → ℝ) : ℝ := if j = 0 then ω 1 else ω 2

theorem three_preserves (i : Fin 3) : MeasurePreserving (fun ω : Fin 3 → ℝ => ω i) threeNormal (gaussianReal 0 1) :=
  measurePreserving_eval (fun _ : Fin 3 => gaussianReal 0 1) i

theorem three_indep {i j : Fin 3} (h : i ≠ j) :
    IndepFun (fun ω : Fin 3 → ℝ => ω i) (fun ω : Fin 3 → ℝ => ω j) threeNormal :=
  (iIndepFun_pi (μ := fun _ : Fin 3 => gaussianReal 0 1) (X := fun _ x => x) fun _ => aemeasurable_id).indepFun h

theorem three_memLp (i : Fin 3) : MemLp (fun ω : Fin 3 → ℝ => ω i) 2 threeNormal :=
  (memLp_id_gaussianReal' 2 (by simp)).comp_measurePreserving (three_preserves i)

theorem three_int (i : Fin 3) : Integrable (fun ω : Fin 3 → ℝ => ω i) threeNormal :=
  (three_memLp i).integrable (by norm_num)

theorem three_mean (i : Fin 3) : ∫ ω, ω i ∂threeNormal = 0 := by
  have := integral_map (three_preserves i).aemeasurable (f := fun x : ℝ => x) (by fun_prop)
  rw [← this, (three_preserves i).map_eq, integral_id_gaussianReal]

theorem three_sq (i : Fin 3) : ∫ ω, (ω i) ^ 2 ∂threeNormal = 1 := by
  have := integral_map (three_preserves i).aemeasurable (f := fun x : ℝ => x ^ 2) (by fun_prop)
  have hv : Var[fun x ↦ x; gaussianReal 0 1] = ((1 : NNReal) : ℝ) := variance_fun_id_gaussianReal
  rw [variance_eq_integral (by fun_prop), integral_id_gaussianReal] at hv
  rw [← this, (three_preserves i).map_eq]
  simpa using hv

theorem drawn_case : RandomEns threeNormal [2] 2 (fun ω => (drawnE ω).ext.o) (fun ω => (drawnE ω).ext.f) 0
    (fun i ω => shiftAt i + ω 0) drawnX
    (fun _ x => (gaussianReal 0 1).real (Set.Iic x)) (fun i x => (gaussianReal 0 1).real (Set.Iic (x - shiftAt i))) where
  shape _ := rfl
  value i hi ω := by
    rcases two_positions hi with rfl | rfl <;> simp [drawnE, ensR, shiftAt, NDArr.get, ravel]
  meas i hi := by fun_prop
  mean i hi := (integrable_const _).add (three_int 0)
  law i hi x := by
    have := (three_preserves 0).measureReal_preimage (s := Set.Iic (x - shiftAt i)) measurableSet_Iic.nullMeasurableSet
    rw [← this]
    congr 1
    ext ω
    simp only [Set.mem_ofPred_eq, Set.mem_preimage, Set.mem_Iic]
    constructor <;> intro h <;> linarith
  members ω i hi := by rcases two_positions hi with rfl | rfl <;> rfl
  measX i hi j hj := by unfold drawnX; split <;> fun_prop
  meanX i hi j hj := by unfold drawnX; split <;> exact three_int _
  lawX i hi j hj x := by
    unfold drawnX
    split
    · exact (three_preserves 1).measureReal_preimage (s := Set.Iic x) measurableSet_Iic.nullMeasurableSet
    · exact (three_preserves 2).measureReal_preimage (s := Set.Iic x) measurableSet_Iic.nullMeasurableSet
  indepY i hi j hj := by
    have hm : Measurable fun x : ℝ => shiftAt i + x := by fun_prop
    unfold drawnX
    split
    · exact (three_indep (i := 1) (j := 0) (by decide)).comp measurable_id hm
    · exact (three_indep (i := 2) (j := 0) (by decide)).comp measurable_id hm
  indepX i hi j l hj hl hjl := by
    have : (j = 0 ∧ l = 1) ∨ (j = 1 ∧ l = 0) := by omega
    rcases this with ⟨rfl, rfl⟩ | ⟨rfl, rfl⟩
    · exact three_indep (i := 1) (j := 2) (by decide)
    · exact three_indep (i := 2) (j := 1) (by decide)

theorem drawnX_moments (i : List Nat) (j : Nat) : MemLp (drawnX i j) 2 threeNormal ∧ ∫ ω, drawnX i j ω ∂threeNormal = 0 ∧
    ∫ ω, (drawnX i j ω - 0) ^ 2 ∂threeNormal = 1 := by
  simp only [sub_zero]
  have : drawnX i j = (fun ω : Fin 3 → ℝ => ω 1) ∨ drawnX i j = fun ω : Fin 3 → ℝ => ω 2 := by
    by_cases h : j = 0
    · left; funext ω; simp [drawnX, h]
    · right; funext ω; simp [drawnX, h]
  rcases this with e | e <;> rw [e]
  · exact ⟨three_memLp 1, three_mean 1, three_sq 1⟩
  · exact ⟨three_memLp 2, three_mean 2, three_sq 2⟩

theorem drawnY_moments (b : ℝ) : MemLp (fun ω : Fin 3 → ℝ => b + ω 0) 2 threeNormal ∧
    ∫ ω, (b + ω 0) ∂threeNormal = b ∧ ∫ ω, (b + ω 0 - b) ^ 2 ∂threeNormal = 1 := by
  have h1 : MemLp (fun _ : Fin 3 → ℝ => b) 2 threeNormal := memLp_const b
  refine ⟨h1.add (three_memLp 0), ?_, ?_⟩
  · rw [integral_add (integrable_const b) (three_int 0), three_mean]; simp
  · simp only [add_sub_cancel_left]; exact three_sq 0

/-- The members are the right ones at the first position and off by one at the second: the expected error is `-1/2`, the
expected squared error 2, of which 1 comes from the observations, 1/2 from the error and 1/2 from there being only two
members; the variance is 1/2 on average although every member has variance 1. -/
example : ∃ o e q var : (Fin 3 → ℝ) → _,
    (∀ ω, ∃ w, construct (ensPrims cfgR embReal) noMids (drawnE ω) world0 = (.ok (o ω), w)) ∧
    (∀ ω, result .ensemble realInfo (ensPrims cfgR embReal) noMids (.slot .error) (unsaved (o ω)) world0 =
      .ok (some (.num (e ω)))) ∧
    (∀ ω, result .ensemble realInfo (ensPrims cfgR embReal) noMids (.slot .sqError) (unsaved (o ω)) world0 =
      .ok (some (.num (q ω)))) ∧
    (∀ ω, result .ensemble realInfo (ensPrims cfgR embReal) noMids (.slot .variance) (unsaved (o ω)) world0 =
      .ok (some (.num (var ω)))) ∧
    ∃ E Q V : (Fin 3 → ℝ) → ℝ, (∀ ω, (e ω).get [] = some (E ω) ∧ (q ω).get [] = some (Q ω) ∧ (var ω).get [0] = some (V ω)) ∧
      ∫ ω, E ω ∂threeNormal = -1 / 2 ∧ ∫ ω, Q ω ∂threeNormal = 2 ∧ ∫ ω, V ω ∂threeNormal = 1 / 2 := by
  choose o w h hax using drawnE_built
  obtain ⟨e, q, var, e1, q1, v1, h1, h2⟩ := C118_errors (I := realInfo) (w1 := fun _ => world0) h (fun _ => rfl)
    (fun _ _ _ => rfl) two_pos (fun ω => by simp [drawnE, ensR]) (fun ω => by simp [drawnE, ensR]) hax drawn_case
    (m := fun _ => 0) (v := fun _ => 1) (m' := shiftAt) (v' := fun _ => 1)
    (fun i _ j _ => drawnX_moments i j) (fun i _ => drawnY_moments (shiftAt i)) (a := .none) (fun _ => rfl) trivial
  obtain ⟨E, Q, g, -, -, g1, g2⟩ := h1 [] (by decide)
  obtain ⟨V, gv, -, g3⟩ := h2 [0] (by decide)
  refine ⟨o, e, q, var, fun ω => ⟨w ω, h ω⟩, e1, q1, v1, E, Q, V, fun ω => ⟨(g ω).1, (g ω).2, gv ω⟩, ?_, ?_, ?_⟩
  · have hL : fiberIdx [2] (nums 1 (axesOf .none)) [] = [[0], [1]] := by decide
    rw [g1]
    simp only [List.length_cons, List.length_nil, Nat.zero_add, hL]
    norm_num [avg, shiftAt]
  · have hL : fiberIdx [2] (nums 1 (axesOf .none)) [] = [[0], [1]] := by decide
    rw [g2]
    simp only [List.length_cons, List.length_nil, Nat.zero_add, hL]
    norm_num [avg, shiftAt]
  · rw [g3]; norm_num

/-- The expected score of the same ensemble. -/
example : ∃ o r : (Fin 3 → ℝ) → _,
    (∀ ω, ∃ w, construct (ensPrims cfgR embReal) noMids (drawnE ω) world0 = (.ok (o ω), w)) ∧
    (∀ ω, result .ensemble realInfo (ensPrims cfgR embReal) noMids (.slot .crps) (unsaved (o ω)) world0 =
      .ok (some (.num (r ω)))) ∧
    ∃ S : (Fin 3 → ℝ) → ℝ, (∀ ω, (r ω).get [] = some (S ω)) ∧ Integrable S threeNormal := by
  choose o w h hax using drawnE_built
  obtain ⟨r, r1, -, r3⟩ := C118_crps (I := realInfo) (w1 := fun _ => world0) h (fun _ => rfl) psScore_energy (split := false)
    (fun _ _ _ => rfl) (by decide) two_pos (fun ω => by simp [drawnE, ensR]) (fun ω => by simp [drawnE, ensR]) hax drawn_case
    (a := .none) (fun _ => rfl) trivial
  obtain ⟨S, s1, s2, -⟩ := r3 [] (by decide)
  exact ⟨o, r, fun ω => ⟨w ω, h ω⟩, r1, S, s1, s2⟩

end Props
