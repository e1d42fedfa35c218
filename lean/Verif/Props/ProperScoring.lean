import Verif.Spec.ProperScoring
import Verif.Lemmas.ProperScoring
import Verif.Props.EnsCrps
import Verif.Props.Members

/-!
# The score of properscoring: C109
-/

set_option linter.unusedSectionVars false

namespace Props
open Np NDArr Spec Model Lemmas

section
variable {K : Type} [Field K] [LinearOrder K] [IsStrictOrderedRing K]

theorem formula_none (ms : List (Fl K)) : psFormula none ms = none := by
  unfold psFormula
  simp only
  rw [nanmean_nil (l := List.zipWith _ _ _)]
  · rfl
  · rw [List.filterMap_eq_nil_iff]
    intro a ha
    obtain ⟨i, hi, rfl⟩ := List.mem_iff_getElem.1 ha
    rw [List.getElem_zipWith]
    have : ∀ u v : Fl K, Fl.mul u (Fl.abs (Fl.sub v none)) = none := by
      intro u v; cases u <;> cases v <;> rfl
    exact this _ _

/-- **C109**: the pass over the sorted members and the formula on arrays give the same score, whatever the order of the
members, the position of the observation among them and the missing values: the mean distance of the members from the
observation minus half the mean distance between two members, for the members that are present. -/
theorem C109_score (y : Fl K) (ms : List (Fl K)) :
    psOnePass y ms = memberScore y ms ∧ psFormula y ms = memberScore y ms := by
  cases y with
  | none => exact ⟨rfl, formula_none ms⟩
  | some y =>
    rw [psOnePass_eq, psFormula_eq, memberScore]
    refine ⟨?_, rfl⟩
    by_cases h : present ms = []
    · rw [if_pos h, if_pos h]
    · rw [if_neg h, if_neg h, score_gap _ h]

/-- **C109**: the score is missing exactly if the observation or all members are, and otherwise between 0 and the mean
distance of the members from the observation. -/
theorem C109_range (y : Fl K) (ms : List (Fl K)) : (psOnePass y ms = none ↔ y = none ∨ present ms = []) ∧
    ∀ v, psOnePass y ms = some v → ∃ x, y = some x ∧ 0 ≤ v ∧ v ≤ avg ((present ms).map fun a => |a - x|) := by
  rw [(C109_score y ms).1]
  cases y with
  | none => simp [memberScore]
  | some y =>
    by_cases h : present ms = []
    · simp [memberScore, h]
    · refine ⟨by simp [memberScore, h], fun v hv => ⟨y, rfl, ?_⟩⟩
      simp only [memberScore, if_neg h, Option.some.injEq] at hv
      subst hv
      refine ⟨?_, ?_⟩
      · rw [score_gap _ h]
        exact avg_nonneg' _ fun a _ => avg_nonneg' _ fun b _ => le_max_left _ _
      · have : 0 ≤ avg ((present ms).map fun x => avg ((present ms).map fun x' => |x - x'|)) :=
          avg_nonneg' _ fun a _ => avg_nonneg' _ fun b _ => abs_nonneg _
        linarith

variable [FloorSemiring K] {A : Type} {I : ArgInfo A} {mids : FS (PyVal K) → Path → List (FS (PyVal K))} {c : Cfg K} {emb : A → Arg K}

/-- **C109**: `crps()` of an ensemble, with or without numba, split along the first axis or not: the average over the
averaged positions of that score, also with missing observations and members. -/
theorem C109_crps {oi o : Obj (EnsX K)} {w w' : World (PyVal K)}
    (h : construct (ensPrims c emb) mids oi w = (.ok o, w')) (hb : oi.boot = .none) {split numba : Bool}
    (hc : ∀ o f ax, c.crpsEns o f ax = ensembleCrps (if numba then psOnePass else psFormula) split ax o f)
    (hne : 0 < oi.ext.o.shape.headD 0) (hok : OptOK oi.ext.o.shape.length (axesOf oi.avg)) (w1 : World (PyVal K)) :
    ∃ ax r, o.ext.axis = some ax ∧
      result .ensemble I (ensPrims c emb) mids (.slot .crps) (unsaved o) w1 = .ok (some (.num r)) ∧
      r.shape = dropAxes (nums oi.ext.o.shape.length (axesOf oi.avg)) oi.ext.o.shape ∧
      ∀ k, InB r.shape k →
        IsAvg c.skipNan ((fiberIdx oi.ext.o.shape (nums oi.ext.o.shape.length (axesOf oi.avg)) k).map fun i =>
          memberScore (oi.ext.o.get i) (membersAt oi.ext.f ax i)) (r.get k) := by
  obtain ⟨ax, r, h1, h2, h3, h4⟩ := C75_ens_crps (I := I) h hb hc hne hok w1
  refine ⟨ax, r, h1, h2, h3, fun k hk => ?_⟩
  have e : ∀ (y : Fl K) ms, (if numba then psOnePass else psFormula) y ms = memberScore y ms := by
    intro y ms
    cases numba
    · exact (C109_score y ms).2
    · exact (C109_score y ms).1
  have := h4 k hk
  simp only [e] at this
  exact this

/-- **C109**: whether numba is installed makes no difference to anything. -/
theorem C109_numba (c : Cfg K) (split : Bool) :
    { c with crpsEns := fun o f ax => ensembleCrps psOnePass split ax o f } =
      { c with crpsEns := fun o f ax => ensembleCrps psFormula split ax o f } := by
  have : (psOnePass : Fl K → List (Fl K) → Fl K) = psFormula := by
    funext y ms
    rw [(C109_score y ms).1, (C109_score y ms).2]
  rw [this]

end

/-- **C109**: the score meets the hypothesis on properscoring of the theorems of C88, C98, C99, C106 and C108. -/
theorem C109_energy : IsEnergyScore psOnePass ∧ IsEnergyScore psFormula := by
  have e : ∀ (y : ℝ) ms, ms ≠ [] → memberScore (some y) (ms.map some) = some (energyScore ms y) := by
    intro y ms h
    have : present (ms.map some) = ms := filterMap_id_map_some ms
    simp only [memberScore, this, if_neg h, energyScore]
  exact ⟨fun y ms h => by rw [(C109_score _ _).1, e y ms h], fun y ms h => by rw [(C109_score _ _).2, e y ms h]⟩

/-! ### cases -/

/-- the observation below, among and above the members, with a missing member -/
example : psOnePass (some (0 : ℚ)) [some 3, none, some 1] = some (3 / 2) ∧
    psOnePass (some (2 : ℚ)) [some 3, none, some 1] = some (1 / 2) ∧
    psFormula (some (2 : ℚ)) [some 3, none, some 1] = some (1 / 2) ∧
    psOnePass (some (5 : ℚ)) [some 3, none, some 1] = some (5 / 2) ∧
    psOnePass (some (5 : ℚ)) [none] = none ∧ psOnePass none [some (3 : ℚ)] = none := by
  refine ⟨by decide +kernel, by decide +kernel, by decide +kernel, by decide +kernel, by decide +kernel, by decide +kernel⟩

/-- settings over the real numbers with the score of properscoring -/
noncomputable def cfgPs : Cfg ℝ := { cfgR with crpsEns := fun o f ax => ensembleCrps psOnePass false ax o f }

/-- two members, one of them missing -/
noncomputable def ensMissing : Obj (EnsX ℝ) := ⟨.none, .none, .none, some true,
  ⟨⟨[2, 1], [some 1, none], rfl⟩, ⟨[1], [some 3], rfl⟩, some 0, fun f ax => reduceAxes mean f (some [ax]), none⟩⟩

example : ∃ o w' r, construct (ensPrims cfgPs embReal) noMids ensMissing world0 = (.ok o, w') ∧
    result .ensemble realInfo (ensPrims cfgPs embReal) noMids (.slot .crps) (unsaved o) world0 = .ok (some (.num r)) ∧
      r.get [] = some 2 := by
  obtain ⟨o, w', h⟩ : ∃ o w', construct (ensPrims cfgPs embReal) noMids ensMissing world0 = (.ok o, w') := ⟨_, _, rfl⟩
  obtain ⟨ax, r, r0, r1, r2, r3⟩ := C109_crps (I := realInfo) (numba := true) (split := false) h rfl (fun _ _ _ => rfl)
    (by simp [ensMissing]) trivial world0
  refine ⟨o, w', r, h, r1, ?_⟩
  obtain ⟨_, _, d1, -, -, -, -, d2, -⟩ := C75_construct_ens h
  have d3 := d1.axis
  rw [r0, d2 0 rfl] at d3
  cases d3
  have g := r3 [] (by rw [r2]; trivial)
  have hl : (fiberIdx ensMissing.ext.o.shape (nums ensMissing.ext.o.shape.length (axesOf ensMissing.avg)) []).map (fun i =>
      memberScore (ensMissing.ext.o.get i) (membersAt ensMissing.ext.f 0 i)) = [some 2] := by
    show [memberScore (some (3 : ℝ)) [some 1, none]] = [some 2]
    have hp : present [some (1 : ℝ), none] = [1] := rfl
    rw [memberScore, hp, if_neg (by simp)]
    norm_num [avg]
  rw [hl] at g
  have := isAvg_some' (L := [()]) (h := fun _ => (2 : ℝ)) (by simp) (fun _ _ => rfl) g
  simpa [avg] using this

end Props
