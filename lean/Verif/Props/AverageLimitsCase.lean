import Verif.Props.AverageLimits
import Verif.Props.OverAxesCase
import Verif.Props.UnaveragedCase

/-! # Concrete cases for C146 -/

namespace Props
open Np NDArr Model Spec Lemmas MeasureTheory ProbabilityTheory

/-- forecasts that are 1 too low at the first of two places and 1 too high at the second; observed is a noise around 0 -/
noncomputable def apartX (n : ℕ) (ω : ℕ → ℝ × ℝ) : DetX ℝ := ⟨placeArr (fun j _ => usual j) n ω, placeArr (fun _ q => q.2) n ω⟩

/-- their verifiers -/
noncomputable def apartO (n : ℕ) (ω : ℕ → ℝ × ℝ) : Obj (DetX ℝ) := ⟨.none, .none, .none, some true, apartX n ω⟩

theorem apart_plain (n : ℕ) (ω : ℕ → ℝ × ℝ) :
    ∃ m, result .determ bothInfo (detPrims cfgR embBoth) noMids (.slot .error) (unsaved (plain (apartO n ω))) world0 =
      .ok (some (.num m)) ∧ m.shape = ([2] : List ℕ).insertIdx 0 (n + 1) ∧
      ∀ i, InB m.shape i → m.get i = some (usual (i.getD 1 0) - (ω (i.getD 0 0)).2) := by
  obtain ⟨e, _, _, he, _, _, ⟨se, _⟩, hfib⟩ := error_bodies (o := apartO n ω) (mids := noMids) (I := bothInfo) (C := .determ)
    (shared_det cfgR embBoth) (w0 := world0) (f := (apartX n ω).f) (fDeterm_det _ _) rfl
  obtain ⟨nm, hn⟩ := fixed_ok bothInfo (some "error".toList)
  obtain ⟨m, h1, h2, h3⟩ := plain_of_body (mids := noMids) (shared_det cfgR embBoth) Averaged.error hn (he world0)
  have hs : m.shape = (apartX n ω).f.shape := h2.trans se
  refine ⟨m, h1, hs, fun i hi => ?_⟩
  rw [h3 i hi]
  have e0 := (hfib [] i).1
  have hi' : InB (apartX n ω).f.shape i := by rw [← hs]; exact hi
  rw [fiber_none (by rw [se]; exact hi'), pairsAt, fiberIdx_none hi'] at e0
  simp only [List.map_cons, List.map_nil, List.cons.injEq, and_true] at e0
  rw [e0]
  have g1 : (apartX n ω).f.get i = some (usual (i.getD 1 0)) := get_ofFn _ hi'
  have g2 : (apartX n ω).o.get i = some ((ω (i.getD 0 0)).2) := get_ofFn _ hi'
  show both _ ((apartX n ω).f.get i, (apartX n ω).o.get i) = _
  rw [g1, g2]
  rfl

theorem mean_noise : ∫ ω, (ω 0).2 ∂days = 0 := by
  have h1 : ∫ ω, (fun p : ℝ × ℝ => p.2) (ω 0) ∂days = ∫ p, p.2 ∂dayLaw := by
    rw [← (day_preserving 0).map_eq, integral_map (day_preserving 0).measurable.aemeasurable measurable_snd.aestronglyMeasurable]
  have h2 : ∫ p, p.2 ∂dayLaw = ∫ x, x ∂stdNormal := by
    unfold dayLaw
    rw [integral_fun_snd (fun x : ℝ => x)]
    simp
  rw [show ∫ ω, (ω 0).2 ∂days = ∫ ω, (fun p : ℝ × ℝ => p.2) (ω 0) ∂days from rfl, h1, h2]
  simpa using (stdNormal_moments 0 1).2.1

/-- **C146**: errors of different places cancel. Forecasts that are always 1 too low at one place and 1 too high at the other:
`error()` over the days and both places settles at 0, `error()` over the days alone at -1 and 1. -/
theorem C146_cancel : ∃ (r q : ℕ → (ℕ → ℝ × ℝ) → NDArr (Fl ℝ)) (S T U : ℕ → (ℕ → ℝ × ℝ) → ℝ),
    (∀ n ω, result .determ bothInfo (detPrims cfgR embBoth) noMids (.slot .error)
      (unsaved (withAvg (apartO n ω) (.tuple [0, 1]) .none)) world0 = .ok (some (.num (r n ω))) ∧
      (r n ω).get [] = some (S n ω)) ∧
    (∀ n ω, result .determ bothInfo (detPrims cfgR embBoth) noMids (.slot .error)
      (unsaved (withAvg (apartO n ω) (.int 0) .none)) world0 = .ok (some (.num (q n ω))) ∧
      (q n ω).get [0] = some (T n ω) ∧ (q n ω).get [1] = some (U n ω)) ∧
    Settles days S 0 ∧ Settles days T (-1) ∧ Settles days U 1 := by
  have rep : ∀ p : List ℕ, SameDays days fun d (ω : ℕ → ℝ × ℝ) =>
      usual ((p.insertIdx 0 d).getD 1 0) - (ω ((p.insertIdx 0 d).getD 0 0)).2 := fun p =>
    days_repeat (g := fun q : ℝ × ℝ => usual (p.getD 0 0) - q.2) (measurable_const.sub measurable_snd)
  have hi : ∀ p : List ℕ, Integrable (fun ω : ℕ → ℝ × ℝ =>
      usual ((p.insertIdx 0 0).getD 1 0) - (ω ((p.insertIdx 0 0).getD 0 0)).2) days := fun p =>
    (integrable_const _).sub integrable_noise
  have hv : ∀ p : List ℕ, ∫ ω : ℕ → ℝ × ℝ,
      (usual ((p.insertIdx 0 0).getD 1 0) - (ω ((p.insertIdx 0 0).getD 0 0)).2) ∂days = usual (p.getD 0 0) := fun p => by
    show ∫ ω : ℕ → ℝ × ℝ, (usual (p.getD 0 0) - (ω 0).2) ∂days = _
    rw [integral_sub (integrable_const _) integrable_noise, mean_noise]
    simp
  have u0 : usual 0 = -1 := if_pos rfl
  have u1 : usual 1 = 1 := if_neg one_ne_zero
  obtain ⟨r, r1, r2⟩ := C146_average (P := days) (shared_det cfgR embBoth) Averaged.error apart_plain
    (a := .tuple [0, 1]) (axes := some [0, 1]) rfl (by decide) (Nat.zero_le _)
    (show AxesOK 2 [0, 1] from ⟨by simp [AxisOK], by decide⟩) (by decide)
  obtain ⟨q, q1, q2⟩ := C146_average (P := days) (shared_det cfgR embBoth) Averaged.error apart_plain
    (a := .int 0) (axes := some [0]) rfl (by decide) (Nat.zero_le _)
    (show AxesOK 2 [0] from ⟨by simp [AxisOK], by decide⟩) (by decide)
  have hd : dropAxes (nums ([2].length + 1) (some [0])) (([2] : List ℕ).insertIdx 0 0) = [2] := by decide
  obtain ⟨S, s1, s2⟩ := r2 [] (by
    have : dropAxes (nums ([2].length + 1) (some [0, 1])) (([2] : List ℕ).insertIdx 0 0) = [] := by decide
    rw [this]
    exact .nil) (fun p _ => rep p) (fun p _ => hi p)
  obtain ⟨T, t1, t2⟩ := q2 [0] (by rw [hd]; exact .cons (by decide) .nil) (fun p _ => rep p) (fun p _ => hi p)
  obtain ⟨U, v1, v2⟩ := q2 [1] (by rw [hd]; exact .cons (by decide) .nil) (fun p _ => rep p) (fun p _ => hi p)
  have k0 : placesOf [2] 0 (nums ([2].length + 1) (some [0, 1])) [] = [[0], [1]] := by decide
  have k1 : placesOf [2] 0 (nums ([2].length + 1) (some [0])) [0] = [[0]] := by decide
  have k2 : placesOf [2] 0 (nums ([2].length + 1) (some [0])) [1] = [[1]] := by decide
  simp only [hv] at s2 t2 v2
  rw [k0] at s2
  rw [k1] at t2
  rw [k2] at v2
  refine ⟨r, q, S, T, U, fun n ω => ⟨(r1 n ω).1, s1 n ω⟩, fun n ω => ⟨(q1 n ω).1, t1 n ω, v1 n ω⟩, ?_, ?_, ?_⟩
  · simpa [avg, u0, u1] using s2
  · simpa [avg, u0] using t2
  · simpa [avg, u1] using v2

end Props
