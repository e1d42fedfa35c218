import Verif.Lemmas.Ordinal
import Verif.Lemmas.Same
import Verif.Lemmas.Scale
import Verif.Props.EndToEndClasses
import Verif.Props.EndToEndProbCase
import Mathlib.Analysis.SpecialFunctions.Sqrt

/-!
# Other units

C81: metrics that only compare data with thresholds, members and observations do not change when all of them go through
the same strictly increasing conversion.
-/

set_option linter.unusedSectionVars false

namespace Props
open Np NDArr Spec Model Lemmas

variable {K : Type} [Field K] [LinearOrder K] [IsStrictOrderedRing K] [FloorSemiring K]
variable {A : Type} {I : ArgInfo A} {mids : FS (PyVal K) → Path → List (FS (PyVal K))} {c : Cfg K} {emb : A → Arg K}

/-- the ensemble verifier `u` holds the data of `o` in another unit -/
structure EnsInUnit (g : K → K) (o u : Obj (EnsX K)) : Prop where
  avg : u.avg = o.avg
  boot : u.boot = o.boot
  axis : u.ext.axis = o.ext.axis
  f : u.ext.f = inUnit g o.ext.f
  o : u.ext.o = inUnit g o.ext.o

theorem cdfBelow_unit {g : K → K} (hg : StrictMono g) (hm : c.method = .moments) {o u : Obj (EnsX K)}
    (h : EnsInUnit g o u) {a a' : A} {t : Thr K} (ha : emb a = .thr t) (ha' : emb a' = .thr (thrInUnit g t)) :
    (ensPrims c emb).cdfBelow u.ext a' = (ensPrims c emb).cdfBelow o.ext a := by
  simp only [ensPrims, EnsX.ax, h.axis, h.f, hm, ha, ha', Arg.asThr, ensToProb, bind, Except.bind, ensToProbBelow_map hg]

theorem binarize_unit {g : K → K} (hg : StrictMono g) {o u : Obj (EnsX K)}
    (h : EnsInUnit g o u) {a a' : A} {t : Thr K} (ha : emb a = .thr t) (ha' : emb a' = .thr (thrInUnit g t))
    (isOver : Bool) :
    (ensPrims c emb).binarize u.ext (overArg isOver a') (belowArg isOver a') =
      (ensPrims c emb).binarize o.ext (overArg isOver a) (belowArg isOver a) := by
  have h1 := binarizeObs_map hg o.ext.o (some t) none
  have h2 := binarizeObs_map hg o.ext.o none (some t)
  simp only [Option.map] at h1 h2
  cases isOver
  · simp only [ensPrims, basePrims, overArg, belowArg, Bool.false_eq_true, if_false, Option.map, optThr, ha, ha',
      Arg.asThr, h.o, bind, Except.bind, pure, Except.pure, h2]
  · simp only [ensPrims, basePrims, overArg, belowArg, if_true, Option.map, optThr, ha, ha',
      Arg.asThr, h.o, bind, Except.bind, pure, Except.pure, h1]

theorem args_ok {a : A} (h : Printable I a) (isOver : Bool) :
    ∃ ps, nameParts I (obArgs (overArg isOver a) (belowArg isOver a)) = .ok ps := by
  apply obArgs_ok
  · intro b hb
    cases isOver <;> simp [overArg] at hb
    subst hb; exact h
  · intro b hb
    cases isOver <;> simp [belowArg] at hb
    subst hb; exact h

theorem cdfBody_unit {g : K → K} (hg : StrictMono g) (hm : c.method = .moments) {o u : Obj (EnsX K)}
    (h : EnsInUnit g o u) {a a' : A} {t : Thr K} (ha : emb a = .thr t) (ha' : emb a' = .thr (thrInUnit g t))
    (hp : Printable I a) (hp' : Printable I a') (isOver : Bool) :
    Same (cdfBody .ensemble I (ensPrims c emb) u.ext (overArg isOver a') (belowArg isOver a'))
      (cdfBody .ensemble I (ensPrims c emb) o.ext (overArg isOver a) (belowArg isOver a)) := by
  have e := cdfBelow_unit hg hm h ha ha'
  cases isOver
  · exact same_ret e
  · obtain ⟨p1, h1⟩ := args_ok hp' false
    obtain ⟨p2, h2⟩ := args_ok hp false
    have n1 : ∃ x, slotName I (.cdf none (some a')) = .ok x := toName_ok h1 (some "cdf".toList)
    have n2 : ∃ x, slotName I (.cdf none (some a)) = .ok x := toName_ok h2 (some "cdf".toList)
    simp only [cdfBody, overArg, belowArg, if_true, reduceCtorEq, if_false]
    exact same_callName n1 n2 (same_ret e) fun v => Same.refl _

/-- the computations behind the metrics that take one threshold -/
theorem prob_unit {g : K → K} (hg : StrictMono g) (hm : c.method = .moments) {o u : Obj (EnsX K)}
    (h : EnsInUnit g o u) {a a' : A} {t : Thr K} (ha : emb a = .thr t) (ha' : emb a' = .thr (thrInUnit g t))
    (hp : Printable I a) (hp' : Printable I a') (isOver : Bool) (k : PyVal K → PyVal K → Prog (PyVal K)) :
    Same (withProb .ensemble I (ensPrims c emb) u.ext (overArg isOver a') (belowArg isOver a') k)
      (withProb .ensemble I (ensPrims c emb) o.ext (overArg isOver a) (belowArg isOver a) k) := by
  obtain ⟨p1, h1⟩ := args_ok hp' isOver
  obtain ⟨p2, h2⟩ := args_ok hp isOver
  simp only [withProb, cdfCall, slotName, reduceCtorEq, if_false]
  refine same_callName (toName_ok h1 _) (toName_ok h2 _) (cdfBody_unit hg hm h ha ha' hp hp' isOver) fun v => ?_
  rw [binarize_unit hg h ha ha' isOver]
  exact Same.refl _

/-- **C81**: `cdf`, `sharpness`, `brier`, `brier_decomp`, `roc` and `reliability` give exactly the same result - value
or exception, averaged or bootstrapped with the same random numbers - when forecasts, observations and the threshold all
go through a strictly increasing conversion (Celsius to Kelvin, logarithms, ...). -/
theorem C81_threshold {g : K → K} (hg : StrictMono g) (hm : c.method = .moments) {o u : Obj (EnsX K)}
    (h : EnsInUnit g o u) {a a' : A} {t : Thr K} (ha : emb a = .thr t) (ha' : emb a' = .thr (thrInUnit g t))
    (hp : Printable I a) (hp' : Printable I a') (isOver : Bool) (n : A) (hn : Printable I n) (w : World (PyVal K)) :
    ∀ S ∈ ([.cdf, .sharpness, .brier, .brierDecomp, .roc, .reliability n] : List (Option A → Option A → Slot A)),
      result .ensemble I (ensPrims c emb) mids (.slot (S (overArg isOver a') (belowArg isOver a'))) (unsaved u) w =
        result .ensemble I (ensPrims c emb) mids (.slot (S (overArg isOver a) (belowArg isOver a))) (unsaved o) w := by
  obtain ⟨p1, h1⟩ := args_ok hp' isOver
  obtain ⟨p2, h2⟩ := args_ok hp isOver
  have hc := cdfBody_unit (c := c) hg hm h ha ha' hp hp' isOver
  have ht : ∃ b, tooLong I (some n) = .ok b := Model.tooLong_ok hn
  intro S hS
  apply result_same
  simp only [metricProg, h.avg, h.boot]
  simp only [List.mem_cons, List.not_mem_nil, or_false] at hS
  rcases hS with rfl | rfl | rfl | rfl | rfl | rfl <;>
    simp only [Slot.probOnly, Bool.false_eq_true, false_and, if_false, slotName, slotBody, slotPost]
  · exact same_callName (toName_ok h1 _) (toName_ok h2 _) hc fun v => Same.refl _
  · simp only [cdfCall, slotName, reduceCtorEq, if_false]
    exact same_callName (toName_ok h1 _) (toName_ok h2 _)
      (same_callName (toName_ok h1 _) (toName_ok h2 _) hc fun v => Same.refl _) fun v => Same.refl _
  · refine same_callName (toName_ok h1 _) (toName_ok h2 _) ?_ fun v => Same.refl _
    simp only [brierBody, cdfCall, slotName, reduceCtorEq, if_false]
    refine same_callName (toName_ok h1 _) (toName_ok h2 _) hc fun v => ?_
    rw [binarize_unit hg h ha ha' isOver]
    exact Same.refl _
  · exact same_callName ⟨_, rfl⟩ ⟨_, rfl⟩ (prob_unit hg hm h ha ha' hp hp' isOver _) fun v => Same.refl _
  · exact same_callName (toName_ok h1 _) (toName_ok h2 _) (prob_unit hg hm h ha ha' hp hp' isOver _) fun v => Same.refl _
  · obtain ⟨p3, h3⟩ := nameParts_cons ht ⟨p1, h1⟩ (k := "nbins".toList)
    obtain ⟨p4, h4⟩ := nameParts_cons ht ⟨p2, h2⟩ (k := "nbins".toList)
    exact same_callName (toName_ok h3 _) (toName_ok h4 _) (prob_unit hg hm h ha ha' hp hp' isOver _)
      fun v => Same.refl _

/-- **C81**: `rank_hist()` is the same, tie breaking included. -/
theorem C81_rank {g : K → K} (hg : StrictMono g) {o u : Obj (EnsX K)} (h : EnsInUnit g o u) (w : World (PyVal K)) :
    result .ensemble I (ensPrims c emb) mids (.slot .rankHist) (unsaved u) w =
      result .ensemble I (ensPrims c emb) mids (.slot .rankHist) (unsaved o) w := by
  apply result_same
  simp only [metricProg, Slot.probOnly, Bool.false_eq_true, false_and, if_false, slotBody, slotPost]
  obtain ⟨nm, hn⟩ : ∃ nm, slotName I (.rankHist : Slot A) = .ok nm := fixed_ok I (some "rank".toList)
  refine same_callName ⟨_, hn⟩ ⟨_, hn⟩ (same_draw fun s => same_ret ?_) fun v => Same.refl _
  simp only [ensPrims, bind, Except.bind, PyVal.asNum, EnsX.ax, h.axis, h.f, h.o, rankHistogram_map hg]

/-- **C81**: `iou_determ` is the same if the deterministic forecast goes through the conversion too. -/
theorem C81_iou {g : K → K} (hg : StrictMono g) {o u : Obj (EnsX K)} (h : EnsInUnit g o u)
    (hfc : u.ext.fc = o.ext.fc.map (inUnit g)) {a a' : A} {t : Thr K} (ha : emb a = .thr t)
    (ha' : emb a' = .thr (thrInUnit g t)) (hp : Printable I a) (hp' : Printable I a') (isOver : Bool)
    (w : World (PyVal K)) :
    result .ensemble I (ensPrims c emb) mids (.slot (.iouDeterm (overArg isOver a') (belowArg isOver a'))) (unsaved u) w =
      result .ensemble I (ensPrims c emb) mids (.slot (.iouDeterm (overArg isOver a) (belowArg isOver a))) (unsaved o) w := by
  obtain ⟨p1, h1⟩ := args_ok hp' isOver
  obtain ⟨p2, h2⟩ := args_ok hp isOver
  apply result_same
  simp only [metricProg, h.avg, Slot.probOnly, Bool.false_eq_true, false_and, if_false, slotName, slotBody, slotPost,
    withDet]
  refine same_callName (toName_ok h1 _) (toName_ok h2 _) (same_ret ?_) fun v => Same.refl _
  cases hf : o.ext.fc with
  | none => simp only [ensPrims, hfc, hf]; rfl
  | some fc =>
    have e1 := iouDeterm_map hg fc o.ext.o
    cases isOver
    · have e2 := fun ax => e1 ax none (some t)
      simp only [Option.map] at e2
      simp only [ensPrims, basePrims, hfc, hf, Option.map, overArg, belowArg, Bool.false_eq_true, if_false, optThr, ha,
        ha', Arg.asThr, h.o, bind, Except.bind, pure, Except.pure, PyVal.asNum, xorGiven, e2]
      rfl
    · have e2 := fun ax => e1 ax (some t) none
      simp only [Option.map] at e2
      simp only [ensPrims, basePrims, hfc, hf, Option.map, overArg, belowArg, if_true, optThr, ha,
        ha', Arg.asThr, h.o, bind, Except.bind, pure, Except.pure, PyVal.asNum, xorGiven, e2]
      rfl

/-! ### linear conversions -/

/-- the methods shared by the deterministic and the ensemble class -/
structure Core {X : Type} (c : Cfg K) (obs : X → NDArr (Fl K)) (emb : A → Arg K) (P : Prims X (PyVal K) A) : Prop where
  error : P.errorOf = (basePrims c obs emb).errorOf
  sq : P.sqErrorOf = (basePrims c obs emb).sqErrorOf
  ab : P.abErrorOf = (basePrims c obs emb).abErrorOf
  avg : P.avg = (basePrims c obs emb).avg
  boot : P.bootArr = (basePrims c obs emb).bootArr
  corr : P.corr = (basePrims c obs emb).corr
  corrBoot : P.corrBoot = (basePrims c obs emb).corrBoot
  sqrt : P.sqrt = (basePrims c obs emb).sqrt
  ssSplit : P.ssSplit = (basePrims c obs emb).ssSplit
  ssAgg : P.ssAgg = (basePrims c obs emb).ssAgg
  ssBoot : P.ssBoot = (basePrims c obs emb).ssBoot

theorem core_det : Core c DetX.o emb (detPrims c emb) := ⟨rfl, rfl, rfl, rfl, rfl, rfl, rfl, rfl, rfl, rfl, rfl⟩
theorem core_ens : Core c EnsX.o emb (ensPrims c emb) := ⟨rfl, rfl, rfl, rfl, rfl, rfl, rfl, rfl, rfl, rfl, rfl⟩

/-- multiply the numbers of an array, leave other values alone -/
def scNum (a : K) : PyVal K → PyVal K
  | .num x => .num (x.map (sc a))
  | v => v

section core
variable {X : Type} {obs : X → NDArr (Fl K)} {P : Prims X (PyVal K) A} {C : Cls}

theorem bootOrAvgP_sim (hP : Core c obs emb P) {a a' : K} (ha : 0 < a) (avg : PyAxis) (boot : PyBoot)
    {g : PyVal K → Except Err (PyVal K)} (hg : ∀ x, g (.num (x.map (sc a))) = (g (.num x)).map (scaled a'))
    (v : PyVal K) :
    Sim (scaled a') (bootOrAvgP P avg boot g (scNum a v)) (bootOrAvgP P avg boot g v) := by
  unfold bootOrAvgP
  by_cases hb : boot = .none
  · rw [if_pos hb, if_pos hb]
    apply sim_ret
    rw [hP.avg]
    cases v with
    | num x =>
      simp only [basePrims, scNum, PyVal.asNum, bind, Except.bind, pure, Except.pure]
      cases axisArg avg with
      | error e => rfl
      | ok l =>
        simp only [bootOrAvg_sc ha]
        cases bootOrAvg c.skipNan l none c.reps c.conf (c.rng 0 0) x with
        | error e => rfl
        | ok y => exact hg y
    | _ =>
      simp only [basePrims, scNum, PyVal.asNum, bind, Except.bind]
      cases axisArg avg <;> rfl
  · rw [if_neg hb, if_neg hb]
    refine sim_draw fun s => sim_ret ?_
    rw [hP.boot]
    cases v with
    | num x =>
      simp only [basePrims, scNum, PyVal.asNum, bind, Except.bind, pure, Except.pure]
      cases axisArg avg with
      | error e => rfl
      | ok l =>
        cases bootArg boot with
        | error e => rfl
        | ok n =>
          simp only [bootOrAvg_sc ha]
          cases bootOrAvg c.skipNan l (some n) c.reps c.conf (c.rng s 0) x with
          | error e => rfl
          | ok y => exact hg y
    | _ =>
      simp only [basePrims, scNum, PyVal.asNum, bind, Except.bind]
      cases axisArg avg with
      | error e => rfl
      | ok l => cases bootArg boot <;> rfl

theorem ok_scaled (a : K) (x : NDArr (Fl K)) :
    (Except.ok (PyVal.num (x.map (sc a))) : Except Err (PyVal K)) = (Except.ok (PyVal.num x)).map (scaled a) := rfl

/-- both forecasts of the verifiers, and their observations, in two units -/
structure DetUnit (C : Cls) (P : Prims X (PyVal K) A) (obs : X → NDArr (Fl K)) (a b a' b' : K) (o u : Obj X) : Prop where
  cls : C = .determ ∨ C = .ensemble
  avg : u.avg = o.avg
  boot : u.boot = o.boot
  obs : obs u.ext = (obs o.ext).map (aff a' b')
  det : (P.fDet u.ext = P.fDet o.ext ∧ ∃ e, P.fDet o.ext = .error e) ∨
    ∃ f, P.fDet o.ext = .ok (.num f) ∧ P.fDet u.ext = .ok (.num (f.map (aff a b)))

theorem withDet_cls (h : C = .determ ∨ C = .ensemble) (x : X) (g : PyVal K → Except Err (PyVal K)) :
    withDet C I P x g = .ret (P.fDet x >>= g) := by
  rcases h with rfl | rfl <;> rfl

theorem det_sim {a b a' b' : K} {o u : Obj X} (h : DetUnit C P obs a b a' b' o u) (r : K)
    {g : X → PyVal K → Except Err (PyVal K)}
    (hg : ∀ f, g u.ext (.num (f.map (aff a b))) = (g o.ext (.num f)).map (scNum r)) :
    Sim (scNum r) (withDet C I P u.ext (g u.ext)) (withDet C I P o.ext (g o.ext)) := by
  rw [withDet_cls h.cls, withDet_cls h.cls]
  apply sim_ret
  rcases h.det with ⟨h1, e, h2⟩ | ⟨f, h1, h2⟩
  · rw [h1, h2]; rfl
  · rw [h1, h2]; exact hg f

theorem errorOf_sc (hP : Core c obs emb P) {a b : K} {o u : Obj X} (h : DetUnit C P obs a b a b o u) (f : NDArr (Fl K)) :
    P.errorOf u.ext (.num (f.map (aff a b))) = (P.errorOf o.ext (.num f)).map (scNum a) := by
  rw [hP.error]
  simp only [basePrims, PyVal.asNum, bind, Except.bind, h.obs, errorArr_aff]
  cases errorArr f (obs o.ext) <;> rfl

theorem abErrorOf_sc (hP : Core c obs emb P) {a b : K} (ha : 0 < a) {o u : Obj X} (h : DetUnit C P obs a b a b o u)
    (f : NDArr (Fl K)) :
    P.abErrorOf u.ext (.num (f.map (aff a b))) = (P.abErrorOf o.ext (.num f)).map (scNum a) := by
  rw [hP.ab]
  simp only [basePrims, PyVal.asNum, bind, Except.bind, h.obs, abErrorArr_aff ha]
  cases abErrorArr f (obs o.ext) <;> rfl

theorem sqErrorOf_sc (hP : Core c obs emb P) {a b : K} {o u : Obj X} (h : DetUnit C P obs a b a b o u) (f : NDArr (Fl K)) :
    P.sqErrorOf u.ext (.num (f.map (aff a b))) = (P.sqErrorOf o.ext (.num f)).map (scNum (a * a)) := by
  rw [hP.sq]
  simp only [basePrims, PyVal.asNum, bind, Except.bind, h.obs, sqErrorArr_aff]
  cases sqErrorArr f (obs o.ext) <;> rfl

theorem error_unit (hP : Core c obs emb P) {a b : K} (ha : 0 < a) {o u : Obj X} (h : DetUnit C P obs a b a b o u)
    (w : World (PyVal K)) :
    result C I P mids (.slot .error) (unsaved u) w =
      (result C I P mids (.slot .error) (unsaved o) w).map (Option.map (scaled a)) := by
  apply result_sim
  obtain ⟨nm, hn⟩ : ∃ nm, slotName I (.error : Slot A) = .ok nm := fixed_ok I (some "error".toList)
  simp only [metricProg, Slot.probOnly, Bool.false_eq_true, false_and, if_false, slotBody, slotPost, h.avg, h.boot]
  exact sim_callName ⟨_, hn⟩ ⟨_, hn⟩ (det_sim h a (errorOf_sc hP h)) (bootOrAvgP_sim hP ha _ _ (ok_scaled a))

theorem abError_unit (hP : Core c obs emb P) {a b : K} (ha : 0 < a) {o u : Obj X} (h : DetUnit C P obs a b a b o u)
    (w : World (PyVal K)) :
    result C I P mids (.slot .abError) (unsaved u) w =
      (result C I P mids (.slot .abError) (unsaved o) w).map (Option.map (scaled a)) := by
  apply result_sim
  obtain ⟨nm, hn⟩ : ∃ nm, slotName I (.abError : Slot A) = .ok nm := fixed_ok I (some "ab_error".toList)
  simp only [metricProg, Slot.probOnly, Bool.false_eq_true, false_and, if_false, slotBody, slotPost, h.avg, h.boot]
  exact sim_callName ⟨_, hn⟩ ⟨_, hn⟩ (det_sim h a (abErrorOf_sc hP ha h)) (bootOrAvgP_sim hP ha _ _ (ok_scaled a))

theorem sqError_unit (hP : Core c obs emb P) {a b : K} (ha : 0 < a) {o u : Obj X} (h : DetUnit C P obs a b a b o u)
    (w : World (PyVal K)) :
    result C I P mids (.slot .sqError) (unsaved u) w =
      (result C I P mids (.slot .sqError) (unsaved o) w).map (Option.map (scaled (a * a))) := by
  apply result_sim
  obtain ⟨nm, hn⟩ : ∃ nm, slotName I (.sqError : Slot A) = .ok nm := fixed_ok I (some "sq_error".toList)
  simp only [metricProg, Slot.probOnly, Bool.false_eq_true, false_and, if_false, slotBody, slotPost, h.avg, h.boot]
  exact sim_callName ⟨_, hn⟩ ⟨_, hn⟩ (det_sim h _ (sqErrorOf_sc hP h))
    (bootOrAvgP_sim hP (mul_pos ha ha) _ _ (ok_scaled _))

theorem rmse_unit (hP : Core c obs emb P) (hs : IsSqrt c.sqrt) {a b : K} (ha : 0 < a) {o u : Obj X}
    (h : DetUnit C P obs a b a b o u) (w : World (PyVal K)) :
    result C I P mids .rmse (unsaved u) w = (result C I P mids .rmse (unsaved o) w).map (Option.map (scaled a)) := by
  apply result_sim
  obtain ⟨nm, hn⟩ : ∃ nm, slotName I (.sqError : Slot A) = .ok nm := fixed_ok I (some "sq_error".toList)
  simp only [metricProg, h.avg, h.boot]
  refine sim_callName ⟨_, hn⟩ ⟨_, hn⟩ (det_sim h _ (sqErrorOf_sc hP h))
    (bootOrAvgP_sim hP (mul_pos ha ha) _ _ fun x => ?_)
  rw [hP.sqrt]
  simp only [basePrims, PyVal.asNum, bind, Except.bind, pure, Except.pure, Except.map, scaled, inUnit, Lemmas.map_map]
  refine congrArg _ (congrArg _ (congrArg (fun g => NDArr.map g x) ?_))
  funext y
  exact sqrt_sc hs ha y

theorem corr_unit (hP : Core c obs emb P) (hs : IsSqrt c.sqrt) {a b a' b' : K} (ha : 0 < a) (ha' : 0 < a') {o u : Obj X}
    (h : DetUnit C P obs a b a' b' o u) (w : World (PyVal K)) :
    result C I P mids (.slot .corr) (unsaved u) w = result C I P mids (.slot .corr) (unsaved o) w := by
  apply result_same
  obtain ⟨nd, hd⟩ : ∃ nd, slotName I (.fDeterm : Slot A) = .ok nd := fixed_ok I (some "f_determ".toList)
  have hb : ∀ x, fDetBody C I P x = .ret (P.fDet x) := by
    intro x
    rcases h.cls with hc | hc <;> subst hc <;> rfl
  simp only [metricProg, Slot.probOnly, Bool.false_eq_true, false_and, if_false, slotBody, slotPost, h.avg, h.boot,
    fDetCall, hb, hd, Prog.callName]
  refine same_callName ⟨_, rfl⟩ ⟨_, rfl⟩ ?_ fun v => Same.refl _
  intro w
  rw [run_call, run_call]
  rcases h.det with ⟨h1, e, h2⟩ | ⟨f, h1, h2⟩
  · rw [h1, h2]; rfl
  · rw [h1, h2]
    simp only [Prog.run, hP.corr, hP.corrBoot, basePrims, PyVal.asNum, h.obs, bind, Except.bind, corr_aff hs ha ha',
      corrBoot_aff hs ha ha']

/-- multiply the numbers in the bins -/
def scSplit (a : K) : PyVal K → PyVal K
  | .ssSplit p k => .ssSplit (p.map (NDArr.map (sc a))) k
  | v => v

theorem asNum_scNum (a : K) (v : PyVal K) : (scNum a v).asNum = v.asNum.map (NDArr.map (sc a)) := by
  cases v <;> rfl

theorem ssSplit_sc (hP : Core c obs emb P) (hA : ScaleFree c.argsort) {a : K} (ha : 0 < a) (v s : PyVal K) (n : A)
    (avg : PyAxis) :
    P.ssSplit (scNum a v) (scNum a s) n avg = (P.ssSplit v s n avg).map (scSplit a) := by
  rw [hP.ssSplit]
  simp only [basePrims, asNum_scNum, bind, Except.bind]
  cases v.asNum with
  | error e => rfl
  | ok x =>
    cases s.asNum with
    | error e => rfl
    | ok y =>
      cases (emb n).asNat with
      | error e => rfl
      | ok m =>
        cases axisArg avg with
        | error e => rfl
        | ok l =>
          simp only [Except.map, ssCreateSplit_sc hA ha]
          cases ssCreateSplit c.argsort x y m l <;> rfl

theorem postBins_sim (hP : Core c obs emb P) (hs : IsSqrt c.sqrt) {a : K} (ha : 0 < a) (boot : PyBoot) (v : PyVal K) :
    Sim (scaled a) (postBins boot P.ssAgg P.ssBoot (scSplit (a * a) v)) (postBins boot P.ssAgg P.ssBoot v) := by
  unfold postBins
  by_cases hb : boot = .none
  · rw [if_pos hb, if_pos hb, hP.ssAgg]
    apply sim_ret
    cases v with
    | ssSplit p k =>
      simp only [basePrims, scSplit, bind, Except.bind, ssAggNoBoot_sc hs ha]
      cases ssAggNoBoot c.sqrt c.skipNan p k <;> rfl
    | _ => rfl
  · rw [if_neg hb, if_neg hb, hP.ssBoot]
    refine sim_draw fun s => sim_ret ?_
    cases v with
    | ssSplit p k =>
      simp only [basePrims, scSplit, bind, Except.bind]
      cases bootArg boot with
      | error e => rfl
      | ok n =>
        simp only [ssAggBoot_sc hs ha]
        cases ssAggBoot c.sqrt c.skipNan p k n c.reps c.conf (c.rng s) <;> rfl
    | _ => rfl

end core

theorem detUnit_det (a b a' b' : K) (o : Obj (DetX K)) :
    DetUnit .determ (detPrims c emb) DetX.o a b a' b' o (detUnit (linear a b) (linear a' b') o) :=
  ⟨.inl rfl, rfl, rfl, rfl, .inr ⟨_, rfl, rfl⟩⟩

theorem ensUnit_det (a b a' b' : K) (o : Obj (EnsX K)) :
    DetUnit .ensemble (ensPrims c emb) EnsX.o a b a' b' o (ensUnit (linear a b) (linear a' b') o) := by
  refine ⟨.inr rfl, rfl, rfl, rfl, ?_⟩
  cases h : o.ext.fc with
  | none =>
    left
    simp only [ensPrims, ensUnit, h, Option.map]
    exact ⟨trivial, _, rfl⟩
  | some fc =>
    right
    refine ⟨fc, ?_, ?_⟩
    · simp only [ensPrims, h]
    · simp only [ensPrims, ensUnit, h, Option.map]; rfl

theorem ensUnit_rel (g : K → K) (o : Obj (EnsX K)) : EnsInUnit g o (ensUnit g g o) := ⟨rfl, rfl, rfl, rfl, rfl⟩

/-- **C81**: building the verifier from converted data gives the converted verifier (or the same exception). -/
theorem C81_construct_det (g g' : K → K) (oi : Obj (DetX K)) (w : World (PyVal K)) :
    construct (detPrims c emb) mids (detUnit g g' oi) w =
      ((construct (detPrims c emb) mids oi w).1.map (detUnit g g'), (construct (detPrims c emb) mids oi w).2) := by
  have hv : validate (detPrims c emb) mids (detUnit g g' oi) w =
      ((validate (detPrims c emb) mids oi w).1, detUnit g g' (validate (detPrims c emb) mids oi w).2.1,
        (validate (detPrims c emb) mids oi w).2.2) := by
    unfold validate
    simp only [detUnit]
    rcases validateAxis oi.avg with ⟨r, ax⟩
    cases r with
    | error e => rfl
    | ok _ =>
      cases oi.boot with
      | other => rfl
      | _ =>
        cases oi.scratch with
        | none => rfl
        | some s =>
          simp only
          rcases validateSaving mids oi.dir s w with ⟨r, w1⟩
          cases r <;> rfl
  unfold construct
  rw [hv]
  rcases validate (detPrims c emb) mids oi w with ⟨r, o1, w1⟩
  cases r <;> rfl

theorem C81_construct_ens (g g' : K → K) (oi : Obj (EnsX K)) (hc : Converts g oi.ext.collapse) (w : World (PyVal K)) :
    construct (ensPrims c emb) mids (ensUnit g g' oi) w =
      ((construct (ensPrims c emb) mids oi w).1.map (ensUnit g g'), (construct (ensPrims c emb) mids oi w).2) := by
  have hv : validate (ensPrims c emb) mids (ensUnit g g' oi) w =
      ((validate (ensPrims c emb) mids oi w).1, ensUnit g g' (validate (ensPrims c emb) mids oi w).2.1,
        (validate (ensPrims c emb) mids oi w).2.2) ∧
      (validate (ensPrims c emb) mids oi w).2.1.ext.collapse = oi.ext.collapse := by
    unfold validate
    simp only [ensUnit]
    rcases validateAxis oi.avg with ⟨r, ax⟩
    cases r with
    | error e => exact ⟨rfl, rfl⟩
    | ok _ =>
      cases oi.boot with
      | other => exact ⟨rfl, rfl⟩
      | _ =>
        cases oi.scratch with
        | none => exact ⟨rfl, rfl⟩
        | some s =>
          simp only
          rcases validateSaving mids oi.dir s w with ⟨r, w1⟩
          cases r with
          | error e => exact ⟨rfl, rfl⟩
          | ok _ =>
            simp only [ensPrims, inUnit, shape_map]
            cases validateEnsembleAxis oi.ext.f.shape oi.ext.o.shape oi.ext.axis <;> exact ⟨rfl, rfl⟩
  obtain ⟨hv, hcol⟩ := hv
  unfold construct
  rw [hv]
  rcases hr : validate (ensPrims c emb) mids oi w with ⟨r, o1, w1⟩
  rw [hr] at hcol
  cases r with
  | error e => rfl
  | ok _ =>
    simp only at hcol ⊢
    simp only [ensPrims, EnsX.ax, ensUnit, bind, Except.bind, hcol]
    cases o1.ext.axis with
    | none => rfl
    | some ax =>
      simp only [hc o1.ext.f ax]
      cases oi.ext.collapse o1.ext.f ax <;> rfl

/-- The mean over the members converts with every linear change of unit. -/
theorem C81_mean (a b : K) : Converts (linear a b) fun f ax => reduceAxes mean f (some [ax]) := by
  intro f ax
  have h1 := reduceAxes_map (aff_default a b) mean f (some [ax])
  simp only [mean_aff] at h1
  exact h1.trans (reduceAxes_post (aff_default a b) mean f (some [ax]))

/-- **C81**, deterministic class: if forecasts and observations go through the same conversion `a * x + b`, errors,
absolute errors and RMSE are multiplied by `a` and squared errors by `a ^ 2` - averaged or bootstrapped, for every
axis, with NaN at the same places and the same exceptions. -/
theorem C81_det (hs : IsSqrt c.sqrt) {a : K} (ha : 0 < a) (b : K) (o : Obj (DetX K)) (w : World (PyVal K)) :
    let u := unsaved (detUnit (linear a b) (linear a b) o)
    result .determ I (detPrims c emb) mids (.slot .error) u w =
      (result .determ I (detPrims c emb) mids (.slot .error) (unsaved o) w).map (Option.map (scaled a)) ∧
    result .determ I (detPrims c emb) mids (.slot .abError) u w =
      (result .determ I (detPrims c emb) mids (.slot .abError) (unsaved o) w).map (Option.map (scaled a)) ∧
    result .determ I (detPrims c emb) mids (.slot .sqError) u w =
      (result .determ I (detPrims c emb) mids (.slot .sqError) (unsaved o) w).map (Option.map (scaled (a * a))) ∧
    result .determ I (detPrims c emb) mids .rmse u w =
      (result .determ I (detPrims c emb) mids .rmse (unsaved o) w).map (Option.map (scaled a)) :=
  ⟨error_unit core_det ha (detUnit_det a b a b o) w, abError_unit core_det ha (detUnit_det a b a b o) w,
    sqError_unit core_det ha (detUnit_det a b a b o) w, rmse_unit core_det hs ha (detUnit_det a b a b o) w⟩

/-- **C81**, ensemble class: the same for the collapsed forecast; `spread` is multiplied by `a` and `variance` by
`a ^ 2`. -/
theorem C81_ens (hs : IsSqrt c.sqrt) {a : K} (ha : 0 < a) (b : K) (o : Obj (EnsX K)) (w : World (PyVal K)) :
    let u := unsaved (ensUnit (linear a b) (linear a b) o)
    result .ensemble I (ensPrims c emb) mids (.slot .error) u w =
      (result .ensemble I (ensPrims c emb) mids (.slot .error) (unsaved o) w).map (Option.map (scaled a)) ∧
    result .ensemble I (ensPrims c emb) mids (.slot .abError) u w =
      (result .ensemble I (ensPrims c emb) mids (.slot .abError) (unsaved o) w).map (Option.map (scaled a)) ∧
    result .ensemble I (ensPrims c emb) mids (.slot .sqError) u w =
      (result .ensemble I (ensPrims c emb) mids (.slot .sqError) (unsaved o) w).map (Option.map (scaled (a * a))) ∧
    result .ensemble I (ensPrims c emb) mids .rmse u w =
      (result .ensemble I (ensPrims c emb) mids .rmse (unsaved o) w).map (Option.map (scaled a)) ∧
    result .ensemble I (ensPrims c emb) mids (.slot .spread) u w =
      (result .ensemble I (ensPrims c emb) mids (.slot .spread) (unsaved o) w).map (Option.map (scaled a)) ∧
    result .ensemble I (ensPrims c emb) mids (.slot .variance) u w =
      (result .ensemble I (ensPrims c emb) mids (.slot .variance) (unsaved o) w).map (Option.map (scaled (a * a))) := by
  refine ⟨error_unit core_ens ha (ensUnit_det a b a b o) w, abError_unit core_ens ha (ensUnit_det a b a b o) w,
    sqError_unit core_ens ha (ensUnit_det a b a b o) w, rmse_unit core_ens hs ha (ensUnit_det a b a b o) w, ?_, ?_⟩
  · apply result_sim
    obtain ⟨nm, hn⟩ : ∃ nm, slotName I (.spread : Slot A) = .ok nm := fixed_ok I (some "spread".toList)
    simp only [metricProg, Slot.probOnly, Bool.false_eq_true, false_and, if_false, slotBody, slotPost]
    refine sim_callName ⟨_, hn⟩ ⟨_, hn⟩ (sim_ret ?_) (bootOrAvgP_sim core_ens ha _ _ (ok_scaled a))
    simp only [ensPrims, ensUnit, bind, Except.bind, PyVal.asNum, EnsX.ax]
    cases o.ext.axis with
    | none => rfl
    | some ax =>
      have := ensSpread_aff ha b c.skipNan o.ext.f ax
      change ensSpread c.skipNan (inUnit (linear a b) o.ext.f) ax = _ at this
      simp only [this]
      cases ensSpread c.skipNan o.ext.f ax <;> rfl
  · apply result_sim
    obtain ⟨nm, hn⟩ : ∃ nm, slotName I (.variance : Slot A) = .ok nm := fixed_ok I (some "variance".toList)
    simp only [metricProg, Slot.probOnly, Bool.false_eq_true, false_and, if_false, slotBody, slotPost]
    refine sim_callName (ψ := scaled (a * a)) ⟨_, hn⟩ ⟨_, hn⟩ (sim_ret ?_) fun v => sim_ret rfl
    simp only [ensPrims, ensUnit, bind, Except.bind, EnsX.ax]
    cases o.ext.axis with
    | none => rfl
    | some ax =>
      have := ensVariance_aff a b o.ext.f ax
      change ensVariance (inUnit (linear a b) o.ext.f) ax = _ at this
      simp only [this]
      cases ensVariance o.ext.f ax <;> rfl

/-- **C81**, binned spread-skill: both curves are multiplied by `a`, the bins hold the same pairs. -/
theorem C81_ss (hs : IsSqrt c.sqrt) (hA : ScaleFree c.argsort) {a : K} (ha : 0 < a) (b : K) (o : Obj (EnsX K)) {n : A}
    (hn : Printable I n) (w : World (PyVal K)) :
    result .ensemble I (ensPrims c emb) mids (.slot (.ss n)) (unsaved (ensUnit (linear a b) (linear a b) o)) w =
      (result .ensemble I (ensPrims c emb) mids (.slot (.ss n)) (unsaved o) w).map (Option.map (scaled a)) := by
  apply result_sim
  obtain ⟨nv, hv⟩ : ∃ nm, slotName I (.variance : Slot A) = .ok nm := fixed_ok I (some "variance".toList)
  obtain ⟨nq, hq⟩ : ∃ nm, slotName I (.sqError : Slot A) = .ok nm := fixed_ok I (some "sq_error".toList)
  obtain ⟨ps, hps⟩ := nameParts_cons (I := I) (k := "nbins".toList) (Model.tooLong_ok hn)
    (show ∃ ps, nameParts I [] = .ok ps from ⟨some [], rfl⟩)
  obtain ⟨nm, hnm⟩ : ∃ nm, slotName I (.ss n) = .ok nm := toName_ok hps (some "ss".toList)
  simp only [metricProg, Slot.probOnly, Bool.false_eq_true, false_and, if_false, slotBody, slotPost, reduceCtorEq,
    varBody]
  refine sim_callName (ψ := scSplit (a * a)) ⟨_, hnm⟩ ⟨_, hnm⟩ ?_ (postBins_sim core_ens hs ha _)
  refine sim_callName (ψ := scNum (a * a)) ⟨_, hv⟩ ⟨_, hv⟩ (sim_ret ?_) fun v => ?_
  · simp only [ensPrims, ensUnit, bind, Except.bind, EnsX.ax]
    cases o.ext.axis with
    | none => rfl
    | some ax =>
      have := ensVariance_aff a b o.ext.f ax
      change ensVariance (inUnit (linear a b) o.ext.f) ax = _ at this
      simp only [this]
      cases ensVariance o.ext.f ax <;> rfl
  · refine sim_callName (ψ := scNum (a * a)) ⟨_, hq⟩ ⟨_, hq⟩
      (det_sim (ensUnit_det a b a b o) _ (sqErrorOf_sc core_ens (ensUnit_det a b a b o))) fun s => sim_ret ?_
    exact ssSplit_sc core_ens hA (mul_pos ha ha) v s n _

/-- **C81**: correlations do not change, even if forecasts and observations go through different linear conversions. -/
theorem C81_corr (hs : IsSqrt c.sqrt) {a a' : K} (ha : 0 < a) (ha' : 0 < a') (b b' : K) (w : World (PyVal K)) :
    (∀ o : Obj (DetX K), result .determ I (detPrims c emb) mids (.slot .corr)
        (unsaved (detUnit (linear a b) (linear a' b') o)) w =
      result .determ I (detPrims c emb) mids (.slot .corr) (unsaved o) w) ∧
    ∀ o : Obj (EnsX K), result .ensemble I (ensPrims c emb) mids (.slot .corr)
        (unsaved (ensUnit (linear a b) (linear a' b') o)) w =
      result .ensemble I (ensPrims c emb) mids (.slot .corr) (unsaved o) w :=
  ⟨fun o => corr_unit core_det hs ha ha' (detUnit_det a b a' b' o) w,
    fun o => corr_unit core_ens hs ha ha' (ensUnit_det a b a' b' o) w⟩

/-! ### concrete cases -/

/-- Every sort that only compares is free of scale, e.g. insertion sort. -/
example : ScaleFree (K := K) fun _ l => (List.range l.length).insertionSort fun i j =>
    leNan (l.getD i none) (l.getD j none) := by
  intro a ha _ l
  have h : ∀ i j, leNan ((l.map (sc a)).getD i none) ((l.map (sc a)).getD j none) ↔
      leNan (l.getD i none) (l.getD j none) := by
    intro i j
    rw [getD_map' (sc a) l i none none rfl, getD_map' (sc a) l j none none rfl]
    cases l.getD i none <;> cases l.getD j none <;> simp [leNan, sc, ha]
  show List.insertionSort _ (List.range (l.map (sc a)).length) = List.insertionSort _ _
  rw [List.length_map]
  have := List.map_insertionSort (r := fun i j => leNan ((l.map (sc a)).getD i none) ((l.map (sc a)).getD j none))
    (s := fun i j => leNan (l.getD i none) (l.getD j none)) id (List.range l.length) fun i _ j _ => h i j
  simpa using this

/-- The square root of the real numbers is one. -/
example : IsSqrt Real.sqrt := ⟨fun x _ => Real.sqrt_nonneg x, fun _ hx => Real.mul_self_sqrt hx⟩

/-- Degrees Celsius to degrees Fahrenheit. -/
example : StrictMono (linear (9 / 5) 32 : ℚ → ℚ) := by
  intro x y h
  unfold linear
  linarith

def fahr : ℚ → ℚ := linear (9 / 5) 32

/-- an ensemble verifier of the example after construction -/
def ensO3 : Obj (EnsX ℚ) :=
  ⟨.none, .none, .none, some true, { ensX3 with axis := some 0, fc := some ⟨[2], [some 1, some 5], rfl⟩ }⟩

/-- The hypotheses of `C81_threshold` hold, the results are the same, and errors are multiplied by 9/5. -/
example : EnsInUnit fahr ensO3 (ensUnit fahr fahr ensO3) ∧
    embRat (178 / 5) = .thr (thrInUnit fahr (.scalar (some 2))) ∧ Printable ratInfo (2 : ℚ) ∧
    numOf (result .ensemble ratInfo (ensPrims cfg0 embRat) noMids (.slot (.brier none (some 2))) (unsaved ensO3) world0) =
      some ([], [some (2 / 9)]) ∧
    numOf (result .ensemble ratInfo (ensPrims cfg0 embRat) noMids (.slot (.brier none (some (178 / 5))))
      (unsaved (ensUnit fahr fahr ensO3)) world0) = some ([], [some (2 / 9)]) ∧
    numOf (result .ensemble ratInfo (ensPrims cfg0 embRat) noMids (.slot .error) (unsaved ensO3) world0) =
      some ([], [some (-3 / 2)]) ∧
    numOf (result .ensemble ratInfo (ensPrims cfg0 embRat) noMids (.slot .error)
      (unsaved (ensUnit fahr fahr ensO3)) world0) = some ([], [some (-27 / 10)]) :=
  ⟨⟨rfl, rfl, rfl, rfl, rfl⟩, by
    simp only [embRat, thrInUnit, fahr, linear, Option.map]
    norm_num, fun h => absurd h (by decide), by decide +kernel, by decide +kernel, by decide +kernel, by decide +kernel⟩

/-- A conversion that is not increasing changes probabilities: with negated data the members at or below the (negated)
threshold are the ones at or above it. -/
example :
    numOf (result .ensemble ratInfo (ensPrims cfg0 embRat) noMids (.slot (.cdf none (some 2))) (unsaved ensO3) world0) =
      some ([2], [some (2 / 3), some 0]) ∧
    numOf (result .ensemble ratInfo (ensPrims cfg0 embRat) noMids (.slot (.cdf none (some (-2))))
      (unsaved (ensUnit (fun x => -x) (fun x => -x) ensO3)) world0) = some ([2], [some (2 / 3), some 1]) :=
  ⟨by decide +kernel, by decide +kernel⟩

end Props
