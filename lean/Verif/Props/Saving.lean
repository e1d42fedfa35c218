import Verif.Lemmas.ApiCase

/-!
# Saving intermediate results: C43, C44, C45, C50, C51
-/

set_option linter.unusedSectionVars false

namespace Props
open Np Model Spec

variable {X V A : Type}

/-! ### C43 -/

/-- With `start_from_scratch=True`, whatever was in the file system before, after any history of metric calls and
setters (in which the setters return) a metric call gives a result which the same call gives on the same verifier with
saving disabled. -/
theorem C43_transparent (C : Cls) {I : ArgInfo A} (hI : TextOK I) (P : Prims X V A)
    {mids : FS V → Path → List (FS V)} (hm : Deletion mids) {oi o : Obj X} {w0 w : World V}
    (hw : WellFormed w0.fs) (hs : oi.scratch = some true) (hd : DirOk oi.dir)
    (hc : construct P mids oi w0 = (.ok o, w)) (ops : List (Op X A)) (hops : ∀ op ∈ ops, FromScratch op)
    (hr : SettersReturn C I P mids ops o w) (r : Req A) :
    Correct C I P mids r (runOps C I P mids ops o w).1
      (result C I P mids r (runOps C I P mids ops o w).1 (runOps C I P mids ops o w).2) := by
  have hf := fresh_runOps C P hI hm ops (fresh_construct C I P hm hs hd hw hc) hops hr
  apply correct_of_poss
  exact (run_clean _ (agree_all hI C P _ _ _ r) _ hf.good).1 (allIn_true _)

/-- If the request is deterministic, i.e. without saving its result does not depend on the random generator, then
the result with saving is that result. -/
theorem C43_deterministic (C : Cls) {I : ArgInfo A} (hI : TextOK I) (P : Prims X V A)
    {mids : FS V → Path → List (FS V)} (hm : Deletion mids) {oi o : Obj X} {w0 w : World V}
    (hw : WellFormed w0.fs) (hs : oi.scratch = some true) (hd : DirOk oi.dir)
    (hc : construct P mids oi w0 = (.ok o, w)) (ops : List (Op X A)) (hops : ∀ op ∈ ops, FromScratch op)
    (hr : SettersReturn C I P mids ops o w) (r : Req A)
    (hdet : ∀ w1 w2, result C I P mids r (unsaved (runOps C I P mids ops o w).1) w1 =
      result C I P mids r (unsaved (runOps C I P mids ops o w).1) w2) (w' : World V) :
    result C I P mids r (runOps C I P mids ops o w).1 (runOps C I P mids ops o w).2 =
      result C I P mids r (unsaved (runOps C I P mids ops o w).1) w' := by
  obtain ⟨w1, h1⟩ := C43_transparent C hI P hm hw hs hd hc ops hops hr r
  rw [← h1]
  exact hdet _ _

/-- Requests that are deterministic: without bootstrapping all except sampled ensembles, their spread and ranks, and
randomised ranks. -/
theorem C43_which (C : Cls) (I : ArgInfo A) (P : Prims X V A) (mids : FS V → Path → List (FS V)) (o : Obj X)
    (r : Req A) (hb : o.boot = .none)
    (h : match r with
      | .slot .probToEns => False
      | .slot .spread => C = .determ ∨ C = .ensemble
      | .slot .rankHist => C = .determ ∨ (C ≠ .ensemble ∧ P.members o.ext = false ∧ P.pitRandom o.ext = false)
      | .slot .pit => P.pitRandom o.ext = false
      | _ => True) (w1 w2 : World V) :
    result C I P mids r (unsaved o) w1 = result C I P mids r (unsaved o) w2 := by
  have hdet : detReq C P o.ext o.boot r := by
    cases r with
    | rmse => exact hb
    | slot s => cases s <;> first | exact h | exact hb | exact ⟨h, hb⟩
  have hD := det_metricProg C I P o.ext o.avg o.boot r hdet
  have key := poss_det hD (poss_run_none _ w1) (poss_run_none _ w2)
  simp only [result, step, unsaved, Obj.wd]
  rcases hr1 : (metricProg C I P o.ext o.avg o.boot r).run none w1 with ⟨q1, u1⟩
  rcases hr2 : (metricProg C I P o.ext o.avg o.boot r).run none w2 with ⟨q2, u2⟩
  rw [hr1, hr2] at key
  simp only at key
  subst key
  cases q1 <;> rfl

/-- forecasts and observations for the examples -/
def detX : DetX ℚ := ⟨⟨[2, 2], [some 1, some 0, some 1, some 1], rfl⟩, ⟨[2, 2], [some 1, some 1, some 0, some 1], rfl⟩⟩

/-- a verifier that saves -/
def detO (scratch : Bool) : Obj (DetX ℚ) := ⟨.none, .none, .path dirW, some scratch, detX⟩

/-- The hypotheses can be met: a verifier with saving, a history with a changed axis, and a result. -/
example : ∃ o w, construct detP noMids (detO true) world0 = (.ok o, w) ∧
    SettersReturn .determ intInfo detP noMids
      [.metric (.slot (.iouDeterm (some 0) none)), .setAvg (.int 0), .metric (.slot .error)] o w := by
  refine ⟨_, _, rfl, Or.inl trivial, Or.inr rfl, Or.inl trivial, trivial⟩

example : numOf (result .determ intInfo detP noMids (.slot (.iouDeterm (some 0) none)) (detO true) world0) = none ∧
    numOf (result .determ intInfo detP noMids (.slot (.iouDeterm (some 0) none)) (detO false)
      (construct detP noMids (detO true) world0).2) = some ([], [some (1 / 2)]) := by decide +kernel

/-! ### C45 -/

/-- After a successful `set_avg_axis` the next call uses the new axis (with `start_from_scratch=True`, or without
saving): its result is one that a verifier with the new axis and without saving gives. -/
theorem C45_set_avg_partial (C : Cls) {I : ArgInfo A} (hI : TextOK I) (P : Prims X V A)
    {mids : FS V → Path → List (FS V)} (hm : Deletion mids) (o : Obj X) (w : World V)
    (hw : WellFormed w.fs) (hd : DirOk o.dir) (hs : o.scratch = some true ∨ o.dir = .none) (a : PyAxis) (r : Req A)
    (hok : (step C I P mids (.setAvg a) o w).1 = .ok none) :
    Correct C I P mids r { o with avg := (validateAxis a).2, ext := (P.check o.ext).2 }
      (result C I P mids r (step C I P mids (.setAvg a) o w).2.1 (step C I P mids (.setAvg a) o w).2.2) := by
  simp only [step] at hok ⊢
  rcases hv : validate P mids { o with avg := a } w with ⟨q, o1, w1⟩
  rw [hv] at hok
  cases q with
  | error e => cases hok
  | ok u =>
    obtain ⟨-, v2, v3, v4, v5, v6, -⟩ := validate_ok hv
    simp only
    have ho : o1 = { o with avg := (validateAxis a).2, ext := (P.check o.ext).2 } := by
      obtain ⟨oa, ob, od, os, oe⟩ := o1
      simp only at v2 v3 v4 v5 v6
      simp [v2, v3, v4, v5, v6]
    rw [← ho]
    apply correct_of_poss
    refine (run_clean _ (agree_all hI C P _ _ _ r) w1 ?_).1 (allIn_true _)
    rcases hs with hs | hs
    · exact (fresh_of_validate C I P hm (o := { o with avg := a }) hs hd hw hv o1.ext).good
    · intro d hwd
      have := wd_eq hwd
      rw [v4] at this
      simp only at this
      rw [hs] at this
      cases this

example : numOf (result .determ intInfo detP noMids (.slot (.iouDeterm (some 0) none))
    { detO true with avg := .tuple [0] } (construct detP noMids (detO true) world0).2) =
    some ([2], [some (1 / 2), some (1 / 2)]) := by decide +kernel

/-- The claim is false with `start_from_scratch=False`: `iou_determ`, then `set_avg_axis(0)`, then `iou_determ` again
gives the old number (shape `[]`), while a verifier with the new axis gives an array of shape `[2]`. -/
theorem C45_false : ∃ (o : Obj (DetX ℚ)) (w : World (PyVal ℚ)),
    construct detP noMids (detO false) world0 = (.ok o, w) ∧
    SettersReturn .determ intInfo detP noMids [.metric (.slot (.iouDeterm (some 0) none)), .setAvg (.int 0)] o w ∧
    let s := runOps .determ intInfo detP noMids [.metric (.slot (.iouDeterm (some 0) none)), .setAvg (.int 0)] o w
    s.1.avg = .tuple [0] ∧
    numOf (result .determ intInfo detP noMids (.slot (.iouDeterm (some 0) none)) s.1 s.2) = some ([], [some (1 / 2)]) ∧
    ∀ w', numOf (result .determ intInfo detP noMids (.slot (.iouDeterm (some 0) none)) (unsaved s.1) w') =
      some ([2], [some (1 / 2), some (1 / 2)]) := by
  refine ⟨_, _, rfl, ⟨Or.inl trivial, Or.inr rfl, trivial⟩, rfl, by decide +kernel, ?_⟩
  intro w'
  rw [C43_which .determ intInfo detP noMids _ (.slot (.iouDeterm (some 0) none)) rfl trivial w' world0]
  decide +kernel

/-! ### C44 -/

/-- everything except `iou_determ`, `iou_prob`, `reliability` and `binned_spread_skill` -/
def Reaggregates : Req A → Prop
  | .slot (.iouDeterm _ _) | .slot (.iouProb _ _) | .slot (.reliability _ _ _) | .slot (.ss _) => False
  | _ => True

theorem allIn_reaggregates (C : Cls) (I : ArgInfo A) (P : Prims X V A) {r : Req A} (h : Reaggregates r) (y : X)
    (avg : PyAxis) (boot : PyBoot) : AllIn (stableName I) (metricProg C I P y avg boot r) := by
  cases r with
  | rmse => exact allIn_metricProg C I P (fun s h n hn => ⟨s, h, hn⟩) y avg boot _ rfl
  | slot s =>
    by_cases hst : s.stable = true
    · exact allIn_metricProg C I P (fun s h n hn => ⟨s, h, hn⟩) y avg boot _ hst
    · have hbody := allIn_slotBody C I P (S := stableName I) (fun s h n hn => ⟨s, Slot.inner_stable h, hn⟩) y avg boot s
      simp only [metricProg]
      split
      · trivial
      · refine allIn_callName ?_ hbody fun v => allIn_slotPost P avg boot s v
        intro n hn
        exfalso
        have := named_ne hn
        cases s <;> first | exact h | exact this.1 rfl | exact this.2 _ _ rfl | exact hst rfl

/-- Several processes one after the other work on the same data, with any values of `avg_axis`, `boot_samples`,
`start_from_scratch` and any working directories, changing them as they like; each may be killed at any moment.  If
then a process gets a value from a request (that aggregates after loading), it is one the request gives without saving,
under the settings at that moment. -/
theorem C44_values (C : Cls) {I : ArgInfo A} (hI : TextOK I) (P : Prims X V A)
    {mids : FS V → Path → List (FS V)} (hm : Deletion mids) {x : X} (hx : Settled P x) {fs0 fs : FS V}
    (h0 : NoPickles fs0)
    (h : Reach C I P mids x (fun _ => True) (KeepsData fun _ => True) fs0 fs) {oi o : Obj X} {seed : Nat → Nat}
    {w : World V} (hxi : oi.ext = x) (hc : construct P mids oi (startWorld fs seed) = (.ok o, w))
    (ops : List (Op X A)) (hops : ∀ op ∈ ops, KeepsData (fun _ => True) op) (r : Req A) (hr : Reaggregates r)
    (v : Option V)
    (hv : result C I P mids r (runOps C I P mids ops o w).1 (runOps C I P mids ops o w).2 = .ok v) :
    Correct C I P mids r (runOps C I P mids ops o w).1 (.ok v) :=
  session_sound C I P (A1 := fun _ => True) (S := stableName I) hm.only hx (avg := .none) (fun _ _ => trivial)
    (fun _ _ => trivial) (fun y avg' boot r _ => agree_stable hI C P y .none avg' boot r) h0 h hxi trivial hc ops hops r
    (allIn_reaggregates C I P hr) v hv

/-- If no process is killed and all setters return, the request neither raises where it would not without saving, nor
returns where it would raise. -/
theorem C44_completed (C : Cls) {I : ArgInfo A} (hI : TextOK I) (P : Prims X V A)
    {mids : FS V → Path → List (FS V)} (hm : Deletion mids) {x : X} (hx : Settled P x) {D : Path → Prop}
    (hD : ∀ d, D d → PlainDir d) {fs0 fs : FS V} (hw : WellFormed fs0) (h0 : NoPickles fs0)
    (hfile : ∀ d, D d → ∀ c, fs0 d ≠ some (.file c))
    (h : Completed C I P mids x (fun _ => True) D fs0 fs) {oi o : Obj X} {seed : Nat → Nat}
    {w : World V} (hxi : oi.ext = x) (hu : UsesDir D oi.dir)
    (hc : construct P mids oi (startWorld fs seed) = (.ok o, w))
    (ops : List (Op X A)) (hops : ∀ op ∈ ops, KeepsData (fun _ => True) op ∧ OpUsesDir D op)
    (hs : SettersReturn C I P mids ops o w) (r : Req A) (hr : Reaggregates r) :
    Correct C I P mids r (runOps C I P mids ops o w).1
      (result C I P mids r (runOps C I P mids ops o w).1 (runOps C I P mids ops o w).2) :=
  completed_correct C I P (A1 := fun _ => True) (S := stableName I) hm hD hx (avg := .none) (fun _ _ => trivial)
    (fun _ _ => trivial) (fun y avg' boot r _ => agree_stable hI C P y .none avg' boot r)
    ⟨hw, fun d n => Or.inl (h0 d n), hfile⟩ h hxi trivial hu hc ops hops hs r (allIn_reaggregates C I P hr)

/-- The hypotheses can be met: a first session saves the squared errors, a second one opens the directory and averages
them over the other axis. -/
example : ∃ fs o w, Completed .determ intInfo detP noMids detX (fun _ => True) (· = dirW) emptyFS fs ∧
    construct detP noMids { detO false with avg := .int 1 } (startWorld fs fun _ => 0) = (.ok o, w) ∧
    (fs (filePath dirW "sq_error".toList)).isSome ∧
    numOf (result .determ intInfo detP noMids (.slot .sqError) o w) = some ([2], [some (1 / 2), some (1 / 2)]) := by
  refine ⟨_, _, _, .session .start (detO false) _ _ [.metric (.slot .sqError)] (fun _ => 0) rfl trivial rfl ?_ rfl
    ⟨Or.inl trivial, trivial⟩, rfl, by decide +kernel, by decide +kernel⟩
  intro op hop
  simp only [List.mem_singleton] at hop
  subst hop
  exact ⟨trivial, trivial⟩

/-! ### C50 -/

/-- Processes with the same data and the same averaging axes `a0` (any number of bootstrap samples, directories and
values of `start_from_scratch`), each killed at any moment: a value that a later one gets from any request is correct.
It may raise. -/
theorem C50_crash_no_wrong_value (C : Cls) {I : ArgInfo A} (hI : TextOK I) (P : Prims X V A)
    {mids : FS V → Path → List (FS V)} (hm : Deletion mids) {x : X} (hx : Settled P x) (a0 : PyAxis) {fs0 fs : FS V}
    (h0 : NoPickles fs0)
    (h : Reach C I P mids x (fun o => (validateAxis o.avg).2 = a0) (KeepsData fun a => (validateAxis a).2 = a0) fs0 fs)
    {oi o : Obj X} {seed : Nat → Nat}
    {w : World V} (hxi : oi.ext = x) (ha : (validateAxis oi.avg).2 = a0)
    (hc : construct P mids oi (startWorld fs seed) = (.ok o, w)) (ops : List (Op X A))
    (hops : ∀ op ∈ ops, KeepsData (fun a => (validateAxis a).2 = a0) op) (r : Req A) (v : Option V)
    (hv : result C I P mids r (runOps C I P mids ops o w).1 (runOps C I P mids ops o w).2 = .ok v) :
    Correct C I P mids r (runOps C I P mids ops o w).1 (.ok v) := by
  have idem : ∀ a, (validateAxis (validateAxis a).2).2 = (validateAxis a).2 := by intro a; cases a <;> rfl
  refine session_sound C I P (A1 := fun a => a = a0) (S := fun _ => True) hm.only hx (avg := a0) (fun a h => h)
    (fun a h => ?_) (fun y avg' boot r h => ?_) h0 h hxi ha hc ops hops r (fun _ _ _ => allIn_true _) v hv
  · subst h; rw [← ha]; exact idem _
  · subst h; exact agree_all hI C P y _ boot r

/-- After any number of processes with any settings, each killed at any moment, a later process with `start_from_scratch=True` gets correct results
from every request, in any history. -/
theorem C50_scratch_after_crash (C : Cls) {I : ArgInfo A} (hI : TextOK I) (P : Prims X V A)
    {mids : FS V → Path → List (FS V)} (hm : Deletion mids) {x : X} {fs0 fs : FS V} (hw : WellFormed fs0)
    (h : Reach C I P mids x (fun o => DirOk o.dir) OpDirOk fs0 fs) {seed : Nat → Nat}
    {oi o : Obj X} {w : World V} (hs : oi.scratch = some true) (hd : DirOk oi.dir)
    (hc : construct P mids oi (startWorld fs seed) = (.ok o, w)) (ops : List (Op X A))
    (hops : ∀ op ∈ ops, FromScratch op) (hr : SettersReturn C I P mids ops o w) (r : Req A) :
    Correct C I P mids r (runOps C I P mids ops o w).1
      (result C I P mids r (runOps C I P mids ops o w).1 (runOps C I P mids ops o w).2) :=
  C43_transparent C hI P hm (w0 := startWorld fs seed)
    (reach_wf C I P hm (fun _ h => h) (fun _ h => h) hw h) hs hd hc ops hops hr r

/-! ### C51 -/

/-- the file system when the process is killed between opening `error.pkl` and writing it -/
def crashFS : FS (PyVal ℚ) :=
  ((sessionStates .determ intInfo detP noMids (detO false) [.metric (.slot .error)] emptyFS fun _ => 0)[2]?).getD emptyFS

/-- It is one of the states of the session, and the file is damaged. -/
theorem crashFS_reach : Reach .determ intInfo detP noMids detX (fun o => o.avg = .none) (KeepsData fun a => a = .none)
    emptyFS crashFS := by
  refine .session .start (detO false) [.metric (.slot .error)] (fun _ => 0) rfl rfl ?_ ?_
  · intro op hop
    simp only [List.mem_singleton] at hop
    subst hop
    trivial
  · exact List.mem_of_getElem? (i := 2) rfl

/-- The claim is false: after a crash during a save, a later run with `start_from_scratch=False` raises `EOFError`
where it would return without saving. -/
theorem C51_false : ∃ fs o w,
    Reach .determ intInfo detP noMids detX (fun o => o.avg = .none) (KeepsData fun a => a = .none) emptyFS fs ∧
    construct detP noMids (detO false) (startWorld fs fun _ => 0) = (.ok o, w) ∧
    errOf (result .determ intInfo detP noMids (.slot .error) o w) = some .eof ∧
    ∀ w', numOf (result .determ intInfo detP noMids (.slot .error) (unsaved o) w') = some ([], [some 0]) := by
  refine ⟨crashFS, _, _, crashFS_reach, rfl, by decide +kernel, fun w' => ?_⟩
  rw [C43_which .determ intInfo detP noMids _ (.slot .error) rfl trivial w' world0]
  decide +kernel

/-- In general a request whose file is damaged raises `EOFError`, whatever else holds. -/
theorem C51_damaged (C : Cls) (I : ArgInfo A) (P : Prims X V A) (mids : FS V → Path → List (FS V)) (o : Obj X)
    (w : World V) (s : Slot A) (d : Path) (n : Name) (hd : o.wd = some d)
    (hp : s.probOnly = true → C ≠ .determ ∧ C ≠ .ensemble)
    (hn : slotName I s = .ok (some n)) (ht : w.fs (filePath d n) = some (.file .torn)) :
    result C I P mids (.slot s) o w = .error .eof := by
  simp only [result, step, metricProg]
  rw [if_neg (by rintro ⟨h1, h2 | h2⟩; exacts [(hp h1).1 h2, (hp h1).2 h2]), hn]
  simp only [Prog.callName, Prog.run, hd, load, ht]

/-- What does hold: after a crash that is not in the middle of a save (no saved file is damaged), a later run in a
directory that exists recomputes what is missing and gives correct results, for all requests. -/
theorem C51_recovers_partial (C : Cls) {I : ArgInfo A} (hI : TextOK I) (P : Prims X V A)
    {mids : FS V → Path → List (FS V)} (hm : Deletion mids) {x : X} (hx : Settled P x) (a0 : PyAxis) {fs0 fs : FS V}
    (h0 : NoPickles fs0)
    (h : Reach C I P mids x (fun o => (validateAxis o.avg).2 = a0) (KeepsData fun a => (validateAxis a).2 = a0) fs0 fs)
    (d : Path) (hdir : fs d = some .dir)
    (hfile : ∀ n, fs (filePath d n) = none ∨ ∃ v, fs (filePath d n) = some (.file (.full v)))
    {oi o : Obj X} {seed : Nat → Nat}
    {w : World V} (hxi : oi.ext = x) (ha : (validateAxis oi.avg).2 = a0) (hd : oi.dir = .path d)
    (hs : oi.scratch = some false)
    (hc : construct P mids oi (startWorld fs seed) = (.ok o, w)) (r : Req A) :
    Correct C I P mids r o (result C I P mids r o w) := by
  have idem : ∀ a, (validateAxis (validateAxis a).2).2 = (validateAxis a).2 := by intro a; cases a <;> rfl
  have hg := reach_good C I P (A0 := fun a => (validateAxis a).2 = a0) (A1 := fun a => a = a0) (S := fun _ => True)
    hm.only hx (avg := a0) (fun a h => h) (fun a h => by subst h; rw [← ha]; exact idem _)
    (fun y avg' boot r h => by subst h; exact agree_all hI C P y _ boot r) h0 h
  subst hxi
  rcases construct_cases P (mids := mids) (oi := oi) (w := startWorld fs seed) with
    ⟨e, w1, he, hw⟩ | ⟨o', ho, h1, -, h3, -, x1, hx1, hx2⟩
  · rw [he] at hc; cases hc
  · rw [ho] at hc
    simp only [Prod.mk.injEq, Except.ok.injEq] at hc
    obtain ⟨rfl, rfl⟩ := hc
    have hworld : (validate P mids oi (startWorld fs seed)).2.2.fs = fs := by
      obtain ⟨-, -, -, -, -, hw⟩ := validate_any P mids oi (startWorld fs seed)
      unfold construct at ho
      split at ho
      · cases ho
      · rename_i u o1 w1 hv
        obtain ⟨-, -, -, -, -, -, -, -, s, hs', hvs⟩ := validate_ok hv
        rw [hs] at hs'
        cases hs'
        rw [hd] at hvs
        simp only [validateSaving, prepareDir, startWorld, hdir, Option.isSome_some, if_true, Bool.false_eq_true,
          if_false, Prod.mk.injEq, true_and] at hvs
        rw [hv, ← hvs]
    apply correct_of_poss
    have hA' : Agree (fun _ => True) (DVal C I P oi.ext a0) (metricProg C I P o'.ext o'.avg o'.boot r) := by
      refine agree_congr (fun n v => (dval_iff C I P hx1 hx2 a0 n v).symm) _ ?_
      rw [h1, ha]
      exact agree_all hI C P _ _ _ r
    refine (run_clean _ hA' _ ?_).1 (allIn_true _)
    intro d' hd'
    have := wd_eq hd'
    rw [h3, hd] at this
    cases this
    rw [hworld]
    refine ⟨hdir, fun n => ?_⟩
    rcases hfile n with hn | ⟨v, hv⟩
    · exact Or.inl hn
    · exact Or.inr ⟨v, hv, fun _ => hg d trivial n v trivial hv⟩

/-- Its hypotheses can be met: the first save of the session above is complete. -/
example : ∃ fs, Reach .determ intInfo detP noMids detX (fun o => (validateAxis o.avg).2 = .none)
      (KeepsData fun a => (validateAxis a).2 = .none) emptyFS fs ∧
    fs dirW = some .dir ∧ (fs (filePath dirW "error".toList)).isSome := by
  refine ⟨((sessionStates .determ intInfo detP noMids (detO false) [.metric (.slot .error)] emptyFS fun _ => 0)[3]?).getD
    emptyFS, .session .start (detO false) [.metric (.slot .error)] (fun _ => 0) rfl rfl ?_ ?_, rfl, rfl⟩
  · intro op hop
    simp only [List.mem_singleton] at hop
    subst hop
    trivial
  · exact List.mem_of_getElem? (i := 3) rfl

end Props
