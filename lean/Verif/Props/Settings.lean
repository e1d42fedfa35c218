import Verif.Spec.Settings
import Verif.Lemmas.ApiCase
import Verif.Lemmas.EndToEnd
import Verif.Props.Saving
import Verif.Model.ApiProb

/-!
# Settings

C82: the last accepted value of a setting is the one in force.
-/

set_option linter.unusedSectionVars false

namespace Props
open Np NDArr Spec Model

variable {X V A : Type} {C : Cls} {I : ArgInfo A} {P : Prims X V A} {mids : FS V → Path → List (FS V)}

theorem lastOr_nil {α : Type} (a : α) : lastOr [] a = a := rfl

theorem lastOr_cons {α : Type} (l : List α) (a b : α) : lastOr (b :: l) a = lastOr l b := by
  unfold lastOr
  cases l with
  | nil => rfl
  | cons c l => simp [List.getLast?_cons]

/-- the verifier `o` has the settings `s`, which were accepted -/
structure Has (P : Prims X V A) (s : Obj X) (x : X) (o : Obj X) : Prop where
  avg : o.avg = asTuple s.avg
  avgOk : s.avg ≠ .other
  boot : o.boot = s.boot
  bootOk : s.boot ≠ .other
  dir : o.dir = s.dir
  scratch : o.scratch = s.scratch
  scratchOk : s.scratch ≠ none
  ext : o.ext = x
  fix : (P.check x).2 = x

theorem validateAxis_ok {a : PyAxis} : (∃ b, validateAxis a = (.ok (), b)) ↔ a ≠ .other := by
  cases a <;> simp [validateAxis]

theorem validateAxis_tuple {a : PyAxis} (h : a ≠ .other) : validateAxis a = (.ok (), asTuple a) := by
  cases a <;> simp_all [validateAxis, asTuple]

theorem asTuple_idem (a : PyAxis) : asTuple (asTuple a) = asTuple a := by cases a <;> rfl

theorem asTuple_ne {a : PyAxis} (h : a ≠ .other) : asTuple a ≠ .other := by cases a <;> simp_all [asTuple]

/-- what an accepted validation says and leaves behind -/
theorem validate_parts {s : Obj X} {w w1 : World V} {o1 : Obj X} (h : validate P mids s w = (.ok (), o1, w1)) :
    s.avg ≠ .other ∧ s.boot ≠ .other ∧ s.scratch ≠ none ∧
      P.check s.ext = (.ok (), o1.ext) ∧ o1 = { s with avg := asTuple s.avg, ext := o1.ext } := by
  unfold validate at h
  by_cases ha : s.avg = .other
  · rw [ha] at h; cases h
  rw [validateAxis_tuple ha] at h
  simp only at h
  cases hb : s.boot with
  | other => rw [hb] at h; cases h
  | _ =>
    rw [hb] at h
    cases hs : s.scratch with
    | none => rw [hs] at h; cases h
    | some b =>
      rw [hs] at h
      simp only at h
      rcases hv : validateSaving mids s.dir b w with ⟨r, w2⟩
      rw [hv] at h
      cases r with
      | error e => cases h
      | ok _ =>
        rcases hc : P.check s.ext with ⟨r, x1⟩
        simp only [hc, Prod.mk.injEq] at h
        obtain ⟨rfl, rfl, rfl⟩ := h
        exact ⟨ha, by simp, by simp, rfl, rfl⟩

theorem validate_has {s : Obj X} {x : X} {w w1 : World V} {o1 : Obj X} (hx : s.ext = x) (hf : (P.check x).2 = x)
    (h : validate P mids s w = (.ok (), o1, w1)) : Has P s x o1 := by
  obtain ⟨ha, hb, hs, hc, ho⟩ := validate_parts h
  have he : o1.ext = x := by rw [hx] at hc; rw [hc] at hf; exact hf
  refine ⟨?_, ha, ?_, hb, ?_, ?_, hs, he, hf⟩ <;> rw [ho]

/-- what one call does to the settings that were given -/
def given (op : Op X A) (s : Obj X) : Obj X :=
  match op with
  | .setAvg a => { s with avg := a }
  | .setBoot b => { s with boot := b }
  | .disableBoot => { s with boot := .none }
  | .enableSaving d sc => { s with dir := d, scratch := sc }
  | .disableSaving => { s with dir := .none }
  | _ => s

theorem step_has {op : Op X A} {s : Obj X} {x : X} {o : Obj X} {w : World V} (h : Has P s x o) (ho : CommonOnly op)
    (hr : IsMetric op ∨ (step C I P mids op o w).1 = .ok none) : Has P (given op s) x (step C I P mids op o w).2.1 := by
  have key : ∀ t : Obj X, t.ext = x → (∀ e o1 w1, validate P mids t w ≠ (.error e, o1, w1)) →
      Has P t x (validate P mids t w).2.1 := by
    intro t ht hne
    rcases hv : validate P mids t w with ⟨r, o1, w1⟩
    cases r with
    | error e => exact absurd hv (hne e o1 w1)
    | ok _ => exact validate_has ht h.fix hv
  have val : ∀ t : Obj X, t.ext = x →
      (match validate P mids t w with
        | (.error e, o1, w1) => ((.error e, o1, w1) : Except Err (Option V) × Obj X × World V)
        | (.ok _, o1, w1) => (.ok none, o1, w1)).1 = .ok none →
      Has P t x (match validate P mids t w with
        | (.error e, o1, w1) => ((.error e, o1, w1) : Except Err (Option V) × Obj X × World V)
        | (.ok _, o1, w1) => (.ok none, o1, w1)).2.1 := by
    intro t ht hok
    rcases hv : validate P mids t w with ⟨r, o1, w1⟩
    rw [hv] at hok
    cases r with
    | error e => cases hok
    | ok _ => exact validate_has ht h.fix hv
  cases op with
  | metric r =>
    simp only [step, given]
    rcases (metricProg C I P o.ext o.avg o.boot r).run o.wd w with ⟨q, w1⟩
    cases q <;> exact h
  | setExt g => exact ho.elim
  | disableBoot => exact ⟨h.avg, h.avgOk, rfl, by simp [given], h.dir, h.scratch, h.scratchOk, h.ext, h.fix⟩
  | disableSaving => exact ⟨h.avg, h.avgOk, h.boot, h.bootOk, rfl, h.scratch, h.scratchOk, h.ext, h.fix⟩
  | setAvg a =>
    have hr := hr.resolve_left (fun h => h)
    have h1 := val { o with avg := a } h.ext hr
    exact ⟨h1.avg, h1.avgOk, h1.boot.trans h.boot, h.bootOk, h1.dir.trans h.dir, h1.scratch.trans h.scratch,
      h.scratchOk, h1.ext, h.fix⟩
  | setBoot b =>
    have hr := hr.resolve_left (fun h => h)
    have h1 := val { o with boot := b } h.ext hr
    exact ⟨by rw [show given (Op.setBoot b) s = { s with boot := b } from rfl, ← asTuple_idem, ← h.avg]; exact h1.avg,
      h.avgOk, h1.boot, h1.bootOk, h1.dir.trans h.dir, h1.scratch.trans h.scratch, h.scratchOk, h1.ext, h.fix⟩
  | enableSaving d sc =>
    have hr := hr.resolve_left (fun h => h)
    have h1 := val { o with dir := d, scratch := sc } h.ext hr
    exact ⟨by
      rw [show given (Op.enableSaving d sc : Op X A) s = { s with dir := d, scratch := sc } from rfl, ← asTuple_idem,
        ← h.avg]
      exact h1.avg, h.avgOk, h1.boot.trans h.boot, h.bootOk, h1.dir, h1.scratch, h1.scratchOk, h1.ext, h.fix⟩

theorem withLast_cons (op : Op X A) (ops : List (Op X A)) (s : Obj X) :
    withLast (op :: ops) s = withLast ops (given op s) := by
  cases op <;>
    simp [withLast, given, avgCalls, bootCalls, dirCalls, scratchCalls, lastOr_cons]

theorem runOps_has {ops : List (Op X A)} {s : Obj X} {x : X} {o : Obj X} {w : World V} (h : Has P s x o)
    (ho : ∀ op ∈ ops, CommonOnly op) (hr : SettersReturn C I P mids ops o w) :
    Has P (withLast ops s) x (runOps C I P mids ops o w).1 := by
  induction ops generalizing s o w with
  | nil => exact h
  | cons op ops ih =>
    rw [withLast_cons]
    have h1 := step_has (C := C) (I := I) (mids := mids) h (ho op (by simp)) hr.1
    have h2 := ih h1 (fun p hp => ho p (by simp [hp])) hr.2
    simp only [runOps]
    rcases hs : step C I P mids op o w with ⟨q, o1, w1⟩
    rw [hs] at h2
    exact h2

/-- the class part of a successful construction -/
theorem construct_parts {oi o : Obj X} {w w' : World V} (h : construct P mids oi w = (.ok o, w')) :
    oi.avg ≠ .other ∧ oi.boot ≠ .other ∧ oi.scratch ≠ none ∧
      o = { oi with avg := asTuple oi.avg, ext := o.ext } ∧
      ∃ x1, P.check oi.ext = (.ok (), x1) ∧ P.init x1 = .ok o.ext := by
  unfold construct at h
  rcases hv : validate P mids oi w with ⟨r, o1, w1⟩
  rw [hv] at h
  cases r with
  | error e => cases h
  | ok _ =>
    obtain ⟨ha, hb, hs, hc, ho⟩ := validate_parts hv
    simp only at h
    cases hi : P.init o1.ext with
    | error e => rw [hi] at h; cases h
    | ok x2 =>
      rw [hi] at h
      simp only [Prod.mk.injEq, Except.ok.injEq] at h
      obtain ⟨rfl, rfl⟩ := h
      exact ⟨ha, hb, hs, by rw [ho], _, hc, hi⟩

theorem construct_has {oi o : Obj X} {w w' : World V} (hS : Settled P oi.ext)
    (h : construct P mids oi w = (.ok o, w')) : Has P oi o.ext o := by
  obtain ⟨ha, hb, hs, ho, x1, h1, h2⟩ := construct_parts h
  refine ⟨?_, ha, ?_, hb, ?_, ?_, hs, rfl, hS x1 o.ext h1 h2⟩ <;> rw [ho]

/-- **C82**: after any calls of metrics and setters (those of the base class, all accepted), every setting has the
value it was last given: by the constructor, or by a setter; `disable_boot` and `disable_saving` reset theirs.  The
data are untouched. -/
theorem C82_last {oi o : Obj X} {w w' : World V} (hS : Settled P oi.ext) (h : construct P mids oi w = (.ok o, w'))
    {ops : List (Op X A)} (ho : ∀ op ∈ ops, CommonOnly op) (hr : SettersReturn C I P mids ops o w') :
    let u := (runOps C I P mids ops o w').1
    u.avg = asTuple (lastOr (avgCalls ops) oi.avg) ∧ u.boot = lastOr (bootCalls ops) oi.boot ∧
      u.dir = lastOr (dirCalls ops) oi.dir ∧ u.scratch = lastOr (scratchCalls ops) oi.scratch ∧ u.ext = o.ext := by
  have h1 := runOps_has (construct_has hS h) ho hr
  exact ⟨h1.avg, h1.boot, h1.dir, h1.scratch, h1.ext⟩

/-- **C82**: the verifier after the history is the verifier that the constructor makes from the last values (here with
saving off, so that the file system plays no part). -/
theorem C82_fresh {oi o : Obj X} {w w' : World V} (hS : Settled P oi.ext) (h : construct P mids oi w = (.ok o, w'))
    {ops : List (Op X A)} (ho : ∀ op ∈ ops, CommonOnly op) (hr : SettersReturn C I P mids ops o w') (w1 : World V) :
    construct P mids (unsaved (withLast ops oi)) w1 = (.ok (unsaved (runOps C I P mids ops o w').1), w1) := by
  have h1 := runOps_has (construct_has hS h) ho hr
  obtain ⟨-, -, -, -, x1, hc, hi⟩ := construct_parts h
  have he : (withLast ops oi).ext = oi.ext := rfl
  generalize (runOps C I P mids ops o w').1 = u at h1
  obtain ⟨ua, ub, ud, us, ux⟩ := u
  obtain ⟨rfl, ha, rfl, hb, rfl, rfl, hs, rfl, -⟩ := h1
  unfold construct validate unsaved
  simp only [validateAxis_tuple ha, he, hc]
  generalize (withLast ops oi).boot = b at hb
  generalize (withLast ops oi).scratch = sc at hs
  cases sc with
  | none => exact absurd rfl hs
  | some sc =>
    cases b with
    | other => exact absurd rfl hb
    | none => simp only [validateSaving, hi]
    | int n => simp only [validateSaving, hi]

/-- **C82**: in particular the order of the setter calls and the values they overwrote do not matter: two histories
with the same last values give verifiers with the same results. -/
theorem C82_order {oi o : Obj X} {w w' : World V} (hS : Settled P oi.ext) (h : construct P mids oi w = (.ok o, w'))
    {ops ops' : List (Op X A)} (ho : ∀ op ∈ ops, CommonOnly op) (ho' : ∀ op ∈ ops', CommonOnly op)
    (hr : SettersReturn C I P mids ops o w') (hr' : SettersReturn C I P mids ops' o w')
    (ha : lastOr (avgCalls ops) oi.avg = lastOr (avgCalls ops') oi.avg)
    (hb : lastOr (bootCalls ops) oi.boot = lastOr (bootCalls ops') oi.boot) (r : Req A) (w1 : World V) :
    result C I P mids r (unsaved (runOps C I P mids ops o w').1) w1 =
      result C I P mids r (unsaved (runOps C I P mids ops' o w').1) w1 := by
  obtain ⟨a1, b1, -, -, x1⟩ := C82_last hS h ho hr
  obtain ⟨a2, b2, -, -, x2⟩ := C82_last hS h ho' hr'
  rw [result_eq, result_eq, a1, b1, x1, a2, b2, x2, ha, hb]

/-- **C82**: after `disable_boot` nothing is bootstrapped, whatever was set before. -/
theorem C82_no_boot {oi o : Obj X} {w w' : World V} (hS : Settled P oi.ext) (h : construct P mids oi w = (.ok o, w'))
    {ops ops' : List (Op X A)} (ho : ∀ op ∈ ops ++ .disableBoot :: ops', CommonOnly op)
    (hr : SettersReturn C I P mids (ops ++ .disableBoot :: ops') o w') (hb : bootCalls ops' = []) :
    (runOps C I P mids (ops ++ .disableBoot :: ops') o w').1.boot = .none := by
  rw [(C82_last hS h ho hr).2.1]
  have : bootCalls (ops ++ .disableBoot :: ops') = bootCalls ops ++ [.none] := by
    simp only [bootCalls, List.filterMap_append, List.filterMap_cons] at hb ⊢
    rw [hb]
  rw [this]
  simp [lastOr]

/-- **C82** with saving: if every directory is started from scratch, a metric after the history also returns what a new
verifier with the last settings returns (for metrics without random numbers). -/
theorem C82_saved (hI : TextOK I) (hm : Deletion mids) {oi o : Obj X} {w w' : World V} (hw : WellFormed w.fs)
    (hs : oi.scratch = some true) (hd : DirOk oi.dir) (hS : Settled P oi.ext) (h : construct P mids oi w = (.ok o, w'))
    {ops : List (Op X A)} (ho : ∀ op ∈ ops, CommonOnly op) (hf : ∀ op ∈ ops, FromScratch op)
    (hr : SettersReturn C I P mids ops o w') (r : Req A)
    (hdet : ∀ w1 w2, result C I P mids r (unsaved (runOps C I P mids ops o w').1) w1 =
      result C I P mids r (unsaved (runOps C I P mids ops o w').1) w2) (w1 : World V) :
    ∃ u, construct P mids (unsaved (withLast ops oi)) w1 = (.ok u, w1) ∧
      result C I P mids r (runOps C I P mids ops o w').1 (runOps C I P mids ops o w').2 = result C I P mids r u w1 :=
  ⟨_, C82_fresh hS h ho hr w1, C43_deterministic C hI P hm hw hs hd h ops hf hr r hdet w1⟩

/-- `Settled` holds of every class. -/
theorem C82_settled {K B : Type} [Field K] [LinearOrder K] [FloorSemiring K] (c : Cfg K) (F : ProbFns K) (emb : B → Arg K)
    (ofNum : K → B) :
    (∀ x, Settled (detPrims c emb) x) ∧ (∀ x, Settled (ensPrims c emb) x) ∧ (∀ x, Settled (gaussPrims c F emb) x) ∧
      (∀ x, Settled (gammaPrims c F emb) x) ∧ ∀ x, Settled (hurdlePrims c F emb ofNum) x :=
  ⟨settled_det c emb, settled_ens c emb, fun _ _ _ _ _ => rfl, fun _ _ _ _ _ => rfl, fun _ _ _ _ _ => rfl⟩

/-- The hypotheses can be met: a history that sets everything twice. -/
example : ∃ o w, construct detP noMids (detO true) world0 = (.ok o, w) ∧ Settled detP (detO true).ext ∧
    let ops : List (Op (DetX ℚ) Int) := [.setAvg (.int 1), .setBoot (.int 5), .setAvg (.list [0]),
      .disableBoot, .disableSaving, .metric .rmse]
    SettersReturn .determ intInfo detP noMids ops o w ∧
    (runOps .determ intInfo detP noMids ops o w).1.avg = .tuple [0] ∧
    (runOps .determ intInfo detP noMids ops o w).1.boot = .none := by
  refine ⟨_, _, rfl, settled_det _ _ _, ?_, by decide +kernel, by decide +kernel⟩
  exact ⟨.inr rfl, .inr rfl, .inr rfl, .inr rfl, .inr rfl, .inl trivial, trivial⟩

end Props
