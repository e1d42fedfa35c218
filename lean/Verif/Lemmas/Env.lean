import Verif.Spec.Env
import Verif.Lemmas.History
import Verif.Model.ApiProb

/-! Helper lemmas about changes of the environment. -/

set_option linter.unusedSectionVars false

namespace Model
open Np Spec

variable {X V A E : Type}

/-! ### what is stored -/

/-- `P` with the parts of `Q` that are used after results have been stored, or without storing them -/
def Prims.late (P Q : Prims X V A) : Prims X V A :=
  { P with
    avg := Q.avg, bootArr := Q.bootArr, relAgg := Q.relAgg, relBoot := Q.relBoot, ssAgg := Q.ssAgg, ssBoot := Q.ssBoot
    corr := Q.corr, corrBoot := Q.corrBoot, brierDecomp := Q.brierDecomp, brierDecompBoot := Q.brierDecompBoot }

/-- also `rank_hist`, `spread` and `roc` -/
def Prims.lateNaN (P Q : Prims X V A) : Prims X V A :=
  { P.late Q with rankOf := Q.rankOf, spreadOf := Q.spreadOf, rocOf := Q.rocOf }

def Slot.nansLast : Slot A → Bool
  | .spread | .rankHist | .roc _ _ => false
  | _ => true

theorem Slot.inner_nansLast {s : Slot A} (h : s.inner = true) : s.nansLast = true := by
  cases s <;> first | rfl | cases h

theorem slotBody_late (C : Cls) (I : ArgInfo A) (P Q : Prims X V A) (x : X) (avg : PyAxis) (boot : PyBoot) {s : Slot A}
    {n : Name} (h : slotName I s = .ok (some n)) :
    slotBody C I (P.late Q) x avg boot s = slotBody C I P x avg boot s := by
  obtain ⟨h1, h2⟩ := named_ne h
  cases s with
  | corr => exact absurd rfl h1
  | brierDecomp o b => exact absurd rfl (h2 o b)
  | _ => rfl

theorem slotBody_lateNaN (C : Cls) (I : ArgInfo A) (P Q : Prims X V A) (x : X) (avg : PyAxis) (boot : PyBoot)
    {s : Slot A} {n : Name} (h : slotName I s = .ok (some n)) (hs : s.nansLast = true ∨ C = .determ) :
    slotBody C I (P.lateNaN Q) x avg boot s = slotBody C I P x avg boot s := by
  obtain ⟨h1, h2⟩ := named_ne h
  rcases hs with hs | rfl
  · cases s with
    | corr => exact absurd rfl h1
    | brierDecomp o b => exact absurd rfl (h2 o b)
    | spread => cases hs
    | rankHist => cases hs
    | roc _ _ => cases hs
    | _ => rfl
  · cases s with
    | corr => exact absurd rfl h1
    | brierDecomp o b => exact absurd rfl (h2 o b)
    | _ => rfl

/-! ### histories -/

section run
variable (C : Cls) (I : ArgInfo A) (P : E → Prims X V A) {mids : FS V → Path → List (FS V)} (S : Name → Prop)
  (Val : X → PyAxis → Name → V → Prop)

/-- what holds between calls -/
structure EnvFresh (o : Obj X) (w : World V) : Prop where
  scratch : o.scratch = some true
  dir : DirOk o.dir
  wf : WellFormed w.fs
  good : ∀ d, o.wd = some d → CleanGood S (Val o.ext o.avg) d w.fs

theorem envFresh_validate (e : E) (hm : Deletion mids) {o o' : Obj X} {w w' : World V} (hs : o.scratch = some true)
    (hd : DirOk o.dir) (hw : WellFormed w.fs) (h : validate (P e) mids o w = (.ok (), o', w')) (x : X) :
    EnvFresh S Val { o' with ext := x } w' := by
  obtain ⟨-, h2, h3, h4, h5, -, -, -, s, hs', hv⟩ := validate_ok h
  rw [hs] at hs'
  cases hs'
  have hd' : DirOk o'.dir := by rw [h4]; exact hd
  refine ⟨by rw [← hs, ← h5], hd', ?_, ?_⟩
  · have := (wf_validateSaving hm hd true w hw).1
    rw [hv] at this
    exact this
  · intro d hwd
    have hdir : o.dir = .path d := by
      rw [← h4]; exact wd_eq hwd
    rw [hdir] at hv hd
    obtain ⟨e1, e2⟩ := prepareDir_empty hd hw hv (Or.inl rfl)
    exact cleanGood_empty e1 e2

theorem envFresh_construct (e : E) (hm : Deletion mids) {oi o : Obj X} {w w' : World V} (hs : oi.scratch = some true)
    (hd : DirOk oi.dir) (hw : WellFormed w.fs) (h : construct (P e) mids oi w = (.ok o, w')) : EnvFresh S Val o w' := by
  unfold construct at h
  split at h
  · cases h
  · rename_i u o1 w1 hv
    split at h
    · cases h
    · rename_i x hx
      simp only [Prod.mk.injEq, Except.ok.injEq] at h
      obtain ⟨rfl, rfl⟩ := h
      exact envFresh_validate P S Val e hm hs hd hw hv x

theorem envFresh_step (e : E) (hm : Deletion mids)
    (hA : ∀ x avg boot r, Agree S (Val x avg) (metricProg C I (P e) x avg boot r))
    (op : Op X A) {o : Obj X} {w : World V} (h : EnvFresh S Val o w)
    (hop : FromScratch op) (hr : IsMetric op ∨ (step C I (P e) mids op o w).1 = .ok none) :
    EnvFresh S Val (step C I (P e) mids op o w).2.1 (step C I (P e) mids op o w).2.2 := by
  have aux2 : ∀ o2 : Obj X, o2.scratch = some true → DirOk o2.dir →
      ((match validate (P e) mids o2 w with
        | (.error e, o1, w1) => ((.error e : Except Err (Option V)), o1, w1)
        | (.ok _, o1, w1) => (.ok none, o1, w1)).1 = .ok none) →
      EnvFresh S Val (match validate (P e) mids o2 w with
        | (.error e, o1, w1) => ((.error e : Except Err (Option V)), o1, w1)
        | (.ok _, o1, w1) => (.ok none, o1, w1)).2.1 (match validate (P e) mids o2 w with
        | (.error e, o1, w1) => ((.error e : Except Err (Option V)), o1, w1)
        | (.ok _, o1, w1) => (.ok none, o1, w1)).2.2 := by
    intro o2 h1 h2 h3
    rcases hv : validate (P e) mids o2 w with ⟨r, o1, w1⟩
    rw [hv] at h3
    cases r with
    | error e => cases h3
    | ok u => exact envFresh_validate P S Val e hm h1 h2 h.wf hv o1.ext
  cases op with
  | metric r =>
    have hrun := run_clean (metricProg C I (P e) o.ext o.avg o.boot r) (hA o.ext o.avg o.boot r) w (wd := o.wd) h.good
    have hwf' := (wf_run o.wd (metricProg C I (P e) o.ext o.avg o.boot r) w h.wf).1
    simp only [step]
    split
    · rename_i e w1 hrun'
      rw [hrun'] at hrun hwf'
      exact ⟨h.scratch, h.dir, hwf', hrun.2⟩
    · rename_i v w1 hrun'
      rw [hrun'] at hrun hwf'
      exact ⟨h.scratch, h.dir, hwf', hrun.2⟩
  | setAvg a => exact aux2 _ h.scratch h.dir (hr.resolve_left fun h => h)
  | setBoot b => exact aux2 _ h.scratch h.dir (hr.resolve_left fun h => h)
  | setExt g => exact aux2 _ h.scratch h.dir (hr.resolve_left fun h => h)
  | enableSaving d s => exact aux2 _ hop.2 hop.1 (hr.resolve_left fun h => h)
  | disableBoot => exact ⟨h.scratch, h.dir, h.wf, h.good⟩
  | disableSaving => exact ⟨h.scratch, trivial, h.wf, fun d hd => by simp [step, Obj.wd] at hd⟩

theorem envFresh_run (hm : Deletion mids) (l : List (E × Op X A))
    (hA : ∀ p ∈ l, ∀ x avg boot r, Agree S (Val x avg) (metricProg C I (P p.1) x avg boot r))
    {o : Obj X} {w : World V} (h : EnvFresh S Val o w)
    (hops : ∀ p ∈ l, FromScratch p.2) (hr : EnvSettersReturn C I P mids l o w) :
    EnvFresh S Val (runEnv C I P mids l o w).1 (runEnv C I P mids l o w).2 := by
  induction l generalizing o w with
  | nil => exact h
  | cons p l ih =>
    obtain ⟨e, op⟩ := p
    exact ih (fun p hp => hA p (by simp [hp]))
      (envFresh_step C I P S Val e hm (hA (e, op) (by simp)) op h (hops (e, op) (by simp)) hr.1)
      (fun p hp => hops p (by simp [hp])) hr.2

/-- if names stand for the same under all environments, results are those of the present environment -/
theorem env_correct (hm : Deletion mids) {e0 e : E} {oi o : Obj X} {w0 w : World V} (hw : WellFormed w0.fs)
    (hs : oi.scratch = some true) (hd : DirOk oi.dir) (hc : construct (P e0) mids oi w0 = (.ok o, w))
    (l : List (E × Op X A))
    (hA : ∀ p ∈ l, ∀ x avg boot r, Agree S (Val x avg) (metricProg C I (P p.1) x avg boot r))
    (hops : ∀ p ∈ l, FromScratch p.2) (hr : EnvSettersReturn C I P mids l o w) (r : Req A)
    (hAe : ∀ x avg boot, Agree S (Val x avg) (metricProg C I (P e) x avg boot r))
    (hS : ∀ x avg boot, AllIn S (metricProg C I (P e) x avg boot r)) :
    Correct C I (P e) mids r (runEnv C I P mids l o w).1
      (result C I (P e) mids r (runEnv C I P mids l o w).1 (runEnv C I P mids l o w).2) := by
  have hf := envFresh_run C I P S Val hm l hA (envFresh_construct P S Val e0 hm hs hd hw hc) hops hr
  apply correct_of_poss
  exact (run_clean _ (hAe _ _ _) _ hf.good).1 (hS _ _ _)

end run

/-! ### names -/

/-- names of things that do not depend on `pyanen_skip_nan` -/
def nanName (C : Cls) (I : ArgInfo A) (n : Name) : Prop :=
  ∃ s : Slot A, (s.nansLast = true ∨ C = .determ) ∧ slotName I s = .ok (some n)

theorem agree_late {I : ArgInfo A} (hI : TextOK I) (C : Cls) (P Q : Prims X V A) (x : X) (avg : PyAxis) (boot : PyBoot)
    (r : Req A) : Agree (fun _ => True) (SVal C I P x avg) (metricProg C I (P.late Q) x avg boot r) := by
  apply agree_metricProg
  intro s n hs _
  refine ⟨allIn_true _, fun v => ?_⟩
  rw [slotBody_late C I P Q x avg boot hs, slotBody_boot C I P x avg boot .none hs]
  constructor
  · rintro ⟨s', hs', hp⟩
    rwa [slotName_inj hI hs hs']
  · exact fun hp => ⟨s, hs, hp⟩

theorem agree_lateNaN {I : ArgInfo A} (hI : TextOK I) (C : Cls) (P Q : Prims X V A) (x : X) (avg : PyAxis)
    (boot : PyBoot) (r : Req A) :
    Agree (nanName C I) (SVal C I P x avg) (metricProg C I (P.lateNaN Q) x avg boot r) := by
  apply agree_metricProg
  intro s n hs hn
  refine ⟨allIn_slotBody C I _ (fun s h n hn => ⟨s, Or.inl (Slot.inner_nansLast h), hn⟩) x avg boot s, fun v => ?_⟩
  obtain ⟨s', hst, hs'⟩ := hn
  obtain rfl := slotName_inj hI hs hs'
  rw [slotBody_lateNaN C I P Q x avg boot hs hst, slotBody_boot C I P x avg boot .none hs]
  constructor
  · rintro ⟨s'', hs'', hp⟩
    rwa [slotName_inj hI hs hs'']
  · exact fun hp => ⟨s, hs, hp⟩

theorem allIn_nansLast (C : Cls) (I : ArgInfo A) (P : Prims X V A) (x : X) (avg : PyAxis) (boot : PyBoot) {r : Req A}
    (hr : NaNsLast r ∨ C = .determ) : AllIn (nanName C I) (metricProg C I P x avg boot r) := by
  have hin : ∀ s : Slot A, s.inner = true → ∀ n, slotName I s = .ok (some n) → nanName C I n :=
    fun s h n hn => ⟨s, Or.inl (Slot.inner_nansLast h), hn⟩
  cases r with
  | slot s =>
    simp only [metricProg]
    split
    · trivial
    · refine allIn_callName (fun n hn => ⟨s, ?_, hn⟩) (allIn_slotBody C I P hin x avg boot s) fun v =>
        allIn_slotPost P avg boot s v
      rcases hr with hr | hr
      · left
        cases s <;> first | rfl | exact hr.elim
      · exact Or.inr hr
  | rmse =>
    refine allIn_callName (hin .sqError rfl) (allIn_withDet C I P hin x _) fun v => ?_
    unfold bootOrAvgP
    split
    · trivial
    · intro _; trivial

/-- changes of the parts used after storing take effect -/
theorem late_correct {I : ArgInfo A} (hI : TextOK I) (C : Cls) (P : E → Prims X V A) {mids : FS V → Path → List (FS V)}
    (hm : Deletion mids) {e0 e : E} {oi o : Obj X} {w0 w : World V} (hw : WellFormed w0.fs)
    (hs : oi.scratch = some true) (hd : DirOk oi.dir) (hc : construct (P e0) mids oi w0 = (.ok o, w))
    (l : List (E × Op X A)) (hops : ∀ p ∈ l, FromScratch p.2) (hr : EnvSettersReturn C I P mids l o w) (r : Req A)
    (h : ((∀ e', P e' = (P e).lateNaN (P e')) ∧ (NaNsLast r ∨ C = .determ)) ∨ ∀ p ∈ l, P p.1 = (P e).late (P p.1)) :
    Correct C I (P e) mids r (runEnv C I P mids l o w).1
      (result C I (P e) mids r (runEnv C I P mids l o w).1 (runEnv C I P mids l o w).2) := by
  rcases h with ⟨h, h2⟩ | h
  · refine env_correct C I P (nanName C I) (SVal C I (P e)) hm hw hs hd hc l ?_ hops hr r ?_ ?_
    · intro p hp x avg boot r
      rw [h p.1]
      exact agree_lateNaN hI C (P e) _ x avg boot r
    · intro x avg boot
      exact agree_lateNaN hI C (P e) (P e) x avg boot r
    · intro x avg boot
      exact allIn_nansLast C I (P e) x avg boot h2
  · refine env_correct C I P (fun _ => True) (SVal C I (P e)) hm hw hs hd hc l ?_ hops hr r ?_ ?_
    · intro p hp x avg boot r
      rw [h p hp]
      exact agree_late hI C (P e) _ x avg boot r
    · intro x avg boot
      exact agree_all hI C (P e) x avg boot r
    · intro x avg boot
      exact allIn_true _

/-! ### the classes -/

section classes
variable {K : Type} [Field K] [LinearOrder K] [IsStrictOrderedRing K] [FloorSemiring K]
variable (c : Cfg K) (F : ProbFns K) (emb : A → Arg K) (ofNum : K → A) (e e' : EnvVars K)

theorem det_lateNaN : detPrims (inEnv c e') emb = (detPrims (inEnv c e) emb).lateNaN (detPrims (inEnv c e') emb) := rfl
theorem ens_lateNaN : ensPrims (inEnv c e') emb = (ensPrims (inEnv c e) emb).lateNaN (ensPrims (inEnv c e') emb) := rfl
theorem gauss_lateNaN :
    gaussPrims (inEnv c e') F emb = (gaussPrims (inEnv c e) F emb).lateNaN (gaussPrims (inEnv c e') F emb) := rfl
theorem gamma_lateNaN :
    gammaPrims (inEnv c e') F emb = (gammaPrims (inEnv c e) F emb).lateNaN (gammaPrims (inEnv c e') F emb) := rfl
theorem hurdle_lateNaN : hurdlePrims (inEnv c e') F emb ofNum =
    (hurdlePrims (inEnv c e) F emb ofNum).lateNaN (hurdlePrims (inEnv c e') F emb ofNum) := rfl

variable (h : e'.skipNan = e.skipNan)
include h
theorem ens_late : ensPrims (inEnv c e') emb = (ensPrims (inEnv c e) emb).late (ensPrims (inEnv c e') emb) := by
  obtain ⟨s, n, q⟩ := e'
  cases h
  rfl
theorem gauss_late :
    gaussPrims (inEnv c e') F emb = (gaussPrims (inEnv c e) F emb).late (gaussPrims (inEnv c e') F emb) := by
  obtain ⟨s, n, q⟩ := e'
  cases h
  rfl
theorem gamma_late :
    gammaPrims (inEnv c e') F emb = (gammaPrims (inEnv c e) F emb).late (gammaPrims (inEnv c e') F emb) := by
  obtain ⟨s, n, q⟩ := e'
  cases h
  rfl
theorem hurdle_late : hurdlePrims (inEnv c e') F emb ofNum =
    (hurdlePrims (inEnv c e) F emb ofNum).late (hurdlePrims (inEnv c e') F emb ofNum) := by
  obtain ⟨s, n, q⟩ := e'
  cases h
  rfl

end classes
end Model
