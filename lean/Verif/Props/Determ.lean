import Verif.Spec.Determ
import Verif.Lemmas.Same
import Verif.Props.EndToEndClasses
import Verif.Props.EndToEndProbCase
import Verif.Props.Shuffle

/-!
# The deterministic metrics of every verifier are those of its deterministic forecast: C105
-/

set_option linter.unusedSectionVars false

namespace Props
open Np NDArr Spec Model Lemmas

variable {K : Type} [Field K] [LinearOrder K] [IsStrictOrderedRing K] [FloorSemiring K]
variable {A X : Type} {C : Cls} {I : ArgInfo A} {mids : FS (PyVal K) → Path → List (FS (PyVal K))} {c : Cfg K}
  {emb : A → Arg K} {obs : X → NDArr (Fl K)} {P : Prims X (PyVal K) A}

/-- **C105**, every class: if `f_determ()` returns `f`, then `error`, `ab_error`, `sq_error`, `rmse`, `corr`, `iou_determ`
and `f_determ` itself give exactly what `VerifyDeterm` gives for `f` and the same observations and settings: the same
values, bootstrap intervals and exceptions. -/
theorem C105_any (hP : Shared c obs emb P) {o : Obj X} {f : NDArr (Fl K)} {w0 : World (PyVal K)}
    (hf : result C I P mids (.slot .fDeterm) (unsaved o) w0 = .ok (some (.num f))) {d : Obj (DetX K)}
    (hd : d.ext = ⟨f, obs o.ext⟩) (ha : d.avg = o.avg) (hb : d.boot = o.boot) {r : Req A} (hr : DetReq r)
    (w : World (PyVal K)) :
    result C I P mids r (unsaved o) w = result .determ I (detPrims c emb) mids r (unsaved d) w := by
  have hdet : ∀ {g h : PyVal K → Except Err (PyVal K)}, g = h →
      Same (withDet C I P o.ext g) (withDet .determ I (detPrims c emb) d.ext h) := by
    intro g h e w1
    subst e
    rw [withDet_run hf]
    simp only [withDet, detPrims, Prog.run, hd]
    rfl
  have hcall : ∀ {k l : PyVal K → Prog (PyVal K)}, Same (k (.num f)) (l (.num f)) →
      Same (fDetCall C I P o.ext k) (fDetCall .determ I (detPrims c emb) d.ext l) := by
    intro k l h w1
    have hf' : result .determ I (detPrims c emb) mids (.slot .fDeterm) (unsaved d) w0 = .ok (some (.num f)) := by
      rw [fDeterm_det, hd]
    rw [fDetCall_run hf, fDetCall_run hf', h w1]
  have hpost : ∀ {g h : PyVal K → Except Err (PyVal K)}, g = h → ∀ v,
      Same (bootOrAvgP P o.avg o.boot g v) (bootOrAvgP (detPrims c emb) d.avg d.boot h v) := by
    intro g h e v
    subst e
    simp only [bootOrAvgP, ha, hb, hP.avg, hP.bootArr]
    exact Same.refl _
  have name : ∀ {s : Slot A} {b e : Prog (PyVal K)} {k l : PyVal K → Prog (PyVal K)}, Same b e →
      (∀ v, Same (k v) (l v)) → Same (.callName (slotName I s) b k) (.callName (slotName I s) e l) := by
    intro s b e k l h1 h2
    cases hn : slotName I s with
    | error _ => exact Same.refl _
    | ok n => exact same_call h1 h2
  have he : P.errorOf o.ext = (detPrims c emb).errorOf d.ext := by
    rw [hP.errorOf]
    simp only [detPrims, basePrims, hd]
  have hq : P.sqErrorOf o.ext = (detPrims c emb).sqErrorOf d.ext := by
    rw [hP.sqErrorOf]
    simp only [detPrims, basePrims, hd]
  have hab : P.abErrorOf o.ext = (detPrims c emb).abErrorOf d.ext := by
    rw [hP.abErrorOf]
    simp only [detPrims, basePrims, hd]
  have hsq : P.sqrt = (detPrims c emb).sqrt := by
    rw [hP.sqrt]
    rfl
  rw [result_eq, result_eq]
  have hs : Same (metricProg C I P o.ext o.avg o.boot r)
      (metricProg .determ I (detPrims c emb) d.ext d.avg d.boot r) := by
    match r, hr with
    | .rmse, _ =>
      simp only [metricProg, sqBody]
      exact name (hdet hq) (hpost hsq)
    | .slot .error, _ =>
      simp only [metricProg, Slot.probOnly, Bool.false_eq_true, false_and, if_false]
      exact name (hdet he) (hpost rfl)
    | .slot .sqError, _ =>
      simp only [metricProg, Slot.probOnly, Bool.false_eq_true, false_and, if_false]
      exact name (hdet hq) (hpost rfl)
    | .slot .abError, _ =>
      simp only [metricProg, Slot.probOnly, Bool.false_eq_true, false_and, if_false]
      exact name (hdet hab) (hpost rfl)
    | .slot .fDeterm, _ =>
      simp only [metricProg, Slot.probOnly, Bool.false_eq_true, false_and, if_false]
      refine name (fun w1 => ?_) fun v => Same.refl _
      simp only [slotBody]
      rw [fDet_runs hf]
      simp only [fDetBody, detPrims, Prog.run, hd]
    | .slot .corr, _ =>
      simp only [metricProg, Slot.probOnly, Bool.false_eq_true, false_and, if_false]
      refine name (hcall ?_) fun v => Same.refl _
      simp only [ha, hb, hP.corr, hP.corrBoot, detPrims, basePrims, hd]
      exact Same.refl _
    | .slot (.iouDeterm a b), _ =>
      simp only [metricProg, Slot.probOnly, Bool.false_eq_true, false_and, if_false]
      refine name (hdet ?_) fun v => Same.refl _
      simp only [ha, hP.iouDeterm, detPrims, basePrims, hd]
  rw [hs w]

/-! ### with saving, over whole histories -/

/-- a validated ensemble verifier and the deterministic verifier of its collapsed forecasts -/
structure Collapsed (x : EnsX K) (y : DetX K) : Prop where
  f : x.fc = some y.f
  o : y.o = x.o
  axis : ∃ ax, x.axis = some ax ∧ validateEnsembleAxis x.f.shape x.o.shape (some ax) = .ok ax
  shape : y.f.shape = y.o.shape

/-- the same settings -/
structure Mates (o : Obj (EnsX K)) (u : Obj (DetX K)) : Prop where
  avg : u.avg = o.avg
  boot : u.boot = o.boot
  dir : u.dir = o.dir
  scratch : u.scratch = o.scratch
  ext : Collapsed o.ext u.ext

theorem mates_metric {x : EnsX K} {y : DetX K} (h : Collapsed x y) (avg : PyAxis) (boot : PyBoot) {r : Req A}
    (hr : DetReq r) : metricProg .determ I (detPrims c emb) y avg boot r =
      metricProg .ensemble I (ensPrims c emb) x avg boot r := by
  have e1 : (detPrims c emb).fDet y = (ensPrims c emb).fDet x := by simp only [ensPrims, detPrims, h.f]
  have e2 : (detPrims c emb).errorOf y = (ensPrims c emb).errorOf x := by
    simp only [ensPrims, detPrims, basePrims, h.o]
  have e3 : (detPrims c emb).sqErrorOf y = (ensPrims c emb).sqErrorOf x := by
    simp only [ensPrims, detPrims, basePrims, h.o]
  have e4 : (detPrims c emb).abErrorOf y = (ensPrims c emb).abErrorOf x := by
    simp only [ensPrims, detPrims, basePrims, h.o]
  have e5 : (detPrims c emb).iouDeterm y = (ensPrims c emb).iouDeterm x := by
    simp only [ensPrims, detPrims, basePrims, h.o]
  have e6 : (detPrims c emb).corr y = (ensPrims c emb).corr x := by
    simp only [ensPrims, detPrims, basePrims, h.o]
  have e7 : (detPrims c emb).corrBoot y = (ensPrims c emb).corrBoot x := by
    simp only [ensPrims, detPrims, basePrims, h.o]
  match r, hr with
  | .rmse, _ => simp only [metricProg, sqBody, withDet, e1, e3]; rfl
  | .slot .error, _ =>
    simp only [metricProg, Slot.probOnly, Bool.false_eq_true, false_and, if_false, slotBody, withDet, e1, e2]; rfl
  | .slot .sqError, _ =>
    simp only [metricProg, Slot.probOnly, Bool.false_eq_true, false_and, if_false, slotBody, sqBody, withDet, e1, e3]; rfl
  | .slot .abError, _ =>
    simp only [metricProg, Slot.probOnly, Bool.false_eq_true, false_and, if_false, slotBody, withDet, e1, e4]; rfl
  | .slot .fDeterm, _ =>
    simp only [metricProg, Slot.probOnly, Bool.false_eq_true, false_and, if_false, slotBody, fDetBody, e1]; rfl
  | .slot .corr, _ =>
    simp only [metricProg, Slot.probOnly, Bool.false_eq_true, false_and, if_false, slotBody, fDetCall, fDetBody, e1, e6, e7]
    rfl
  | .slot (.iouDeterm a b), _ =>
    simp only [metricProg, Slot.probOnly, Bool.false_eq_true, false_and, if_false, slotBody, withDet, e1, e5]; rfl

theorem validate_again {s t : List Nat} {a : Option Int} {b : Int} (h : validateEnsembleAxis s t a = .ok b) :
    validateEnsembleAxis s t (some b) = .ok b := by
  cases a with
  | some a =>
    obtain rfl := validateEnsembleAxis_some h
    exact h
  | none =>
    unfold validateEnsembleAxis at h ⊢
    simp only [bind, Except.bind, pure, Except.pure] at h ⊢
    cases hg : guessEnsembleAxis s t with
    | error e => rw [hg] at h; cases h
    | ok x =>
      rw [hg] at h
      simp only at h
      have hx : x = b := by
        split at h
        · split at h
          · cases h
          · split at h
            · cases h; rfl
            · cases h
        · cases h
      subst hx
      exact h

theorem collapsed_check {x : EnsX K} {y : DetX K} (h : Collapsed x y) :
    ((detPrims c emb).check y).1 = ((ensPrims c emb).check x).1 ∧
      Collapsed ((ensPrims c emb).check x).2 ((detPrims c emb).check y).2 := by
  obtain ⟨ax, h1, h2⟩ := h.axis
  have e : (ensPrims c emb).check x = (.ok (), { x with axis := some ax }) := by
    simp only [ensPrims, h1, h2]
  rw [e]
  simp only [detPrims, h.shape, if_true]
  exact ⟨trivial, h.f, h.o, ⟨ax, rfl, h2⟩, h.shape⟩

theorem mates_validate {o : Obj (EnsX K)} {u : Obj (DetX K)} (h : Mates o u) (w : World (PyVal K)) :
    (validate (detPrims c emb) mids u w).1 = (validate (ensPrims c emb) mids o w).1 ∧
      (validate (detPrims c emb) mids u w).2.2 = (validate (ensPrims c emb) mids o w).2.2 ∧
      Mates (validate (ensPrims c emb) mids o w).2.1 (validate (detPrims c emb) mids u w).2.1 := by
  obtain ⟨oa, ob, od, os, ox⟩ := o
  obtain ⟨ua, ub, ud, us, ux⟩ := u
  obtain ⟨a1, a2, a3, a4, a5⟩ := h
  simp only at a1 a2 a3 a4 a5
  subst a1 a2 a3 a4
  obtain ⟨k1, k2⟩ := collapsed_check (c := c) (emb := emb) a5
  unfold validate
  simp only
  rcases validateAxis ua with ⟨r, a⟩
  cases r with
  | error e => exact ⟨rfl, rfl, ⟨rfl, rfl, rfl, rfl, a5⟩⟩
  | ok _ =>
    cases ub with
    | other => exact ⟨rfl, rfl, ⟨rfl, rfl, rfl, rfl, a5⟩⟩
    | _ =>
      cases us with
      | none => exact ⟨rfl, rfl, ⟨rfl, rfl, rfl, rfl, a5⟩⟩
      | some s =>
        simp only
        rcases validateSaving mids ud s w with ⟨q, w1⟩
        cases q with
        | error e => exact ⟨rfl, rfl, ⟨rfl, rfl, rfl, rfl, a5⟩⟩
        | ok _ => exact ⟨k1, rfl, ⟨rfl, rfl, rfl, rfl, k2⟩⟩

theorem mates_setter {o : Obj (EnsX K)} {u : Obj (DetX K)} (h : Mates o u) (w : World (PyVal K)) :
    (setterOut (validate (detPrims c emb) mids u w)).1 = (setterOut (validate (ensPrims c emb) mids o w)).1 ∧
      (setterOut (validate (detPrims c emb) mids u w)).2.2 = (setterOut (validate (ensPrims c emb) mids o w)).2.2 ∧
      Mates (setterOut (validate (ensPrims c emb) mids o w)).2.1 (setterOut (validate (detPrims c emb) mids u w)).2.1 := by
  obtain ⟨v1, v2, v3⟩ := mates_validate (c := c) (emb := emb) (mids := mids) h w
  rcases hv : validate (detPrims c emb) mids u w with ⟨r, o1, w1⟩
  rcases hv' : validate (ensPrims c emb) mids o w with ⟨r', o1', w1'⟩
  rw [hv, hv'] at v1 v2 v3
  simp only at v1 v2 v3
  subst v1 v2
  cases r <;> exact ⟨rfl, rfl, v3⟩

theorem mates_step {o : Obj (EnsX K)} {u : Obj (DetX K)} (h : Mates o u) {op : Op (EnsX K) A} {op' : Op (DetX K) A}
    (hop : SameCall op op') (w : World (PyVal K)) :
    (step .determ I (detPrims c emb) mids op' u w).1 = (step .ensemble I (ensPrims c emb) mids op o w).1 ∧
      (step .determ I (detPrims c emb) mids op' u w).2.2 = (step .ensemble I (ensPrims c emb) mids op o w).2.2 ∧
      Mates (step .ensemble I (ensPrims c emb) mids op o w).2.1 (step .determ I (detPrims c emb) mids op' u w).2.1 := by
  have hwd : u.wd = o.wd := by simp only [Obj.wd, h.dir]
  cases hop with
  | metric r hr =>
    simp only [step, mates_metric h.ext _ _ hr, h.avg, h.boot, hwd]
    rcases (metricProg .ensemble I (ensPrims c emb) o.ext o.avg o.boot r).run o.wd w with ⟨q, w1⟩
    cases q <;> exact ⟨rfl, rfl, h⟩
  | setAvg a =>
    exact mates_setter (o := { o with avg := a }) (u := { u with avg := a }) ⟨rfl, h.boot, h.dir, h.scratch, h.ext⟩ w
  | setBoot b =>
    exact mates_setter (o := { o with boot := b }) (u := { u with boot := b }) ⟨h.avg, rfl, h.dir, h.scratch, h.ext⟩ w
  | disableBoot => exact ⟨rfl, rfl, ⟨h.avg, rfl, h.dir, h.scratch, h.ext⟩⟩
  | enableSaving d s =>
    exact mates_setter (o := { o with dir := d, scratch := s })
      (u := { u with dir := d, scratch := s }) ⟨h.avg, h.boot, rfl, rfl, h.ext⟩ w
  | disableSaving => exact ⟨rfl, rfl, ⟨h.avg, h.boot, rfl, h.scratch, h.ext⟩⟩

theorem mates_runOps {ops : List (Op (EnsX K) A)} {ops' : List (Op (DetX K) A)} (hops : List.Forall₂ SameCall ops ops')
    {o : Obj (EnsX K)} {u : Obj (DetX K)} (h : Mates o u) (w : World (PyVal K)) :
    (runOps .determ I (detPrims c emb) mids ops' u w).2 = (runOps .ensemble I (ensPrims c emb) mids ops o w).2 ∧
      Mates (runOps .ensemble I (ensPrims c emb) mids ops o w).1 (runOps .determ I (detPrims c emb) mids ops' u w).1 := by
  induction hops generalizing o u w with
  | nil => exact ⟨rfl, h⟩
  | @cons op op' ops ops' hop _ ih =>
    obtain ⟨-, s2, s3⟩ := mates_step (c := c) (emb := emb) (I := I) (mids := mids) h hop w
    simp only [runOps]
    rcases hu : step .determ I (detPrims c emb) mids op' u w with ⟨r, o1, w1⟩
    rcases ho : step .ensemble I (ensPrims c emb) mids op o w with ⟨r', o1', w1'⟩
    rw [hu, ho] at s2 s3
    simp only at s2 s3 ⊢
    subst s2
    exact ih s3 w1

/-- **C105**, ensembles: construct a `VerifyEnsemble`, and a `VerifyDeterm` with its collapsed forecasts, the same
observations and settings. If the collapse function returned one number per position, the second constructor has the same
effects as the first, and over any common history - these metrics, setters, saving to a directory - both verifiers return
or raise the same and leave the same files. -/
theorem C105_history {oi o : Obj (EnsX K)} {w w' : World (PyVal K)}
    (h : construct (ensPrims c emb) mids oi w = (.ok o, w')) :
    ∃ ax fc, o.ext.axis = some ax ∧ oi.ext.collapse oi.ext.f ax = .ok fc ∧ (fc.shape = oi.ext.o.shape →
      ∃ u, construct (detPrims c emb) mids ⟨oi.avg, oi.boot, oi.dir, oi.scratch, ⟨fc, oi.ext.o⟩⟩ w = (.ok u, w') ∧
        ∀ (ops : List (Op (EnsX K) A)) (ops' : List (Op (DetX K) A)), List.Forall₂ SameCall ops ops' → ∀ w1,
          (runOps .determ I (detPrims c emb) mids ops' u w1).2 = (runOps .ensemble I (ensPrims c emb) mids ops o w1).2 ∧
          ∀ (op : Op (EnsX K) A) (op' : Op (DetX K) A), SameCall op op' → ∀ w2,
            (step .determ I (detPrims c emb) mids op' (runOps .determ I (detPrims c emb) mids ops' u w1).1 w2).1 =
              (step .ensemble I (ensPrims c emb) mids op (runOps .ensemble I (ensPrims c emb) mids ops o w1).1 w2).1) := by
  obtain ⟨ax, fc, h1, h2, h3, h4, h5, -, -⟩ := C75_construct_ens h
  refine ⟨ax, fc, h1.axis, h2, fun hfc => ?_⟩
  obtain ⟨u, hu, hm⟩ : ∃ u, construct (detPrims c emb) mids ⟨oi.avg, oi.boot, oi.dir, oi.scratch, ⟨fc, oi.ext.o⟩⟩ w =
      (.ok u, w') ∧ Mates o u := by
    obtain ⟨oa, ob, od, os, ox⟩ := oi
    simp only [construct, validate] at h ⊢
    generalize validateAxis oa = va at h ⊢
    obtain ⟨r, a⟩ := va
    cases r with
    | error e => cases h
    | ok _ =>
      cases ob with
      | other => cases h
      | _ =>
        cases os with
        | none => cases h
        | some s =>
          simp only at h ⊢
          generalize validateSaving mids od s w = vs at h ⊢
          obtain ⟨q, w1⟩ := vs
          cases q with
          | error e => cases h
          | ok _ =>
            simp only at h ⊢ h2 h3 h4 hfc
            simp only [detPrims, hfc, if_true]
            cases hv : validateEnsembleAxis ox.f.shape ox.o.shape ox.axis with
            | error e => simp only [ensPrims, hv] at h; cases h
            | ok b =>
              simp only [ensPrims, hv, EnsX.ax, bind, Except.bind, pure, Except.pure] at h
              cases hcol : ox.collapse ox.f b with
              | error e => simp only [hcol] at h; cases h
              | ok fc' =>
                simp only [hcol, Prod.mk.injEq, Except.ok.injEq] at h
                obtain ⟨h, rfl⟩ := h
                subst h
                have hb : b = ax := by
                  have := h1.axis
                  simpa using this
                subst hb
                rw [h2] at hcol
                cases hcol
                exact ⟨_, rfl, ⟨rfl, rfl, rfl, rfl, ⟨rfl, rfl, ⟨b, rfl, validate_again hv⟩, hfc⟩⟩⟩
  refine ⟨u, hu, fun ops ops' hops w1 => ?_⟩
  obtain ⟨r1, r2⟩ := mates_runOps (c := c) (emb := emb) (I := I) (mids := mids) hops hm w1
  exact ⟨r1, fun op op' hop w2 => (mates_step r2 hop w2).1⟩

/-! ### cases -/

/-- a Gaussian forecast verified by its mean: the errors are those of `VerifyDeterm` for the means -/
example : ∃ o w f, construct (gaussPrims caseCfg fnsQ embInt) noMids (probObj (gaussX false)) world0 = (.ok o, w) ∧
    result .gaussian intInfo (gaussPrims caseCfg fnsQ embInt) noMids (.slot .fDeterm) (unsaved o) w = .ok (some (.num f)) ∧
    f.data = [some 1, some 3] ∧ ∀ r : Req Int, DetReq r → ∀ w1,
      result .gaussian intInfo (gaussPrims caseCfg fnsQ embInt) noMids r (unsaved o) w1 =
        result .determ intInfo (detPrims caseCfg embInt) noMids r (unsaved ⟨o.avg, o.boot, .none, some true, ⟨f, o.ext.o⟩⟩)
          w1 := by
  have h : ∃ o w f, construct (gaussPrims caseCfg fnsQ embInt) noMids (probObj (gaussX false)) world0 = (.ok o, w) ∧
      result .gaussian intInfo (gaussPrims caseCfg fnsQ embInt) noMids (.slot .fDeterm) (unsaved o) w =
        .ok (some (.num f)) ∧ f.data = [some 1, some 3] := ⟨_, _, _, rfl, rfl, rfl⟩
  obtain ⟨o, w, f, h1, h2, h3⟩ := h
  exact ⟨o, w, f, h1, h2, h3, fun r hr w1 => C105_any (shared_gauss caseCfg fnsQ embInt).base h2 rfl rfl rfl hr w1⟩

/-- two members at two positions, collapsed with the mean, saved in a directory -/
def pairX : EnsX ℚ := ⟨⟨[2, 2], [some 1, some 5, some 2, some 7], rfl⟩, ⟨[2], [some 3, some 5], rfl⟩, some 0,
  fun f ax => reduceAxes mean f (some [ax]), none⟩

example : ∃ o w fc u, construct (ensPrims caseCfg embInt) noMids ⟨.none, .none, .path ["saved".toList], some true, pairX⟩ world0 =
      (.ok o, w) ∧ pairX.collapse pairX.f 0 = .ok fc ∧ fc.data = [some (3 / 2), some 6] ∧
    construct (detPrims caseCfg embInt) noMids ⟨.none, .none, .path ["saved".toList], some true, ⟨fc, pairX.o⟩⟩ world0 =
      (.ok u, w) ∧
    ∀ w1, (runOps .determ intInfo (detPrims caseCfg embInt) noMids [.metric (.slot .error), .setBoot (.int 3), .metric .rmse]
        u w1).2 =
      (runOps .ensemble intInfo (ensPrims caseCfg embInt) noMids [.metric (.slot .error), .setBoot (.int 3), .metric .rmse]
        o w1).2 := by
  have h : ∃ o w, construct (ensPrims caseCfg embInt) noMids ⟨.none, .none, .path ["saved".toList], some true, pairX⟩ world0 =
    (.ok o, w) := ⟨_, _, rfl⟩
  obtain ⟨o, w, h⟩ := h
  obtain ⟨ax, fc, h1, h2, h3⟩ := C105_history (I := intInfo) h
  obtain ⟨_, fc', d1, -, -, -, -, d2, -⟩ := C75_construct_ens h
  have d3 := d1.axis
  rw [h1] at d3
  cases d3
  obtain rfl : ax = 0 := d2 0 rfl
  have hfc : fc = ⟨[2], [some (3 / 2), some 6], rfl⟩ := by
    have : pairX.collapse pairX.f 0 = .ok ⟨[2], [some (3 / 2), some 6], rfl⟩ := by decide +kernel
    rw [h2] at this
    exact Except.ok.inj this
  subst hfc
  obtain ⟨u, u1, u2⟩ := h3 rfl
  exact ⟨o, w, _, u, h, h2, rfl, u1, fun w1 => (u2 _ _ (.cons (.metric (.slot .error) trivial) (.cons (.setBoot _)
    (.cons (.metric .rmse trivial) .nil))) w1).1⟩

end Props
