import Verif.Spec.Settings
import Verif.Lemmas.EndToEnd

/-! Verifiers whose metrics are the same programs cannot be told apart. -/

set_option linter.unusedSectionVars false

namespace Model
open Np Spec

variable {X V A : Type} {C : Cls} {I : ArgInfo A} {P Q : Prims X V A} {mids : FS V → Path → List (FS V)}

/-- the same settings, and data related by `R` -/
structure Twin (R : X → X → Prop) (o u : Obj X) : Prop where
  avg : u.avg = o.avg
  boot : u.boot = o.boot
  dir : u.dir = o.dir
  scratch : u.scratch = o.scratch
  ext : R o.ext u.ext

/-- related data have the same metrics and pass the same validation -/
structure Indist (C : Cls) (I : ArgInfo A) (P Q : Prims X V A) (R : X → X → Prop) : Prop where
  metric : ∀ x y, R x y → ∀ avg boot r, metricProg C I Q y avg boot r = metricProg C I P x avg boot r
  check : ∀ x y, R x y → (Q.check y).1 = (P.check x).1 ∧ R (P.check x).2 (Q.check y).2

variable {R : X → X → Prop}

theorem twin_validate (hk : ∀ x y, R x y → (Q.check y).1 = (P.check x).1 ∧ R (P.check x).2 (Q.check y).2) {o u : Obj X}
    (h : Twin R o u) (w : World V) :
    (validate Q mids u w).1 = (validate P mids o w).1 ∧ (validate Q mids u w).2.2 = (validate P mids o w).2.2 ∧
      Twin R (validate P mids o w).2.1 (validate Q mids u w).2.1 := by
  obtain ⟨oa, ob, od, os, ox⟩ := o
  obtain ⟨ua, ub, ud, us, ux⟩ := u
  obtain ⟨a1, a2, a3, a4, a5⟩ := h
  simp only at a1 a2 a3 a4 a5
  subst a1 a2 a3 a4
  obtain ⟨k1, k2⟩ := hk _ _ a5
  unfold validate
  simp only
  rcases validateAxis ua with ⟨r, a⟩
  cases r with
  | error e => exact ⟨rfl, rfl, ⟨rfl, rfl, rfl, rfl, a5⟩⟩
  | ok _ =>
    cases ub with
    | other => exact ⟨rfl, rfl, ⟨rfl, rfl, rfl, rfl, a5⟩⟩
    | _ =>
      cases us with
      | none => exact ⟨rfl, rfl, ⟨rfl, rfl, rfl, rfl, a5⟩⟩
      | some s =>
        simp only
        rcases validateSaving mids ud s w with ⟨q, w1⟩
        cases q with
        | error e => exact ⟨rfl, rfl, ⟨rfl, rfl, rfl, rfl, a5⟩⟩
        | ok _ => exact ⟨k1, rfl, ⟨rfl, rfl, rfl, rfl, k2⟩⟩

/-- what a setter makes of the validation -/
def setterOut : Except Err Unit × Obj X × World V → Except Err (Option V) × Obj X × World V
  | (.error e, o1, w1) => (.error e, o1, w1)
  | (.ok _, o1, w1) => (.ok none, o1, w1)

theorem twin_setter (hk : ∀ x y, R x y → (Q.check y).1 = (P.check x).1 ∧ R (P.check x).2 (Q.check y).2) {o u : Obj X}
    (h : Twin R o u) (w : World V) :
    (setterOut (validate Q mids u w)).1 = (setterOut (validate P mids o w)).1 ∧
      (setterOut (validate Q mids u w)).2.2 = (setterOut (validate P mids o w)).2.2 ∧
      Twin R (setterOut (validate P mids o w)).2.1 (setterOut (validate Q mids u w)).2.1 := by
  obtain ⟨v1, v2, v3⟩ := twin_validate (mids := mids) hk h w
  rcases hv : validate Q mids u w with ⟨r, o1, w1⟩
  rcases hv' : validate P mids o w with ⟨r', o1', w1'⟩
  rw [hv, hv'] at v1 v2 v3
  simp only at v1 v2 v3
  subst v1 v2
  cases r <;> exact ⟨rfl, rfl, v3⟩

theorem twin_step (hi : Indist C I P Q R) {o u : Obj X} (h : Twin R o u) (op : Op X A) (hop : CommonOnly op)
    (w : World V) :
    (step C I Q mids op u w).1 = (step C I P mids op o w).1 ∧
      (step C I Q mids op u w).2.2 = (step C I P mids op o w).2.2 ∧
      Twin R (step C I P mids op o w).2.1 (step C I Q mids op u w).2.1 := by
  have hwd : u.wd = o.wd := by simp only [Obj.wd, h.dir]
  cases op with
  | metric r =>
    simp only [step, hi.metric _ _ h.ext, h.avg, h.boot, hwd]
    rcases (metricProg C I P o.ext o.avg o.boot r).run o.wd w with ⟨q, w1⟩
    cases q <;> exact ⟨rfl, rfl, h⟩
  | setAvg a =>
    exact twin_setter hi.check (o := { o with avg := a }) (u := { u with avg := a })
      ⟨rfl, h.boot, h.dir, h.scratch, h.ext⟩ w
  | setBoot b =>
    exact twin_setter hi.check (o := { o with boot := b }) (u := { u with boot := b })
      ⟨h.avg, rfl, h.dir, h.scratch, h.ext⟩ w
  | disableBoot => exact ⟨rfl, rfl, ⟨h.avg, rfl, h.dir, h.scratch, h.ext⟩⟩
  | enableSaving d s =>
    exact twin_setter hi.check (o := { o with dir := d, scratch := s })
      (u := { u with dir := d, scratch := s }) ⟨h.avg, h.boot, rfl, rfl, h.ext⟩ w
  | disableSaving => exact ⟨rfl, rfl, ⟨h.avg, h.boot, rfl, h.scratch, h.ext⟩⟩
  | setExt g => exact absurd hop (by simp [CommonOnly])

theorem twin_runOps (hi : Indist C I P Q R) (ops : List (Op X A)) (hops : ∀ op ∈ ops, CommonOnly op) {o u : Obj X}
    (h : Twin R o u) (w : World V) :
    (runOps C I Q mids ops u w).2 = (runOps C I P mids ops o w).2 ∧
      Twin R (runOps C I P mids ops o w).1 (runOps C I Q mids ops u w).1 := by
  induction ops generalizing o u w with
  | nil => exact ⟨rfl, h⟩
  | cons op ops ih =>
    obtain ⟨-, s2, s3⟩ := twin_step (mids := mids) hi h op (hops op (by simp)) w
    simp only [runOps]
    rcases hu : step C I Q mids op u w with ⟨r, o1, w1⟩
    rcases ho : step C I P mids op o w with ⟨r', o1', w1'⟩
    rw [hu, ho] at s2 s3
    simp only at s2 s3 ⊢
    subst s2
    exact ih (fun p hp => hops p (by simp [hp])) s3 w1

end Model
