import Verif.Lemmas.Twin

/-! Verifiers some of whose metrics are the same programs cannot be told apart by these. -/

set_option linter.unusedSectionVars false

namespace Model
open Np Spec

variable {X V A : Type} {C : Cls} {I : ArgInfo A} {P Q : Prims X V A} {mids : FS V → Path → List (FS V)}
variable {R : X → X → Prop} {S : Req A → Prop}

/-- related data have the same programs for the requests in `S` and pass the same validation -/
structure IndistOn (C : Cls) (I : ArgInfo A) (P Q : Prims X V A) (R : X → X → Prop) (S : Req A → Prop) : Prop where
  metric : ∀ x y, R x y → ∀ avg boot r, S r → metricProg C I Q y avg boot r = metricProg C I P x avg boot r
  check : ∀ x y, R x y → (Q.check y).1 = (P.check x).1 ∧ R (P.check x).2 (Q.check y).2

/-- an operation all classes have; a metric only if it is in `S` -/
def CommonIn (S : Req A → Prop) : Op X A → Prop
  | .metric r => S r
  | op => CommonOnly op

theorem twin_step_on (hi : IndistOn C I P Q R S) {o u : Obj X} (h : Twin R o u) (op : Op X A) (hop : CommonIn S op)
    (w : World V) :
    (step C I Q mids op u w).1 = (step C I P mids op o w).1 ∧
      (step C I Q mids op u w).2.2 = (step C I P mids op o w).2.2 ∧
      Twin R (step C I P mids op o w).2.1 (step C I Q mids op u w).2.1 := by
  have hwd : u.wd = o.wd := by simp only [Obj.wd, h.dir]
  cases op with
  | metric r =>
    simp only [step, hi.metric _ _ h.ext _ _ _ hop, h.avg, h.boot, hwd]
    rcases (metricProg C I P o.ext o.avg o.boot r).run o.wd w with ⟨q, w1⟩
    cases q <;> exact ⟨rfl, rfl, h⟩
  | setAvg a =>
    exact twin_setter hi.check (o := { o with avg := a }) (u := { u with avg := a })
      ⟨rfl, h.boot, h.dir, h.scratch, h.ext⟩ w
  | setBoot b =>
    exact twin_setter hi.check (o := { o with boot := b }) (u := { u with boot := b })
      ⟨h.avg, rfl, h.dir, h.scratch, h.ext⟩ w
  | disableBoot => exact ⟨rfl, rfl, ⟨h.avg, rfl, h.dir, h.scratch, h.ext⟩⟩
  | enableSaving d s =>
    exact twin_setter hi.check (o := { o with dir := d, scratch := s })
      (u := { u with dir := d, scratch := s }) ⟨h.avg, h.boot, rfl, rfl, h.ext⟩ w
  | disableSaving => exact ⟨rfl, rfl, ⟨h.avg, h.boot, rfl, h.scratch, h.ext⟩⟩
  | setExt g => exact absurd hop (by simp [CommonIn, CommonOnly])

theorem twin_runOps_on (hi : IndistOn C I P Q R S) (ops : List (Op X A)) (hops : ∀ op ∈ ops, CommonIn S op) {o u : Obj X}
    (h : Twin R o u) (w : World V) :
    (runOps C I Q mids ops u w).2 = (runOps C I P mids ops o w).2 ∧
      Twin R (runOps C I P mids ops o w).1 (runOps C I Q mids ops u w).1 := by
  induction ops generalizing o u w with
  | nil => exact ⟨rfl, h⟩
  | cons op ops ih =>
    obtain ⟨-, s2, s3⟩ := twin_step_on (mids := mids) hi h op (hops op (by simp)) w
    simp only [runOps]
    rcases hu : step C I Q mids op u w with ⟨r, o1, w1⟩
    rcases ho : step C I P mids op o w with ⟨r', o1', w1'⟩
    rw [hu, ho] at s2 s3
    simp only at s2 s3 ⊢
    subst s2
    exact ih (fun p hp => hops p (by simp [hp])) s3 w1

end Model
