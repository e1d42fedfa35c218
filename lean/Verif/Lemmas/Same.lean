import Verif.Lemmas.EndToEnd

/-! Metric calls of verifiers that do not save: results do not depend on the file names. -/

set_option linter.unusedSectionVars false

namespace Model
open Np NDArr Spec

variable {V : Type}

/-- without a working directory both computations do the same -/
def Same (p q : Prog V) : Prop := ∀ w, p.run none w = q.run none w

theorem Same.refl (p : Prog V) : Same p p := fun _ => rfl

theorem same_ret {r s : Except Err V} (h : r = s) : Same (.ret r) (.ret s) := by subst h; exact Same.refl _

theorem same_draw {k l : Nat → Prog V} (h : ∀ n, Same (k n) (l n)) : Same (.draw k) (.draw l) := fun _ => h _ _

theorem run_call (n : Option Name) (b : Prog V) (k : V → Prog V) (w : World V) :
    (Prog.call n b k).run none w = match b.run none w with
      | (.error e, w1) => (.error e, w1)
      | (.ok v, w1) => (k v).run none w1 := by
  simp only [Prog.run, load_none, save_none]
  rcases b.run none w with ⟨r, w1⟩
  cases r <;> rfl

theorem same_call {n m : Option Name} {b d : Prog V} {k l : V → Prog V} (hb : Same b d) (hk : ∀ v, Same (k v) (l v)) :
    Same (.call n b k) (.call m d l) := by
  intro w
  rw [run_call, run_call, hb w]
  rcases d.run none w with ⟨r, w1⟩
  cases r with
  | error e => rfl
  | ok v => exact hk v w1

theorem same_callName {n m : Except Err (Option Name)} (hn : ∃ x, n = .ok x) (hm : ∃ x, m = .ok x) {b d : Prog V}
    {k l : V → Prog V} (hb : Same b d) (hk : ∀ v, Same (k v) (l v)) : Same (.callName n b k) (.callName m d l) := by
  obtain ⟨x, rfl⟩ := hn
  obtain ⟨y, rfl⟩ := hm
  exact same_call hb hk

theorem result_same {X Y A : Type} {C : Cls} {I : ArgInfo A} {P : Prims X V A} {Q : Prims Y V A}
    {mids : FS V → Path → List (FS V)} {r s : Req A} {o : Obj X} {u : Obj Y}
    (h : Same (metricProg C I P o.ext o.avg o.boot r) (metricProg C I Q u.ext u.avg u.boot s)) (w : World V) :
    result C I P mids r (unsaved o) w = result C I Q mids s (unsaved u) w := by
  rw [result_eq, result_eq, h w]

/-- without a working directory `p` does what `q` does, with `φ` applied to the result -/
def Sim (φ : V → V) (p q : Prog V) : Prop := ∀ w, p.run none w = ((q.run none w).1.map φ, (q.run none w).2)

theorem sim_ret {φ : V → V} {r s : Except Err V} (h : r = s.map φ) : Sim φ (.ret r) (.ret s) := by
  subst h; exact fun _ => rfl

theorem sim_draw {φ : V → V} {k l : Nat → Prog V} (h : ∀ n, Sim φ (k n) (l n)) : Sim φ (.draw k) (.draw l) :=
  fun _ => h _ _

theorem sim_call {φ ψ : V → V} {n m : Option Name} {b d : Prog V} {k l : V → Prog V} (hb : Sim ψ b d)
    (hk : ∀ v, Sim φ (k (ψ v)) (l v)) : Sim φ (.call n b k) (.call m d l) := by
  intro w
  rw [run_call, run_call, hb w]
  rcases d.run none w with ⟨r, w1⟩
  cases r with
  | error e => rfl
  | ok v => exact hk v w1

theorem sim_callName {φ ψ : V → V} {n m : Except Err (Option Name)} (hn : ∃ x, n = .ok x) (hm : ∃ x, m = .ok x)
    {b d : Prog V} {k l : V → Prog V} (hb : Sim ψ b d) (hk : ∀ v, Sim φ (k (ψ v)) (l v)) :
    Sim φ (.callName n b k) (.callName m d l) := by
  obtain ⟨x, rfl⟩ := hn
  obtain ⟨y, rfl⟩ := hm
  exact sim_call hb hk

theorem result_sim {X Y A : Type} {C : Cls} {I : ArgInfo A} {P : Prims X V A} {Q : Prims Y V A}
    {mids : FS V → Path → List (FS V)} {r s : Req A} {o : Obj X} {u : Obj Y} {φ : V → V}
    (h : Sim φ (metricProg C I P o.ext o.avg o.boot r) (metricProg C I Q u.ext u.avg u.boot s)) (w : World V) :
    result C I P mids r (unsaved o) w = (result C I Q mids s (unsaved u) w).map (Option.map φ) := by
  rw [result_eq, result_eq, h w]
  rcases (metricProg C I Q u.ext u.avg u.boot s).run none w with ⟨q, w1⟩
  cases q <;> rfl

end Model
