import Verif.Lemmas.Api
import Verif.Lemmas.History
import Verif.Model.ApiInst
import Verif.Spec.EndToEnd

/-! Evaluation of metric calls of a verifier that does not save its results. -/

set_option linter.unusedSectionVars false

namespace Model
open Np NDArr Spec

section progs
variable {V : Type}

theorem run_call_none (n : Option Name) (body : Prog V) (k : V → Prog V) (w : World V) {v : V} {w1 : World V}
    (h : body.run none w = (.ok v, w1)) : (Prog.call n body k).run none w = (k v).run none w1 := by
  simp only [Prog.run, load_none, save_none, h]

theorem run_call_inv {n : Option Name} {body : Prog V} {k : V → Prog V} {w w2 : World V} {v : V}
    (h : (Prog.call n body k).run none w = (.ok v, w2)) :
    ∃ u w1, body.run none w = (.ok u, w1) ∧ (k u).run none w1 = (.ok v, w2) := by
  simp only [Prog.run, load_none, save_none] at h
  rcases hb : body.run none w with ⟨r, w1⟩
  rw [hb] at h
  cases r with
  | error e => cases h
  | ok u => exact ⟨u, w1, rfl, h⟩

/-- a computation without random numbers leaves the world alone -/
theorem run_det {p : Prog V} (h : Det p) (w w0 : World V) : p.run none w = ((p.run none w0).1, w) := by
  have h1 : (p.run none w).2 = w := by
    induction p generalizing w with
    | ret r => rfl
    | draw k _ => exact h.elim
    | call name body k ihb ihk =>
      simp only [Prog.run, load_none, save_none]
      have hb := ihb h.1 w
      rcases hr : body.run none w with ⟨r, w1⟩
      rw [hr] at hb
      simp only at hb
      subst hb
      cases r with
      | error e => rfl
      | ok v => exact ihk v (h.2 v) _
  have h2 := poss_det h (poss_run_none p w) (poss_run_none p w0)
  rw [← h2]
  exact Prod.ext rfl h1

end progs

section api
variable {X V A : Type} {C : Cls} {I : ArgInfo A} {P : Prims X V A} {mids : FS V → Path → List (FS V)}

theorem result_eq (r : Req A) (o : Obj X) (w : World V) :
    result C I P mids r (unsaved o) w = ((metricProg C I P o.ext o.avg o.boot r).run none w).1.map some := by
  simp only [result, step, unsaved, Obj.wd]
  rcases (metricProg C I P o.ext o.avg o.boot r).run none w with ⟨q, w1⟩
  cases q <;> rfl

/-- the slot is not one of VerifyProb only -/
theorem result_slot {s : Slot A} (hs : s.probOnly = false) {nm : Option Name} (hn : slotName I s = .ok nm)
    {o : Obj X} {w w1 : World V} {v : V}
    (hb : (slotBody C I P o.ext o.avg o.boot s).run none w = (.ok v, w1)) :
    result C I P mids (.slot s) (unsaved o) w = ((slotPost P o.avg o.boot s v).run none w1).1.map some := by
  rw [result_eq]
  simp only [metricProg, hs, Bool.false_eq_true, false_and, if_false, hn, Prog.callName]
  rw [run_call_none _ _ _ _ hb]

/-- a private metric that raises -/
theorem result_slot_error {s : Slot A} (hs : s.probOnly = false) {nm : Option Name} (hn : slotName I s = .ok nm)
    {o : Obj X} {w w1 : World V} {e : Err}
    (hb : (slotBody C I P o.ext o.avg o.boot s).run none w = (.error e, w1)) :
    result C I P mids (.slot s) (unsaved o) w = .error e := by
  rw [result_eq]
  simp only [metricProg, hs, Bool.false_eq_true, false_and, if_false, hn, Prog.callName]
  simp only [Prog.run, load_none, hb]
  rfl

theorem result_slot_inv {s : Slot A} {o : Obj X} {w : World V} {v : V}
    (h : result C I P mids (.slot s) (unsaved o) w = .ok (some v)) :
    ∃ nm u w1 w2, slotName I s = .ok nm ∧ (slotBody C I P o.ext o.avg o.boot s).run none w = (.ok u, w1) ∧
      (slotPost P o.avg o.boot s u).run none w1 = (.ok v, w2) := by
  rw [result_eq] at h
  simp only [metricProg] at h
  split at h
  · cases h
  · cases hn : slotName I s with
    | error e => rw [hn] at h; cases h
    | ok nm =>
      rw [hn] at h
      simp only [Prog.callName] at h
      rcases hr : (Prog.call nm (slotBody C I P o.ext o.avg o.boot s) (slotPost P o.avg o.boot s)).run none w
        with ⟨q, w2⟩
      rw [hr] at h
      cases q with
      | error e => cases h
      | ok u =>
        simp only [Except.map, Except.ok.injEq, Option.some.injEq] at h
        subst h
        obtain ⟨u', w1, h1, h2⟩ := run_call_inv hr
        exact ⟨nm, u', w1, w2, rfl, h1, h2⟩

/-! ### names -/

theorem toName_ok {I : ArgInfo A} {args : List (List Char × Option A)} {ps : Option (List (List Char))}
    (h : nameParts I args = .ok ps) (b : Option (List Char)) : ∃ nm, toName I b args = .ok nm := by
  unfold toName
  split
  · exact ⟨_, rfl⟩
  · simp only
    split
    · exact ⟨_, rfl⟩
    · rw [h]
      cases ps <;> exact ⟨_, rfl⟩

theorem nameParts_of_toName {I : ArgInfo A} {args : List (List Char × Option A)} {b : List Char} {nm : Option Name}
    (hb : (noSpaces b).take 8 ≠ "LITERAL_".toList) (h : toName I (some b) args = .ok nm) :
    ∃ ps, nameParts I args = .ok ps := by
  simp only [toName] at h
  rw [if_neg hb] at h
  cases hp : nameParts I args with
  | error e => rw [hp] at h; cases h
  | ok ps => exact ⟨ps, rfl⟩

theorem tooLong_ok {I : ArgInfo A} {a : A} (h : Printable I a) : ∃ b, tooLong I (some a) = .ok b := by
  simp only [tooLong]
  split
  · rename_i hl
    split
    · exact ⟨_, rfl⟩
    · cases hn : I.len a with
      | none => exact absurd hn (h hl)
      | some n => exact ⟨_, rfl⟩
  · exact ⟨_, rfl⟩

theorem nameParts_cons {I : ArgInfo A} {k : List Char} {v : Option A} {args : List (List Char × Option A)}
    (hv : ∃ b, tooLong I v = .ok b) (h : ∃ ps, nameParts I args = .ok ps) :
    ∃ ps, nameParts I ((k, v) :: args) = .ok ps := by
  obtain ⟨b, hb⟩ := hv
  obtain ⟨ps, hp⟩ := h
  simp only [nameParts, hb]
  cases b with
  | true => exact ⟨_, rfl⟩
  | false => rw [hp]; cases ps <;> exact ⟨_, rfl⟩

/-- the arguments of `over` and `below` can be written -/
theorem obArgs_ok {I : ArgInfo A} {ov be : Option A} (ho : ∀ a, ov = some a → Printable I a)
    (hb : ∀ a, be = some a → Printable I a) : ∃ ps, nameParts I (obArgs ov be) = .ok ps := by
  have aux : ∀ x : Option A, (∀ a, x = some a → Printable I a) → ∃ b, tooLong I x = .ok b := by
    intro x hx
    cases x with
    | none => exact ⟨_, rfl⟩
    | some a => exact tooLong_ok (hx a rfl)
  exact nameParts_cons (aux _ ho) (nameParts_cons (aux _ hb) ⟨_, rfl⟩)

theorem obArgs_of_cdf {I : ArgInfo A} {ov be : Option A} {nm : Option Name} (h : slotName I (.cdf ov be) = .ok nm) :
    ∃ ps, nameParts I (obArgs ov be) = .ok ps :=
  nameParts_of_toName (b := "cdf".toList) (by decide) h

theorem fixed_ok (I : ArgInfo A) (b : Option (List Char)) : ∃ nm, toName I b ([] : List (List Char × Option A)) = .ok nm :=
  toName_ok (ps := some []) rfl b

/-! ### the pieces metrics are made of -/

/-- `f_determ()` returned `v` -/
theorem fDet_runs {o : Obj X} {w0 : World V} {v : V}
    (h : result C I P mids (.slot .fDeterm) (unsaved o) w0 = .ok (some v)) (w : World V) :
    (fDetBody C I P o.ext).run none w = (.ok v, w) := by
  obtain ⟨nm, u, w1, w2, -, h1, h2⟩ := result_slot_inv h
  simp only [slotBody] at h1
  simp only [slotPost, Prog.run, Prod.mk.injEq, Except.ok.injEq] at h2
  rw [run_det (det_fDetBody C I P o.ext) w w0, h1, h2.1]

theorem withDet_run {o : Obj X} {w0 : World V} {v : V}
    (h : result C I P mids (.slot .fDeterm) (unsaved o) w0 = .ok (some v)) (g : V → Except Err V) (w : World V) :
    (withDet C I P o.ext g).run none w = (g v, w) := by
  have hr := fDet_runs h
  obtain ⟨nm, hn⟩ := fixed_ok I (some "f_determ".toList)
  have hcall : (fDetCall C I P o.ext fun v => .ret (g v)).run none w = (g v, w) := by
    have hn' : slotName I (.fDeterm : Slot A) = .ok nm := hn
    simp only [fDetCall, hn', Prog.callName]
    rw [run_call_none _ _ _ _ (hr w)]
    rfl
  cases C <;> first
    | exact hcall
    | (have := hr w
       simp only [fDetBody, Prog.run, Prod.mk.injEq, and_true] at this
       simp only [withDet, Prog.run, this]
       rfl)

theorem fDetCall_run {o : Obj X} {w0 : World V} {v : V}
    (h : result C I P mids (.slot .fDeterm) (unsaved o) w0 = .ok (some v)) (k : V → Prog V) (w : World V) :
    (fDetCall C I P o.ext k).run none w = (k v).run none w := by
  obtain ⟨nm, hn⟩ := fixed_ok I (some "f_determ".toList)
  have hn' : slotName I (.fDeterm : Slot A) = .ok nm := hn
  simp only [fDetCall, hn', Prog.callName]
  rw [run_call_none _ _ _ _ (fDet_runs h w)]

/-- `cdf(over, below)` returned `v` -/
theorem cdf_runs {o : Obj X} {ov be : Option A} {w0 : World V} {v : V}
    (h : result C I P mids (.slot (.cdf ov be)) (unsaved o) w0 = .ok (some v)) :
    C ≠ .determ ∧ (∃ nm, slotName I (.cdf ov be) = .ok nm) ∧
      ∀ w, (cdfBody C I P o.ext ov be).run none w = (.ok v, w) := by
  obtain ⟨nm, u, w1, w2, hn, h1, h2⟩ := result_slot_inv h
  simp only [slotBody] at h1
  simp only [slotPost, Prog.run, Prod.mk.injEq, Except.ok.injEq] at h2
  refine ⟨?_, ⟨nm, hn⟩, fun w => by rw [run_det (det_cdfBody C I P o.ext ov be) w w0, h1, h2.1]⟩
  rintro rfl
  simp [cdfBody, Prog.run] at h1

theorem cdfCall_run {o : Obj X} {ov be : Option A} {w0 : World V} {v : V}
    (h : result C I P mids (.slot (.cdf ov be)) (unsaved o) w0 = .ok (some v)) (k : V → Prog V) (w : World V) :
    (cdfCall C I P o.ext ov be k).run none w = (k v).run none w := by
  obtain ⟨-, ⟨nm, hn⟩, hr⟩ := cdf_runs h
  simp only [cdfCall, hn, Prog.callName]
  rw [run_call_none _ _ _ _ (hr w)]

theorem withProb_run {o : Obj X} {ov be : Option A} {w0 : World V} {v ob : V}
    (h : result C I P mids (.slot (.cdf ov be)) (unsaved o) w0 = .ok (some v))
    (hob : P.binarize o.ext ov be = .ok ob) (k : V → V → Prog V) (w : World V) :
    (withProb C I P o.ext ov be k).run none w = (k v ob).run none w := by
  simp only [withProb, if_neg (cdf_runs h).1]
  rw [cdfCall_run h]
  simp only [hob]

theorem brierBody_run {o : Obj X} {ov be : Option A} {w0 : World V} {v ob : V}
    (h : result C I P mids (.slot (.cdf ov be)) (unsaved o) w0 = .ok (some v))
    (hob : P.binarize o.ext ov be = .ok ob) (w : World V) :
    (brierBody C I P o.ext ov be).run none w = (P.brierOf v ob, w) := by
  simp only [brierBody, if_neg (cdf_runs h).1]
  rw [cdfCall_run h]
  simp only [hob, Prog.run]
  rfl

/-- `variance()` returned `v` -/
theorem var_runs {o : Obj X} {w0 : World V} {v : V}
    (h : result C I P mids (.slot .variance) (unsaved o) w0 = .ok (some v)) :
    C ≠ .determ ∧ ∀ w, (varBody C I P o.ext).run none w = (.ok v, w) := by
  obtain ⟨nm, u, w1, w2, -, h1, h2⟩ := result_slot_inv h
  simp only [slotBody] at h1
  simp only [slotPost, Prog.run, Prod.mk.injEq, Except.ok.injEq] at h2
  refine ⟨?_, fun w => by rw [run_det (det_varBody C I P o.ext) w w0, h1, h2.1]⟩
  rintro rfl
  simp [varBody, Prog.run] at h1

end api

/-! ### the shared numerical functions -/

variable {K : Type} [Field K] [LinearOrder K] [FloorSemiring K] {A X : Type}

/-- the fields of a class that come from `basePrims` -/
structure Shared (c : Cfg K) (obs : X → NDArr (Fl K)) (emb : A → Arg K) (P : Prims X (PyVal K) A) : Prop where
  errorOf : P.errorOf = (basePrims c obs emb).errorOf
  sqErrorOf : P.sqErrorOf = (basePrims c obs emb).sqErrorOf
  abErrorOf : P.abErrorOf = (basePrims c obs emb).abErrorOf
  oneMinus : P.oneMinus = (basePrims c obs emb).oneMinus
  binarize : P.binarize = (basePrims c obs emb).binarize
  brierOf : P.brierOf = (basePrims c obs emb).brierOf
  rocOf : P.rocOf = (basePrims c obs emb).rocOf
  iouDeterm : P.iouDeterm = (basePrims c obs emb).iouDeterm
  iouProb : P.iouProb = (basePrims c obs emb).iouProb
  relSplit : P.relSplit = (basePrims c obs emb).relSplit
  relAgg : P.relAgg = (basePrims c obs emb).relAgg
  relBoot : P.relBoot = (basePrims c obs emb).relBoot
  ssSplit : P.ssSplit = (basePrims c obs emb).ssSplit
  ssAgg : P.ssAgg = (basePrims c obs emb).ssAgg
  ssBoot : P.ssBoot = (basePrims c obs emb).ssBoot
  avg : P.avg = (basePrims c obs emb).avg
  bootArr : P.bootArr = (basePrims c obs emb).bootArr
  corr : P.corr = (basePrims c obs emb).corr
  corrBoot : P.corrBoot = (basePrims c obs emb).corrBoot
  brierDecomp : P.brierDecomp = (basePrims c obs emb).brierDecomp
  brierDecompBoot : P.brierDecompBoot = (basePrims c obs emb).brierDecompBoot
  sqrt : P.sqrt = (basePrims c obs emb).sqrt

theorem shared_det (c : Cfg K) (emb : A → Arg K) : Shared c DetX.o emb (detPrims c emb) := by
  constructor <;> rfl

theorem shared_ens (c : Cfg K) (emb : A → Arg K) : Shared c EnsX.o emb (ensPrims c emb) := by
  constructor <;> rfl

variable {c : Cfg K} {obs : X → NDArr (Fl K)} {emb : A → Arg K} {P : Prims X (PyVal K) A}

/-- averaging -/
theorem avg_run (hP : Shared c obs emb P) {o : Obj X} {axes : Option (List Int)} (hb : o.boot = .none)
    (hax : axisArg o.avg = .ok axes) (m : NDArr (Fl K)) (g : PyVal K → Except Err (PyVal K)) (w : World (PyVal K)) :
    (bootOrAvgP P o.avg o.boot g (.num m)).run none w =
      ((bootOrAvg c.skipNan axes none c.reps c.conf (c.rng 0 0) m).map PyVal.num >>= g, w) := by
  simp only [bootOrAvgP, hb, if_true, Prog.run, hP.avg, basePrims, hax, PyVal.asNum, bind, Except.bind]
  cases bootOrAvg c.skipNan axes none c.reps c.conf (c.rng 0 0) m <;> rfl

/-- bootstrapping -/
theorem boot_run (hP : Shared c obs emb P) {o : Obj X} {axes : Option (List Int)} {n : Nat} (hb : o.boot = .int n)
    (hax : axisArg o.avg = .ok axes) (m : NDArr (Fl K)) (g : PyVal K → Except Err (PyVal K)) (w : World (PyVal K)) :
    ((bootOrAvgP P o.avg o.boot g (.num m)).run none w).1 =
      ((bootOrAvg c.skipNan axes (some n) c.reps c.conf (c.rng (w.seed w.pos) 0) m).map PyVal.num >>= g) := by
  have hn : bootArg (.int (n : Int)) = .ok n := by
    simp [bootArg]
  simp only [bootOrAvgP, hb, reduceCtorEq, if_false, Prog.run, hP.bootArr, basePrims, hax, PyVal.asNum, bind,
    Except.bind, hn]
  cases bootOrAvg c.skipNan axes (some n) c.reps c.conf (c.rng (w.seed w.pos) 0) m <;> rfl

end Model
