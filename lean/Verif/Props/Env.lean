import Verif.Lemmas.Env
import Verif.Props.EndToEndClasses

/-!
# Results are for the data and the environment in force: C86
-/

set_option linter.unusedSectionVars false

namespace Props
open Np Model Spec

variable {X V A E : Type}

/-! ### without saving -/

theorem dir_runEnv (C : Cls) (I : ArgInfo A) (P : E → Prims X V A) (mids : FS V → Path → List (FS V))
    (l : List (E × Op X A)) {o : Obj X} (w : World V) (ho : o.dir = .none) (hl : ∀ p ∈ l, NoSaving p.2) :
    (runEnv C I P mids l o w).1.dir = .none := by
  induction l generalizing o w with
  | nil => exact ho
  | cons p l ih =>
    obtain ⟨e, op⟩ := p
    refine ih _ ?_ fun p hp => hl p (by simp [hp])
    have aux : ∀ o2 : Obj X, o2.dir = .none → (match validate (P e) mids o2 w with
        | (.error e, o1, w1) => ((.error e : Except Err (Option V)), o1, w1)
        | (.ok _, o1, w1) => (.ok none, o1, w1)).2.1.dir = .none := by
      intro o2 h2
      obtain ⟨-, -, v3, -⟩ := validate_any (P e) mids o2 w
      rcases hv : validate (P e) mids o2 w with ⟨r, o1, w1⟩
      rw [hv] at v3
      cases r <;> exact v3.trans h2
    cases op with
    | metric r =>
      simp only [step]
      split <;> exact ho
    | setAvg a => exact aux _ ho
    | setBoot b => exact aux _ ho
    | setExt g => exact aux _ ho
    | enableSaving d s => exact aux _ (hl (e, .enableSaving d s) (by simp))
    | disableBoot => exact ho
    | disableSaving => rfl

/-- Without saving every environment variable takes effect on the next call: whatever calls were made under whatever
environments (they may change everything the library computes), a metric call gives what it gives on a verifier with
these settings under the environment at that moment, and does not look at files. -/
theorem C86_unsaved (C : Cls) (I : ArgInfo A) (P : E → Prims X V A) (mids : FS V → Path → List (FS V))
    (l : List (E × Op X A)) {o : Obj X} (w : World V) (ho : o.dir = .none) (hl : ∀ p ∈ l, NoSaving p.2) (e : E)
    (r : Req A) (fs : FS V) :
    result C I (P e) mids r (runEnv C I P mids l o w).1 (runEnv C I P mids l o w).2 =
      result C I (P e) mids r (unsaved (runEnv C I P mids l o w).1) { (runEnv C I P mids l o w).2 with fs := fs } := by
  have hd := dir_runEnv C I P mids l w ho hl
  generalize runEnv C I P mids l o w = s at hd
  obtain ⟨⟨oa, ob, od, os, ox⟩, w'⟩ := s
  cases hd
  simp only [result, step, unsaved, Obj.wd]
  have key : ∀ (p : Prog V) (w : World V), (p.run none w).1 = (p.run none { w with fs := fs }).1 ∧
      (p.run none w).2.pos = (p.run none { w with fs := fs }).2.pos := by
    intro p
    induction p with
    | ret r => exact fun w => ⟨rfl, rfl⟩
    | draw k ih => exact fun w => ih _ { w with pos := w.pos + 1 }
    | call name body k ihb ihk =>
      intro w
      simp only [Prog.run, load_none, save_none]
      obtain ⟨h1, h2⟩ := ihb w
      have hf := run_none_fs body w
      have hf' := run_none_fs body { w with fs := fs }
      rcases h : body.run none w with ⟨q, u⟩
      rcases h' : body.run none { w with fs := fs } with ⟨q', u'⟩
      rw [h, h'] at h1 h2
      rw [h] at hf
      rw [h'] at hf'
      simp only at h1 h2 hf hf'
      subst h1
      cases q with
      | error e => exact ⟨rfl, h2⟩
      | ok v =>
        simp only
        have : u' = { u with fs := fs } := by
          obtain ⟨uf, us, up, ut⟩ := u
          obtain ⟨uf', us', up', ut'⟩ := u'
          simp only at hf hf' h2
          obtain ⟨-, hf2, hf3⟩ := hf
          obtain ⟨hg1, hg2, hg3⟩ := hf'
          simp only [hg1, hf2, hf3, hg2, hg3, h2]
        rw [this]
        exact ihk v u
  have := (key (metricProg C I (P e) ox oa ob r) w').1
  rcases h1 : (metricProg C I (P e) ox oa ob r).run none w' with ⟨q, u⟩
  rcases h2 : (metricProg C I (P e) ox oa ob r).run none { w' with fs := fs } with ⟨q', u'⟩
  rw [h1, h2] at this
  simp only at this
  subst this
  cases q <;> rfl

/-! ### with saving -/

section classes
variable {K : Type} [Field K] [LinearOrder K] [IsStrictOrderedRing K] [FloorSemiring K]
variable (c : Cfg K) {I : ArgInfo A} (hI : TextOK I) (F : ProbFns K) (emb : A → Arg K)
  {mids : FS (PyVal K) → Path → List (FS (PyVal K))} (hm : Deletion mids) {e0 e : EnvVars K} {w0 w : World (PyVal K)}
  (hw : WellFormed w0.fs)
include hI hm hw

/-- Deterministic verifiers with saving, starting from scratch: changes of `pyanen_skip_nan`, `pyanen_boot_repeats` and
`pyanen_boot_confidence` take effect on the next call of every metric. -/
theorem C86_det {oi o : Obj (DetX K)} (hs : oi.scratch = some true) (hd : DirOk oi.dir)
    (hc : construct (detPrims (inEnv c e0) emb) mids oi w0 = (.ok o, w)) (l : List (EnvVars K × Op (DetX K) A))
    (hops : ∀ p ∈ l, FromScratch p.2)
    (hr : EnvSettersReturn .determ I (fun e => detPrims (inEnv c e) emb) mids l o w) (r : Req A) :
    let s := runEnv .determ I (fun e => detPrims (inEnv c e) emb) mids l o w
    Correct .determ I (detPrims (inEnv c e) emb) mids r s.1 (result .determ I (detPrims (inEnv c e) emb) mids r s.1 s.2) :=
  late_correct hI .determ (fun e => detPrims (inEnv c e) emb) hm hw hs hd hc l hops hr r
    (Or.inl ⟨fun e' => det_lateNaN c emb e e', Or.inr rfl⟩)

/-- Ensembles: the same for all metrics except `spread`, `rank_hist` and `roc`; for these as long as
`pyanen_skip_nan` keeps its value. -/
theorem C86_ens_partial {oi o : Obj (EnsX K)} (hs : oi.scratch = some true) (hd : DirOk oi.dir)
    (hc : construct (ensPrims (inEnv c e0) emb) mids oi w0 = (.ok o, w)) (l : List (EnvVars K × Op (EnsX K) A))
    (hops : ∀ p ∈ l, FromScratch p.2)
    (hr : EnvSettersReturn .ensemble I (fun e => ensPrims (inEnv c e) emb) mids l o w) (r : Req A)
    (h : NaNsLast r ∨ ∀ p ∈ l, p.1.skipNan = e.skipNan) :
    let s := runEnv .ensemble I (fun e => ensPrims (inEnv c e) emb) mids l o w
    Correct .ensemble I (ensPrims (inEnv c e) emb) mids r s.1
      (result .ensemble I (ensPrims (inEnv c e) emb) mids r s.1 s.2) :=
  late_correct hI .ensemble (fun e => ensPrims (inEnv c e) emb) hm hw hs hd hc l hops hr r
    (h.imp (fun h => ⟨fun e' => ens_lateNaN c emb e e', Or.inl h⟩) fun h p hp => ens_late c emb e p.1 (h p hp))

/-- The same for Gaussian forecasts. -/
theorem C86_gaussian_partial {oi o : Obj (ProbX K)} (hs : oi.scratch = some true) (hd : DirOk oi.dir)
    (hc : construct (gaussPrims (inEnv c e0) F emb) mids oi w0 = (.ok o, w)) (l : List (EnvVars K × Op (ProbX K) A))
    (hops : ∀ p ∈ l, FromScratch p.2)
    (hr : EnvSettersReturn .gaussian I (fun e => gaussPrims (inEnv c e) F emb) mids l o w) (r : Req A)
    (h : NaNsLast r ∨ ∀ p ∈ l, p.1.skipNan = e.skipNan) :
    let s := runEnv .gaussian I (fun e => gaussPrims (inEnv c e) F emb) mids l o w
    Correct .gaussian I (gaussPrims (inEnv c e) F emb) mids r s.1
      (result .gaussian I (gaussPrims (inEnv c e) F emb) mids r s.1 s.2) :=
  late_correct hI .gaussian (fun e => gaussPrims (inEnv c e) F emb) hm hw hs hd hc l hops hr r
    (h.imp (fun h => ⟨fun e' => gauss_lateNaN c F emb e e', Or.inl h⟩) fun h p hp => gauss_late c F emb e p.1 (h p hp))

/-- The same for gamma forecasts. -/
theorem C86_gamma_partial {oi o : Obj (ProbX K)} (hs : oi.scratch = some true) (hd : DirOk oi.dir)
    (hc : construct (gammaPrims (inEnv c e0) F emb) mids oi w0 = (.ok o, w)) (l : List (EnvVars K × Op (ProbX K) A))
    (hops : ∀ p ∈ l, FromScratch p.2)
    (hr : EnvSettersReturn .gamma I (fun e => gammaPrims (inEnv c e) F emb) mids l o w) (r : Req A)
    (h : NaNsLast r ∨ ∀ p ∈ l, p.1.skipNan = e.skipNan) :
    let s := runEnv .gamma I (fun e => gammaPrims (inEnv c e) F emb) mids l o w
    Correct .gamma I (gammaPrims (inEnv c e) F emb) mids r s.1
      (result .gamma I (gammaPrims (inEnv c e) F emb) mids r s.1 s.2) :=
  late_correct hI .gamma (fun e => gammaPrims (inEnv c e) F emb) hm hw hs hd hc l hops hr r
    (h.imp (fun h => ⟨fun e' => gamma_lateNaN c F emb e e', Or.inl h⟩) fun h p hp => gamma_late c F emb e p.1 (h p hp))

/-- The same for hurdle forecasts. -/
theorem C86_hurdle_partial (ofNum : K → A) {oi o : Obj (ProbX K)} (hs : oi.scratch = some true) (hd : DirOk oi.dir)
    (hc : construct (hurdlePrims (inEnv c e0) F emb ofNum) mids oi w0 = (.ok o, w))
    (l : List (EnvVars K × Op (ProbX K) A)) (hops : ∀ p ∈ l, FromScratch p.2)
    (hr : EnvSettersReturn .hurdle I (fun e => hurdlePrims (inEnv c e) F emb ofNum) mids l o w) (r : Req A)
    (h : NaNsLast r ∨ ∀ p ∈ l, p.1.skipNan = e.skipNan) :
    let s := runEnv .hurdle I (fun e => hurdlePrims (inEnv c e) F emb ofNum) mids l o w
    Correct .hurdle I (hurdlePrims (inEnv c e) F emb ofNum) mids r s.1
      (result .hurdle I (hurdlePrims (inEnv c e) F emb ofNum) mids r s.1 s.2) :=
  late_correct hI .hurdle (fun e => hurdlePrims (inEnv c e) F emb ofNum) hm hw hs hd hc l hops hr r
    (h.imp (fun h => ⟨fun e' => hurdle_lateNaN c F emb ofNum e e', Or.inl h⟩)
      fun h p hp => hurdle_late c F emb ofNum e p.1 (h p hp))

end classes

/-! ### cases -/

/-- strict and skipping environments -/
def envStrict : EnvVars ℚ := ⟨false, 1, 19 / 20⟩
def envSkip : EnvVars ℚ := ⟨true, 1, 19 / 20⟩

/-- two members at two positions, one missing -/
def ensGap : EnsX ℚ :=
  ⟨⟨[2, 2], [some 1, none, some 3, some 5], rfl⟩, ⟨[2], [some 2, some 2], rfl⟩, some 0, member 0, none⟩

def ensGapO : Obj (EnsX ℚ) := ⟨.none, .none, .path dirW, some true, ensGap⟩

/-- an error computed under the strict environment, then averaged under the skipping one -/
example : ∃ (o : Obj (EnsX ℚ)) (w : World (PyVal ℚ)),
    construct (ensPrims (inEnv cfg0 envStrict) embInt) noMids ensGapO world0 = (.ok o, w) ∧
    numOf (result .ensemble intInfo (ensPrims (inEnv cfg0 envStrict) embInt) noMids (.slot .error) o w) =
      some ([], [none]) ∧
    let s := runEnv .ensemble intInfo (fun e => ensPrims (inEnv cfg0 e) embInt) noMids
      [(envStrict, .metric (.slot .error))] o w
    numOf (result .ensemble intInfo (ensPrims (inEnv cfg0 envSkip) embInt) noMids (.slot .error) s.1 s.2) =
      some ([], [some (-1)]) :=
  ⟨_, _, rfl, by decide +kernel, by decide +kernel⟩

/-- False with saving, also when starting from scratch: the spread computed under the strict environment is stored
with the missing value in it; after `pyanen_skip_nan` is switched on the stored one is averaged and the mean spread is
2, while without saving it is 1. -/
theorem C86_false : ∃ (o : Obj (EnsX ℚ)) (w : World (PyVal ℚ)),
    construct (ensPrims (inEnv cfg0 envStrict) embInt) noMids ensGapO world0 = (.ok o, w) ∧
    let s := runEnv .ensemble intInfo (fun e => ensPrims (inEnv cfg0 e) embInt) noMids
      [(envStrict, .metric (.slot .spread))] o w
    numOf (result .ensemble intInfo (ensPrims (inEnv cfg0 envSkip) embInt) noMids (.slot .spread) s.1 s.2) =
      some ([], [some 2]) ∧
    ∀ w', numOf (result .ensemble intInfo (ensPrims (inEnv cfg0 envSkip) embInt) noMids (.slot .spread)
      (unsaved s.1) w') = some ([], [some 1]) := by
  refine ⟨_, _, rfl, by decide +kernel, ?_⟩
  intro w'
  rw [C43_which .ensemble intInfo _ noMids _ (.slot .spread) rfl (Or.inr rfl) w' world0]
  decide +kernel

/-! ### data -/

/-- Reusing a directory for other data, when each verifier starts from scratch: whatever a first verifier did, the
results of the second are those of its own data. -/
theorem C86_data (C : Cls) {I : ArgInfo A} (hI : TextOK I) (P : Prims X V A)
    {mids : FS V → Path → List (FS V)} (hm : Deletion mids) {oi oi' o o' : Obj X} {w0 w w' : World V}
    (hw : WellFormed w0.fs) (ht : w0.trace = []) (hd : DirOk oi.dir) (hc : construct P mids oi w0 = (.ok o, w))
    (ops : List (Op X A)) (hops : ∀ op ∈ ops, OpDirOk op)
    (hs' : oi'.scratch = some true) (hd' : DirOk oi'.dir)
    (hc' : construct P mids oi' (runOps C I P mids ops o w).2 = (.ok o', w')) (r : Req A) :
    Correct C I P mids r o' (result C I P mids r o' w') := by
  have h1 : WellFormed w.fs ∧ DirOk o.dir ∧ ∀ fs ∈ w.trace, WellFormed fs := by
    unfold construct at hc
    split at hc
    · cases hc
    · rename_i u o1 w1 hv
      split at hc
      · cases hc
      · rename_i x hx
        simp only [Prod.mk.injEq, Except.ok.injEq] at hc
        obtain ⟨rfl, rfl⟩ := hc
        obtain ⟨-, -, v3, -⟩ := validate_any P mids oi w0
        obtain ⟨t1, t2⟩ := wf_validate P hm oi hd w0 hw
        rw [hv] at t1 t2 v3
        exact ⟨t1, by simp only at v3 ⊢; rw [v3]; exact hd, t2 (by simp [ht])⟩
  have h2 := (wf_runOps C I P hm ops h1.2.1 h1.1 h1.2.2 hops).1
  exact C43_transparent C hI P hm h2 hs' hd' hc' [] (by simp) trivial r

/-- Without starting from scratch this is false: the second verifier, with a perfect forecast, reports the squared
error of the first. -/
theorem C86_data_false : ∃ (o o' : Obj (DetX ℚ)) (w w' : World (PyVal ℚ)),
    construct detP noMids ⟨.none, .none, .path dirW, some false,
      ⟨⟨[2], [some 1, some 5], rfl⟩, ⟨[2], [some 1, some 1], rfl⟩⟩⟩ world0 = (.ok o, w) ∧
    construct detP noMids ⟨.none, .none, .path dirW, some false,
      ⟨⟨[2], [some 1, some 1], rfl⟩, ⟨[2], [some 1, some 1], rfl⟩⟩⟩
      (runOps .determ intInfo detP noMids [.metric (.slot .sqError)] o w).2 = (.ok o', w') ∧
    numOf (result .determ intInfo detP noMids (.slot .sqError) o' w') = some ([], [some 8]) ∧
    ∀ u, numOf (result .determ intInfo detP noMids (.slot .sqError) (unsaved o') u) = some ([], [some 0]) := by
  refine ⟨_, _, _, _, rfl, rfl, by decide +kernel, ?_⟩
  intro u
  rw [C43_which .determ intInfo _ noMids _ (.slot .sqError) rfl trivial u world0]
  decide +kernel

end Props
