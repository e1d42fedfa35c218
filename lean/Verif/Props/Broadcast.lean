import Verif.Lemmas.Broadcast
import Verif.Props.EndToEndProbCase
import Verif.Lemmas.Shuffle

/-!
# Thresholds of another shape than the data: C94; `iou_prob`: C75
-/

set_option linter.unusedSectionVars false

namespace Props
open Np NDArr Spec Model Lemmas

variable {K : Type} [Field K] [LinearOrder K] [IsStrictOrderedRing K] [FloorSemiring K]
variable {A X : Type} {C : Cls} {I : ArgInfo A} {P : Prims X (PyVal K) A}
  {mids : FS (PyVal K) → Path → List (FS (PyVal K))} {c : Cfg K} {obs : X → NDArr (Fl K)} {emb : A → Arg K}

/-! ### C94 -/

theorem cmpThr_repeats (cmp : Fl K → Fl K → Bool) {o a e : NDArr (Fl K)} (hf : FitsInto a.shape o.shape)
    (h : Repeats a e o.shape) : cmpThr cmp o (.array a) = cmpThr cmp o (.array e) :=
  zipWith_repeats cmp hf h

/-- **C94**, `utils_verify.iou_determ`: a threshold array of fewer or shorter axes (one value per location, say) acts like
the array of the full shape that repeats it. -/
theorem C94_iou {f o a e : NDArr (Fl K)} (hsh : f.shape = o.shape) (hf : FitsInto a.shape f.shape)
    (h : Repeats a e f.shape) (axis : Option (List Int)) :
    iouDeterm f o axis (some (.array a)) none = iouDeterm f o axis (some (.array e)) none ∧
    iouDeterm f o axis none (some (.array a)) = iouDeterm f o axis none (some (.array e)) := by
  have hf' : FitsInto a.shape o.shape := hsh ▸ hf
  have h' : Repeats a e o.shape := hsh ▸ h
  unfold iouDeterm
  simp only [if_pos hsh, cmpThr_repeats _ hf h, cmpThr_repeats _ hf' h', and_self]

theorem cmpThr_grown (cmp : Fl K → Fl K → Bool) {o oe a : NDArr (Fl K)} (hf : FitsInto o.shape a.shape)
    (h : Repeats o oe a.shape) : cmpThr cmp o (.array a) = cmpThr cmp oe (.array a) := by
  simp only [cmpThr]
  rw [zipWith_swap, zipWith_swap cmp oe a]
  exact zipWith_repeats _ hf h

/-- **C94**, larger thresholds are not refused either: forecasts and observations are then repeated. -/
theorem C94_iou_larger {f o fe oe a : NDArr (Fl K)} (hsh : f.shape = o.shape) (hf : FitsInto f.shape a.shape)
    (h1 : Repeats f fe a.shape) (h2 : Repeats o oe a.shape) (axis : Option (List Int)) :
    iouDeterm f o axis (some (.array a)) none = iouDeterm fe oe axis (some (.array a)) none ∧
    iouDeterm f o axis none (some (.array a)) = iouDeterm fe oe axis none (some (.array a)) := by
  have hf' : FitsInto o.shape a.shape := hsh ▸ hf
  unfold iouDeterm
  simp only [if_pos hsh, if_pos (h1.1.trans h2.1.symm), cmpThr_grown _ hf h1, cmpThr_grown _ hf' h2, and_self]

/-- a public metric whose body has an outcome -/
theorem result_body {s : Slot A} (hs : s.probOnly = false) {nm : Option Name} (hn : slotName I s = .ok nm)
    {o : Obj X} {w w1 : World (PyVal K)} {r : Except Err (PyVal K)}
    (hb : (slotBody C I P o.ext o.avg o.boot s).run none w = (r, w1)) :
    result C I P mids (.slot s) (unsaved o) w =
      r.bind fun v => ((slotPost P o.avg o.boot s v).run none w1).1.map some := by
  cases r with
  | ok v => exact result_slot hs hn hb
  | error e => exact result_slot_error hs hn hb

/-- **C94**, any class: `iou_determ(over=..)` and `iou_determ(below=..)` with a threshold array that fits into the data
return the same, errors included, as with the repeated threshold array. -/
theorem C94_iou_determ (hP : Shared c obs emb P) {o : Obj X} {t u : A} (ht : Printable I t) (hu : Printable I u)
    {a e : NDArr (Fl K)} (hta : emb t = .thr (.array a)) (hue : emb u = .thr (.array e)) (isOver : Bool)
    {w0 : World (PyVal K)} {f : NDArr (Fl K)}
    (hf : result C I P mids (.slot .fDeterm) (unsaved o) w0 = .ok (some (.num f)))
    (hsh : f.shape = (obs o.ext).shape) (hfit : FitsInto a.shape f.shape) (hrep : Repeats a e f.shape)
    (w : World (PyVal K)) :
    result C I P mids (.slot (.iouDeterm (overArg isOver t) (belowArg isOver t))) (unsaved o) w =
      result C I P mids (.slot (.iouDeterm (overArg isOver u) (belowArg isOver u))) (unsaved o) w := by
  have main : ∀ {x : A} {b : NDArr (Fl K)}, Printable I x → emb x = .thr (.array b) →
      result C I P mids (.slot (.iouDeterm (overArg isOver x) (belowArg isOver x))) (unsaved o) w =
        (axisArg o.avg).bind fun ax => (iouDeterm f (obs o.ext) ax (if isOver then some (.array b) else none)
          (if isOver then none else some (.array b))).map fun r => some (.num r) := by
    intro x b hx hemb
    obtain ⟨ps, hps⟩ := obArgs_ok (I := I) (ov := overArg isOver x) (be := belowArg isOver x)
      (by intro b hb; cases isOver <;> simp [overArg] at hb; subst hb; exact hx)
      (by intro b hb; cases isOver <;> simp [belowArg] at hb; subst hb; exact hx)
    obtain ⟨nm', hn'⟩ := toName_ok hps (some "iou_determ".toList)
    have hbody : (slotBody C I P o.ext o.avg o.boot (.iouDeterm (overArg isOver x) (belowArg isOver x))).run none w =
        ((axisArg o.avg).bind fun ax => (iouDeterm f (obs o.ext) ax (if isOver then some (.array b) else none)
          (if isOver then none else some (.array b))).map PyVal.num, w) := by
      simp only [slotBody]
      rw [withDet_run hf]
      have hx : xorGiven (overArg isOver x) (belowArg isOver x) = true := by cases isOver <;> rfl
      rw [if_pos hx, hP.iouDeterm]
      have ho : optThr ((overArg isOver x).map emb) = .ok (if isOver then some (.array b) else none) := by
        cases isOver <;> simp [overArg, optThr, hemb, Arg.asThr]
      have hbe : optThr ((belowArg isOver x).map emb) = .ok (if isOver then none else some (.array b)) := by
        cases isOver <;> simp [belowArg, optThr, hemb, Arg.asThr]
      simp only [basePrims, PyVal.asNum, ho, hbe, bind, Except.bind]
      cases axisArg o.avg with
      | error e => rfl
      | ok ax =>
        simp only
        cases iouDeterm f (obs o.ext) ax (if isOver then some (.array b) else none)
          (if isOver then none else some (.array b)) <;> rfl
    rw [result_body (s := .iouDeterm (overArg isOver x) (belowArg isOver x)) rfl hn' hbody]
    cases axisArg o.avg with
    | error e => rfl
    | ok ax =>
      simp only [Except.bind]
      cases iouDeterm f (obs o.ext) ax (if isOver then some (.array b) else none)
        (if isOver then none else some (.array b)) <;> rfl
  rw [main ht hta, main hu hue]
  congr 1
  funext ax
  obtain ⟨h1, h2⟩ := C94_iou hsh hfit hrep ax
  cases isOver
  · simp only [Bool.false_eq_true, if_false, h2]
  · simp only [if_true, h1]

/-- the metrics of a probability: what they do when `cdf` raises -/
theorem cdf_fails (hC : C ≠ .determ) {o : Obj X} {t nb : A} (ht : Printable I t) (hnb : Printable I nb) {e : Err}
    (he : P.cdfBelow o.ext t = .error e) (isOver : Bool) (w : World (PyVal K)) :
    ∀ s ∈ [Slot.cdf (overArg isOver t) (belowArg isOver t), .sharpness (overArg isOver t) (belowArg isOver t),
      .brier (overArg isOver t) (belowArg isOver t), .brierDecomp (overArg isOver t) (belowArg isOver t),
      .roc (overArg isOver t) (belowArg isOver t), .reliability nb (overArg isOver t) (belowArg isOver t)],
      result C I P mids (.slot s) (unsaved o) w = .error e := by
  have hob : ∀ ov : Bool, ∃ ps, nameParts I (obArgs (overArg ov t) (belowArg ov t)) = .ok ps := fun ov =>
    obArgs_ok (by intro b hb; cases ov <;> simp [overArg] at hb; subst hb; exact ht)
      (by intro b hb; cases ov <;> simp [belowArg] at hb; subst hb; exact ht)
  have hbody : ∀ w, (cdfBody C I P o.ext (overArg isOver t) (belowArg isOver t)).run none w = (.error e, w) := by
    intro w
    cases isOver with
    | false => simp only [cdfBody, if_neg hC, overArg, belowArg, Bool.false_eq_true, if_false, he, Prog.run]
    | true =>
      obtain ⟨ps, hps⟩ := hob false
      obtain ⟨nm, hn⟩ := toName_ok hps (some "cdf".toList)
      have hn' : slotName I (.cdf none (some t)) = .ok nm := hn
      simp only [cdfBody, if_neg hC, overArg, belowArg, if_true, hn', Prog.callName, he, Prog.run, load_none]
  obtain ⟨ps, hps⟩ := hob isOver
  obtain ⟨nm, hn⟩ := toName_ok hps (some "cdf".toList)
  have hn' : slotName I (.cdf (overArg isOver t) (belowArg isOver t)) = .ok nm := hn
  have hcall : ∀ (k : PyVal K → Prog (PyVal K)) w, (cdfCall C I P o.ext (overArg isOver t) (belowArg isOver t) k).run none w =
      (.error e, w) := by
    intro k w
    simp only [cdfCall, hn', Prog.callName, Prog.run, load_none, hbody]
  have hw : ∀ (k : PyVal K → PyVal K → Prog (PyVal K)) w,
      (withProb C I P o.ext (overArg isOver t) (belowArg isOver t) k).run none w = (.error e, w) := by
    intro k w
    simp only [withProb, if_neg hC, hcall]
  have hrel := nameParts_cons (k := "nbins".toList) (Model.tooLong_ok hnb) ⟨ps, hps⟩
  obtain ⟨qs, hqs⟩ := hrel
  intro s hs
  simp only [List.mem_cons, List.not_mem_nil, or_false] at hs
  rcases hs with rfl | rfl | rfl | rfl | rfl | rfl
  · exact result_slot_error rfl hn' (hbody w)
  · obtain ⟨nm1, h1⟩ := toName_ok hps (some "sharpness".toList)
    exact result_slot_error (s := .sharpness _ _) rfl h1 (by simp only [slotBody, if_neg hC]; exact hcall _ w)
  · obtain ⟨nm1, h1⟩ := toName_ok hps (some "brier".toList)
    exact result_slot_error (s := .brier _ _) rfl h1 (by simp only [slotBody, brierBody, if_neg hC]; exact hcall _ w)
  · obtain ⟨nm1, h1⟩ := toName_ok hps none
    exact result_slot_error (s := .brierDecomp _ _) rfl h1 (by simp only [slotBody]; exact hw _ w)
  · obtain ⟨nm1, h1⟩ := toName_ok hps (some "roc".toList)
    exact result_slot_error (s := .roc _ _) rfl h1 (by simp only [slotBody]; exact hw _ w)
  · obtain ⟨nm1, h1⟩ := toName_ok hqs (some "rel".toList)
    exact result_slot_error (s := .reliability _ _ _) rfl h1 (by simp only [slotBody]; exact hw _ w)

/-- the metrics of the event `over`/`below` a threshold -/
def eventMetrics (nb : A) (isOver : Bool) (t : A) : List (Slot A) :=
  [.cdf (overArg isOver t) (belowArg isOver t), .sharpness (overArg isOver t) (belowArg isOver t),
    .brier (overArg isOver t) (belowArg isOver t), .brierDecomp (overArg isOver t) (belowArg isOver t),
    .roc (overArg isOver t) (belowArg isOver t), .reliability nb (overArg isOver t) (belowArg isOver t)]

/-- **C94**, ensemble class: a threshold array that does not have the shape of the observations is refused by every metric
of an event, even if it could be repeated to fit. -/
theorem C94_ensemble {oi o : Obj (EnsX K)} {w w' : World (PyVal K)}
    (h : construct (ensPrims c emb) mids oi w = (.ok o, w')) {t nb : A} (ht : Printable I t) (hnb : Printable I nb)
    {a : NDArr (Fl K)} (hta : emb t = .thr (.array a)) (hne : a.shape ≠ oi.ext.o.shape) (isOver : Bool)
    (w1 : World (PyVal K)) :
    ∀ s ∈ eventMetrics nb isOver t, result .ensemble I (ensPrims c emb) mids (.slot s) (unsaved o) w1 = .error .assertion := by
  obtain ⟨ax, fc, hr, -, -, ho, -⟩ := C75_construct_ens h
  refine cdf_fails (by simp) ht hnb ?_ isOver w1
  have hth : ¬ ThrOK (Thr.array a) (posShape o.ext.f.shape ax) := by
    rw [← hr.shape, ho]; exact hne
  simp only [ensPrims, EnsX.ax, hr.axis, hta, Arg.asThr, ensToProb, ensToProbBelow, mergeThreshold_error hr.axisOK hth, bind,
    Except.bind]

/-- **C94**, Gaussian and gamma class. -/
theorem C94_prob {F : ProbFns K} {P : Prims (ProbX K) (PyVal K) A}
    (hP : (C = .gaussian ∧ P = gaussPrims c F emb) ∨ (C = .gamma ∧ P = gammaPrims c F emb)) {oi o : Obj (ProbX K)}
    {w w' : World (PyVal K)} (h : construct P mids oi w = (.ok o, w')) {t nb : A} (ht : Printable I t)
    (hnb : Printable I nb) {a : NDArr (Fl K)} (hta : emb t = .thr (.array a)) (hne : a.shape ≠ oi.ext.o.shape)
    (isOver : Bool) (w1 : World (PyVal K)) :
    ∀ s ∈ eventMetrics nb isOver t, result C I P mids (.slot s) (unsaved o) w1 = .error .assertion := by
  have hth : ¬ ThrOK (Thr.array a) oi.ext.o.shape := hne
  rcases hP with ⟨rfl, rfl⟩ | ⟨rfl, rfl⟩
  · have hx := (construct_prob (shared_gauss c F emb) h).1
    obtain ⟨hsh, hk⟩ := C77_partial.1 h
    obtain ⟨mu, hm⟩ := hk "mu" (by simp)
    obtain ⟨sg, hsg⟩ := hk "sigma" (by simp)
    refine cdf_fails (by simp) ht hnb ?_ isOver w1
    simp only [gaussPrims, probPrims, hta, Arg.asThr, gaussCdf, hx, key_ok hm, key_ok hsg, bind, Except.bind]
    rw [(C35_rejects F.scipy hm.2 hsg.2 hm.2 hth oi.ext.trunc).1]
    rfl
  · have hx := (construct_prob (shared_gamma c F emb) h).1
    obtain ⟨hsh, hk⟩ := C77_partial.2 h
    obtain ⟨mu, hm⟩ := hk "unshifted_mu" (by simp)
    obtain ⟨sg, hsg⟩ := hk "sigma" (by simp)
    obtain ⟨sh, hs⟩ := hk "shift" (by simp)
    refine cdf_fails (by simp) ht hnb ?_ isOver w1
    simp only [gammaPrims, probPrims, hta, Arg.asThr, gammaCdfOf, hx, key_ok hm, key_ok hsg, key_ok hs, bind, Except.bind]
    rw [(C35_rejects F.scipy hm.2 hsg.2 hs.2 hth oi.ext.trunc).2.1]
    rfl

/-! ### C75, `iou_prob` -/

/-- `iou_prob(...)` is the function of utils_verify.py on the probabilities and the observed events -/
theorem iou_prob_run (hP : Shared c obs emb P) {o : Obj X} {a b ov be : A} {q : K}
    (hembq : emb b = .thr (.scalar (some q))) (isOver above : Bool)
    (hov : I.items ov = some [overArg isOver a, overArg above b])
    (hbe : I.items be = some [belowArg isOver a, belowArg above b]) (hpo : Printable I ov) (hpb : Printable I be)
    {axes : Option (List Int)} (hax : axisArg o.avg = .ok axes) {w0 : World (PyVal K)} {p : NDArr (Fl K)} {ob : NDArr Bool}
    (hp : result C I P mids (.slot (.cdf (overArg isOver a) (belowArg isOver a))) (unsaved o) w0 = .ok (some (.num p)))
    (hob : P.binarize o.ext (overArg isOver a) (belowArg isOver a) = .ok (.bool ob)) (w : World (PyVal K)) :
    result C I P mids (.slot (.iouProb (some ov) (some be))) (unsaved o) w =
      (iouProb p ob axes (if above then some (.scalar (some q)) else none)
        (if above then none else some (.scalar (some q)))).map fun r => some (.num r) := by
  obtain ⟨ps, hps⟩ := obArgs_ok (I := I) (ov := some ov) (be := some be) (by rintro _ ⟨⟩; exact hpo)
    (by rintro _ ⟨⟩; exact hpb)
  obtain ⟨nm', hn'⟩ := toName_ok hps (some "iou_prob".toList)
  have hx : xorGiven (overArg above b) (belowArg above b) = true := by cases above <;> rfl
  have ho : optThr ((overArg above b).map emb) = .ok (if above then some (.scalar (some q)) else none) := by
    cases above <;> simp [overArg, optThr, hembq, Arg.asThr]
  have hbe' : optThr ((belowArg above b).map emb) = .ok (if above then none else some (.scalar (some q))) := by
    cases above <;> simp [belowArg, optThr, hembq, Arg.asThr]
  cases hr : iouProb p ob axes (if above then some (.scalar (some q)) else none)
      (if above then none else some (.scalar (some q))) with
  | ok r =>
    have hbody : (slotBody C I P o.ext o.avg o.boot (.iouProb (some ov) (some be))).run none w = (.ok (.num r), w) := by
      simp only [slotBody, if_neg (cdf_runs hp).1, Option.bind, hov, hbe, List.length_cons, List.length_nil, true_or,
        if_true, List.getElem?_cons_zero, List.getElem?_cons_succ]
      rw [withProb_run hp hob]
      simp only [if_pos hx, hP.iouProb, basePrims, PyVal.asNum, PyVal.asBool, hax, ho, hbe', bind, Except.bind, hr, Prog.run]
      rfl
    rw [result_slot (s := .iouProb (some ov) (some be)) rfl hn' hbody]
    rfl
  | error e =>
    have hbody : (slotBody C I P o.ext o.avg o.boot (.iouProb (some ov) (some be))).run none w = (.error e, w) := by
      simp only [slotBody, if_neg (cdf_runs hp).1, Option.bind, hov, hbe, List.length_cons, List.length_nil, true_or,
        if_true, List.getElem?_cons_zero, List.getElem?_cons_succ]
      rw [withProb_run hp hob]
      simp only [if_pos hx, hP.iouProb, basePrims, PyVal.asNum, PyVal.asBool, hax, ho, hbe', bind, Except.bind, hr, Prog.run]
    rw [result_slot_error (s := .iouProb (some ov) (some be)) rfl hn' hbody]
    rfl

/-- **C75**, any probabilistic class: `iou_prob(over=(t, q), below=(None, None))` and the three other combinations compare
the positions where the forecast probability of the event is above (below) `q` with the positions where the event was
observed: between 0 and 1, one exactly when they coincide over the averaged positions, zero exactly when they never meet,
missing when there are none. -/
theorem C75_iou_prob (hP : Shared c obs emb P) {o : Obj X} {a b ov be : A} {t : Thr K} {q : K} (hemb : emb a = .thr t)
    (hembq : emb b = .thr (.scalar (some q))) (h0 : 0 ≤ q) (h1 : q ≤ 1) (isOver above : Bool)
    (hov : I.items ov = some [overArg isOver a, overArg above b])
    (hbe : I.items be = some [belowArg isOver a, belowArg above b]) (hpo : Printable I ov) (hpb : Printable I be)
    {l : List Int} (hax : axisArg o.avg = .ok (some l)) {w0 : World (PyVal K)} {p : NDArr (Fl K)}
    (hp : result C I P mids (.slot (.cdf (overArg isOver a) (belowArg isOver a))) (unsaved o) w0 = .ok (some (.num p)))
    (ht : ThrOK t (obs o.ext).shape) (hsh : p.shape = (obs o.ext).shape) (hok : OptOK p.shape.length (some l))
    (w : World (PyVal K)) :
    ∃ r, result C I P mids (.slot (.iouProb (some ov) (some be))) (unsaved o) w = .ok (some (.num r)) ∧
      r.shape = dropAxes (l.map (axisNum p.shape.length)) p.shape ∧
      ∀ k, InB r.shape k →
        let L := fiberIdx p.shape (l.map (axisNum p.shape.length)) k
        let F := fun i => if above then LtP (some q) (p.get i) else LtP (p.get i) (some q)
        let O := Event isOver t (obs o.ext)
        IsIou L F O (r.get k) ∧ ((∀ i ∈ L, ¬ F i ∧ ¬ O i) → r.get k = none) ∧
        ((∃ i ∈ L, F i ∨ O i) → ∃ x, r.get k = some x ∧ 0 ≤ x ∧ x ≤ 1 ∧
          (x = 1 ↔ ∀ i ∈ L, F i ↔ O i) ∧ (x = 0 ↔ ∀ i ∈ L, ¬ (F i ∧ O i))) := by
  obtain ⟨ob, hob1, hob2, hob3⟩ := binarize_spec hP hemb isOver ht
  have hso : p.shape = ob.shape := hsh.trans hob2.symm
  obtain ⟨r, r1, r2, r3⟩ := C19_prob_partial p ob hso hok q h0 h1 above
  refine ⟨r, ?_, r2, fun k hk => ?_⟩
  · rw [iou_prob_run hP hembq isOver above hov hbe hpo hpb hax hp hob1, r1]
    rfl
  · rw [r2] at hk
    intro L F O
    have hO : ∀ i ∈ L, (ob.get i = true ↔ O i) := fun i hi => hob3 i (hsh ▸ (mem_fiberIdx.1 hi).1)
    obtain ⟨c0, c1, c2⟩ := r3 k hk
    refine ⟨isIou_congr (fun _ _ => Iff.rfl) hO c0, fun h => c1 fun i hi => ⟨(h i hi).1, ?_⟩, fun ⟨i, hi, h⟩ => ?_⟩
    · have := (h i hi).2
      rw [← hO i hi] at this
      simpa using this
    · obtain ⟨x, x1, x2, x3, x4, x5⟩ := c2 ⟨i, hi, by rw [hO i hi]; exact h⟩
      refine ⟨x, x1, x2, x3, x4.trans (forall₂_congr fun j hj => ?_), x5.trans (forall₂_congr fun j hj => ?_)⟩
      · rw [hO j hj]
      · rw [hO j hj]

/-- **C75**, any probabilistic class: `iou_prob(...)` with `avg_axis=None`: one number, the intersection over union over
all positions; without any forecast or observed event it raises `ZeroDivisionError`. -/
theorem C75_iou_prob_all (hP : Shared c obs emb P) {o : Obj X} {a b ov be : A} {t : Thr K} {q : K} (hemb : emb a = .thr t)
    (hembq : emb b = .thr (.scalar (some q))) (h0 : 0 ≤ q) (h1 : q ≤ 1) (isOver above : Bool)
    (hov : I.items ov = some [overArg isOver a, overArg above b])
    (hbe : I.items be = some [belowArg isOver a, belowArg above b]) (hpo : Printable I ov) (hpb : Printable I be)
    (hax : axisArg o.avg = .ok none) {w0 : World (PyVal K)} {p : NDArr (Fl K)}
    (hp : result C I P mids (.slot (.cdf (overArg isOver a) (belowArg isOver a))) (unsaved o) w0 = .ok (some (.num p)))
    (ht : ThrOK t (obs o.ext).shape) (hsh : p.shape = (obs o.ext).shape) (w : World (PyVal K)) :
    let F := fun i => if above then LtP (some q) (p.get i) else LtP (p.get i) (some q)
    let O := Event isOver t (obs o.ext)
    ((∀ i, InB p.shape i → ¬ F i ∧ ¬ O i) →
      result C I P mids (.slot (.iouProb (some ov) (some be))) (unsaved o) w = .error .generic) ∧
    ((∃ i, InB p.shape i ∧ (F i ∨ O i)) →
      ∃ r, result C I P mids (.slot (.iouProb (some ov) (some be))) (unsaved o) w = .ok (some (.num r)) ∧ r.shape = [] ∧
        IsIou (allIdx p.shape) F O (r.get [])) := by
  intro F O
  obtain ⟨ob, hob1, hob2, hob3⟩ := binarize_spec hP hemb isOver ht
  have hO : ∀ i, InB p.shape i → (ob.get i = true ↔ O i) := fun i hi => hob3 i (hsh ▸ hi)
  rw [iou_prob_run hP hembq isOver above hov hbe hpo hpb hax hp hob1]
  obtain ⟨c1, c2⟩ := C19_prob_all_partial p ob (hsh.trans hob2.symm) q h0 h1 above
  refine ⟨fun h => ?_, fun ⟨i, hi, h⟩ => ?_⟩
  · rw [c1 fun i hi => ⟨(h i hi).1, by rw [hO i hi]; exact (h i hi).2⟩]
    rfl
  · obtain ⟨r, r1, r2, r3⟩ := c2 ⟨i, hi, by rw [hO i hi]; exact h⟩
    exact ⟨r, by rw [r1]; rfl, r2, isIou_congr (fun _ _ => Iff.rfl) (fun i hi => hO i (mem_allIdx.1 hi)) r3⟩

/-! ### a case -/

/-- arguments of the case: numbers, an array of one value per column, its repetition, and pairs -/
inductive CaseArg
  | num (q : ℚ)
  | row
  | table
  | pair (a b : Option ℚ)

def caseInfo : ArgInfo CaseArg where
  text _ := []
  hasLen
    | .num _ => false
    | _ => true
  isArr
    | .row => true
    | .table => true
    | _ => false
  ravelLen _ := 4
  len _ := some 2
  items
    | .pair a b => some [a.map .num, b.map .num]
    | _ => none

def caseRow : NDArr (Fl ℚ) := ⟨[2], [some 1, some 5], rfl⟩
def caseTable : NDArr (Fl ℚ) := ⟨[2, 2], [some 1, some 5, some 1, some 5], rfl⟩

def caseEmb : CaseArg → Arg ℚ
  | .num q => .thr (.scalar (some q))
  | .row => .thr (.array caseRow)
  | .table => .thr (.array caseTable)
  | .pair a b => .seq [a.map fun q => .scalar (some q), b.map fun q => .scalar (some q)]

def caseDet : Obj (DetX ℚ) :=
  ⟨.tuple [0], .none, .none, some true,
    ⟨⟨[2, 2], [some 2, some 4, some 0, some 6], rfl⟩, ⟨[2, 2], [some 3, some 6, some 2, some 7], rfl⟩⟩⟩

/-- one threshold per column: the hypotheses of `C94_iou_determ` hold and the scores of the columns are 1/2 -/
example : Printable caseInfo .row ∧ Printable caseInfo .table ∧ FitsInto caseRow.shape [2, 2] ∧
    Repeats caseRow caseTable [2, 2] ∧
    numOf (result .determ caseInfo (detPrims cfg0 caseEmb) noMids (.slot (.iouDeterm (some .row) none)) (unsaved caseDet)
      world0) = some ([2], [some (1 / 2), some (1 / 2)]) := by
  refine ⟨fun _ => by simp [caseInfo], fun _ => by simp [caseInfo], ⟨by decide, ?_⟩, ⟨rfl, ?_⟩, by decide +kernel⟩
  · show ∀ i < 1, [2].getD i 0 = 1 ∨ [2].getD i 0 = [2, 2].getD (1 + i) 0
    decide
  · intro k hk
    rw [← mem_allIdx] at hk
    revert k
    decide +kernel

/-- `iou_prob` of an ensemble verifier: the event is observed at the second position, where its probability is 1 -/
def caseEns : Obj (EnsX ℚ) :=
  ⟨.tuple [0], .none, .none, some true,
    ⟨⟨[3, 2], [some 1, some 4, some 0, some 5, some 2, some 6], rfl⟩, ⟨[2], [some 3, some 6], rfl⟩, some 0,
      fun f _ => .ok f, some ⟨[2], [some 1, some 5], rfl⟩⟩⟩

example : caseInfo.items (.pair (some 3) (some (1 / 2))) = some [overArg true (.num 3), overArg true (.num (1 / 2))] ∧
    caseInfo.items (.pair none none) = some [belowArg true (.num 3), belowArg true (.num (1 / 2))] ∧
    numOf (result .ensemble caseInfo (ensPrims cfg0 caseEmb) noMids (.slot (.cdf (some (.num 3)) none)) (unsaved caseEns)
      world0) = some ([2], [some 0, some 1]) ∧
    numOf (result .ensemble caseInfo (ensPrims cfg0 caseEmb) noMids
      (.slot (.iouProb (some (.pair (some 3) (some (1 / 2)))) (some (.pair none none)))) (unsaved caseEns) world0) =
      some ([], [some 1]) ∧
    errOf (result .ensemble caseInfo (ensPrims cfg0 caseEmb) noMids (.slot (.cdf (some .table) none)) (unsaved caseEns)
      world0) = some .assertion :=
  ⟨rfl, rfl, by decide +kernel, by decide +kernel, by decide +kernel⟩

end Props
