import Verif.Props.EndToEnd

/-!
# The public methods, end to end: C75, metrics that group or correlate
-/

set_option linter.unusedSectionVars false

namespace Props
open Np NDArr Spec Model Lemmas

variable {K : Type} [Field K] [LinearOrder K] [IsStrictOrderedRing K] [FloorSemiring K]
variable {A X : Type} {C : Cls} {I : ArgInfo A} {P : Prims X (PyVal K) A}
  {mids : FS (PyVal K) → Path → List (FS (PyVal K))} {c : Cfg K} {obs : X → NDArr (Fl K)} {emb : A → Arg K}

/-- `ob` holds the observed events -/
def IsEvents (isOver : Bool) (t : Thr K) (o : NDArr (Fl K)) (ob : NDArr Bool) : Prop :=
  ob.shape = o.shape ∧ ∀ k, InB o.shape k → (ob.get k = true ↔ Event isOver t o k)

theorem events_unique {isOver : Bool} {t : Thr K} {o : NDArr (Fl K)} {ob ob' : NDArr Bool}
    (h : IsEvents isOver t o ob) (h' : IsEvents isOver t o ob') : ob = ob' := by
  refine ext_get (h.1.trans h'.1.symm) fun k hk => ?_
  rw [h.1] at hk
  rw [Bool.eq_iff_iff, h.2 k hk, h'.2 k hk]

theorem binarize_events (hP : Shared c obs emb P) {x : X} {a : A} {t : Thr K} (hemb : emb a = .thr t) {isOver : Bool}
    (ht : ThrOK t (obs x).shape) {ob : NDArr Bool} (hob : IsEvents isOver t (obs x) ob) :
    P.binarize x (overArg isOver a) (belowArg isOver a) = .ok (.bool ob) := by
  obtain ⟨ob', h1, h2, h3⟩ := binarize_spec hP hemb isOver ht
  rw [h1, events_unique hob ⟨h2, h3⟩]

/-! ### reliability diagrams -/

/-- the diagram the method draws: without bootstrapping -/
theorem rel_result (hP : Shared c obs emb P) {o : Obj X} {a nb : A} {nbins : Nat} (hnb : emb nb = .num nbins)
    (hpn : Printable I nb) {t : Thr K} (hemb : emb a = .thr t) (isOver : Bool) {axes : Option (List Int)}
    (hb : o.boot = .none) (hax : axisArg o.avg = .ok axes) {w0 : World (PyVal K)} {p : NDArr (Fl K)}
    (hp : result C I P mids (.slot (.cdf (overArg isOver a) (belowArg isOver a))) (unsaved o) w0 = .ok (some (.num p)))
    (ht : ThrOK t (obs o.ext).shape) {ob : NDArr Bool} (hob : IsEvents isOver t (obs o.ext) ob)
    {out : RelOut (Fl K)} (hout : reliabilityDiagram p ob nbins axes = .ok out) (w : World (PyVal K)) :
    result C I P mids (.slot (.reliability nb (overArg isOver a) (belowArg isOver a))) (unsaved o) w =
      .ok (some (.rel out)) := by
  obtain ⟨nm, hn⟩ := (cdf_runs hp).2.1
  obtain ⟨ps, hps⟩ := nameParts_cons (k := "nbins".toList) (tooLong_ok hpn) (obArgs_of_cdf hn)
  obtain ⟨nm', hn'⟩ := toName_ok hps (some "rel".toList)
  unfold reliabilityDiagram at hout
  cases hs : relCreateSplit p ob nbins axes with
  | error e => rw [hs] at hout; cases hout
  | ok s =>
    rw [hs] at hout
    change relAgg s (fun _ ids p t => relNoBootSlice ids p t s.bins) = .ok out at hout
    have hbody : (slotBody C I P o.ext o.avg o.boot
        (.reliability nb (overArg isOver a) (belowArg isOver a))).run none w = (.ok (.relSplit s), w) := by
      simp only [slotBody]
      rw [withProb_run hp (binarize_events hP hemb ht hob), hP.relSplit]
      simp only [basePrims, PyVal.asNum, PyVal.asBool, hnb, Arg.asNat, hax, bind, Except.bind, hs, Prog.run]
      rfl
    rw [result_slot (s := .reliability nb (overArg isOver a) (belowArg isOver a)) rfl hn' hbody]
    simp only [slotPost, postBins, hb, if_true, Prog.run, hP.relAgg, basePrims, hout, bind, Except.bind]
    rfl

/-- **C75**, any probabilistic class, all axes sampled: if `cdf(...)` returns `p`, `reliability(nbins, ...)` returns the
curve of all the pairs of probability and event. -/
theorem C75_reliability_all (hP : Shared c obs emb P) {o : Obj X} {a nb : A} {nbins : Nat} (hnb : emb nb = .num nbins)
    (hpn : Printable I nb) {t : Thr K} (hemb : emb a = .thr t) (isOver : Bool) {axes : List Int}
    (hb : o.boot = .none) (hax : axisArg o.avg = .ok (some axes)) {w0 : World (PyVal K)} {p : NDArr (Fl K)}
    (hp : result C I P mids (.slot (.cdf (overArg isOver a) (belowArg isOver a))) (unsaved o) w0 = .ok (some (.num p)))
    (ht : ThrOK t (obs o.ext).shape) (hsh : p.shape = (obs o.ext).shape) (hpl : PlainAxes p.shape.length axes)
    (hn : 1 ≤ nbins) (hpr : ProbsOK p) (hD : dropAxes (axes.map Int.toNat) p.shape = [])
    {ob : NDArr Bool} (hob : IsEvents isOver t (obs o.ext) ob) (w : World (PyVal K)) :
    ∃ s, result C I P mids (.slot (.reliability nb (overArg isOver a) (belowArg isOver a))) (unsaved o) w =
        .ok (some (.rel (.slice s))) ∧
      IsRelCurve nbins (pairsAt p ob (axes.map Int.toNat) []) s.probPred s.probTrue (s.predCount.map Prod.snd) := by
  obtain ⟨s, h1, h2⟩ := C03_reliability_all p ob nbins axes (hsh.trans hob.1.symm) hpl hn hpr hD
  exact ⟨s, rel_result hP hnb hpn hemb isOver hb hax hp ht hob h1 w, h2⟩

/-- the bootstrapped diagram -/
theorem rel_result_boot (hP : Shared c obs emb P) {o : Obj X} {a nb : A} {nbins : Nat} (hnb : emb nb = .num nbins)
    {t : Thr K} (hemb : emb a = .thr t) (isOver : Bool) {axes : Option (List Int)}
    {n : Nat} (hb : o.boot = .int n) (hax : axisArg o.avg = .ok axes) {w0 : World (PyVal K)} {p : NDArr (Fl K)}
    (hp : result C I P mids (.slot (.cdf (overArg isOver a) (belowArg isOver a))) (unsaved o) w0 = .ok (some (.num p)))
    (ht : ThrOK t (obs o.ext).shape) {ob : NDArr Bool} (hob : IsEvents isOver t (obs o.ext) ob)
    {w : World (PyVal K)} {v : PyVal K}
    (hv : result C I P mids (.slot (.reliability nb (overArg isOver a) (belowArg isOver a))) (unsaved o) w =
      .ok (some v)) :
    ∃ out draw, v = .relBoot out ∧
      reliabilityDiagramBoot p ob nbins axes n c.reps c.conf c.skipNan draw = .ok out := by
  have hn : bootArg (.int (n : Int)) = .ok n := by simp [bootArg]
  obtain ⟨nm, u, w1, w2, -, h1, h2⟩ := result_slot_inv hv
  simp only [slotBody] at h1
  rw [withProb_run hp (binarize_events hP hemb ht hob), hP.relSplit] at h1
  simp only [basePrims, PyVal.asNum, PyVal.asBool, hnb, Arg.asNat, hax, bind, Except.bind, Prog.run,
    Prod.mk.injEq] at h1
  cases hs : relCreateSplit p ob nbins axes with
  | error e => rw [hs] at h1; cases h1.1
  | ok s =>
    rw [hs] at h1
    have hu : u = .relSplit s := by cases h1.1; rfl
    subst hu
    simp only [slotPost, postBins, hb, reduceCtorEq, if_false, Prog.run, hP.relBoot, basePrims, bind, Except.bind,
      hn, Prod.mk.injEq] at h2
    cases hr : relAgg s (fun col ids p t =>
        relBootSlice ids p t s.bins n c.reps c.conf c.skipNan (c.rng (w1.seed w1.pos) col)) with
    | error e => rw [hr] at h2; cases h2.1
    | ok out =>
      rw [hr] at h2
      refine ⟨out, c.rng (w1.seed w1.pos), by cases h2.1; rfl, ?_⟩
      unfold reliabilityDiagramBoot
      rw [hs]
      exact hr

/-- **C75**, kept axes: the row of each kept position is the curve of its pairs. -/
theorem C75_reliability_kept (hP : Shared c obs emb P) {o : Obj X} {a nb : A} {nbins : Nat} (hnb : emb nb = .num nbins)
    {t : Thr K} (hemb : emb a = .thr t) (isOver : Bool) {axes : List Int}
    (hb : o.boot = .none) (hax : axisArg o.avg = .ok (some axes)) {w0 : World (PyVal K)} {p : NDArr (Fl K)}
    (hp : result C I P mids (.slot (.cdf (overArg isOver a) (belowArg isOver a))) (unsaved o) w0 = .ok (some (.num p)))
    (ht : ThrOK t (obs o.ext).shape) (hsh : p.shape = (obs o.ext).shape) (hpl : PlainAxes p.shape.length axes)
    (hn : 1 ≤ nbins) (hpr : ProbsOK p) (hD : dropAxes (axes.map Int.toNat) p.shape ≠ [])
    (hDp : (dropAxes (axes.map Int.toNat) p.shape).prod ≠ 0)
    {ob : NDArr Bool} (hob : IsEvents isOver t (obs o.ext) ob) {w : World (PyVal K)} {v : PyVal K}
    (hv : result C I P mids (.slot (.reliability nb (overArg isOver a) (belowArg isOver a))) (unsaved o) w =
      .ok (some v)) :
    let D := dropAxes (axes.map Int.toNat) p.shape
    ∃ pp pt pc tc, v = .rel (.multi D pp pt pc tc) ∧ ∀ k, InB D k →
      ∃ ppk ptk pck, pp[ravel D k]? = some ppk ∧ pt[ravel D k]? = some ptk ∧ pc[ravel D k]? = some pck ∧
        IsRelCurve nbins (pairsAt p ob (axes.map Int.toNat) k) ppk ptk pck := by
  intro D
  obtain ⟨out, hout⟩ : ∃ out, reliabilityDiagram p ob nbins (some axes) = .ok out ∧ v = .rel out := by
    obtain ⟨nm, u, w1, w2, -, h1, h2⟩ := result_slot_inv hv
    simp only [slotBody] at h1
    rw [withProb_run hp (binarize_events hP hemb ht hob), hP.relSplit] at h1
    simp only [basePrims, PyVal.asNum, PyVal.asBool, hnb, Arg.asNat, hax, bind, Except.bind, Prog.run,
      Prod.mk.injEq] at h1
    cases hs : relCreateSplit p ob nbins (some axes) with
    | error e => rw [hs] at h1; cases h1.1
    | ok s =>
      rw [hs] at h1
      have hu : u = .relSplit s := by cases h1.1; rfl
      subst hu
      simp only [slotPost, postBins, hb, if_true, Prog.run, hP.relAgg, basePrims, bind, Except.bind,
        Prod.mk.injEq] at h2
      cases hr : relAgg s (fun _ ids p t => relNoBootSlice ids p t s.bins) with
      | error e => rw [hr] at h2; cases h2.1
      | ok out =>
        rw [hr] at h2
        refine ⟨out, ?_, by cases h2.1; rfl⟩
        unfold reliabilityDiagram
        rw [hs]
        exact hr
  obtain ⟨pp, pt, pc, tc, h1, h2⟩ := C03_reliability_kept p ob nbins axes (hsh.trans hob.1.symm) hpl hn hpr hD hDp hout.1
  exact ⟨pp, pt, pc, tc, by rw [hout.2, h1], h2⟩

/-- **C75**, bootstrapped: the triples of a bin summarise common resamples of the pairs of that bin. -/
theorem C75_reliability_boot (hP : Shared c obs emb P) {o : Obj X} {a nb : A} {nbins : Nat} (hnb : emb nb = .num nbins)
    {t : Thr K} (hemb : emb a = .thr t) (isOver : Bool) {axes : List Int} {n : Nat}
    (hb : o.boot = .int n) (hax : axisArg o.avg = .ok (some axes)) {w0 : World (PyVal K)} {p : NDArr (Fl K)}
    (hp : result C I P mids (.slot (.cdf (overArg isOver a) (belowArg isOver a))) (unsaved o) w0 = .ok (some (.num p)))
    (ht : ThrOK t (obs o.ext).shape) (hsh : p.shape = (obs o.ext).shape) (hpl : PlainAxes p.shape.length axes)
    (hn : 1 ≤ nbins) (hpr : ProbsOK p) (hDp : (dropAxes (axes.map Int.toNat) p.shape).prod ≠ 0)
    {ob : NDArr Bool} (hob : IsEvents isOver t (obs o.ext) ob) {w : World (PyVal K)} {v : PyVal K}
    (hv : result C I P mids (.slot (.reliability nb (overArg isOver a) (belowArg isOver a))) (unsaved o) w =
      .ok (some v)) :
    let D := dropAxes (axes.map Int.toNat) p.shape
    (D = [] → ∃ s, v = .relBoot (.slice s) ∧ IsRelBootCurve nbins (pairsAt p ob (axes.map Int.toNat) []) n c.reps c.conf
      c.skipNan s.probPred s.probTrue (s.predCount.map Prod.snd)) ∧
    (D ≠ [] → ∃ pp pt pc tc, v = .relBoot (.multi D pp pt pc tc) ∧ ∀ k, InB D k →
      ∃ ppk ptk pck, pp[ravel D k]? = some ppk ∧ pt[ravel D k]? = some ptk ∧ pc[ravel D k]? = some pck ∧
        IsRelBootCurve nbins (pairsAt p ob (axes.map Int.toNat) k) n c.reps c.conf c.skipNan ppk ptk pck) := by
  intro D
  obtain ⟨out, draw, h1, h2⟩ := rel_result_boot hP hnb hemb isOver hb hax hp ht hob hv
  constructor
  · intro hD
    obtain ⟨s, h3, h4⟩ := C03_reliability_boot_all p ob nbins axes n c.reps c.conf c.skipNan draw
      (hsh.trans hob.1.symm) hpl hn hpr hD h2
    exact ⟨s, by rw [h1, h3], h4⟩
  · intro hD
    obtain ⟨pp, pt, pc, tc, h3, h4⟩ := C03_reliability_boot_kept p ob nbins axes n c.reps c.conf c.skipNan draw
      (hsh.trans hob.1.symm) hpl hn hpr hD hDp h2
    exact ⟨pp, pt, pc, tc, by rw [h1, h3], h4⟩

/-! ### spread and skill -/

theorem ss_body (hP : Shared c obs emb P) {o : Obj X} {nb : A} {nbins : Nat} (hnb : emb nb = .num nbins)
    {axes : Option (List Int)} (hax : axisArg o.avg = .ok axes) {w0 : World (PyVal K)} {f var : NDArr (Fl K)}
    (hf : result C I P mids (.slot .fDeterm) (unsaved o) w0 = .ok (some (.num f)))
    (hvar : result C I P mids (.slot .variance) (unsaved o) w0 = .ok (some (.num var)))
    (hsh : f.shape = (obs o.ext).shape) :
    ∃ q, q.shape = f.shape ∧
      (∀ k, InB f.shape k → q.get k = both (fun x y => (x - y) ^ 2) (f.get k, (obs o.ext).get k)) ∧
      ∀ w, (slotBody C I P o.ext o.avg o.boot (.ss nb)).run none w =
        ((ssCreateSplit c.argsort var q nbins axes).map fun r => .ssSplit r.1 r.2, w) := by
  obtain ⟨d, d1, d2, d3⟩ := zipWith_spec Fl.sub f (obs o.ext) hsh
  obtain ⟨hC, hvr⟩ := var_runs hvar
  obtain ⟨n1, hn1⟩ := fixed_ok I (some "variance".toList)
  obtain ⟨n2, hn2⟩ := fixed_ok I (some "sq_error".toList)
  have hn1' : slotName I (.variance : Slot A) = .ok n1 := hn1
  have hn2' : slotName I (.sqError : Slot A) = .ok n2 := hn2
  refine ⟨d.map Fl.sq, d2, fun k hk => ?_, fun w => ?_⟩
  · rw [get_map _ d (by rw [d2]; exact hk), d3 k hk, ← both_sub _ (fun y => y * y) (fun x y => (sq (x - y)).symm)]
    rfl
  · have hq : (sqBody C I P o.ext).run none w = (.ok (.num (d.map Fl.sq)), w) := by
      simp only [sqBody]
      rw [withDet_run hf, hP.sqErrorOf]
      simp only [basePrims, PyVal.asNum, bind, Except.bind, sqErrorArr, d1]
      rfl
    simp only [slotBody, if_neg hC, hn1', Prog.callName]
    rw [run_call_none _ _ _ _ (hvr w)]
    simp only [hn2']
    rw [run_call_none _ _ _ _ hq, hP.ssSplit]
    simp only [basePrims, PyVal.asNum, hnb, Arg.asNat, hax, bind, Except.bind, Prog.run]
    cases ssCreateSplit c.argsort var (d.map Fl.sq) nbins axes <;> rfl

/-- **C75**, any probabilistic class: `binned_spread_skill(nbins)` bins the pairs of `variance()` and squared error of
`f_determ()`; the returned numbers are the roots of the averages over the bins. -/
theorem C75_spread_skill (hP : Shared c obs emb P) {o : Obj X} {nb : A} {nbins : Nat} (hnb : emb nb = .num nbins)
    (hpn : Printable I nb) {axes : List Int} (hb : o.boot = .none) (hax : axisArg o.avg = .ok (some axes))
    {w0 : World (PyVal K)} {f var : NDArr (Fl K)}
    (hf : result C I P mids (.slot .fDeterm) (unsaved o) w0 = .ok (some (.num f)))
    (hvar : result C I P mids (.slot .variance) (unsaved o) w0 = .ok (some (.num var)))
    (hsh : f.shape = (obs o.ext).shape) (hsv : var.shape = f.shape)
    (hargs : ∀ i l, IsArgsort l (c.argsort i l)) (hpl : PlainAxes var.shape.length axes)
    (hD : (dropAxes (axes.map Int.toNat) var.shape).prod ≠ 0) (hn : nbins ≠ 0)
    (hle : nbins ≤ (takeAxes (axes.map Int.toNat) var.shape).prod) (w : World (PyVal K)) :
    ∃ spread rmse q, result C I P mids (.slot (.ss nb)) (unsaved o) w = .ok (some (.pair spread rmse)) ∧
      q.shape = f.shape ∧
      (∀ k, InB f.shape k → q.get k = both (fun x y => (x - y) ^ 2) (f.get k, (obs o.ext).get k)) ∧
      ∀ k, InB (dropAxes (axes.map Int.toNat) var.shape) k →
        ∃ gs, IsGrouping nbins (pairsAt var q (axes.map Int.toNat) k) gs ∧ ∀ b g, gs[b]? = some g →
          spread.get (k ++ [b]) = Fl.sqrt c.sqrt (meanOf c.skipNan (g.map Prod.fst)) ∧
          rmse.get (k ++ [b]) = Fl.sqrt c.sqrt (meanOf c.skipNan (g.map Prod.snd)) := by
  obtain ⟨q, q1, q2, q3⟩ := ss_body hP hnb hax hf hvar hsh
  obtain ⟨sp, rm, h1, h2⟩ := C04_pairs_kept_together c.argsort c.sqrt c.skipNan var q nbins axes hargs
    (hsv.trans q1.symm) hpl hD hn hle
  refine ⟨sp, rm, q, ?_, q1, q2, h2⟩
  obtain ⟨ps, hps⟩ := nameParts_cons (k := "nbins".toList) (args := []) (tooLong_ok hpn) ⟨_, rfl⟩
  obtain ⟨nm', hn'⟩ := toName_ok hps (some "ss".toList)
  unfold spreadSkill at h1
  cases hs : ssCreateSplit c.argsort var q nbins (some axes) with
  | error e => rw [hs] at h1; cases h1
  | ok r =>
    rw [hs] at h1
    have hbody : (slotBody C I P o.ext o.avg o.boot (.ss nb)).run none w = (.ok (.ssSplit r.1 r.2), w) := by
      rw [q3, hs]; rfl
    have h1' : ssAggNoBoot c.sqrt c.skipNan r.1 r.2 = .ok (sp, rm) := h1
    rw [result_slot (s := .ss nb) rfl hn' hbody]
    simp only [slotPost, postBins, hb, if_true, Prog.run, hP.ssAgg, basePrims, bind, Except.bind, h1']
    rfl

/-- **C75**, the same with bootstrapping. -/
theorem C75_spread_skill_boot (hP : Shared c obs emb P) {o : Obj X} {nb : A} {nbins : Nat} (hnb : emb nb = .num nbins)
    {axes : List Int} {n : Nat} (hb : o.boot = .int n) (hax : axisArg o.avg = .ok (some axes))
    {w0 : World (PyVal K)} {f var : NDArr (Fl K)}
    (hf : result C I P mids (.slot .fDeterm) (unsaved o) w0 = .ok (some (.num f)))
    (hvar : result C I P mids (.slot .variance) (unsaved o) w0 = .ok (some (.num var)))
    (hsh : f.shape = (obs o.ext).shape) (hsv : var.shape = f.shape)
    (hargs : ∀ i l, IsArgsort l (c.argsort i l)) (hpl : PlainAxes var.shape.length axes)
    (hD : (dropAxes (axes.map Int.toNat) var.shape).prod ≠ 0) (hn : nbins ≠ 0)
    (hle : nbins ≤ (takeAxes (axes.map Int.toNat) var.shape).prod) {w : World (PyVal K)} {v : PyVal K}
    (hv : result C I P mids (.slot (.ss nb)) (unsaved o) w = .ok (some v)) :
    ∃ spread rmse q, v = .pair spread rmse ∧ q.shape = f.shape ∧
      (∀ k, InB f.shape k → q.get k = both (fun x y => (x - y) ^ 2) (f.get k, (obs o.ext).get k)) ∧
      ∀ k, InB (dropAxes (axes.map Int.toNat) var.shape) k →
        ∃ gs, IsGrouping nbins (pairsAt var q (axes.map Int.toNat) k) gs ∧
          ∀ b g, gs[b]? = some g → ∃ samples tv te, IsResampleOf g n c.reps samples ∧
            IsSummary (samples.map fun s => meanOf c.skipNan (s.map Prod.fst)) (1 - c.conf) c.conf tv ∧
            IsSummary (samples.map fun s => meanOf c.skipNan (s.map Prod.snd)) (1 - c.conf) c.conf te ∧
            ∀ i, i < 3 → spread.get (k ++ [b, i]) = Fl.sqrt c.sqrt (tv.getD i none) ∧
              rmse.get (k ++ [b, i]) = Fl.sqrt c.sqrt (te.getD i none) := by
  have hbn : bootArg (.int (n : Int)) = .ok n := by simp [bootArg]
  obtain ⟨q, q1, q2, q3⟩ := ss_body hP hnb hax hf hvar hsh
  obtain ⟨nm, u, w1, w2, -, h1, h2⟩ := result_slot_inv hv
  rw [q3] at h1
  cases hs : ssCreateSplit c.argsort var q nbins (some axes) with
  | error e => rw [hs] at h1; cases (Prod.mk.inj h1).1
  | ok r =>
    rw [hs] at h1
    have hu : u = .ssSplit r.1 r.2 := by cases (Prod.mk.inj h1).1; rfl
    subst hu
    simp only [slotPost, postBins, hb, reduceCtorEq, if_false, Prog.run, hP.ssBoot, basePrims, bind, Except.bind,
      hbn, Prod.mk.injEq] at h2
    cases hr : ssAggBoot c.sqrt c.skipNan r.1 r.2 n c.reps c.conf (c.rng (w1.seed w1.pos)) with
    | error e => rw [hr] at h2; cases h2.1
    | ok out =>
      rw [hr] at h2
      have h3 : spreadSkillBoot c.argsort c.sqrt c.skipNan var q nbins (some axes) n c.reps c.conf
          (c.rng (w1.seed w1.pos)) = .ok (out.1, out.2) := by
        unfold spreadSkillBoot
        rw [hs]
        exact hr
      exact ⟨out.1, out.2, q, by cases h2.1; rfl, q1, q2, C04_pairs_kept_together_boot c.argsort c.sqrt c.skipNan var q
        nbins axes n c.reps c.conf _ hargs (hsv.trans q1.symm) hpl hD hn hle h3⟩

/-! ### correlation and Brier decomposition -/

/-- **C75**, any class: `corr()` returns at every kept position the correlation of the pairs of `f_determ()` and
observation of that position. -/
theorem C75_corr (hP : Shared c obs emb P) (hs : IsSqrt c.sqrt) {o : Obj X} {B : List Nat} (hb : o.boot = .none)
    (hax : axisArg o.avg = .ok (some (B.map Int.ofNat))) {w0 : World (PyVal K)} {f : NDArr (Fl K)}
    (hf : result C I P mids (.slot .fDeterm) (unsaved o) w0 = .ok (some (.num f)))
    (hsh : f.shape = (obs o.ext).shape) (hB : SliceAxes f.shape B) (w : World (PyVal K)) :
    ∃ r, result C I P mids (.slot .corr) (unsaved o) w = .ok (some (.num r)) ∧ r.shape = dropAxes B f.shape ∧
      ∀ k, InB (dropAxes B f.shape) k → IsCorr c.skipNan (pairsAt f (obs o.ext) B k) (r.get k) := by
  obtain ⟨r, r1, r2, r3⟩ := C05_corr c.sqrt hs c.skipNan f (obs o.ext) B hsh hB
  refine ⟨r, ?_, r2, r3⟩
  have hbody : (slotBody C I P o.ext o.avg o.boot .corr).run none w = (.ok (.num r), w) := by
    simp only [slotBody]
    rw [fDetCall_run hf]
    simp only [hb, if_true, Prog.run, hP.corr, basePrims, PyVal.asNum, hax, bind, Except.bind, r1]
    rfl
  rw [result_slot (s := .corr) rfl (nm := none) rfl hbody]
  rfl

/-- **C75**, the same with bootstrapping. -/
theorem C75_corr_boot (hP : Shared c obs emb P) (hs : IsSqrt c.sqrt) {o : Obj X} {B : List Nat} {n : Nat}
    (hb : o.boot = .int n) (hax : axisArg o.avg = .ok (some (B.map Int.ofNat))) {w0 : World (PyVal K)}
    {f : NDArr (Fl K)} (hf : result C I P mids (.slot .fDeterm) (unsaved o) w0 = .ok (some (.num f)))
    (hsh : f.shape = (obs o.ext).shape) (hB : SliceAxes f.shape B) {w : World (PyVal K)} {v : PyVal K}
    (hv : result C I P mids (.slot .corr) (unsaved o) w = .ok (some v)) :
    ∃ r, v = .num r ∧ r.shape = 3 :: dropAxes B f.shape ∧
      ∀ k, InB (dropAxes B f.shape) k → ∃ samples cs t,
        IsResampleOf (pairsAt f (obs o.ext) B k) n c.reps samples ∧
        List.Forall₂ (fun smp r => IsCorr false smp r) samples cs ∧
        IsSummary (used c.skipNan cs) (1 - c.conf) c.conf t ∧ ∀ i, i < 3 → r.get (i :: k) = t.getD i none := by
  have hbn : bootArg (.int (n : Int)) = .ok n := by simp [bootArg]
  obtain ⟨nm, u, w1, w2, -, h1, h2⟩ := result_slot_inv hv
  simp only [slotBody] at h1
  rw [fDetCall_run hf] at h1
  simp only [hb, reduceCtorEq, if_false, Prog.run, hP.corrBoot, basePrims, PyVal.asNum, hax, bind, Except.bind, hbn,
    Prod.mk.injEq] at h1
  cases hr : corrBoot c.sqrt c.skipNan f (obs o.ext) (some (B.map Int.ofNat)) n c.reps c.conf
      (c.rng (w.seed w.pos) 0) with
  | error e => rw [hr] at h1; cases h1.1
  | ok r =>
    rw [hr] at h1
    have hu : u = .num r := by cases h1.1; rfl
    subst hu
    simp only [slotPost, Prog.run, Prod.mk.injEq, Except.ok.injEq] at h2
    obtain ⟨h3, h4⟩ := C05_corr_boot c.sqrt hs c.skipNan f (obs o.ext) B n c.reps c.conf _ hsh hB hr
    exact ⟨r, h2.1.symm, h3, h4⟩

/-- **C75**, any probabilistic class: `brier_decomp(...)` decomposes, at every kept position, the pairs of probability
and event of that position (in some order). -/
theorem C75_brier_decomp (hP : Shared c obs emb P) {o : Obj X} {a : A} {t : Thr K} (hemb : emb a = .thr t)
    (isOver : Bool) {B : List Nat} (hb : o.boot = .none) (hax : axisArg o.avg = .ok (some (B.map Int.ofNat)))
    {w0 : World (PyVal K)} {p : NDArr (Fl K)}
    (hp : result C I P mids (.slot (.cdf (overArg isOver a) (belowArg isOver a))) (unsaved o) w0 = .ok (some (.num p)))
    (ht : ThrOK t (obs o.ext).shape) (hsh : p.shape = (obs o.ext).shape) (hB : SliceAxes p.shape B)
    {ob : NDArr Bool} (hob : IsEvents isOver t (obs o.ext) ob) {w : World (PyVal K)} {v : PyVal K}
    (hv : result C I P mids (.slot (.brierDecomp (overArg isOver a) (belowArg isOver a))) (unsaved o) w =
      .ok (some v)) :
    ∃ rel res unc, v = .triple rel res unc ∧ (rel.shape = dropAxes B p.shape ∧ res.shape = dropAxes B p.shape ∧
        unc.shape = dropAxes B p.shape) ∧
      ∀ k, InB (dropAxes B p.shape) k → ∃ x y, x.length = y.length ∧ (x.zip y).Perm (pairsAt p (boolNum ob) B k) ∧
        funcBrierDecomp c.skipNan 19 x y = .ok [rel.get k, res.get k, unc.get k] := by
  obtain ⟨nm, u, w1, w2, -, h1, h2⟩ := result_slot_inv hv
  simp only [slotBody] at h1
  rw [withProb_run hp (binarize_events hP hemb ht hob)] at h1
  simp only [hb, if_true, Prog.run, hP.brierDecomp, basePrims, PyVal.asNum, PyVal.asBool, hax, bind, Except.bind,
    Prod.mk.injEq] at h1
  cases hr : brierDecomp c.skipNan p (boolNum ob) (some (B.map Int.ofNat)) with
  | error e => rw [hr] at h1; cases h1.1
  | ok r =>
    rw [hr] at h1
    have hu : u = .triple r.1 r.2.1 r.2.2 := by cases h1.1; rfl
    subst hu
    simp only [slotPost, Prog.run, Prod.mk.injEq, Except.ok.injEq] at h2
    obtain ⟨h3, h4⟩ := C05_brier_decomp c.skipNan p (boolNum ob) B (hsh.trans hob.1.symm) hB (rel := r.1)
      (res := r.2.1) (unc := r.2.2) hr
    exact ⟨_, _, _, h2.1.symm, h3, h4⟩

theorem complete_zip {x y : List (Fl K)} (hl : x.length = y.length)
    (h : ∀ p ∈ x.zip y, p.1 ≠ none ∧ p.2 ≠ none) :
    x = (complete (x.zip y)).map (fun p => some p.1) ∧ y = (complete (x.zip y)).map (fun p => some p.2) := by
  induction x generalizing y with
  | nil => cases y with
    | nil => exact ⟨rfl, rfl⟩
    | cons _ _ => simp at hl
  | cons a x ih =>
    cases y with
    | nil => simp at hl
    | cons b y =>
      obtain ⟨h1, h2⟩ := ih (by simpa using hl) (fun p hp => h p (by simp [hp]))
      have h3 := h (a, b) (by simp)
      cases a with
      | none => exact absurd rfl h3.1
      | some a =>
        cases b with
        | none => exact absurd rfl h3.2
        | some b =>
          have e : complete ((some a :: x).zip (some b :: y)) = (a, b) :: complete (x.zip y) := rfl
          rw [e]
          exact ⟨by rw [List.map_cons, ← h1], by rw [List.map_cons, ← h2]⟩

/-- **C75**, the values: where no probability is missing, the three numbers are the specified reliability, resolution
and uncertainty of the pairs, and add up to the mean of `(p - 1{event})²` up to the within-bin term. -/
theorem C75_brier_decomp_values (hP : Shared c obs emb P) {o : Obj X} {a : A} {t : Thr K} (hemb : emb a = .thr t)
    (isOver : Bool) {B : List Nat} (hb : o.boot = .none) (hax : axisArg o.avg = .ok (some (B.map Int.ofNat)))
    {w0 : World (PyVal K)} {p : NDArr (Fl K)}
    (hp : result C I P mids (.slot (.cdf (overArg isOver a) (belowArg isOver a))) (unsaved o) w0 = .ok (some (.num p)))
    (ht : ThrOK t (obs o.ext).shape) (hsh : p.shape = (obs o.ext).shape) (hB : SliceAxes p.shape B)
    {ob : NDArr Bool} (hob : IsEvents isOver t (obs o.ext) ob) {w : World (PyVal K)} {v : PyVal K}
    (hv : result C I P mids (.slot (.brierDecomp (overArg isOver a) (belowArg isOver a))) (unsaved o) w =
      .ok (some v)) :
    ∃ rel res unc, v = .triple rel res unc ∧ ∀ k, InB (dropAxes B p.shape) k →
      (∀ i ∈ fiberIdx p.shape B k, p.get i ≠ none) → fiberIdx p.shape B k ≠ [] →
      let Q := complete (pairsAt p (boolNum ob) B k)
      rel.get k = some (specRel 19 Q) ∧ res.get k = some (specRes 19 Q) ∧ unc.get k = some (specUnc Q) ∧
        specBrier Q = specRel 19 Q - specRes 19 Q + specUnc Q + specWithin 19 Q := by
  obtain ⟨rel, res, unc, h1, -, h2⟩ := C75_brier_decomp hP hemb isOver hb hax hp ht hsh hB hob hv
  refine ⟨rel, res, unc, h1, ?_⟩
  intro k hk hnone hne Q
  obtain ⟨x, y, hl, hperm, hval⟩ := h2 k hk
  have hpo : p.shape = ob.shape := hsh.trans hob.1.symm
  have hbn : ∀ i, InB p.shape i → (boolNum (K := K) ob).get i = some (if ob.get i then 1 else 0) := by
    intro i hi
    have := get_map (b2k (K := K)) ob (i := i) (by rw [← hpo]; exact hi)
    rw [boolNum, this]
    rfl
  have hall : ∀ q ∈ pairsAt p (boolNum (K := K) ob) B k, q.1 ≠ none ∧ ∃ e : K, q.2 = some e ∧ (e = 0 ∨ e = 1) := by
    intro q hq
    obtain ⟨i, hi, rfl⟩ := List.mem_map.1 hq
    refine ⟨hnone i hi, _, hbn i (mem_fiberIdx.1 hi).1, ?_⟩
    split <;> simp
  have hall' : ∀ q ∈ x.zip y, q.1 ≠ none ∧ q.2 ≠ none := by
    intro q hq
    obtain ⟨h3, e, h4, -⟩ := hall q (hperm.mem_iff.1 hq)
    exact ⟨h3, by rw [h4]; simp⟩
  obtain ⟨hx, hy⟩ := complete_zip hl hall'
  have hQ : (complete (x.zip y)).Perm Q := hperm.filterMap _
  have hne' : complete (x.zip y) ≠ [] := by
    intro h0
    rw [h0] at hx
    rw [show x = [] from hx] at hperm
    have := hperm.length_eq
    simp only [List.zip_nil_left, List.length_nil, pairsAt, List.length_map] at this
    exact hne (List.eq_nil_of_length_eq_zero this.symm)
  have hfun := funcBrierDecomp_spec c.skipNan 19 hne'
  rw [← hx, ← hy, hval] at hfun
  simp only [Except.ok.injEq, List.cons.injEq, and_true] at hfun
  obtain ⟨s1, s2, s3, -, -⟩ := specs_perm 19 hQ
  rw [s1, s2, s3] at hfun
  have hQne : Q ≠ [] := fun h0 => hne' (by rw [h0] at hQ; exact List.perm_nil.1 hQ)
  refine ⟨hfun.1, hfun.2.1, hfun.2.2, (spec_identity 19 hQne ?_).1⟩
  intro q hq
  obtain ⟨r, hr, hr'⟩ := List.mem_filterMap.1 hq
  obtain ⟨h3, e, h4, h5⟩ := hall r hr
  obtain ⟨r1, r2⟩ := r
  cases r1 with
  | none => exact absurd rfl h3
  | some r1 =>
    simp only at h4
    subst h4
    simp only [Option.some.injEq] at hr'
    rw [← hr']
    exact h5

/-- **C75**, `brier_decomp(...)` with bootstrapping: pairs are resampled together. -/
theorem C75_brier_decomp_boot (hP : Shared c obs emb P) {o : Obj X} {a : A} {t : Thr K} (hemb : emb a = .thr t)
    (isOver : Bool) {B : List Nat} {n : Nat} (hb : o.boot = .int n)
    (hax : axisArg o.avg = .ok (some (B.map Int.ofNat))) {w0 : World (PyVal K)} {p : NDArr (Fl K)}
    (hp : result C I P mids (.slot (.cdf (overArg isOver a) (belowArg isOver a))) (unsaved o) w0 = .ok (some (.num p)))
    (ht : ThrOK t (obs o.ext).shape) (hsh : p.shape = (obs o.ext).shape) (hB : SliceAxes p.shape B)
    {ob : NDArr Bool} (hob : IsEvents isOver t (obs o.ext) ob) {w : World (PyVal K)} {v : PyVal K}
    (hv : result C I P mids (.slot (.brierDecomp (overArg isOver a) (belowArg isOver a))) (unsaved o) w =
      .ok (some v)) :
    ∃ rel res unc, v = .triple rel res unc ∧ (rel.shape = 3 :: dropAxes B p.shape ∧
        res.shape = 3 :: dropAxes B p.shape ∧ unc.shape = 3 :: dropAxes B p.shape) ∧
      ∀ k, InB (dropAxes B p.shape) k → ∃ samples rets tl ts tu,
        IsResampleOf (pairsAt p (boolNum ob) B k) n c.reps samples ∧
        List.Forall₂ (fun smp r => funcBrierDecomp c.skipNan 19 (smp.map Prod.fst) (smp.map Prod.snd) = .ok r)
          samples rets ∧
        IsSummary (used c.skipNan (rets.map (·.getD 0 none))) (1 - c.conf) c.conf tl ∧
        IsSummary (used c.skipNan (rets.map (·.getD 1 none))) (1 - c.conf) c.conf ts ∧
        IsSummary (used c.skipNan (rets.map (·.getD 2 none))) (1 - c.conf) c.conf tu ∧
        ∀ i, i < 3 → rel.get (i :: k) = tl.getD i none ∧ res.get (i :: k) = ts.getD i none ∧
          unc.get (i :: k) = tu.getD i none := by
  have hbn : bootArg (.int (n : Int)) = .ok n := by simp [bootArg]
  obtain ⟨nm, u, w1, w2, -, h1, h2⟩ := result_slot_inv hv
  simp only [slotBody] at h1
  rw [withProb_run hp (binarize_events hP hemb ht hob)] at h1
  simp only [hb, reduceCtorEq, if_false, Prog.run, hP.brierDecompBoot, basePrims, PyVal.asNum, PyVal.asBool, hax, bind,
    Except.bind, hbn, Prod.mk.injEq] at h1
  cases hr : brierDecompBoot c.skipNan p (boolNum ob) (some (B.map Int.ofNat)) n c.reps c.conf
      (c.rng (w.seed w.pos) 0) with
  | error e => rw [hr] at h1; cases h1.1
  | ok r =>
    rw [hr] at h1
    have hu : u = .triple r.1 r.2.1 r.2.2 := by cases h1.1; rfl
    subst hu
    simp only [slotPost, Prog.run, Prod.mk.injEq, Except.ok.injEq] at h2
    obtain ⟨h3, h4⟩ := C05_brier_decomp_boot c.skipNan p (boolNum ob) B n c.reps c.conf _ (hsh.trans hob.1.symm) hB
      (rel := r.1) (res := r.2.1) (unc := r.2.2) hr
    exact ⟨_, _, _, h2.1.symm, h3, h4⟩

/-! ### receiver operating characteristic, intersection over union -/

/-- **C75**, any probabilistic class: `roc(...)` hands exactly the pairs of probability and event to scikit-learn,
leaving out missing probabilities when NaN are skipped. -/
theorem C75_roc (hP : Shared c obs emb P) {o : Obj X} {a : A} {t : Thr K} (hemb : emb a = .thr t) (isOver : Bool)
    {w0 : World (PyVal K)} {p : NDArr (Fl K)}
    (hp : result C I P mids (.slot (.cdf (overArg isOver a) (belowArg isOver a))) (unsaved o) w0 = .ok (some (.num p)))
    (ht : ThrOK t (obs o.ext).shape) (hsh : p.shape = (obs o.ext).shape) {ob : NDArr Bool}
    (hob : IsEvents isOver t (obs o.ext) ob) (w : World (PyVal K)) :
    let L := ((allIdx p.shape).map fun i => (p.get i, (some (if ob.get i then 1 else 0) : Fl K))).filter
      fun q => !(c.skipNan && q.1.isNone)
    result C I P mids (.slot (.roc (overArg isOver a) (belowArg isOver a))) (unsaved o) w =
      (c.rocCurve (L.map Prod.fst) (L.map Prod.snd)).map fun r => some (.roc r.1 r.2.1 r.2.2) := by
  intro L
  have hpo : p.shape = ob.shape := hsh.trans hob.1.symm
  obtain ⟨nm, hn⟩ := (cdf_runs hp).2.1
  obtain ⟨ps, hps⟩ := obArgs_of_cdf hn
  obtain ⟨nm', hn'⟩ := toName_ok hps (some "roc".toList)
  have hn'' : slotName I (.roc (overArg isOver a) (belowArg isOver a)) = .ok nm' := hn'
  have h20 := C20_pairs c.rocCurve c.skipNan p (boolNum ob) hpo
  have hL : (((allIdx p.shape).map fun i => (p.get i, (boolNum (K := K) ob).get i)).filter
      fun q => !(c.skipNan && (q.1.isNone || q.2.isNone))) = L := by
    have e1 : ((allIdx p.shape).map fun i => (p.get i, (boolNum (K := K) ob).get i)) =
        (allIdx p.shape).map fun i => (p.get i, (some (if ob.get i then 1 else 0) : Fl K)) := by
      apply List.map_congr_left
      intro i hi
      have := get_map (b2k (K := K)) ob (i := i) (by rw [← hpo]; exact mem_allIdx.1 hi)
      rw [boolNum, this]
      rfl
    rw [e1]
    apply List.filter_congr
    intro q hq
    obtain ⟨i, -, rfl⟩ := List.mem_map.1 hq
    simp
  rw [hL] at h20
  have hbody : (slotBody C I P o.ext o.avg o.boot (.roc (overArg isOver a) (belowArg isOver a))).run none w =
      ((c.rocCurve (L.map Prod.fst) (L.map Prod.snd)).map fun r => .roc r.1 r.2.1 r.2.2, w) := by
    simp only [slotBody]
    rw [withProb_run hp (binarize_events hP hemb ht hob)]
    simp only [Prog.run, hP.rocOf, basePrims, PyVal.asNum, PyVal.asBool, bind, Except.bind]
    rw [h20]
    cases c.rocCurve (L.map Prod.fst) (L.map Prod.snd) <;> rfl
  cases hr : c.rocCurve (L.map Prod.fst) (L.map Prod.snd) with
  | ok r =>
    rw [hr] at hbody
    rw [result_slot (s := .roc (overArg isOver a) (belowArg isOver a)) rfl hn' hbody]
    rfl
  | error e =>
    rw [hr] at hbody
    rw [result_eq]
    simp only [metricProg, Slot.probOnly, Bool.false_eq_true, false_and, if_false, hn'', Prog.callName, Prog.run,
      load_none, hbody]
    rfl

/-- `iou_determ(...)` is the function of utils_verify.py on the deterministic forecast and the observations -/
theorem iou_determ_run (hP : Shared c obs emb P) {o : Obj X} {a : A} (ha : Printable I a) {t : Thr K}
    (hemb : emb a = .thr t) (isOver : Bool) {axes : Option (List Int)} (hax : axisArg o.avg = .ok axes)
    {w0 : World (PyVal K)} {f : NDArr (Fl K)}
    (hf : result C I P mids (.slot .fDeterm) (unsaved o) w0 = .ok (some (.num f))) (w : World (PyVal K)) :
    result C I P mids (.slot (.iouDeterm (overArg isOver a) (belowArg isOver a))) (unsaved o) w =
      (iouDeterm f (obs o.ext) axes (if isOver then some t else none) (if isOver then none else some t)).map
        fun r => some (.num r) := by
  obtain ⟨ps, hps⟩ := obArgs_ok (I := I) (ov := overArg isOver a) (be := belowArg isOver a)
    (by intro b hb; cases isOver <;> simp [overArg] at hb; subst hb; exact ha)
    (by intro b hb; cases isOver <;> simp [belowArg] at hb; subst hb; exact ha)
  obtain ⟨nm', hn'⟩ := toName_ok hps (some "iou_determ".toList)
  have hx : xorGiven (overArg isOver a) (belowArg isOver a) = true := by
    cases isOver <;> rfl
  have ho : optThr ((overArg isOver a).map emb) = .ok (if isOver then some t else none) := by
    cases isOver <;> simp [overArg, optThr, hemb, Arg.asThr]
  have hbe : optThr ((belowArg isOver a).map emb) = .ok (if isOver then none else some t) := by
    cases isOver <;> simp [belowArg, optThr, hemb, Arg.asThr]
  cases hr : iouDeterm f (obs o.ext) axes (if isOver then some t else none) (if isOver then none else some t) with
  | ok r =>
    have hbody : (slotBody C I P o.ext o.avg o.boot (.iouDeterm (overArg isOver a) (belowArg isOver a))).run none w =
        (.ok (.num r), w) := by
      simp only [slotBody]
      rw [withDet_run hf, if_pos hx, hP.iouDeterm]
      simp only [basePrims, PyVal.asNum, hax, ho, hbe, bind, Except.bind, hr]
      rfl
    rw [result_slot (s := .iouDeterm (overArg isOver a) (belowArg isOver a)) rfl hn' hbody]
    rfl
  | error e =>
    have hbody : (slotBody C I P o.ext o.avg o.boot (.iouDeterm (overArg isOver a) (belowArg isOver a))).run none w =
        (.error e, w) := by
      simp only [slotBody]
      rw [withDet_run hf, if_pos hx, hP.iouDeterm]
      simp only [basePrims, PyVal.asNum, hax, ho, hbe, bind, Except.bind, hr]
    rw [result_slot_error (s := .iouDeterm (overArg isOver a) (belowArg isOver a)) rfl hn' hbody]
    rfl

/-- **C75**, any class: `iou_determ(...)` with averaging axes: the intersection over union of forecast and observed
events, between 0 and 1, one exactly when forecast and observed
events coincide over the averaged positions, zero exactly when they never meet, missing when there are none. -/
theorem C75_iou_determ (hP : Shared c obs emb P) {o : Obj X} {a : A} (ha : Printable I a) {t : Thr K}
    (hemb : emb a = .thr t) (isOver : Bool) {l : List Int} (hax : axisArg o.avg = .ok (some l))
    {w0 : World (PyVal K)} {f : NDArr (Fl K)}
    (hf : result C I P mids (.slot .fDeterm) (unsaved o) w0 = .ok (some (.num f)))
    (hsh : f.shape = (obs o.ext).shape) (ht : ThrOK t f.shape) (hok : OptOK f.shape.length (some l))
    (w : World (PyVal K)) :
    ∃ r, result C I P mids (.slot (.iouDeterm (overArg isOver a) (belowArg isOver a))) (unsaved o) w =
        .ok (some (.num r)) ∧ r.shape = dropAxes (l.map (axisNum f.shape.length)) f.shape ∧
      ∀ k, InB r.shape k →
        let L := fiberIdx f.shape (l.map (axisNum f.shape.length)) k
        let F := Event isOver t f
        let O := Event isOver t (obs o.ext)
        IsIou L F O (r.get k) ∧ ((∀ i ∈ L, ¬ F i ∧ ¬ O i) → r.get k = none) ∧
        ((∃ i ∈ L, F i ∨ O i) → ∃ x, r.get k = some x ∧ 0 ≤ x ∧ x ≤ 1 ∧
          (x = 1 ↔ ∀ i ∈ L, F i ↔ O i) ∧ (x = 0 ↔ ∀ i ∈ L, ¬ (F i ∧ O i))) := by
  obtain ⟨r, r1, r2, r3⟩ := C19_determ_partial f (obs o.ext) hsh hok t ht isOver
  refine ⟨r, ?_, r2, fun k hk => by rw [r2] at hk; exact r3 k hk⟩
  rw [iou_determ_run hP ha hemb isOver hax hf, r1]
  rfl

/-- **C75**, any class: `iou_determ(...)` with `avg_axis=None`: one number, the intersection over union over all
positions; without any event it raises `ZeroDivisionError`. -/
theorem C75_iou_determ_all (hP : Shared c obs emb P) {o : Obj X} {a : A} (ha : Printable I a) {t : Thr K}
    (hemb : emb a = .thr t) (isOver : Bool) (hax : axisArg o.avg = .ok none)
    {w0 : World (PyVal K)} {f : NDArr (Fl K)}
    (hf : result C I P mids (.slot .fDeterm) (unsaved o) w0 = .ok (some (.num f)))
    (hsh : f.shape = (obs o.ext).shape) (ht : ThrOK t f.shape) (w : World (PyVal K)) :
    let F := Event isOver t f
    let O := Event isOver t (obs o.ext)
    ((∀ i, InB f.shape i → ¬ F i ∧ ¬ O i) →
      result C I P mids (.slot (.iouDeterm (overArg isOver a) (belowArg isOver a))) (unsaved o) w = .error .generic) ∧
    ((∃ i, InB f.shape i ∧ (F i ∨ O i)) →
      ∃ r, result C I P mids (.slot (.iouDeterm (overArg isOver a) (belowArg isOver a))) (unsaved o) w =
        .ok (some (.num r)) ∧ r.shape = [] ∧ IsIou (allIdx f.shape) F O (r.get [])) := by
  intro F O
  rw [iou_determ_run hP ha hemb isOver hax hf]
  obtain ⟨h1, h2⟩ := iouDeterm_all f (obs o.ext) hsh t ht isOver
  refine ⟨fun h => ?_, fun h => ?_⟩
  · rw [h1 h]
    rfl
  · obtain ⟨r, r1, r2, r3⟩ := h2 h
    exact ⟨r, by rw [r1]; rfl, r2, r3⟩

end Props
