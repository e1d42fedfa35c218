import Verif.Props.EndToEndProb
import Verif.Props.Integration

/-!
# The gamma hurdle verifier from the constructor to its metrics: C76
-/

set_option linter.unusedSectionVars false

namespace Props
open Np NDArr Spec Model Lemmas

/-- results that are all computed and not saved -/
theorem run_callAll {V B : Type} (pts : List B) {nm : B → Except Err (Option Name)} {body : B → Prog V} {v : B → V}
    (hn : ∀ b ∈ pts, ∃ n, nm b = .ok n) (hb : ∀ b ∈ pts, ∀ w, (body b).run none w = (.ok (v b), w))
    (k : List V → Prog V) (w : World V) :
    (Prog.callAll (pts.map fun b => (nm b, body b)) k).run none w = (k (pts.map v)).run none w := by
  induction pts generalizing k with
  | nil => rfl
  | cons b pts ih =>
    obtain ⟨n, h1⟩ := hn b (by simp)
    simp only [List.map_cons, Prog.callAll, h1, Prog.callName]
    rw [run_call_none _ _ _ _ (hb b (by simp) w)]
    exact ih (fun b' hb' => hn b' (by simp [hb'])) (fun b' hb' => hb b' (by simp [hb'])) _

theorem mapE_asNum {K : Type} (l : List (NDArr (Fl K))) : mapE PyVal.asNum (l.map PyVal.num) = .ok l := by
  induction l with
  | nil => rfl
  | cons a l ih => simp only [List.map_cons, mapE, PyVal.asNum, ih]

variable {K : Type} [Field K] [LinearOrder K] [IsStrictOrderedRing K] [FloorSemiring K]
variable {A : Type} {I : ArgInfo A} {mids : FS (PyVal K) → Path → List (FS (PyVal K))} {c : Cfg K} {emb : A → Arg K}
variable {F : ProbFns K} {ofNum : K → A}

/-- data and settings for which the hurdle verifier works: the parameters have the shape of the observations (the
constructor does not check it), probabilities of precipitation are probabilities, and there is an integration grid
`seq` whose points can be passed as thresholds -/
structure HurdleOK (c : Cfg K) (F : ProbFns K) (I : ArgInfo A) (emb : A → Arg K) (ofNum : K → A) (x : ProbX K)
    (pop mu sigma : NDArr (Fl K)) (seq : List K) : Prop where
  hpop : HasPar x "pop" pop
  hmu : HasPar x "mu" mu
  hsigma : HasPar x "sigma" sigma
  unit : ∀ k v, InB x.o.shape k → pop.get k = some v → 0 ≤ v ∧ v ≤ 1
  lib : UnitLib F.scipy
  pool : PoolOK c.workers c.mapAxis x.o.shape
  thr : ∀ v, emb (ofNum v) = .thr (.scalar (some v))
  print : ∀ v, Printable I (ofNum v)
  grid : hurdleSeq F x = .ok seq
  ne : seq ≠ []

variable {pop mu sigma : NDArr (Fl K)} {seq : List K}

/-- the rows of the integrations -/
theorem hurdle_row {x : ProbX K} (H : HurdleOK c F I emb ofNum x pop mu sigma seq) (v : K) :
    ∃ p, hurdleCdfOf c F x (.scalar (some v)) = .ok p ∧ p.shape = x.o.shape ∧
      ∀ k, InB x.o.shape k → p.get k = hurdleProb F.scipy (pop.get k) (mu.get k) (sigma.get k) (some v) :=
  hurdleCdfOf_ok H.hpop H.hmu H.hsigma H.unit H.lib (t := .scalar (some v)) trivial H.pool

/-- the integrals over rows of numbers -/
theorem hurdleSum_spec {x : ProbX K} (H : HurdleOK c F I emb ofNum x pop mu sigma seq) (kind : Kind)
    {row : K → NDArr (Fl K)} (hr : ∀ v, (row v).shape = x.o.shape) :
    ∃ m, hurdleSum F kind x (seq.map fun v => .num (row v)) = .ok (.num m) ∧ m.shape = x.o.shape ∧
      ∀ k, InB x.o.shape k → ∀ G : ℕ → K, (∀ i < seq.length, (row (seq.getD i 0)).get k = some (G i)) →
        m.get k = some (integral kind (fun i => seq.getD i 0) G seq.length) := by
  have hne : seq.map row ≠ [] := by
    intro h
    exact H.ne (List.map_eq_nil_iff.1 h)
  have hc := combineRows_spec kind (seq := seq) (s := x.o.shape) hne (by simp) (by
    intro r hr'
    obtain ⟨v, -, rfl⟩ := List.mem_map.1 hr'
    exact hr v)
  refine ⟨ofFn x.o.shape fun k => combineAt kind seq fun i => ((seq.map row).getD i default).get k, ?_, rfl,
    fun k hk G hG => ?_⟩
  · have := mapE_asNum (seq.map row)
    rw [List.map_map] at this
    simp only [hurdleSum, H.grid, bind, Except.bind]
    rw [show (seq.map fun v => PyVal.num (row v)) = seq.map (PyVal.num ∘ row) from rfl, this]
    simp only [hc]
    rfl
  · rw [get_ofFn _ hk]
    apply combineAt_some
    intro i hi
    rw [← hG i hi]
    congr 1
    simp [List.getD_eq_getElem?_getD, List.getElem?_eq_getElem hi]

/-- the probabilities a hurdle verifier gives, and their Brier scores -/
theorem C76_hurdle_probabilities {oi o : Obj (ProbX K)} {w w' : World (PyVal K)}
    (h : construct (hurdlePrims c F emb ofNum) mids oi w = (.ok o, w'))
    (hpop : HasPar oi.ext "pop" pop) (hmu : HasPar oi.ext "mu" mu) (hsd : HasPar oi.ext "sigma" sigma)
    (hp : ∀ k v, InB oi.ext.o.shape k → pop.get k = some v → 0 ≤ v ∧ v ≤ 1) (hS : UnitLib F.scipy)
    (hpool : PoolOK c.workers c.mapAxis oi.ext.o.shape) {a : A} (ha : Printable I a) {t : Thr K} (hemb : emb a = .thr t)
    (ht : ThrOK t oi.ext.o.shape) (hb : oi.boot = .none) (hok : OptOK oi.ext.o.shape.length (axesOf oi.avg))
    (isOver : Bool) (w1 : World (PyVal K)) :
    ∃ q r,
      result .hurdle I (hurdlePrims c F emb ofNum) mids (.slot (.cdf (overArg isOver a) (belowArg isOver a))) (unsaved o)
        w1 = .ok (some (.num q)) ∧
      result .hurdle I (hurdlePrims c F emb ofNum) mids (.slot (.brier (overArg isOver a) (belowArg isOver a)))
        (unsaved o) w1 = .ok (some (.num r)) ∧
      q.shape = oi.ext.o.shape ∧ r.shape = dropAxes (nums oi.ext.o.shape.length (axesOf oi.avg)) oi.ext.o.shape ∧
      (∀ k, InB oi.ext.o.shape k → q.get k =
        eventProb isOver (hurdleProb F.scipy (pop.get k) (mu.get k) (sigma.get k) (thrAt t k))) ∧
      ∀ k, InB r.shape k →
        IsAvg c.skipNan ((fiberIdx oi.ext.o.shape (nums oi.ext.o.shape.length (axesOf oi.avg)) k).map fun i =>
          (eventProb isOver (hurdleProb F.scipy (pop.get i) (mu.get i) (sigma.get i) (thrAt t i))).map fun v =>
            (v - indicator (Event isOver t oi.ext.o i)) ^ 2) (r.get k) := by
  have hP := shared_hurdle c F emb ofNum
  obtain ⟨e, -, h2, h3⟩ := construct_prob hP h
  obtain ⟨p, p1, p2, p3⟩ := hurdleCdfOf_ok hpop hmu hsd hp hS ht hpool
  obtain ⟨q, q1, q2, q3⟩ := prob_cdf (mids := mids) (o := o) (C := .hurdle) hP (by decide) ha hemb (by rw [e]; exact p1)
    isOver w1
  obtain ⟨r, r1, r2, r3⟩ := prob_brier (mids := mids) (o := o) (C := .hurdle) hP (by decide) ha hemb
    ⟨p, by rw [e]; exact p1, by rw [e]; exact p2, by rw [e]; exact p3⟩ (by rw [e]; exact ht) (h2.trans hb) h3
    (by rw [e]; exact hok) isOver w1
  rw [e] at r2 r3
  exact ⟨q, r, q1, r1, q2.trans p2, r2, fun k hk => by rw [q3 k (by rw [p2]; exact hk), p3 k hk], r3⟩

/-- running the calls `cdf(below=x)` over the grid -/
theorem cdfAll_run {x : ProbX K} (H : HurdleOK c F I emb ofNum x pop mu sigma seq) (kind : Kind)
    (w : World (PyVal K)) :
    ∃ m, (cdfAll .hurdle I (hurdlePrims c F emb ofNum) x (hurdleSum F kind)).run none w = (.ok (.num m), w) ∧
      m.shape = x.o.shape ∧ ∀ k, InB x.o.shape k → ∀ G : ℕ → K,
        (∀ i < seq.length,
          hurdleProb F.scipy (pop.get k) (mu.get k) (sigma.get k) (some (seq.getD i 0)) = some (G i)) →
        m.get k = some (integral kind (fun i => seq.getD i 0) G seq.length) := by
  choose row hrow hsh hget using hurdle_row H
  obtain ⟨m, m1, m2, m3⟩ := hurdleSum_spec H kind hsh
  refine ⟨m, ?_, m2, fun k hk G hG => m3 k hk G fun i hi => by rw [hget _ k hk, hG i hi]⟩
  have hg : (hurdlePrims c F emb ofNum).grid x = .ok (seq.map ofNum) := by
    simp only [hurdlePrims, H.grid, bind, Except.bind]
    rfl
  simp only [cdfAll, hg]
  rw [List.map_map]
  have := run_callAll (V := PyVal K) seq (nm := fun v => slotName I (.cdf none (some (ofNum v))))
    (body := fun v => cdfBody .hurdle I (hurdlePrims c F emb ofNum) x none (some (ofNum v)))
    (v := fun v => .num (row v)) (fun v _ => by
      obtain ⟨ps, hps⟩ := obArgs_ok (I := I) (ov := none) (be := some (ofNum v)) (by simp)
        (by rintro a ⟨⟩; exact H.print v)
      exact toName_ok hps (some "cdf".toList)) (fun v _ w => by
      simp only [cdfBody, Prog.run, reduceCtorEq, if_false]
      simp only [hurdlePrims, probPrims, H.thr, Arg.asThr, bind, Except.bind, hrow]
      rfl) (fun vs => .ret (hurdleSum F kind x vs)) w
  rw [show ((fun a => (slotName I (.cdf none (some a)),
      cdfBody .hurdle I (hurdlePrims c F emb ofNum) x none (some a))) ∘ ofNum) =
    fun v => (slotName I (.cdf none (some (ofNum v))),
      cdfBody .hurdle I (hurdlePrims c F emb ofNum) x none (some (ofNum v))) from rfl, this]
  simp only [Prog.run, m1]

/-- **C76**, hurdle class: `f_determ()` and `variance()` are the mean and the variance of the distribution that puts
half the increment of the hurdle distribution function on either end of its grid interval. -/
theorem C76_hurdle_moments {oi o : Obj (ProbX K)} {w w' : World (PyVal K)}
    (h : construct (hurdlePrims c F emb ofNum) mids oi w = (.ok o, w'))
    (H : HurdleOK c F I emb ofNum oi.ext pop mu sigma seq) (w1 : World (PyVal K)) :
    ∃ m v,
      result .hurdle I (hurdlePrims c F emb ofNum) mids (.slot .fDeterm) (unsaved o) w1 = .ok (some (.num m)) ∧
      result .hurdle I (hurdlePrims c F emb ofNum) mids (.slot .variance) (unsaved o) w1 = .ok (some (.num v)) ∧
      m.shape = oi.ext.o.shape ∧ v.shape = oi.ext.o.shape ∧
      ∀ k, InB oi.ext.o.shape k → ∀ G : ℕ → K,
        (∀ i < seq.length,
          hurdleProb F.scipy (pop.get k) (mu.get k) (sigma.get k) (some (seq.getD i 0)) = some (G i)) →
        m.get k = some (stieltjes (fun t => t) (fun i => seq.getD i 0) G seq.length) ∧
        v.get k = some (stieltjes (fun t => t * t) (fun i => seq.getD i 0) G seq.length -
          stieltjes (fun t => t) (fun i => seq.getD i 0) G seq.length *
            stieltjes (fun t => t) (fun i => seq.getD i 0) G seq.length) := by
  obtain ⟨e, -, -, -⟩ := construct_prob (shared_hurdle c F emb ofNum) h
  obtain ⟨m, m1, m2, m3⟩ := cdfAll_run H .mean w1
  obtain ⟨v, v1, v2, v3⟩ := cdfAll_run H .variance w1
  refine ⟨m, v, ?_, ?_, m2, v2, fun k hk G hG => ⟨m3 k hk G hG, v3 k hk G hG⟩⟩
  · obtain ⟨nm, hn⟩ := fixed_ok I (some "f_determ".toList)
    rw [result_slot (s := .fDeterm) rfl hn (w1 := w1) (v := .num m) (by
      simp only [slotBody, fDetBody]
      rw [e]
      exact m1)]
    rfl
  · obtain ⟨nm, hn⟩ := fixed_ok I (some "variance".toList)
    rw [result_slot (s := .variance) rfl hn (w1 := w1) (v := .num v) (by
      simp only [slotBody, varBody]
      rw [e]
      exact v1)]
    rfl

/-- the Brier scores of one threshold before averaging -/
theorem hurdle_brier_row {x : ProbX K} (H : HurdleOK c F I emb ofNum x pop mu sigma seq) (v : K) :
    ∃ b, (∀ w, (brierBody .hurdle I (hurdlePrims c F emb ofNum) x none (some (ofNum v))).run none w = (.ok (.num b), w)) ∧
      b.shape = x.o.shape ∧ ∀ k, InB x.o.shape k → b.get k =
        (hurdleProb F.scipy (pop.get k) (mu.get k) (sigma.get k) (some v)).map fun g =>
          (g - indicator (Event false (.scalar (some v)) x.o k)) ^ 2 := by
  have hP := shared_hurdle c F emb ofNum
  obtain ⟨p, p1, p2, p3⟩ := hurdle_row H v
  obtain ⟨ob, h1, h2, h3⟩ := binarize_spec (x := x) hP.base (H.thr v) false (t := .scalar (some v)) trivial
  have hso : p.shape = ob.shape := p2.trans h2.symm
  obtain ⟨m, m1, m2, m3⟩ := zipWith_spec (fun p b => Fl.sq (Fl.sub p (some (if b then (1 : K) else 0)))) p ob hso
  refine ⟨m, fun w => ?_, m2.trans p2, fun k hk => ?_⟩
  · obtain ⟨ps, hps⟩ := obArgs_ok (I := I) (ov := none) (be := some (ofNum v)) (by simp)
      (by rintro a ⟨⟩; exact H.print v)
    obtain ⟨nm, hn⟩ := toName_ok hps (some "cdf".toList)
    have hn' : slotName I (.cdf none (some (ofNum v))) = .ok nm := hn
    simp only [brierBody, reduceCtorEq, if_false, cdfCall, hn', Prog.callName]
    rw [run_call_none _ _ _ _ (show (cdfBody .hurdle I (hurdlePrims c F emb ofNum) x none (some (ofNum v))).run none w =
      (.ok (.num p), w) by
        simp only [cdfBody, Prog.run, reduceCtorEq, if_false]
        simp only [hurdlePrims, probPrims, H.thr, Arg.asThr, bind, Except.bind, p1]
        rfl)]
    have h1' : (hurdlePrims c F emb ofNum).binarize x none (some (ofNum v)) = .ok (.bool ob) := h1
    simp only [h1', Prog.run, hP.base.brierOf]
    simp only [basePrims, PyVal.asNum, PyVal.asBool, bind, Except.bind, brierArr, m1]
    rfl
  · rw [m3 k (by rw [p2]; exact hk), p3 k hk]
    have := h3 k hk
    have hind : (if ob.get k = true then (1 : K) else 0) = indicator (Event false (.scalar (some v)) x.o k) := by
      unfold indicator
      by_cases hE : Event false (.scalar (some v)) x.o k
      · rw [if_pos (this.2 hE), if_pos hE]
      · rw [if_neg (fun h => hE (this.1 h)), if_neg hE]
    rw [hind]
    cases hurdleProb F.scipy (pop.get k) (mu.get k) (sigma.get k) (some v) <;> simp [Fl.sq, Fl.sub, Fl.lift2, sq]

/-- **C76**, hurdle class: `crps()` is the average over the requested axes of the trapezoidal rule, over the grid, for
the squared difference between the hurdle distribution function and the indicator of the observation being below the
grid point. -/
theorem C76_hurdle_crps {oi o : Obj (ProbX K)} {w w' : World (PyVal K)}
    (h : construct (hurdlePrims c F emb ofNum) mids oi w = (.ok o, w'))
    (H : HurdleOK c F I emb ofNum oi.ext pop mu sigma seq) (hb : oi.boot = .none)
    (hok : OptOK oi.ext.o.shape.length (axesOf oi.avg)) (w1 : World (PyVal K)) :
    ∃ (m r : NDArr (Fl K)),
      result .hurdle I (hurdlePrims c F emb ofNum) mids (.slot .crps) (unsaved o) w1 = .ok (some (.num r)) ∧
      r.shape = dropAxes (nums oi.ext.o.shape.length (axesOf oi.avg)) oi.ext.o.shape ∧
      (∀ k, InB r.shape k →
        IsAvg c.skipNan ((fiberIdx oi.ext.o.shape (nums oi.ext.o.shape.length (axesOf oi.avg)) k).map m.get) (r.get k)) ∧
      ∀ k, InB oi.ext.o.shape k → ∀ G : ℕ → K,
        (∀ i < seq.length,
          hurdleProb F.scipy (pop.get k) (mu.get k) (sigma.get k) (some (seq.getD i 0)) = some (G i)) →
        m.get k = some (trapezoid (fun i => seq.getD i 0)
          (fun i => (G i - indicator (Event false (.scalar (some (seq.getD i 0))) oi.ext.o k)) ^ 2) seq.length) := by
  have hP := shared_hurdle c F emb ofNum
  obtain ⟨e, -, h2, h3⟩ := construct_prob hP h
  choose row hrow hsh hget using hurdle_brier_row H
  obtain ⟨m, m1, m2, m3⟩ := hurdleSum_spec H .crps hsh
  have hg : (hurdlePrims c F emb ofNum).grid oi.ext = .ok (seq.map ofNum) := by
    simp only [hurdlePrims, H.grid, bind, Except.bind]
    rfl
  have hbody : ∀ w, (slotBody .hurdle I (hurdlePrims c F emb ofNum) o.ext o.avg o.boot .crps).run none w =
      (.ok (.num m), w) := by
    intro w
    simp only [slotBody]
    rw [e, hg]
    simp only
    rw [List.map_map]
    have := run_callAll (V := PyVal K) seq (nm := fun v => slotName I (.brier none (some (ofNum v))))
      (body := fun v => brierBody .hurdle I (hurdlePrims c F emb ofNum) oi.ext none (some (ofNum v)))
      (v := fun v => .num (row v)) (fun v _ => by
        obtain ⟨ps, hps⟩ := obArgs_ok (I := I) (ov := none) (be := some (ofNum v)) (by simp)
          (by rintro a ⟨⟩; exact H.print v)
        exact toName_ok hps (some "brier".toList)) (fun v _ w => hrow v w)
      (fun vs => .ret ((hurdlePrims c F emb ofNum).crpsOf oi.ext vs)) w
    rw [show ((fun a => (slotName I (.brier none (some a)),
        brierBody .hurdle I (hurdlePrims c F emb ofNum) oi.ext none (some a))) ∘ ofNum) =
      fun v => (slotName I (.brier none (some (ofNum v))),
        brierBody .hurdle I (hurdlePrims c F emb ofNum) oi.ext none (some (ofNum v))) from rfl, this]
    have m1' : (hurdlePrims c F emb ofNum).crpsOf oi.ext (seq.map fun v => .num (row v)) = .ok (.num m) := m1
    simp only [Prog.run, m1']
  obtain ⟨nm, hn⟩ := fixed_ok I (some "crps".toList)
  obtain ⟨r, r1, r2, r3⟩ := avg_result (mids := mids) (s := .crps) hP.base rfl hn rfl (h2.trans hb) h3 (m := m)
    (by rw [m2]; exact hok) (w := w1) hbody
  rw [m2] at r2 r3
  refine ⟨m, r, r1, r2, fun k hk => ?_, fun k hk G hG => ?_⟩
  · rw [r2] at hk
    have := r3 k hk
    rw [fiber, m2] at this
    exact this
  · exact m3 k hk _ fun i hi => by rw [hget _ k hk, hG i hi]; rfl

/-- **C76**, hurdle class: the errors are averages of the differences between that mean and the observations. -/
theorem C76_hurdle_errors {oi o : Obj (ProbX K)} {w w' : World (PyVal K)}
    (h : construct (hurdlePrims c F emb ofNum) mids oi w = (.ok o, w'))
    (H : HurdleOK c F I emb ofNum oi.ext pop mu sigma seq) (hb : oi.boot = .none)
    (hok : OptOK oi.ext.o.shape.length (axesOf oi.avg)) (w1 : World (PyVal K)) :
    ∃ m e a q r,
      result .hurdle I (hurdlePrims c F emb ofNum) mids (.slot .fDeterm) (unsaved o) w1 = .ok (some (.num m)) ∧
      result .hurdle I (hurdlePrims c F emb ofNum) mids (.slot .error) (unsaved o) w1 = .ok (some (.num e)) ∧
      result .hurdle I (hurdlePrims c F emb ofNum) mids (.slot .abError) (unsaved o) w1 = .ok (some (.num a)) ∧
      result .hurdle I (hurdlePrims c F emb ofNum) mids (.slot .sqError) (unsaved o) w1 = .ok (some (.num q)) ∧
      result .hurdle I (hurdlePrims c F emb ofNum) mids .rmse (unsaved o) w1 = .ok (some (.num r)) ∧
      (e.shape = dropAxes (nums oi.ext.o.shape.length (axesOf oi.avg)) oi.ext.o.shape ∧ a.shape = e.shape ∧
        q.shape = e.shape ∧ r.shape = e.shape) ∧
      ∀ k, InB e.shape k →
        let Q := pairsAt m oi.ext.o (nums oi.ext.o.shape.length (axesOf oi.avg)) k
        IsAvg c.skipNan (Q.map (both fun x y => x - y)) (e.get k) ∧
        IsAvg c.skipNan (Q.map (both fun x y => |x - y|)) (a.get k) ∧
        IsAvg c.skipNan (Q.map (both fun x y => (x - y) ^ 2)) (q.get k) ∧
        r.get k = (q.get k).map c.sqrt := by
  have hP := shared_hurdle c F emb ofNum
  obtain ⟨hx, -, h2, h3⟩ := construct_prob hP h
  obtain ⟨m, v, m1, -, m2, -, -⟩ := C76_hurdle_moments (I := I) h H w1
  obtain ⟨e, a, q, r, e1, e2, e3, e4, e5, e6⟩ := C75_errors (mids := mids) (I := I) hP.base (o := o) (h2.trans hb) h3 m1
    (by rw [hx]; exact m2) (by rw [m2]; exact hok) w1
  rw [m2] at e5
  rw [m2, hx] at e6
  exact ⟨m, e, a, q, r, m1, e1, e2, e3, e4, e5, e6⟩

/-- the hurdle class cannot sample -/
theorem C76_hurdle_no_sample {o : Obj (ProbX K)} (w1 : World (PyVal K)) :
    result .hurdle I (hurdlePrims c F emb ofNum) mids (.slot .probToEns) (unsaved o) w1 = .error .notImplemented ∧
    result .hurdle I (hurdlePrims c F emb ofNum) mids (.slot .spread) (unsaved o) w1 = .error .notImplemented := by
  constructor
  · rw [result_eq]
    simp only [metricProg, slotName, Prog.callName, slotBody, ensBody]
    rw [if_neg (by simp)]
    rfl
  · obtain ⟨nm, hn⟩ := fixed_ok I (some "spread".toList)
    exact result_slot_error (s := .spread) (w1 := w1) rfl hn (by
      simp only [slotBody, slotName, Prog.callName, ensBody, Prog.run, load_none])

end Props
