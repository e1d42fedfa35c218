import Verif.Props.Crps
import Verif.Lemmas.ApiProb
import Verif.Props.Dist
import Verif.Props.EndToEndClasses
import Verif.Props.Sample

/-!
# From the constructor to the metrics of the probabilistic verifiers: C76
-/

set_option linter.unusedSectionVars false

namespace Props
open Np NDArr Spec Model Lemmas

variable {K : Type} [Field K] [LinearOrder K] [IsStrictOrderedRing K] [FloorSemiring K]
variable {A : Type} {I : ArgInfo A} {mids : FS (PyVal K) → Path → List (FS (PyVal K))} {c : Cfg K} {emb : A → Arg K}
variable {F : ProbFns K} {C : Cls} {P : Prims (ProbX K) (PyVal K) A} {cdf : ProbX K → Thr K → Except Err (NDArr (Fl K))}

/-! ### the methods of VerifyProb -/

theorem construct_prob (hP : SharedProb c F emb cdf P) {oi o : Obj (ProbX K)} {w w' : World (PyVal K)}
    (h : construct P mids oi w = (.ok o, w')) :
    o.ext = oi.ext ∧ (P.check oi.ext).1 = .ok () ∧ o.boot = oi.boot ∧ axisArg o.avg = .ok (axesOf oi.avg) := by
  have hax := construct_axis h
  rcases construct_cases P (mids := mids) (oi := oi) (w := w) with
    ⟨e, w1, he, -⟩ | ⟨o', ho, h1, h2, -, -, x1, hx1, hx2⟩
  · rw [he] at h; cases h
  · rw [ho] at h
    simp only [Prod.mk.injEq, Except.ok.injEq] at h
    obtain ⟨rfl, -⟩ := h
    rw [hP.init, Except.ok.injEq] at hx2
    have := hP.check oi.ext
    rw [hx1] at this
    simp only at this
    exact ⟨by rw [← hx2, this], by rw [hx1], h2, axisArg_ready (h1.trans (validateAxis_axesOf _ hax))⟩

/-- what `cdf(...)` returns, given the distribution function of the class -/
theorem prob_cdf (hP : SharedProb c F emb cdf P) (hC : C ≠ .determ) {o : Obj (ProbX K)} {a : A} (ha : Printable I a)
    {t : Thr K} (hemb : emb a = .thr t) {p : NDArr (Fl K)} (hp : cdf o.ext t = .ok p) (isOver : Bool)
    (w : World (PyVal K)) :
    ∃ q, result C I P mids (.slot (.cdf (overArg isOver a) (belowArg isOver a))) (unsaved o) w = .ok (some (.num q)) ∧
      q.shape = p.shape ∧ ∀ k, InB p.shape k → q.get k = eventProb isOver (p.get k) := by
  obtain ⟨ps, hps⟩ := obArgs_ok (I := I) (ov := none) (be := some a) (by simp) (by rintro _ ⟨⟩; exact ha)
  obtain ⟨nm, hn⟩ := toName_ok hps (some "cdf".toList)
  have hb : (slotBody C I P o.ext o.avg o.boot (.cdf none (some a))).run none w = (.ok (.num p), w) := by
    simp only [slotBody, cdfBody, if_neg hC, Prog.run, hP.cdfBelow, probPrims, hemb, Arg.asThr, bind, Except.bind, hp]
    rfl
  have hbelow : result C I P mids (.slot (.cdf none (some a))) (unsaved o) w = .ok (some (.num p)) := by
    rw [result_slot (s := .cdf none (some a)) rfl hn hb]
    rfl
  cases isOver with
  | false => exact ⟨p, hbelow, rfl, fun k _ => rfl⟩
  | true =>
    refine ⟨_, C75_over hP.base ha hbelow w, rfl, fun k hk => ?_⟩
    have hg := get_map (fun x : Fl K => Fl.sub (some 1) x) p hk
    rw [hg]
    cases p.get k <;> rfl

/-- the average Brier score, given the probability `G k` below the threshold at every position -/
theorem prob_brier (hP : SharedProb c F emb cdf P) (hC : C ≠ .determ) {o : Obj (ProbX K)} {a : A} (ha : Printable I a)
    {t : Thr K} (hemb : emb a = .thr t) {G : List Nat → Fl K}
    (hp : ∃ p, cdf o.ext t = .ok p ∧ p.shape = o.ext.o.shape ∧ ∀ k, InB o.ext.o.shape k → p.get k = G k)
    (ht : ThrOK t o.ext.o.shape) {axes : Option (List Int)} (hb : o.boot = .none) (hax : axisArg o.avg = .ok axes)
    (hok : OptOK o.ext.o.shape.length axes) (isOver : Bool) (w : World (PyVal K)) :
    ∃ r, result C I P mids (.slot (.brier (overArg isOver a) (belowArg isOver a))) (unsaved o) w = .ok (some (.num r)) ∧
      r.shape = dropAxes (nums o.ext.o.shape.length axes) o.ext.o.shape ∧
      ∀ k, InB r.shape k →
        IsAvg c.skipNan ((fiberIdx o.ext.o.shape (nums o.ext.o.shape.length axes) k).map fun i =>
          (eventProb isOver (G i)).map fun v => (v - indicator (Event isOver t o.ext.o i)) ^ 2) (r.get k) := by
  obtain ⟨p, p1, p2, p3⟩ := hp
  obtain ⟨q, q1, q2, q3⟩ := prob_cdf (mids := mids) hP hC ha hemb p1 isOver w
  obtain ⟨r, r1, r2, r3⟩ := C75_brier hP.base hemb isOver hb hax q1 ht (q2.trans p2) hok w
  refine ⟨r, r1, r2, fun k hk => ?_⟩
  have := r3 k hk
  rw [brierAt] at this
  convert this using 1
  apply List.map_congr_left
  intro i hi
  have hi' := (mem_fiberIdx.1 hi).1
  rw [q3 i (by rw [p2]; exact hi'), p3 i hi']

/-- `pit()` is the function `pit` of the modelled file -/
theorem pit_run (hP : SharedProb c F emb cdf P) (o : Obj (ProbX K)) (w : World (PyVal K)) :
    ∃ w', (pitBody P o.ext).run none w =
      ((pit (cdf o.ext) (o.ext.randomize == some true) (F.uni (w.seed w.pos)) o.ext.o).map PyVal.num, w') := by
  simp only [pitBody, hP.pitRanks, hP.pitRandom, hP.pitDraw, probPrims, pit, probCdf]
  cases hc : cdf o.ext (.array o.ext.o) with
  | error e => exact ⟨w, by simp [bind, Except.bind, Prog.run, Except.map]⟩
  | ok r =>
    simp only [bind, Except.bind, pure, Except.pure]
    by_cases hr : (o.ext.randomize == some true) = true
    · rw [if_pos hr, if_pos hr]
      simp only [Prog.run, PyVal.asNum]
      refine ⟨_, Prod.ext ?_ rfl⟩
      simp only [pitZero, pure, Except.pure]
      by_cases h1 : r.shape = o.ext.o.shape
      · rw [if_pos h1]
        split_ifs <;> rfl
      · rw [if_neg h1]
        rfl
    · rw [if_neg hr, if_neg hr]
      exact ⟨w, rfl⟩

/-- **C76**, PIT of every probabilistic class: where it returns, `pit()` gives at every position the distribution
function at the observation, except that zero observations get a value between zero and it if randomised; without
members to sample `rank_hist()` is the same. -/
theorem C76_pit (hP : SharedProb c F emb cdf P) (hC : C ≠ .determ ∧ C ≠ .ensemble) {o : Obj (ProbX K)} {p : NDArr (Fl K)}
    (hp : cdf o.ext (.array o.ext.o) = .ok p) (hunit : InUnit p) (hsh : p.shape = o.ext.o.shape)
    (hu : ∀ s k, 0 ≤ F.uni s k ∧ F.uni s k < 1) {req : Req A}
    (hreq : req = .slot .pit ∨ (req = .slot .rankHist ∧ P.members o.ext = false)) {w : World (PyVal K)} {v : PyVal K}
    (hv : result C I P mids req (unsaved o) w = .ok (some v)) :
    ∃ r, v = .num r ∧ r.shape = o.ext.o.shape ∧ InUnit r ∧ ∀ k, InB o.ext.o.shape k →
      (o.ext.o.get k ≠ some 0 ∨ o.ext.randomize ≠ some true → r.get k = p.get k) ∧
      (o.ext.o.get k = some 0 → o.ext.randomize = some true →
        ∃ x y, p.get k = some x ∧ r.get k = some y ∧ 0 ≤ y ∧ y ≤ x) := by
  obtain ⟨w', hw⟩ := pit_run hP o w
  have key : ∃ r, v = .num r ∧
      pit (cdf o.ext) (o.ext.randomize == some true) (F.uni (w.seed w.pos)) o.ext.o = .ok r := by
    cases hpit : pit (cdf o.ext) (o.ext.randomize == some true) (F.uni (w.seed w.pos)) o.ext.o with
    | error e =>
      rw [hpit] at hw
      exfalso
      rcases hreq with rfl | ⟨rfl, hm⟩
      · obtain ⟨nm, u, w1, w2, -, h1, -⟩ := result_slot_inv hv
        simp only [slotBody] at h1
        rw [hw] at h1
        cases h1
      · obtain ⟨nm, u, w1, w2, -, h1, -⟩ := result_slot_inv hv
        have : slotBody C I P o.ext o.avg o.boot .rankHist =
            .callName (slotName I .pit) (pitBody P o.ext) fun v => .ret (.ok v) := by
          cases C <;> first | exact absurd rfl hC.1 | exact absurd rfl hC.2 | simp only [slotBody, hm, Bool.false_eq_true, if_false]
        rw [this] at h1
        simp only [slotName, Prog.callName] at h1
        obtain ⟨u', w3, h3, -⟩ := run_call_inv h1
        rw [hw] at h3
        cases h3
    | ok r =>
      rw [hpit] at hw
      change _ = (Except.ok (PyVal.num r), w') at hw
      refine ⟨r, ?_, rfl⟩
      rcases hreq with rfl | ⟨rfl, hm⟩
      · obtain ⟨nm, u, w1, w2, -, h1, h2⟩ := result_slot_inv hv
        simp only [slotBody] at h1
        rw [hw] at h1
        simp only [Prod.mk.injEq, Except.ok.injEq] at h1
        simp only [slotPost, Prog.run, Prod.mk.injEq, Except.ok.injEq] at h2
        rw [← h2.1, h1.1]
      · obtain ⟨nm, u, w1, w2, -, h1, h2⟩ := result_slot_inv hv
        have : slotBody C I P o.ext o.avg o.boot .rankHist =
            .callName (slotName I .pit) (pitBody P o.ext) fun v => .ret (.ok v) := by
          cases C <;> first | exact absurd rfl hC.1 | exact absurd rfl hC.2 | simp only [slotBody, hm, Bool.false_eq_true, if_false]
        rw [this] at h1
        simp only [slotName, Prog.callName] at h1
        rw [run_call_none _ _ _ _ hw] at h1
        simp only [Prog.run, Prod.mk.injEq, Except.ok.injEq] at h1
        simp only [slotPost, Prog.run, Prod.mk.injEq, Except.ok.injEq] at h2
        rw [← h2.1, ← h1.1]
  obtain ⟨r, rfl, hr⟩ := key
  obtain ⟨h1, h2, h3⟩ := C41_pit (cdf o.ext) o.ext.o p hp hunit hsh _ _ (hu _) r hr
  refine ⟨r, rfl, h1, h2, fun k hk => ?_⟩
  obtain ⟨g1, g2⟩ := h3 k hk
  refine ⟨fun h => g1 ?_, fun h h' => g2 h (by rw [h']; rfl)⟩
  rcases h with h | h
  · exact .inl h
  · right
    rw [beq_eq_false_iff_ne]
    exact h

/-! ### the Gaussian class -/

theorem gauss_ready {oi o : Obj (ProbX K)} {w w' : World (PyVal K)}
    (h : construct (gaussPrims c F emb) mids oi w = (.ok o, w')) :
    ∃ mu sigma, HasPar oi.ext "mu" mu ∧ HasPar oi.ext "sigma" sigma := by
  obtain ⟨-, hc, -⟩ := construct_prob (shared_gauss c F emb) h
  simp only [gaussPrims] at hc
  split at hc
  · rename_i hd
    simp only [Bool.and_eq_true] at hd
    obtain ⟨mu, h1⟩ := dictOK_par hd.2 (k := "mu") (by simp)
    obtain ⟨sd, h2⟩ := dictOK_par hd.2 (k := "sigma") (by simp)
    exact ⟨mu, sd, h1, h2⟩
  · cases hc

/-- **C76**, Gaussian class from the constructor on: `cdf(below=t)` is the library's distribution function with the mean
and standard deviation of the position, `cdf(over=t)` one minus it, and `brier(...)` the average over the requested axes
of the squared difference between that probability and whether the event was observed. -/
theorem C76_gauss_probabilities {oi o : Obj (ProbX K)} {w w' : World (PyVal K)}
    (h : construct (gaussPrims c F emb) mids oi w = (.ok o, w')) (hS : UnitLib F.scipy)
    (hpool : PoolOK c.workers c.mapAxis oi.ext.o.shape) {a : A} (ha : Printable I a) {t : Thr K} (hemb : emb a = .thr t)
    (ht : ThrOK t oi.ext.o.shape) (hb : oi.boot = .none) (hok : OptOK oi.ext.o.shape.length (axesOf oi.avg))
    (isOver : Bool) (w1 : World (PyVal K)) :
    ∃ mu sigma q r, HasPar oi.ext "mu" mu ∧ HasPar oi.ext "sigma" sigma ∧
      result .gaussian I (gaussPrims c F emb) mids (.slot (.cdf (overArg isOver a) (belowArg isOver a))) (unsaved o) w1 =
        .ok (some (.num q)) ∧
      result .gaussian I (gaussPrims c F emb) mids (.slot (.brier (overArg isOver a) (belowArg isOver a))) (unsaved o) w1 =
        .ok (some (.num r)) ∧
      q.shape = oi.ext.o.shape ∧ r.shape = dropAxes (nums oi.ext.o.shape.length (axesOf oi.avg)) oi.ext.o.shape ∧
      (∀ k, InB oi.ext.o.shape k →
        q.get k = eventProb isOver (gaussProb F.scipy oi.ext.trunc (mu.get k) (sigma.get k) (thrAt t k))) ∧
      ∀ k, InB r.shape k →
        IsAvg c.skipNan ((fiberIdx oi.ext.o.shape (nums oi.ext.o.shape.length (axesOf oi.avg)) k).map fun i =>
          (eventProb isOver (gaussProb F.scipy oi.ext.trunc (mu.get i) (sigma.get i) (thrAt t i))).map fun v =>
            (v - indicator (Event isOver t oi.ext.o i)) ^ 2) (r.get k) := by
  have hP := shared_gauss c F emb
  obtain ⟨e, -, h2, h3⟩ := construct_prob hP h
  obtain ⟨mu, sigma, hm, hs⟩ := gauss_ready h
  obtain ⟨p, p1, p2, p3⟩ := gaussCdf_ok hm hs hS ht hpool
  obtain ⟨q, q1, q2, q3⟩ := prob_cdf (mids := mids) (o := o) (C := .gaussian) hP (by decide) ha hemb (by rw [e]; exact p1)
    isOver w1
  obtain ⟨r, r1, r2, r3⟩ := prob_brier (mids := mids) (o := o) (C := .gaussian) hP (by decide) ha hemb
    ⟨p, by rw [e]; exact p1, by rw [e]; exact p2, by rw [e]; exact p3⟩ (by rw [e]; exact ht) (h2.trans hb) h3
    (by rw [e]; exact hok) isOver w1
  rw [e] at r2 r3
  exact ⟨mu, sigma, q, r, hm, hs, q1, r1, q2.trans p2, r2, fun k hk => by rw [q3 k (by rw [p2]; exact hk), p3 k hk], r3⟩

/-- what the Gaussian and the gamma class have in common: `f_determ()` and `variance()` come from `f['mu']` and
`f['sigma']` -/
theorem det_metrics (hP : SharedProb c F emb cdf P) (hC : C = .gaussian ∨ C = .gamma)
    {oi o : Obj (ProbX K)} {w w' : World (PyVal K)} (h : construct P mids oi w = (.ok o, w')) {mu sigma : NDArr (Fl K)}
    (hm : HasPar oi.ext "mu" mu) (hs : HasPar oi.ext "sigma" sigma)
    (hf : ∀ x, P.fDet x = (x.key "mu").map PyVal.num)
    (hvar : ∀ x, P.variance x = (x.key "sigma").map fun a => PyVal.num (a.map Fl.sq))
    (hb : oi.boot = .none) (hok : OptOK oi.ext.o.shape.length (axesOf oi.avg)) (w1 : World (PyVal K)) :
    ∃ v e a q r,
      result C I P mids (.slot .fDeterm) (unsaved o) w1 = .ok (some (.num mu)) ∧
      result C I P mids (.slot .variance) (unsaved o) w1 = .ok (some (.num v)) ∧
      (v.shape = oi.ext.o.shape ∧ ∀ k, InB oi.ext.o.shape k → v.get k = (sigma.get k).map (· ^ 2)) ∧
      result C I P mids (.slot .error) (unsaved o) w1 = .ok (some (.num e)) ∧
      result C I P mids (.slot .abError) (unsaved o) w1 = .ok (some (.num a)) ∧
      result C I P mids (.slot .sqError) (unsaved o) w1 = .ok (some (.num q)) ∧
      result C I P mids .rmse (unsaved o) w1 = .ok (some (.num r)) ∧
      (e.shape = dropAxes (nums oi.ext.o.shape.length (axesOf oi.avg)) oi.ext.o.shape ∧ a.shape = e.shape ∧
        q.shape = e.shape ∧ r.shape = e.shape) ∧
      ∀ k, InB e.shape k →
        let Q := pairsAt mu oi.ext.o (nums oi.ext.o.shape.length (axesOf oi.avg)) k
        IsAvg c.skipNan (Q.map (both fun x y => x - y)) (e.get k) ∧
        IsAvg c.skipNan (Q.map (both fun x y => |x - y|)) (a.get k) ∧
        IsAvg c.skipNan (Q.map (both fun x y => (x - y) ^ 2)) (q.get k) ∧
        r.get k = (q.get k).map c.sqrt := by
  obtain ⟨hx, -, h2, h3⟩ := construct_prob hP h
  have hfd : result C I P mids (.slot .fDeterm) (unsaved o) w1 = .ok (some (.num mu)) := by
    obtain ⟨nm, hn⟩ := fixed_ok I (some "f_determ".toList)
    have hbody : (slotBody C I P o.ext o.avg o.boot .fDeterm).run none w1 = (.ok (.num mu), w1) := by
      rcases hC with rfl | rfl <;> simp only [slotBody, fDetBody, Prog.run, hf, hx, key_ok hm] <;> rfl
    rw [result_slot (s := .fDeterm) rfl hn hbody]
    rfl
  have hvd : result C I P mids (.slot .variance) (unsaved o) w1 = .ok (some (.num (sigma.map Fl.sq))) := by
    obtain ⟨nm, hn⟩ := fixed_ok I (some "variance".toList)
    have hbody : (slotBody C I P o.ext o.avg o.boot .variance).run none w1 = (.ok (.num (sigma.map Fl.sq)), w1) := by
      rcases hC with rfl | rfl <;> simp only [slotBody, varBody, Prog.run, hvar, hx, key_ok hs] <;> rfl
    rw [result_slot (s := .variance) rfl hn hbody]
    rfl
  obtain ⟨e, a, q, r, e1, e2, e3, e4, e5, e6⟩ := C75_errors (mids := mids) (I := I) hP.base (o := o) (h2.trans hb) h3 hfd
    (by rw [hx]; exact hm.2) (by rw [hm.2]; exact hok) w1
  rw [hm.2] at e5
  rw [hm.2, hx] at e6
  refine ⟨_, e, a, q, r, hfd, hvd, ⟨hs.2, fun k hk => ?_⟩, e1, e2, e3, e4, e5, e6⟩
  have hg := get_map (fun x : Fl K => Fl.sq x) sigma (i := k) (by rw [hs.2]; exact hk)
  rw [hg]
  cases sigma.get k <;> simp [Fl.sq, pow_two]

/-- **C76**, Gaussian class: the deterministic forecast is `f['mu']`, the variance the square of `f['sigma']`, and the
errors are averages of differences between `f['mu']` and the observations. -/
theorem C76_gauss_errors {oi o : Obj (ProbX K)} {w w' : World (PyVal K)}
    (h : construct (gaussPrims c F emb) mids oi w = (.ok o, w')) (hb : oi.boot = .none)
    (hok : OptOK oi.ext.o.shape.length (axesOf oi.avg)) (w1 : World (PyVal K)) :
    ∃ mu sigma v e a q r, HasPar oi.ext "mu" mu ∧ HasPar oi.ext "sigma" sigma ∧
      result .gaussian I (gaussPrims c F emb) mids (.slot .fDeterm) (unsaved o) w1 = .ok (some (.num mu)) ∧
      result .gaussian I (gaussPrims c F emb) mids (.slot .variance) (unsaved o) w1 = .ok (some (.num v)) ∧
      (v.shape = oi.ext.o.shape ∧ ∀ k, InB oi.ext.o.shape k → v.get k = (sigma.get k).map (· ^ 2)) ∧
      result .gaussian I (gaussPrims c F emb) mids (.slot .error) (unsaved o) w1 = .ok (some (.num e)) ∧
      result .gaussian I (gaussPrims c F emb) mids (.slot .abError) (unsaved o) w1 = .ok (some (.num a)) ∧
      result .gaussian I (gaussPrims c F emb) mids (.slot .sqError) (unsaved o) w1 = .ok (some (.num q)) ∧
      result .gaussian I (gaussPrims c F emb) mids .rmse (unsaved o) w1 = .ok (some (.num r)) ∧
      (e.shape = dropAxes (nums oi.ext.o.shape.length (axesOf oi.avg)) oi.ext.o.shape ∧ a.shape = e.shape ∧
        q.shape = e.shape ∧ r.shape = e.shape) ∧
      ∀ k, InB e.shape k →
        let Q := pairsAt mu oi.ext.o (nums oi.ext.o.shape.length (axesOf oi.avg)) k
        IsAvg c.skipNan (Q.map (both fun x y => x - y)) (e.get k) ∧
        IsAvg c.skipNan (Q.map (both fun x y => |x - y|)) (a.get k) ∧
        IsAvg c.skipNan (Q.map (both fun x y => (x - y) ^ 2)) (q.get k) ∧
        r.get k = (q.get k).map c.sqrt := by
  obtain ⟨mu, sigma, hm, hs⟩ := gauss_ready h
  obtain ⟨v, e, a, q, r, rest⟩ := det_metrics (I := I) (C := .gaussian) (shared_gauss c F emb) (.inl rfl) h hm hs
    (fun x => by simp only [gaussPrims, bind, Except.bind]; cases x.key "mu" <;> rfl)
    (fun x => by simp only [gaussPrims, bind, Except.bind]; cases x.key "sigma" <;> rfl) hb hok w1
  exact ⟨mu, sigma, v, e, a, q, r, hm, hs, rest⟩

/-- `crps()` of the Gaussian and the gamma class is the average of the scores of the positions -/
theorem crps_metric (hP : SharedProb c F emb cdf P) (hC : C = .gaussian ∨ C = .gamma)
    {oi o : Obj (ProbX K)} {w w' : World (PyVal K)} (h : construct P mids oi w = (.ok o, w'))
    {m : NDArr (Fl K)} (hm : P.crps oi.ext = .ok (.num m)) (hsh : m.shape = oi.ext.o.shape)
    (hb : oi.boot = .none) (hok : OptOK oi.ext.o.shape.length (axesOf oi.avg)) (w1 : World (PyVal K)) :
    ∃ r, result C I P mids (.slot .crps) (unsaved o) w1 = .ok (some (.num r)) ∧
      r.shape = dropAxes (nums oi.ext.o.shape.length (axesOf oi.avg)) oi.ext.o.shape ∧
      ∀ k, InB r.shape k →
        IsAvg c.skipNan ((fiberIdx oi.ext.o.shape (nums oi.ext.o.shape.length (axesOf oi.avg)) k).map m.get) (r.get k) := by
  obtain ⟨hx, -, h2, h3⟩ := construct_prob hP h
  obtain ⟨nm, hn⟩ := fixed_ok I (some "crps".toList)
  have hbody : ∀ w, (slotBody C I P o.ext o.avg o.boot .crps).run none w = (.ok (.num m), w) := by
    intro w
    rcases hC with rfl | rfl <;> simp only [slotBody, Prog.run, hx, hm]
  obtain ⟨r, r1, r2, r3⟩ := avg_result (mids := mids) (s := .crps) hP.base rfl hn rfl (h2.trans hb) h3 (m := m)
    (by rw [hsh]; exact hok) (w := w1) hbody
  rw [hsh] at r2 r3
  refine ⟨r, r1, r2, fun k hk => ?_⟩
  rw [r2] at hk
  have := r3 k hk
  rw [fiber, hsh] at this
  exact this

/-- **C76**, Gaussian class: without truncation `crps()` is the average over the requested axes of what properscoring
gives to observation, mean and standard deviation. -/
theorem C76_gauss_crps {oi o : Obj (ProbX K)} {w w' : World (PyVal K)}
    (h : construct (gaussPrims c F emb) mids oi w = (.ok o, w')) (htr : oi.ext.truncated = some false)
    (hb : oi.boot = .none) (hok : OptOK oi.ext.o.shape.length (axesOf oi.avg)) (w1 : World (PyVal K)) :
    ∃ mu sigma r, HasPar oi.ext "mu" mu ∧ HasPar oi.ext "sigma" sigma ∧
      result .gaussian I (gaussPrims c F emb) mids (.slot .crps) (unsaved o) w1 = .ok (some (.num r)) ∧
      r.shape = dropAxes (nums oi.ext.o.shape.length (axesOf oi.avg)) oi.ext.o.shape ∧
      ∀ k, InB r.shape k →
        IsAvg c.skipNan ((fiberIdx oi.ext.o.shape (nums oi.ext.o.shape.length (axesOf oi.avg)) k).map fun i =>
          F.psGaussian [oi.ext.o.get i, mu.get i, sigma.get i]) (r.get k) := by
  obtain ⟨mu, sigma, hm, hs⟩ := gauss_ready h
  have hel := elementwise_ok F.psGaussian (ps := [oi.ext.o, mu, sigma]) (s := oi.ext.o.shape) (by simp) (by
    intro q hq
    simp only [List.mem_cons, List.not_mem_nil, or_false] at hq
    rcases hq with rfl | rfl | rfl
    · rfl
    · exact hm.2
    · exact hs.2)
  have htr' : oi.ext.trunc = false := by simp [ProbX.trunc, htr]
  obtain ⟨r, r1, r2, r3⟩ := crps_metric (I := I) (C := .gaussian) (shared_gauss c F emb) (.inl rfl) h
    (m := ofFn oi.ext.o.shape fun k => F.psGaussian (List.map (fun q => q.get k) [oi.ext.o, mu, sigma])) (by
    simp only [gaussPrims, key_ok hm, key_ok hs, bind, Except.bind, gaussianCrps, htr', Bool.false_eq_true, if_false, hel]
    rfl) rfl hb hok w1
  refine ⟨mu, sigma, r, hm, hs, r1, r2, fun k hk => ?_⟩
  convert r3 k hk using 1
  apply List.map_congr_left
  intro i hi
  rw [get_ofFn _ (mem_fiberIdx.1 hi).1]
  rfl

theorem truncGaussElem_none (G : Gauss K) {y m s l : Fl K} (h : y = none ∨ m = none ∨ s = none ∨ l = none) :
    truncGaussElem G [y, m, s, l] = none := by
  have m1 : ∀ x : Fl K, Fl.mul none x = none := fun x => rfl
  have m2 : ∀ x : Fl K, Fl.mul x none = none := fun x => by cases x <;> rfl
  have s1 : ∀ x : Fl K, Fl.sub none x = none := fun x => rfl
  have s2 : ∀ x : Fl K, Fl.sub x none = none := fun x => by cases x <;> rfl
  have d1 : ∀ x : Fl K, Fl.div none x = none := fun x => rfl
  have d2 : ∀ x : Fl K, Fl.div x none = none := fun x => by cases x <;> rfl
  have ab : Fl.abs (none : Fl K) = none := rfl
  have l1 : ∀ x : Fl K, Fl.lt none x = false := fun x => rfl
  have l2 : ∀ x : Fl K, Fl.lt x none = false := fun x => by cases x <;> rfl
  rcases h with h | h | h | h <;> rw [h] <;> unfold truncGaussElem <;>
    simp [m1, m2, s1, s2, d1, d2, ab, l1, l2, Fl.sq]

/-- the scores of the truncated Gaussian class, position by position -/
theorem gauss_trunc_scores (psG : List (Fl ℝ) → Fl ℝ) {o mu sigma : NDArr (Fl ℝ)} {s : List Nat} (ho : o.shape = s)
    (hm : mu.shape = s) (hs : sigma.shape = s) (hpos : ∀ k v, InB s k → sigma.get k = some v → 0 < v) :
    ∃ m, gaussianCrps realGauss psG true o mu sigma = .ok m ∧ m.shape = s ∧ ∀ k, InB s k →
      m.get k = (o.get k).bind fun y => (mu.get k).bind fun a => (sigma.get k).map fun sd =>
        crpsOf (truncNormalCdf a sd 0) y := by
  obtain ⟨m, h1, h2, h3⟩ := C38_class psG ho hm hs
  refine ⟨m, h1, h2, fun k hk => ?_⟩
  have hnan : (o.get k = none ∨ mu.get k = none ∨ sigma.get k = none) → m.get k = none := by
    intro h
    have hel := elementwise_ok (truncGaussElem realGauss)
      (ps := [o, mu, sigma, (Param.number (some (0 : ℝ))).expand o.shape]) (s := s) (by simp) (by
        intro q hq
        simp only [List.mem_cons, List.not_mem_nil, or_false] at hq
        rcases hq with rfl | rfl | rfl | rfl
        · exact ho
        · exact hm
        · exact hs
        · exact ho)
    have : gaussianCrps realGauss psG true o mu sigma = elementwise (truncGaussElem realGauss)
        [o, mu, sigma, (Param.number (some (0 : ℝ))).expand o.shape] := by
      unfold gaussianCrps
      rw [if_pos rfl, crpsTruncatedGaussian_same _ rfl (by simp [Param.shape, Param.isNumber, hm, hs, ho])]
      rfl
    rw [this, hel] at h1
    obtain rfl := (Except.ok.inj h1).symm
    rw [get_ofFn _ hk]
    simp only [List.map_cons, List.map_nil]
    exact truncGaussElem_none _ (by rcases h with h | h | h <;> simp [h])
  cases ho' : o.get k with
  | none => exact hnan (.inl ho')
  | some y =>
    cases hm' : mu.get k with
    | none => exact hnan (.inr (.inl hm'))
    | some a =>
      cases hs' : sigma.get k with
      | none => exact hnan (.inr (.inr hs'))
      | some sd => exact h3 k hk y a sd ho' hm' hs' (hpos k sd hk hs')

/-- **C76**, truncated Gaussian class: `crps()` is the average over the requested axes of the exact continuous ranked
probability scores of the truncated normal distributions. -/
theorem C76_gauss_crps_truncated {c : Cfg ℝ} {F : ProbFns ℝ} {emb : A → Arg ℝ}
    {mids : FS (PyVal ℝ) → Model.Path → List (FS (PyVal ℝ))} {oi o : Obj (ProbX ℝ)} {w w' : World (PyVal ℝ)}
    (h : construct (gaussPrims c F emb) mids oi w = (.ok o, w')) (hG : F.gauss = realGauss)
    (htr : oi.ext.truncated = some true)
    (hpos : ∀ sigma, HasPar oi.ext "sigma" sigma → ∀ k v, InB oi.ext.o.shape k → sigma.get k = some v → 0 < v)
    (hb : oi.boot = .none) (hok : OptOK oi.ext.o.shape.length (axesOf oi.avg)) (w1 : World (PyVal ℝ)) :
    ∃ mu sigma r, HasPar oi.ext "mu" mu ∧ HasPar oi.ext "sigma" sigma ∧
      result .gaussian I (gaussPrims c F emb) mids (.slot .crps) (unsaved o) w1 = .ok (some (.num r)) ∧
      r.shape = dropAxes (nums oi.ext.o.shape.length (axesOf oi.avg)) oi.ext.o.shape ∧
      ∀ k, InB r.shape k →
        IsAvg c.skipNan ((fiberIdx oi.ext.o.shape (nums oi.ext.o.shape.length (axesOf oi.avg)) k).map fun i =>
          (oi.ext.o.get i).bind fun y => (mu.get i).bind fun m => (sigma.get i).map fun sd =>
            crpsOf (truncNormalCdf m sd 0) y) (r.get k) := by
  obtain ⟨mu, sigma, hm, hs⟩ := gauss_ready h
  obtain ⟨m, m1, m2, m3⟩ := gauss_trunc_scores F.psGaussian (o := oi.ext.o) rfl hm.2 hs.2 (hpos sigma hs)
  obtain ⟨r, r1, r2, r3⟩ := crps_metric (I := I) (C := .gaussian) (shared_gauss c F emb) (.inl rfl) h (m := m) (by
    simp only [gaussPrims, key_ok hm, key_ok hs, bind, Except.bind, ProbX.trunc, htr, beq_self_eq_true, hG, m1]
    rfl) m2 hb hok w1
  refine ⟨mu, sigma, r, hm, hs, r1, r2, fun k hk => ?_⟩
  convert r3 k hk using 1
  apply List.map_congr_left
  intro i hi
  rw [m3 i (mem_fiberIdx.1 hi).1]

/-! ### the gamma class -/

theorem gamma_ready {oi o : Obj (ProbX K)} {w w' : World (PyVal K)}
    (h : construct (gammaPrims c F emb) mids oi w = (.ok o, w')) :
    ∃ mu sigma shift umu, HasPar oi.ext "mu" mu ∧ HasPar oi.ext "sigma" sigma ∧ HasPar oi.ext "shift" shift ∧
      HasPar oi.ext "unshifted_mu" umu := by
  obtain ⟨-, hc, -⟩ := construct_prob (shared_gamma c F emb) h
  simp only [gammaPrims] at hc
  split at hc
  · rename_i hd
    simp only [Bool.and_eq_true] at hd
    obtain ⟨mu, h1⟩ := dictOK_par hd.2 (k := "mu") (by simp)
    obtain ⟨sd, h2⟩ := dictOK_par hd.2 (k := "sigma") (by simp)
    obtain ⟨d, h3⟩ := dictOK_par hd.2 (k := "shift") (by simp)
    obtain ⟨u, h4⟩ := dictOK_par hd.2 (k := "unshifted_mu") (by simp)
    exact ⟨mu, sd, d, u, h1, h2, h3, h4⟩
  · cases hc

/-- **C76**, gamma class without truncation: `cdf` and `brier` use the gamma distribution whose mean is
`f['unshifted_mu']` and whose standard deviation is `f['sigma']`, moved by `f['shift']`. -/
theorem C76_gamma_probabilities {oi o : Obj (ProbX K)} {w w' : World (PyVal K)}
    (h : construct (gammaPrims c F emb) mids oi w = (.ok o, w')) (htr : oi.ext.truncated = some false)
    (hS : UnitLib F.scipy) (hpool : PoolOK c.workers c.mapAxis oi.ext.o.shape) {a : A} (ha : Printable I a) {t : Thr K}
    (hemb : emb a = .thr t) (ht : ThrOK t oi.ext.o.shape) (hb : oi.boot = .none)
    (hok : OptOK oi.ext.o.shape.length (axesOf oi.avg)) (isOver : Bool) (w1 : World (PyVal K)) :
    ∃ umu sigma shift q r, HasPar oi.ext "unshifted_mu" umu ∧ HasPar oi.ext "sigma" sigma ∧
      HasPar oi.ext "shift" shift ∧
      result .gamma I (gammaPrims c F emb) mids (.slot (.cdf (overArg isOver a) (belowArg isOver a))) (unsaved o) w1 =
        .ok (some (.num q)) ∧
      result .gamma I (gammaPrims c F emb) mids (.slot (.brier (overArg isOver a) (belowArg isOver a))) (unsaved o) w1 =
        .ok (some (.num r)) ∧
      q.shape = oi.ext.o.shape ∧ r.shape = dropAxes (nums oi.ext.o.shape.length (axesOf oi.avg)) oi.ext.o.shape ∧
      (∀ k, InB oi.ext.o.shape k → q.get k =
        eventProb isOver (gammaProb F.scipy (umu.get k) (sigma.get k) (shift.get k) (thrAt t k))) ∧
      ∀ k, InB r.shape k →
        IsAvg c.skipNan ((fiberIdx oi.ext.o.shape (nums oi.ext.o.shape.length (axesOf oi.avg)) k).map fun i =>
          (eventProb isOver (gammaProb F.scipy (umu.get i) (sigma.get i) (shift.get i) (thrAt t i))).map fun v =>
            (v - indicator (Event isOver t oi.ext.o i)) ^ 2) (r.get k) := by
  have hP := shared_gamma c F emb
  obtain ⟨e, -, h2, h3⟩ := construct_prob hP h
  obtain ⟨-, sigma, shift, umu, -, hs, hd, hm⟩ := gamma_ready h
  obtain ⟨p, p1, p2, p3⟩ := gammaCdfOf_ok hm hs hd (by simp [ProbX.trunc, htr]) hS ht hpool
  obtain ⟨q, q1, q2, q3⟩ := prob_cdf (mids := mids) (o := o) (C := .gamma) hP (by decide) ha hemb (by rw [e]; exact p1)
    isOver w1
  obtain ⟨r, r1, r2, r3⟩ := prob_brier (mids := mids) (o := o) (C := .gamma) hP (by decide) ha hemb
    ⟨p, by rw [e]; exact p1, by rw [e]; exact p2, by rw [e]; exact p3⟩ (by rw [e]; exact ht) (h2.trans hb) h3
    (by rw [e]; exact hok) isOver w1
  rw [e] at r2 r3
  exact ⟨umu, sigma, shift, q, r, hm, hs, hd, q1, r1, q2.trans p2, r2,
    fun k hk => by rw [q3 k (by rw [p2]; exact hk), p3 k hk], r3⟩

/-- **C76**, gamma class: the deterministic forecast is `f['mu']`, the variance the square of `f['sigma']`, and the
errors are averages of differences between `f['mu']` and the observations. -/
theorem C76_gamma_errors {oi o : Obj (ProbX K)} {w w' : World (PyVal K)}
    (h : construct (gammaPrims c F emb) mids oi w = (.ok o, w')) (hb : oi.boot = .none)
    (hok : OptOK oi.ext.o.shape.length (axesOf oi.avg)) (w1 : World (PyVal K)) :
    ∃ mu sigma v e a q r, HasPar oi.ext "mu" mu ∧ HasPar oi.ext "sigma" sigma ∧
      result .gamma I (gammaPrims c F emb) mids (.slot .fDeterm) (unsaved o) w1 = .ok (some (.num mu)) ∧
      result .gamma I (gammaPrims c F emb) mids (.slot .variance) (unsaved o) w1 = .ok (some (.num v)) ∧
      (v.shape = oi.ext.o.shape ∧ ∀ k, InB oi.ext.o.shape k → v.get k = (sigma.get k).map (· ^ 2)) ∧
      result .gamma I (gammaPrims c F emb) mids (.slot .error) (unsaved o) w1 = .ok (some (.num e)) ∧
      result .gamma I (gammaPrims c F emb) mids (.slot .abError) (unsaved o) w1 = .ok (some (.num a)) ∧
      result .gamma I (gammaPrims c F emb) mids (.slot .sqError) (unsaved o) w1 = .ok (some (.num q)) ∧
      result .gamma I (gammaPrims c F emb) mids .rmse (unsaved o) w1 = .ok (some (.num r)) ∧
      (e.shape = dropAxes (nums oi.ext.o.shape.length (axesOf oi.avg)) oi.ext.o.shape ∧ a.shape = e.shape ∧
        q.shape = e.shape ∧ r.shape = e.shape) ∧
      ∀ k, InB e.shape k →
        let Q := pairsAt mu oi.ext.o (nums oi.ext.o.shape.length (axesOf oi.avg)) k
        IsAvg c.skipNan (Q.map (both fun x y => x - y)) (e.get k) ∧
        IsAvg c.skipNan (Q.map (both fun x y => |x - y|)) (a.get k) ∧
        IsAvg c.skipNan (Q.map (both fun x y => (x - y) ^ 2)) (q.get k) ∧
        r.get k = (q.get k).map c.sqrt := by
  obtain ⟨mu, sigma, -, -, hm, hs, -, -⟩ := gamma_ready h
  obtain ⟨v, e, a, q, r, rest⟩ := det_metrics (I := I) (C := .gamma) (shared_gamma c F emb) (.inr rfl) h hm hs
    (fun x => by simp only [gammaPrims, bind, Except.bind]; cases x.key "mu" <;> rfl)
    (fun x => by simp only [gammaPrims, bind, Except.bind]; cases x.key "sigma" <;> rfl) hb hok w1
  exact ⟨mu, sigma, v, e, a, q, r, hm, hs, rest⟩

theorem gammaCrpsElem_none (G : GammaFns K) {m s d y : Fl K} (h : m = none ∨ s = none ∨ d = none ∨ y = none) :
    gammaCrpsElem G [m, s, d, y] = none := by
  simp only [gammaCrpsElem, List.getD_cons_zero, List.getD_cons_succ]
  rcases h with rfl | rfl | rfl | rfl <;>
    simp [Fl.div, Fl.sub, Fl.mul, Fl.lift2, Fl.sq]

/-- **C76**, gamma class: with truncation `crps()` is not available; without it, it is the average over the requested
axes of the exact scores of the gamma distributions moved by `f['shift']` and censored at zero (observations not
negative). -/
theorem C76_gamma_crps {c : Cfg ℝ} {F : ProbFns ℝ} {emb : A → Arg ℝ}
    {mids : FS (PyVal ℝ) → Model.Path → List (FS (PyVal ℝ))} {oi o : Obj (ProbX ℝ)} {w w' : World (PyVal ℝ)}
    (h : construct (gammaPrims c F emb) mids oi w = (.ok o, w')) (hG : F.gam = realGamma)
    (hpos : ∀ umu sigma, HasPar oi.ext "unshifted_mu" umu → HasPar oi.ext "sigma" sigma → ∀ k, InB oi.ext.o.shape k →
      (∀ v, umu.get k = some v → 0 < v) ∧ (∀ v, sigma.get k = some v → 0 < v) ∧
      (∀ v, oi.ext.o.get k = some v → 0 ≤ v))
    (hb : oi.boot = .none) (hok : OptOK oi.ext.o.shape.length (axesOf oi.avg)) (w1 : World (PyVal ℝ)) :
    (oi.ext.truncated = some true →
      result .gamma I (gammaPrims c F emb) mids (.slot .crps) (unsaved o) w1 = .error .notImplemented) ∧
    (oi.ext.truncated = some false → ∃ umu sigma shift r, HasPar oi.ext "unshifted_mu" umu ∧
      HasPar oi.ext "sigma" sigma ∧ HasPar oi.ext "shift" shift ∧
      result .gamma I (gammaPrims c F emb) mids (.slot .crps) (unsaved o) w1 = .ok (some (.num r)) ∧
      r.shape = dropAxes (nums oi.ext.o.shape.length (axesOf oi.avg)) oi.ext.o.shape ∧
      ∀ k, InB r.shape k →
        IsAvg c.skipNan ((fiberIdx oi.ext.o.shape (nums oi.ext.o.shape.length (axesOf oi.avg)) k).map fun i =>
          (umu.get i).bind fun m => (sigma.get i).bind fun sd => (shift.get i).bind fun d => (oi.ext.o.get i).map fun y =>
            crpsOf (censoredGammaCdf m sd d) y) (r.get k)) := by
  have hP := shared_gamma c F emb
  obtain ⟨-, sigma, shift, umu, -, hs, hd, hm⟩ := gamma_ready h
  obtain ⟨e, -, -, -⟩ := construct_prob hP h
  constructor
  · intro htr
    obtain ⟨nm, hn⟩ := fixed_ok I (some "crps".toList)
    have hcr : (gammaPrims c F emb).crps o.ext = .error .notImplemented := by
      rw [e]
      simp only [gammaPrims, key_ok hm, key_ok hs, key_ok hd, bind, Except.bind, gammaCrps, ProbX.trunc, htr,
        beq_self_eq_true, if_true]
    exact result_slot_error (s := .crps) (w1 := w1) rfl hn (by simp only [slotBody, Prog.run, hcr])
  · intro htr
    obtain ⟨m, m1, m2, m3⟩ := C39_integral hm.2 hs.2 hd.2 (obs := oi.ext.o) rfl
    have m4 : ∀ k, InB oi.ext.o.shape k → m.get k = (umu.get k).bind fun a => (sigma.get k).bind fun sd =>
        (shift.get k).bind fun d => (oi.ext.o.get k).map fun y => crpsOf (censoredGammaCdf a sd d) y := by
      intro k hk
      have hnan : (umu.get k = none ∨ sigma.get k = none ∨ shift.get k = none ∨ oi.ext.o.get k = none) →
          m.get k = none := by
        intro hno
        rw [crpsGamma, elementwise_ok (gammaCrpsElem realGamma) (ps := [umu, sigma, shift, oi.ext.o])
          (s := oi.ext.o.shape) (by simp) (by
            intro q hq
            simp only [List.mem_cons, List.not_mem_nil, or_false] at hq
            rcases hq with rfl | rfl | rfl | rfl
            · exact hm.2
            · exact hs.2
            · exact hd.2
            · rfl)] at m1
        obtain rfl := (Except.ok.inj m1).symm
        rw [get_ofFn _ hk]
        exact gammaCrpsElem_none _ hno
      obtain ⟨g1, g2, g3⟩ := hpos umu sigma hm hs k hk
      cases e1 : umu.get k with
      | none => exact hnan (.inl e1)
      | some a =>
        cases e2 : sigma.get k with
        | none => exact hnan (.inr (.inl e2))
        | some sd =>
          cases e3 : shift.get k with
          | none => exact hnan (.inr (.inr (.inl e3)))
          | some d =>
            cases e4 : oi.ext.o.get k with
            | none => exact hnan (.inr (.inr (.inr e4)))
            | some y => exact (m3 k hk a sd d y e1 e2 e3 e4 (g1 _ e1) (g2 _ e2) (g3 _ e4)).2
    obtain ⟨r, r1, r2, r3⟩ := crps_metric (I := I) (C := .gamma) hP (.inr rfl) h (m := m) (by
      simp only [gammaPrims, key_ok hm, key_ok hs, key_ok hd, bind, Except.bind, gammaCrps, ProbX.trunc, htr, hG]
      rw [if_neg (by decide), m1]
      rfl) m2 hb hok w1
    refine ⟨umu, sigma, shift, r, hm, hs, hd, r1, r2, fun k hk => ?_⟩
    convert r3 k hk using 1
    apply List.map_congr_left
    intro i hi
    rw [m4 i (mem_fiberIdx.1 hi).1]

end Props
