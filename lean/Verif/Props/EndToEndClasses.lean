import Verif.Props.Crps
import Verif.Props.EndToEndCurves
import Verif.Props.Files

/-!
# From the constructor to the metrics of VerifyDeterm and VerifyEnsemble: C75
-/

set_option linter.unusedSectionVars false

namespace Props
open Np NDArr Spec Model Lemmas

variable {K : Type} [Field K] [LinearOrder K] [IsStrictOrderedRing K] [FloorSemiring K]
variable {A : Type} {I : ArgInfo A} {mids : FS (PyVal K) → Path → List (FS (PyVal K))} {c : Cfg K} {emb : A → Arg K}

theorem validateAxis_axesOf (a : PyAxis) (h : (validateAxis a).1 = .ok ()) :
    (validateAxis a).2 = match axesOf a with
      | none => PyAxis.none
      | some l => PyAxis.tuple l := by
  cases a <;> first | rfl | cases h

theorem axisArg_ready {avg : PyAxis} {axes : Option (List Int)}
    (h : avg = match axes with
      | none => PyAxis.none
      | some l => PyAxis.tuple l) : axisArg avg = .ok axes := by
  subst h; cases axes <;> rfl

theorem construct_axis {X V : Type} {P : Prims X V A} {mids : FS V → Path → List (FS V)} {oi o : Obj X} {w w' : World V}
    (h : construct P mids oi w = (.ok o, w')) : (validateAxis oi.avg).1 = .ok () := by
  unfold construct validate at h
  rcases hv : validateAxis oi.avg with ⟨r, a⟩
  rw [hv] at h
  cases r with
  | ok u => rfl
  | error e => cases h

/-- **C75**: a deterministic verifier that could be constructed has forecasts and observations of one shape and uses
the averaging axes given by the user; nothing else is changed. -/
theorem C75_construct_det {oi o : Obj (DetX K)} {w w' : World (PyVal K)}
    (h : construct (detPrims c emb) mids oi w = (.ok o, w')) :
    DetReady o (axesOf oi.avg) ∧ o.ext = oi.ext ∧ o.boot = oi.boot := by
  have hax := construct_axis h
  rcases construct_cases (detPrims c emb) (mids := mids) (oi := oi) (w := w) with
    ⟨e, w1, he, -⟩ | ⟨o', ho, h1, h2, -, -, x1, hx1, hx2⟩
  · rw [he] at h; cases h
  · rw [ho] at h
    simp only [Prod.mk.injEq, Except.ok.injEq] at h
    obtain ⟨rfl, -⟩ := h
    simp only [detPrims, basePrims, Prod.mk.injEq, Except.ok.injEq] at hx1 hx2
    obtain ⟨hx1, rfl⟩ := hx1
    have hs : oi.ext.f.shape = oi.ext.o.shape := by
      by_contra hc
      rw [if_neg hc] at hx1
      cases hx1
    refine ⟨⟨h1.trans (validateAxis_axesOf _ hax), ?_⟩, hx2.symm, h2⟩
    rw [← hx2]; exact hs

/-- **C75**: an ensemble verifier that could be constructed has observations shaped like the forecasts without the
ensemble axis, and its deterministic forecast is the collapse function applied to the forecasts along that axis. -/
theorem C75_construct_ens {oi o : Obj (EnsX K)} {w w' : World (PyVal K)}
    (h : construct (ensPrims c emb) mids oi w = (.ok o, w')) :
    ∃ ax fc, EnsReady o (axesOf oi.avg) ax fc ∧ oi.ext.collapse oi.ext.f ax = .ok fc ∧
      o.ext.f = oi.ext.f ∧ o.ext.o = oi.ext.o ∧ o.boot = oi.boot ∧
      (∀ a, oi.ext.axis = some a → ax = a) ∧
      (oi.ext.axis = none → ax = -1 ∧ oi.ext.f.shape.dropLast = oi.ext.o.shape ∨
        ax = 0 ∧ oi.ext.f.shape.dropLast ≠ oi.ext.o.shape ∧ oi.ext.f.shape.tail = oi.ext.o.shape) := by
  have hax := construct_axis h
  rcases construct_cases (ensPrims c emb) (mids := mids) (oi := oi) (w := w) with
    ⟨e, w1, he, -⟩ | ⟨o', ho, h1, h2, -, -, x1, hx1, hx2⟩
  · rw [he] at h; cases h
  · rw [ho] at h
    simp only [Prod.mk.injEq, Except.ok.injEq] at h
    obtain ⟨rfl, -⟩ := h
    simp only [ensPrims] at hx1 hx2
    split at hx1
    · cases hx1
    · rename_i a ha
      simp only [Prod.mk.injEq, true_and] at hx1
      subst hx1
      simp only [EnsX.ax] at hx2
      change (oi.ext.collapse oi.ext.f a >>= fun fc => Except.ok { oi.ext with axis := some a, fc := some fc }) = _ at hx2
      cases hc : oi.ext.collapse oi.ext.f a with
      | error e => rw [hc] at hx2; cases hx2
      | ok fc =>
        rw [hc] at hx2
        change Except.ok { oi.ext with axis := some a, fc := some fc } = _ at hx2
        simp only [Except.ok.injEq] at hx2
        have hlen : ∀ {s : List Nat}, s ≠ [] → 0 < s.length := fun h => List.length_pos_iff.2 h
        have hgood : AxisOK oi.ext.f.shape.length a ∧ oi.ext.o.shape = posShape oi.ext.f.shape a := by
          cases hax' : oi.ext.axis with
          | some b =>
            rw [hax'] at ha
            obtain ⟨rfl, g1, g2⟩ := (C55_explicit _ _ _ _).1 ha
            refine ⟨g1, ?_⟩
            rcases g2 with ⟨g2, g3⟩ | ⟨g2, g3⟩
            · rw [posShape, g2, ← g3]; simp
            · rw [posShape, ← g3, List.dropLast_eq_take, List.eraseIdx_eq_take_drop_succ, g2]
              simp
              omega
          | none =>
            rw [hax'] at ha
            obtain ⟨g0, g⟩ := (C55_guess _ _ _).1 ha
            have := hlen g0
            rcases g with ⟨g1, rfl⟩ | ⟨-, g1, rfl⟩
            · have e : axisNum oi.ext.f.shape.length (-1) = oi.ext.f.shape.length - 1 := by
                unfold axisNum; simp; omega
              refine ⟨by unfold AxisOK; omega, ?_⟩
              rw [posShape, e, ← g1, List.dropLast_eq_take, List.eraseIdx_eq_take_drop_succ]
              simp
              omega
            · refine ⟨by unfold AxisOK; omega, ?_⟩
              have e : axisNum oi.ext.f.shape.length 0 = 0 := by unfold axisNum; simp
              rw [posShape, e, ← g1]; simp
        refine ⟨a, fc, ⟨h1.trans (validateAxis_axesOf _ hax), by rw [← hx2], by rw [← hx2], by rw [← hx2]; exact hgood.1,
          by rw [← hx2]; exact hgood.2⟩, hc, by rw [← hx2], by rw [← hx2], h2, ?_, ?_⟩
        · intro b hb
          rw [hb] at ha
          exact ((C55_explicit _ _ _ _).1 ha).1
        · intro hb
          rw [hb] at ha
          rcases ((C55_guess _ _ _).1 ha).2 with ⟨g1, g2⟩ | ⟨g1, g2, g3⟩
          · exact .inl ⟨g2, g1⟩
          · exact .inr ⟨g3, g1, g2⟩

/-- `f_determ()` of the deterministic class -/
theorem fDeterm_det (o : Obj (DetX K)) (w : World (PyVal K)) :
    result .determ I (detPrims c emb) mids (.slot .fDeterm) (unsaved o) w = .ok (some (.num o.ext.f)) := by
  obtain ⟨nm, hn⟩ := fixed_ok I (some "f_determ".toList)
  rw [result_slot (s := .fDeterm) rfl hn (w1 := w) (v := .num o.ext.f) rfl]
  rfl

/-- `f_determ()` of the ensemble class -/
theorem fDeterm_ens {o : Obj (EnsX K)} {axes : Option (List Int)} {ax : Int} {fc : NDArr (Fl K)}
    (ho : EnsReady o axes ax fc) (w : World (PyVal K)) :
    result .ensemble I (ensPrims c emb) mids (.slot .fDeterm) (unsaved o) w = .ok (some (.num fc)) := by
  obtain ⟨nm, hn⟩ := fixed_ok I (some "f_determ".toList)
  have hb : (slotBody .ensemble I (ensPrims c emb) o.ext o.avg o.boot .fDeterm).run none w = (.ok (.num fc), w) := by
    simp only [slotBody, fDetBody, ensPrims, ho.coll, Prog.run]
  rw [result_slot (s := .fDeterm) rfl hn hb]
  rfl

/-- **C75**, deterministic class from the constructor on: without bootstrapping `error()`, `ab_error()`,
`sq_error()` and `rmse()` are the averages of `f - o`, `|f - o|`, `(f - o)²` over the requested axes and the root of
the last. -/
theorem C75_det_metrics {oi o : Obj (DetX K)} {w w' : World (PyVal K)}
    (h : construct (detPrims c emb) mids oi w = (.ok o, w')) (hb : oi.boot = .none)
    (hok : OptOK oi.ext.f.shape.length (axesOf oi.avg)) (w1 : World (PyVal K)) :
    ∃ e a q r, result .determ I (detPrims c emb) mids (.slot .error) (unsaved o) w1 = .ok (some (.num e)) ∧
      result .determ I (detPrims c emb) mids (.slot .abError) (unsaved o) w1 = .ok (some (.num a)) ∧
      result .determ I (detPrims c emb) mids (.slot .sqError) (unsaved o) w1 = .ok (some (.num q)) ∧
      result .determ I (detPrims c emb) mids .rmse (unsaved o) w1 = .ok (some (.num r)) ∧
      (e.shape = dropAxes (nums oi.ext.f.shape.length (axesOf oi.avg)) oi.ext.f.shape ∧ a.shape = e.shape ∧
        q.shape = e.shape ∧ r.shape = e.shape) ∧
      ∀ k, InB e.shape k →
        let Q := pairsAt oi.ext.f oi.ext.o (nums oi.ext.f.shape.length (axesOf oi.avg)) k
        IsAvg c.skipNan (Q.map (both fun x y => x - y)) (e.get k) ∧
        IsAvg c.skipNan (Q.map (both fun x y => |x - y|)) (a.get k) ∧
        IsAvg c.skipNan (Q.map (both fun x y => (x - y) ^ 2)) (q.get k) ∧
        r.get k = (q.get k).map c.sqrt := by
  obtain ⟨h1, h2, h3⟩ := C75_construct_det h
  have := C75_errors (mids := mids) (I := I) (shared_det c emb) (o := o) (h3.trans hb) (axisArg_ready h1.avg)
    (fDeterm_det o w1) h1.shape (by rw [h2]; exact hok) w1
  rw [h2] at this
  exact this

/-- **C75**, deterministic class, with bootstrapping. -/
theorem C75_det_metrics_boot {oi o : Obj (DetX K)} {w w' : World (PyVal K)}
    (h : construct (detPrims c emb) mids oi w = (.ok o, w')) {n : Nat} (hb : oi.boot = .int n)
    (hok : BootAxes oi.ext.f.shape.length (axesOf oi.avg)) (w1 : World (PyVal K)) :
    let D := dropAxes (nums oi.ext.f.shape.length (axesOf oi.avg)) oi.ext.f.shape
    let Sums : (K → K → K) → NDArr (Fl K) → Prop := fun g r => r.shape = 3 :: D ∧ ∀ k, InB D k →
      ∃ samples, IsResample ((pairsAt oi.ext.f oi.ext.o (nums oi.ext.f.shape.length (axesOf oi.avg)) k).map (both g)) n
          c.reps samples ∧
        IsBootSummary samples c.conf c.skipNan [r.get (0 :: k), r.get (1 :: k), r.get (2 :: k)]
    (∀ v, result .determ I (detPrims c emb) mids (.slot .error) (unsaved o) w1 = .ok (some v) →
      ∃ r, v = .num r ∧ Sums (fun x y => x - y) r) ∧
    (∀ v, result .determ I (detPrims c emb) mids (.slot .abError) (unsaved o) w1 = .ok (some v) →
      ∃ r, v = .num r ∧ Sums (fun x y => |x - y|) r) ∧
    (∀ v, result .determ I (detPrims c emb) mids (.slot .sqError) (unsaved o) w1 = .ok (some v) →
      ∃ r, v = .num r ∧ Sums (fun x y => (x - y) ^ 2) r) := by
  obtain ⟨h1, h2, h3⟩ := C75_construct_det h
  have := C75_errors_boot (mids := mids) (I := I) (shared_det c emb) (o := o) (h3.trans hb) (axisArg_ready h1.avg)
    (fDeterm_det o w1) h1.shape (by rw [h2]; exact hok) w1
  rw [h2] at this
  exact ⟨this.1, this.2.1, this.2.2.1⟩

/-! ### ensembles -/

/-- the probability of the event given by the ensemble: the fraction of members at or below the threshold, or one
minus it -/
noncomputable def ensProb (isOver : Bool) (t : Thr K) (f : NDArr (Fl K)) (ax : Int) (k : List Nat) : Fl K :=
  if isOver then Fl.sub (some 1) (fractionLe (membersAt f ax k) (thrAt t k)) else fractionLe (membersAt f ax k) (thrAt t k)

/-- **C75**, ensemble class: with the default conversion `cdf(...)` is the fraction of members. -/
theorem C75_ens_cdf {o : Obj (EnsX K)} {axes : Option (List Int)} {ax : Int} {fc : NDArr (Fl K)}
    (ho : EnsReady o axes ax fc) (hm : c.method = .moments) {a : A} (ha : Printable I a) {t : Thr K}
    (hemb : emb a = .thr t) (ht : ThrOK t o.ext.o.shape) (hne : o.ext.o.shape.prod ≠ 0) (isOver : Bool)
    (w : World (PyVal K)) :
    ∃ p, result .ensemble I (ensPrims c emb) mids (.slot (.cdf (overArg isOver a) (belowArg isOver a))) (unsaved o) w =
        .ok (some (.num p)) ∧ p.shape = o.ext.o.shape ∧
      ∀ k, InB o.ext.o.shape k → p.get k = ensProb isOver t o.ext.f ax k := by
  have hsh := ho.shape
  obtain ⟨r, r', r1, -, r2, -, r3⟩ := C09_fraction c.workers c.kde o.ext.f t ho.axisOK (by rw [← hsh]; exact ht)
    (by rw [← hsh]; exact hne)
  simp only [ensCdf] at r1
  obtain ⟨ps, hps⟩ := obArgs_ok (I := I) (ov := none) (be := some a) (by simp) (by rintro _ ⟨⟩; exact ha)
  obtain ⟨nm, hn⟩ := toName_ok hps (some "cdf".toList)
  have hb : (slotBody .ensemble I (ensPrims c emb) o.ext o.avg o.boot (.cdf none (some a))).run none w =
      (.ok (.num r), w) := by
    simp only [slotBody, cdfBody, reduceCtorEq, if_false, Prog.run, ensPrims, hemb, Arg.asThr, EnsX.ax, ho.axis, bind,
      Except.bind, hm, r1]
    rfl
  have hbelow : result .ensemble I (ensPrims c emb) mids (.slot (.cdf none (some a))) (unsaved o) w =
      .ok (some (.num r)) := by
    rw [result_slot (s := .cdf none (some a)) rfl hn hb]
    rfl
  cases isOver with
  | false => exact ⟨r, hbelow, r2.trans hsh.symm, fun k hk => by rw [(r3 k (by rw [← hsh]; exact hk)).1]; rfl⟩
  | true =>
    refine ⟨_, C75_over (shared_ens c emb) ha hbelow w, r2.trans hsh.symm, fun k hk => ?_⟩
    have hk' : InB r.shape k := by rw [r2, ← hsh]; exact hk
    have hg := get_map (fun x : Fl K => Fl.sub (some 1) x) r hk'
    rw [hg, (r3 k (by rw [← hsh]; exact hk)).1]
    rfl

/-- **C75**, ensemble class from the constructor on: `brier(...)` is the average over the requested axes of the
squared difference between the fraction of members in the event and whether it was observed. -/
theorem C75_ens_brier {oi o : Obj (EnsX K)} {w w' : World (PyVal K)}
    (h : construct (ensPrims c emb) mids oi w = (.ok o, w')) (hb : oi.boot = .none) (hm : c.method = .moments)
    {a : A} (ha : Printable I a) {t : Thr K} (hemb : emb a = .thr t) (ht : ThrOK t oi.ext.o.shape)
    (hne : oi.ext.o.shape.prod ≠ 0) (hok : OptOK oi.ext.o.shape.length (axesOf oi.avg)) (isOver : Bool)
    (w1 : World (PyVal K)) :
    ∃ ax r, o.ext.axis = some ax ∧ result .ensemble I (ensPrims c emb) mids
        (.slot (.brier (overArg isOver a) (belowArg isOver a))) (unsaved o) w1 = .ok (some (.num r)) ∧
      r.shape = dropAxes (nums oi.ext.o.shape.length (axesOf oi.avg)) oi.ext.o.shape ∧
      ∀ k, InB r.shape k →
        IsAvg c.skipNan ((fiberIdx oi.ext.o.shape (nums oi.ext.o.shape.length (axesOf oi.avg)) k).map fun i =>
          (ensProb isOver t oi.ext.f ax i).map fun v => (v - indicator (Event isOver t oi.ext.o i)) ^ 2) (r.get k) := by
  obtain ⟨ax, fc, h1, -, h3, h4, h5, -, -⟩ := C75_construct_ens h
  obtain ⟨p, p1, p2, p3⟩ := C75_ens_cdf (mids := mids) (I := I) h1 hm ha hemb (by rw [h4]; exact ht) (by rw [h4]; exact hne)
    isOver w1
  obtain ⟨r, r1, r2, r3⟩ := C75_brier (shared_ens c emb) hemb isOver (h5.trans hb) (axisArg_ready h1.avg) p1
    (by rw [h4]; exact ht) p2 (by rw [h4]; exact hok) w1
  rw [h4] at r2 r3 p3
  refine ⟨ax, r, h1.axis, r1, r2, fun k hk => ?_⟩
  have := r3 k hk
  rw [brierAt] at this
  rw [← h3]
  have e : ((fiberIdx oi.ext.o.shape (nums oi.ext.o.shape.length (axesOf oi.avg)) k).map fun i =>
      (ensProb isOver t o.ext.f ax i).map fun v => (v - indicator (Event isOver t oi.ext.o i)) ^ 2) =
      (fiberIdx oi.ext.o.shape (nums oi.ext.o.shape.length (axesOf oi.avg)) k).map fun i =>
        (p.get i).map fun v => (v - indicator (Event isOver t oi.ext.o i)) ^ 2 := by
    apply List.map_congr_left
    intro i hi
    rw [p3 i (mem_fiberIdx.1 hi).1]
  rw [e]
  exact this

/-- **C75**, ensemble class: `crps()` is the average over the requested axes of what the score function gives to the
observation and the members of every position, whether or not the work is split along the first axis. -/
theorem C75_ens_crps {oi o : Obj (EnsX K)} {w w' : World (PyVal K)}
    (h : construct (ensPrims c emb) mids oi w = (.ok o, w')) (hb : oi.boot = .none)
    {pt : Fl K → List (Fl K) → Fl K} {split : Bool} (hc : ∀ o f ax, c.crpsEns o f ax = ensembleCrps pt split ax o f)
    (hne : 0 < oi.ext.o.shape.headD 0) (hok : OptOK oi.ext.o.shape.length (axesOf oi.avg)) (w1 : World (PyVal K)) :
    ∃ ax r, o.ext.axis = some ax ∧
      result .ensemble I (ensPrims c emb) mids (.slot .crps) (unsaved o) w1 = .ok (some (.num r)) ∧
      r.shape = dropAxes (nums oi.ext.o.shape.length (axesOf oi.avg)) oi.ext.o.shape ∧
      ∀ k, InB r.shape k →
        IsAvg c.skipNan ((fiberIdx oi.ext.o.shape (nums oi.ext.o.shape.length (axesOf oi.avg)) k).map fun i =>
          pt (oi.ext.o.get i) (membersAt oi.ext.f ax i)) (r.get k) := by
  obtain ⟨ax, fc, h1, -, h3, h4, h5, -, -⟩ := C75_construct_ens h
  have hax := h1.axisOK
  have hsh := h1.shape
  rw [h3] at hax hsh
  rw [h4] at hsh
  obtain ⟨m, m1, m1', m2, m3⟩ := C40_split pt hax hsh hne
  have hm : ensembleCrps pt split ax oi.ext.o oi.ext.f = .ok m := by cases split <;> assumption
  obtain ⟨nm, hn⟩ := fixed_ok I (some "crps".toList)
  have hbody : ∀ w, (slotBody .ensemble I (ensPrims c emb) o.ext o.avg o.boot .crps).run none w = (.ok (.num m), w) := by
    intro w
    simp only [slotBody, Prog.run, ensPrims, EnsX.ax, h1.axis, bind, Except.bind, hc, h3, h4, hm]
    rfl
  obtain ⟨r, r1, r2, r3⟩ := avg_result (mids := mids) (s := .crps) (shared_ens c emb) rfl hn rfl (h5.trans hb)
    (axisArg_ready h1.avg) (m := m) (by rw [m2]; exact hok) (w := w1) hbody
  rw [m2] at r2 r3
  refine ⟨ax, r, h1.axis, r1, r2, fun k hk => ?_⟩
  rw [r2] at hk
  have := r3 k hk
  have e : fiber m (nums oi.ext.o.shape.length (axesOf oi.avg)) k =
      (fiberIdx oi.ext.o.shape (nums oi.ext.o.shape.length (axesOf oi.avg)) k).map fun i =>
        pt (oi.ext.o.get i) (membersAt oi.ext.f ax i) := by
    rw [fiber, m2]
    apply List.map_congr_left
    intro i hi
    have hi' := (mem_fiberIdx.1 hi).1
    rw [m3 i hi', membersAt, fiber_single _ (axisNum_lt hax) (by
      rw [dropAxes_single (axisNum_lt hax)]
      rw [hsh] at hi'
      exact hi')]
  rw [← e]
  exact this

/-- **C75**, ensemble class from the constructor on, collapsing with a function of the members (the default is the
mean): the errors are averages of the difference between the collapsed members and the observation. -/
theorem C75_ens_errors {oi o : Obj (EnsX K)} {w w' : World (PyVal K)}
    (h : construct (ensPrims c emb) mids oi w = (.ok o, w')) (hb : oi.boot = .none) {g : List (Fl K) → Fl K}
    (hg : ∀ f ax, oi.ext.collapse f ax = reduceAxes g f (some [ax]))
    (hok : OptOK oi.ext.o.shape.length (axesOf oi.avg)) (w1 : World (PyVal K)) :
    ∃ ax e a q r, o.ext.axis = some ax ∧
      result .ensemble I (ensPrims c emb) mids (.slot .error) (unsaved o) w1 = .ok (some (.num e)) ∧
      result .ensemble I (ensPrims c emb) mids (.slot .abError) (unsaved o) w1 = .ok (some (.num a)) ∧
      result .ensemble I (ensPrims c emb) mids (.slot .sqError) (unsaved o) w1 = .ok (some (.num q)) ∧
      result .ensemble I (ensPrims c emb) mids .rmse (unsaved o) w1 = .ok (some (.num r)) ∧
      (e.shape = dropAxes (nums oi.ext.o.shape.length (axesOf oi.avg)) oi.ext.o.shape ∧ a.shape = e.shape ∧
        q.shape = e.shape ∧ r.shape = e.shape) ∧
      ∀ k, InB e.shape k →
        let Q := (fiberIdx oi.ext.o.shape (nums oi.ext.o.shape.length (axesOf oi.avg)) k).map fun i =>
          (g (membersAt oi.ext.f ax i), oi.ext.o.get i)
        IsAvg c.skipNan (Q.map (both fun x y => x - y)) (e.get k) ∧
        IsAvg c.skipNan (Q.map (both fun x y => |x - y|)) (a.get k) ∧
        IsAvg c.skipNan (Q.map (both fun x y => (x - y) ^ 2)) (q.get k) ∧
        r.get k = (q.get k).map c.sqrt := by
  obtain ⟨ax, fc, h1, h2, h3, h4, h5, -, -⟩ := C75_construct_ens h
  have hax := h1.axisOK
  have hsh := h1.shape
  rw [h3] at hax hsh
  rw [h4] at hsh
  obtain ⟨r', r1, r2, r3⟩ := reduceAxes_spec g oi.ext.f (axes := some [ax]) ⟨by simpa using hax, by simp⟩
  rw [hg, r1] at h2
  simp only [Except.ok.injEq] at h2
  subst h2
  have hn : nums oi.ext.f.shape.length (some [ax]) = [axisNum oi.ext.f.shape.length ax] := rfl
  rw [hn, dropAxes_single (axisNum_lt hax)] at r2 r3
  have hs : r'.shape = oi.ext.o.shape := r2.trans hsh.symm
  have := C75_errors (mids := mids) (I := I) (shared_ens c emb) (o := o) (h5.trans hb) (axisArg_ready h1.avg)
    (fDeterm_ens h1 w1) (by rw [h4]; exact hs) (by rw [hs]; exact hok) w1
  obtain ⟨e, a, q, r, e1, e2, e3, e4, e5, e6⟩ := this
  rw [hs] at e5
  refine ⟨ax, e, a, q, r, h1.axis, e1, e2, e3, e4, e5, ?_⟩
  intro k hk Q
  have hQ : Q = pairsAt r' oi.ext.o (nums r'.shape.length (axesOf oi.avg)) k := by
    simp only [Q, pairsAt, hs]
    apply List.map_congr_left
    intro i hi
    have hi' := (mem_fiberIdx.1 hi).1
    rw [hsh] at hi'
    rw [r3 i hi']
    rfl
  rw [hQ, ← h4]
  exact e6 k hk

/-- **C75**, ensemble class: `variance()` is the population variance of the members, `spread()` the average of their
range over the requested axes. -/
theorem C75_ens_spread {oi o : Obj (EnsX K)} {w w' : World (PyVal K)}
    (h : construct (ensPrims c emb) mids oi w = (.ok o, w')) (hb : oi.boot = .none)
    (hnone : ∀ i, InB oi.ext.f.shape i → oi.ext.f.get i ≠ none) (hpos : 0 ∉ oi.ext.f.shape)
    (hok : OptOK oi.ext.o.shape.length (axesOf oi.avg)) (w1 : World (PyVal K)) :
    ∃ ax var spr r, o.ext.axis = some ax ∧
      result .ensemble I (ensPrims c emb) mids (.slot .variance) (unsaved o) w1 = .ok (some (.num var)) ∧
      result .ensemble I (ensPrims c emb) mids (.slot .spread) (unsaved o) w1 = .ok (some (.num r)) ∧
      var.shape = oi.ext.o.shape ∧ spr.shape = oi.ext.o.shape ∧
      (∀ k, InB oi.ext.o.shape k →
        let M := present (fiber oi.ext.f [axisNum oi.ext.f.shape.length ax] k)
        var.get k = some (avg (M.map fun x => (x - avg M) ^ 2)) ∧
        ∃ hi lo, hi ∈ M ∧ lo ∈ M ∧ (∀ x ∈ M, lo ≤ x ∧ x ≤ hi) ∧ spr.get k = some (hi - lo)) ∧
      r.shape = dropAxes (nums oi.ext.o.shape.length (axesOf oi.avg)) oi.ext.o.shape ∧
      ∀ k, InB r.shape k →
        IsAvg c.skipNan (fiber spr (nums oi.ext.o.shape.length (axesOf oi.avg)) k) (r.get k) := by
  obtain ⟨ax, fc, h1, -, h3, h4, h5, -, -⟩ := C75_construct_ens h
  have hax := h1.axisOK
  have hsh := h1.shape
  rw [h3] at hax hsh
  rw [h4] at hsh
  have hlt := axisNum_lt hax
  obtain ⟨var, spr, v1, s1, v2, s2, hval⟩ := C61_variance_spread c.skipNan oi.ext.f ax hax (by
    intro h0
    apply hpos
    rw [← h0]
    simp [List.getD_eq_getElem?_getD, List.getElem?_eq_getElem hlt])
  have hd : dropAxes [axisNum oi.ext.f.shape.length ax] oi.ext.f.shape = oi.ext.o.shape := by
    rw [hsh, posShape, dropAxes_single hlt]
  rw [hd] at v2 s2 hval
  obtain ⟨nm, hn⟩ := fixed_ok I (some "variance".toList)
  obtain ⟨nm', hn'⟩ := fixed_ok I (some "spread".toList)
  have hb1 : (slotBody .ensemble I (ensPrims c emb) o.ext o.avg o.boot .variance).run none w1 = (.ok (.num var), w1) := by
    simp only [slotBody, varBody, Prog.run, ensPrims, EnsX.ax, h1.axis, bind, Except.bind, h3, v1]
    rfl
  have hb2 : ∀ w, (slotBody .ensemble I (ensPrims c emb) o.ext o.avg o.boot .spread).run none w = (.ok (.num spr), w) := by
    intro w
    simp only [slotBody, Prog.run, ensPrims, EnsX.ax, h1.axis, bind, Except.bind, PyVal.asNum, h3, s1]
    rfl
  obtain ⟨r, r1, r2, r3⟩ := avg_result (mids := mids) (s := .spread) (shared_ens c emb) rfl hn' rfl (h5.trans hb)
    (axisArg_ready h1.avg) (m := spr) (by rw [s2]; exact hok) (w := w1) hb2
  rw [s2] at r2 r3
  refine ⟨ax, var, spr, r, h1.axis, ?_, r1, v2, s2, ?_, r2, fun k hk => by rw [r2] at hk; exact r3 k hk⟩
  · rw [result_slot (s := .variance) rfl hn hb1]
    rfl
  · intro k hk M
    have hmem : none ∉ fiber oi.ext.f [axisNum oi.ext.f.shape.length ax] k := by
      intro hc
      obtain ⟨i, hi, he⟩ := List.mem_map.1 hc
      exact hnone i (mem_fiberIdx.1 hi).1 he
    obtain ⟨v, s, M', m', g1, g2, rfl, -, -, g3, g4, g5, rfl, -, -⟩ := hval k hk hmem
    have hpres : ∀ x, x ∈ M ↔ some x ∈ fiber oi.ext.f [axisNum oi.ext.f.shape.length ax] k := by
      intro x
      simp [M, present]
    exact ⟨g1, M', m', (hpres _).2 g3, (hpres _).2 g4, fun x hx => g5 x ((hpres x).1 hx), g2⟩

/-- **C75**, ensemble class without missing values: `rank_histogram()` returns at every position a rank the
observation can have among its members. -/
theorem C75_ens_rank {oi o : Obj (EnsX K)} {w w' : World (PyVal K)}
    (h : construct (ensPrims c emb) mids oi w = (.ok o, w')) (hskip : c.skipNan = false)
    (hne : oi.ext.o.shape ≠ []) (hmap : MapOK c.workers c.mapAxis oi.ext.o.shape)
    (hf : none ∉ oi.ext.f.data) (hon : none ∉ oi.ext.o.data) (w1 : World (PyVal K)) :
    ∃ ax r, o.ext.axis = some ax ∧
      result .ensemble I (ensPrims c emb) mids (.slot .rankHist) (unsaved o) w1 = .ok (some (.ranks r)) ∧
      r.shape = oi.ext.o.shape ∧
      ∀ k, InB oi.ext.o.shape k → ∃ n, r.get k = some n ∧ PossibleRank (membersAt oi.ext.f ax k) (oi.ext.o.get k) n ∧
        1 ≤ n ∧ n ≤ oi.ext.f.shape.getD (axisNum oi.ext.f.shape.length ax) 0 + 1 ∧
        ((∀ y ∈ membersAt oi.ext.f ax k, y ≠ oi.ext.o.get k) →
          n = 1 + numLt (membersAt oi.ext.f ax k) (oi.ext.o.get k)) := by
  obtain ⟨ax, fc, h1, -, h3, h4, h5, -, -⟩ := C75_construct_ens h
  have hax := h1.axisOK
  have hsh := h1.shape
  rw [h3] at hax hsh
  rw [h4] at hsh
  obtain ⟨r, r1, r2, r3⟩ := C14_possible_rank c.npFloat c.workers c.mapAxis (c.rng (w1.seed w1.pos) 0) oi.ext.f oi.ext.o
    hax hsh hne hmap hf hon
  obtain ⟨nm, hn⟩ := fixed_ok I (some "rank".toList)
  have hb1 : ∃ w2, (slotBody .ensemble I (ensPrims c emb) o.ext o.avg o.boot .rankHist).run none w1 =
      (.ok (.ranks r), w2) := by
    simp only [slotBody, Prog.run, ensPrims, EnsX.ax, h1.axis, bind, Except.bind, PyVal.asNum, h3, h4, hskip, r1]
    exact ⟨_, rfl⟩
  obtain ⟨w2, hb1⟩ := hb1
  refine ⟨ax, r, h1.axis, ?_, r2, r3⟩
  rw [result_slot (s := .rankHist) rfl hn hb1]
  rfl

/-! ### saved results -/

theorem runOps_metrics {X V : Type} {C : Cls} {P : Prims X V A} {mids : FS V → Path → List (FS V)} {ops : List (Op X A)}
    (h : ∀ op ∈ ops, IsMetric op) (o : Obj X) (w : World V) :
    (runOps C I P mids ops o w).1 = o ∧ SettersReturn C I P mids ops o w := by
  induction ops generalizing w with
  | nil => exact ⟨rfl, trivial⟩
  | cons op ops ih =>
    have h1 : (step C I P mids op o w).2.1 = o := by
      cases op with
      | metric r =>
        simp only [step]
        split <;> rfl
      | _ => exact False.elim (h _ (List.mem_cons_self ..))
    obtain ⟨i1, i2⟩ := ih (fun p hp => h p (by simp [hp])) (step C I P mids op o w).2.2
    constructor
    · simp only [runOps]
      rcases hs : step C I P mids op o w with ⟨q, o1, w1⟩
      rw [hs] at h1 i1
      simp only at h1
      subst h1
      exact i1
    · refine ⟨.inl (h op (by simp)), ?_⟩
      rw [h1]
      exact i2

/-- **C75**: with saving from scratch, after any calls of metrics in any order and any number of times, a metric
returns what the same verifier returns without saving (no bootstrapping, no random numbers). -/
theorem C75_saved {X V : Type} (C : Cls) (hI : TextOK I) (P : Prims X V A) {mids : FS V → Path → List (FS V)}
    (hm : Deletion mids) {oi o : Obj X} {w0 w : World V} (hw : WellFormed w0.fs) (hs : oi.scratch = some true)
    (hd : DirOk oi.dir) (hc : construct P mids oi w0 = (.ok o, w)) (hb : oi.boot = .none) {ops : List (Op X A)}
    (hops : ∀ op ∈ ops, IsMetric op) (r : Req A)
    (h : match r with
      | .slot .probToEns => False
      | .slot .spread => C = .determ ∨ C = .ensemble
      | .slot .rankHist => C = .determ ∨ (C ≠ .ensemble ∧ P.members o.ext = false ∧ P.pitRandom o.ext = false)
      | .slot .pit => P.pitRandom o.ext = false
      | _ => True) (w1 : World V) :
    result C I P mids r (runOps C I P mids ops o w).1 (runOps C I P mids ops o w).2 =
      result C I P mids r (unsaved o) w1 := by
  obtain ⟨e1, e2⟩ := runOps_metrics (C := C) (I := I) (P := P) (mids := mids) hops o w
  have hbo : o.boot = .none := by
    rcases construct_cases P (mids := mids) (oi := oi) (w := w0) with ⟨e, w1, he, -⟩ | ⟨o', ho, -, h2, -⟩
    · rw [he] at hc; cases hc
    · rw [ho] at hc
      simp only [Prod.mk.injEq, Except.ok.injEq] at hc
      rw [← hc.1, h2, hb]
  have := C43_deterministic C hI P hm hw hs hd hc ops (by
    intro op hop
    cases op with
    | metric r => trivial
    | _ => exact False.elim (hops _ hop)) e2 r (by
    rw [e1]
    exact fun w1 w2 => C43_which C I P mids o r hbo h w1 w2) w1
  rw [e1] at this ⊢
  exact this

/-- **C75**, deterministic class with saving: the errors are the averages however often and in whatever order the
metrics are called. -/
theorem C75_det_saved (hI : TextOK I) (hm : Deletion mids) {oi o : Obj (DetX K)} {w w' : World (PyVal K)}
    (hw : WellFormed w.fs) (hs : oi.scratch = some true) (hd : DirOk oi.dir)
    (h : construct (detPrims c emb) mids oi w = (.ok o, w')) (hb : oi.boot = .none)
    (hok : OptOK oi.ext.f.shape.length (axesOf oi.avg)) {ops : List (Op (DetX K) A)} (hops : ∀ op ∈ ops, IsMetric op) :
    let s := runOps .determ I (detPrims c emb) mids ops o w'
    ∃ e a q r, result .determ I (detPrims c emb) mids (.slot .error) s.1 s.2 = .ok (some (.num e)) ∧
      result .determ I (detPrims c emb) mids (.slot .abError) s.1 s.2 = .ok (some (.num a)) ∧
      result .determ I (detPrims c emb) mids (.slot .sqError) s.1 s.2 = .ok (some (.num q)) ∧
      result .determ I (detPrims c emb) mids .rmse s.1 s.2 = .ok (some (.num r)) ∧
      (e.shape = dropAxes (nums oi.ext.f.shape.length (axesOf oi.avg)) oi.ext.f.shape ∧ a.shape = e.shape ∧
        q.shape = e.shape ∧ r.shape = e.shape) ∧
      ∀ k, InB e.shape k →
        let Q := pairsAt oi.ext.f oi.ext.o (nums oi.ext.f.shape.length (axesOf oi.avg)) k
        IsAvg c.skipNan (Q.map (both fun x y => x - y)) (e.get k) ∧
        IsAvg c.skipNan (Q.map (both fun x y => |x - y|)) (a.get k) ∧
        IsAvg c.skipNan (Q.map (both fun x y => (x - y) ^ 2)) (q.get k) ∧
        r.get k = (q.get k).map c.sqrt := by
  intro s
  have key := fun r hr => C75_saved .determ hI (detPrims c emb) hm hw hs hd h hb hops r hr w'
  simp only [s, key (.slot .error) trivial, key (.slot .abError) trivial, key (.slot .sqError) trivial, key .rmse trivial]
  exact C75_det_metrics h hb hok w'

/-! ### concrete cases -/

/-- A verifier with saving and an averaging axis meets the hypotheses, and its errors are averages over that axis. -/
example : ∃ o w, construct detP noMids { detO true with avg := .int (-1) } world0 = (.ok o, w) ∧
    OptOK detX.f.shape.length (axesOf (.int (-1))) ∧
    numOf (result .determ intInfo detP noMids (.slot .error) (unsaved o) w) = some ([2], [some (-1 / 2), some (1 / 2)]) ∧
    numOf (result .determ intInfo detP noMids (.slot .abError) (unsaved o) w) = some ([2], [some (1 / 2), some (1 / 2)]) :=
  ⟨_, _, rfl, ⟨by intro x hx; simp at hx; subst hx; unfold AxisOK; decide, by decide⟩, by decide +kernel,
    by decide +kernel⟩

/-- An ensemble of three members at two positions. -/
def ensX3 : EnsX ℚ := ⟨⟨[3, 2], [some 1, some 5, some 2, some 6, some 3, some 7], rfl⟩, ⟨[2], [some 3, some 6], rfl⟩, none,
  member 0, none⟩

example : ∃ o w, construct ensP noMids ⟨.none, .none, .none, some true, ensX3⟩ world0 = (.ok o, w) ∧
    o.ext.axis = some 0 ∧
    numOf (result .ensemble intInfo ensP noMids (.slot (.cdf none (some 2))) (unsaved o) w) = some ([2], [some (2 / 3), some 0]) ∧
    numOf (result .ensemble intInfo ensP noMids (.slot (.brier none (some 2))) (unsaved o) w) = some ([], [some (2 / 9)]) ∧
    numOf (result .ensemble intInfo ensP noMids (.slot .variance) (unsaved o) w) = some ([2], [some (2 / 3), some (2 / 3)]) ∧
    numOf (result .ensemble intInfo ensP noMids (.slot .spread) (unsaved o) w) = some ([], [some 2]) :=
  ⟨_, _, rfl, rfl, by decide +kernel, by decide +kernel, by decide +kernel, by decide +kernel⟩

end Props
