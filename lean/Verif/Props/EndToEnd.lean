import Verif.Lemmas.EndToEnd
import Verif.Props.Boot
import Verif.Props.Ensemble
import Verif.Props.Iou
import Verif.Props.Rank
import Verif.Props.Reliability
import Verif.Props.Saving
import Verif.Props.SpecialBoot
import Verif.Props.SpreadSkill

/-!
# The public methods, end to end: C75

Every statement is about the value a method of the object returns.  Metrics that build on other metrics are
described in terms of what those return (`f_determ()`, `cdf(...)`, `variance()`), for all verifier classes at once;
what these return is stated per class.
-/

set_option linter.unusedSectionVars false

namespace Props
open Np NDArr Spec Model Lemmas

variable {K : Type} [Field K] [LinearOrder K] [IsStrictOrderedRing K] [FloorSemiring K]
variable {A X : Type} {C : Cls} {I : ArgInfo A} {P : Prims X (PyVal K) A}
  {mids : FS (PyVal K) → Path → List (FS (PyVal K))} {c : Cfg K} {obs : X → NDArr (Fl K)} {emb : A → Arg K}

theorem goodAxes_boot {n : Nat} {l : List Int} (h : BootAxes n (some l)) : GoodAxes n l := by
  rcases h with ⟨h | h, hn⟩
  · exact goodAxes_nonneg h hn
  · exact goodAxes_neg h hn

/-- the bootstrap branch of `boot_or_avg` honours `avg_axis` -/
theorem bootOrAvg_some {skip : Bool} {axes : Option (List Int)} {n reps : Nat} {conf : K}
    {draw : Nat → Nat → Nat → Nat} {m res : NDArr (Fl K)} (h : BootAxes m.shape.length axes)
    (hres : bootOrAvg skip axes (some n) reps conf draw m = .ok res) :
    res.shape = 3 :: dropAxes (nums m.shape.length axes) m.shape ∧
    ∀ k, InB (dropAxes (nums m.shape.length axes) m.shape) k →
      ∃ samples, IsResample (fiber m (nums m.shape.length axes) k) n reps samples ∧
        IsBootSummary samples conf skip [res.get (0 :: k), res.get (1 :: k), res.get (2 :: k)] := by
  have main : ∀ l, GoodAxes m.shape.length l → l.map (axisNum m.shape.length) = nums m.shape.length axes →
      bootArr m (some l) n reps conf skip draw = .ok res →
      res.shape = 3 :: dropAxes (nums m.shape.length axes) m.shape ∧
      ∀ k, InB (dropAxes (nums m.shape.length axes) m.shape) k →
        ∃ samples, IsResample (fiber m (nums m.shape.length axes) k) n reps samples ∧
          IsBootSummary samples conf skip [res.get (0 :: k), res.get (1 :: k), res.get (2 :: k)] := by
    intro l hg e hl
    obtain ⟨h1, h2⟩ := bootArr_layout hg hl
    rw [e] at h1 h2
    refine ⟨h1, fun k hk => ?_⟩
    obtain ⟨t, ht, htg⟩ := h2 k hk
    obtain ⟨samples, hs, hb⟩ := bootVec_ok.1 ht
    refine ⟨samples, bootVec_isResample hs, ?_⟩
    obtain ⟨lo, hi, h3, h4, rfl⟩ := hb
    refine ⟨lo, hi, h3, h4, ?_⟩
    rw [htg 0 (by omega), htg 1 (by omega), htg 2 (by omega)]
    rfl
  cases axes with
  | some l => exact main l (goodAxes_boot h) rfl hres
  | none =>
    refine main _ (goodAxes_all _) ?_ hres
    have e := axisNum_inj_nonneg (n := m.shape.length) (l := (List.range m.shape.length).map Int.ofNat)
      (fun x hx => by
        obtain ⟨y, -, rfl⟩ := List.mem_map.1 hx
        exact Int.natCast_nonneg y)
    rw [e, List.map_map]
    exact List.map_id _

/-- averaged metrics: `m` is what the private method computes -/
theorem avg_result (hP : Shared c obs emb P) {s : Slot A} (hs : s.probOnly = false) {nm : Option Name}
    (hn : slotName I s = .ok nm) {o : Obj X} (hpost : slotPost P o.avg o.boot s = bootOrAvgP P o.avg o.boot .ok)
    {axes : Option (List Int)} (hb : o.boot = .none) (hax : axisArg o.avg = .ok axes) {m : NDArr (Fl K)}
    (hok : OptOK m.shape.length axes) {w : World (PyVal K)}
    (hbody : ∀ w, (slotBody C I P o.ext o.avg o.boot s).run none w = (.ok (.num m), w)) :
    ∃ r, result C I P mids (.slot s) (unsaved o) w = .ok (some (.num r)) ∧
      r.shape = dropAxes (nums m.shape.length axes) m.shape ∧
      ∀ k, InB (dropAxes (nums m.shape.length axes) m.shape) k →
        IsAvg c.skipNan (fiber m (nums m.shape.length axes) k) (r.get k) := by
  obtain ⟨r, h1, h2, h3⟩ := C62_average_partial c.skipNan axes c.reps c.conf (c.rng 0 0) m hok
  refine ⟨r, ?_, h2, h3⟩
  rw [result_slot hs hn (hbody w), hpost, avg_run hP hb hax, h1]
  rfl

/-- bootstrapped metrics -/
theorem boot_result (hP : Shared c obs emb P) {s : Slot A} (hs : s.probOnly = false) {nm : Option Name}
    (hn : slotName I s = .ok nm) {o : Obj X} (hpost : slotPost P o.avg o.boot s = bootOrAvgP P o.avg o.boot .ok)
    {axes : Option (List Int)} {n : Nat} (hb : o.boot = .int n) (hax : axisArg o.avg = .ok axes)
    {m : NDArr (Fl K)} (hok : BootAxes m.shape.length axes) {w : World (PyVal K)} {v : PyVal K}
    (hbody : ∀ w, (slotBody C I P o.ext o.avg o.boot s).run none w = (.ok (.num m), w))
    (hv : result C I P mids (.slot s) (unsaved o) w = .ok (some v)) :
    ∃ r, v = .num r ∧ r.shape = 3 :: dropAxes (nums m.shape.length axes) m.shape ∧
      ∀ k, InB (dropAxes (nums m.shape.length axes) m.shape) k →
        ∃ samples, IsResample (fiber m (nums m.shape.length axes) k) n c.reps samples ∧
          IsBootSummary samples c.conf c.skipNan [r.get (0 :: k), r.get (1 :: k), r.get (2 :: k)] := by
  rw [result_slot hs hn (hbody w), hpost, boot_run hP hb hax] at hv
  cases hr : bootOrAvg c.skipNan axes (some n) c.reps c.conf (c.rng (w.seed w.pos) 0) m with
  | error e => rw [hr] at hv; cases hv
  | ok r =>
    rw [hr] at hv
    simp only [Except.map, bind, Except.bind, Except.ok.injEq, Option.some.injEq] at hv
    exact ⟨r, hv.symm, bootOrAvg_some hok hr⟩

/-! ### error, ab_error, sq_error, rmse -/

theorem both_sub (g : K → K → K) (h : K → K) (e : ∀ x y, h (x - y) = g x y) (p : Fl K × Fl K) :
    (Fl.sub p.1 p.2).map h = both g p := by
  obtain ⟨x, y⟩ := p
  cases x <;> cases y <;> simp [Fl.sub, Fl.lift2, both, e]

/-- the array of a function of the differences -/
theorem diff_arr {f o d : NDArr (Fl K)} (hsh : f.shape = o.shape) (hd : zipWith Fl.sub f o = .ok d) (g : K → K → K)
    (h : K → K) (e : ∀ x y, h (x - y) = g x y) (B k : List Nat) :
    fiber (d.map fun x => x.map h) B k = (pairsAt f o B k).map (both g) := by
  obtain ⟨d', hd', -, hf⟩ := fiber_zipWith Fl.sub f o B k hsh
  rw [hd] at hd'
  cases hd'
  rw [fiber_map, hf, List.map_map]
  apply List.map_congr_left
  intro p _
  exact both_sub g h e p

/-- the three private methods -/
theorem error_bodies (hP : Shared c obs emb P) {o : Obj X} {w0 : World (PyVal K)} {f : NDArr (Fl K)}
    (hf : result C I P mids (.slot .fDeterm) (unsaved o) w0 = .ok (some (.num f)))
    (hsh : f.shape = (obs o.ext).shape) :
    ∃ e a q, (∀ w, (slotBody C I P o.ext o.avg o.boot .error).run none w = (.ok (.num e), w)) ∧
      (∀ w, (slotBody C I P o.ext o.avg o.boot .abError).run none w = (.ok (.num a), w)) ∧
      (∀ w, (slotBody C I P o.ext o.avg o.boot .sqError).run none w = (.ok (.num q), w)) ∧
      (e.shape = f.shape ∧ a.shape = f.shape ∧ q.shape = f.shape) ∧
      ∀ B k, fiber e B k = (pairsAt f (obs o.ext) B k).map (both fun x y => x - y) ∧
        fiber a B k = (pairsAt f (obs o.ext) B k).map (both fun x y => |x - y|) ∧
        fiber q B k = (pairsAt f (obs o.ext) B k).map (both fun x y => (x - y) ^ 2) := by
  obtain ⟨d, hd, hds, -⟩ := fiber_zipWith Fl.sub f (obs o.ext) [] [] hsh
  have he : d = d.map fun x => x.map id := by
    refine ext' rfl ?_
    simp [NDArr.map]
  have ha : d.map Fl.abs = d.map fun x => x.map fun y => |y| := rfl
  have hq : d.map Fl.sq = d.map fun x => x.map fun y => y * y := rfl
  refine ⟨d, d.map Fl.abs, d.map Fl.sq, fun w => ?_, fun w => ?_, fun w => ?_, ⟨hds, hds, hds⟩, fun B k => ⟨?_, ?_, ?_⟩⟩
  · simp only [slotBody]
    rw [withDet_run hf, hP.errorOf]
    simp only [basePrims, PyVal.asNum, bind, Except.bind, errorArr, hd]
    rfl
  · simp only [slotBody]
    rw [withDet_run hf, hP.abErrorOf]
    simp only [basePrims, PyVal.asNum, bind, Except.bind, abErrorArr, hd]
    rfl
  · simp only [slotBody, sqBody]
    rw [withDet_run hf, hP.sqErrorOf]
    simp only [basePrims, PyVal.asNum, bind, Except.bind, sqErrorArr, hd]
    rfl
  · rw [he]; exact diff_arr hsh hd _ id (fun _ _ => rfl) B k
  · rw [ha]; exact diff_arr hsh hd _ _ (fun _ _ => rfl) B k
  · rw [hq]; exact diff_arr hsh hd _ _ (fun x y => (sq (x - y)).symm) B k

/-- the root of an average of non-negative numbers -/
theorem sqrt_avg {s : K → K} {skip : Bool} {l : List (Fl K)} {v : Fl K} (h : IsAvg skip l v)
    (hl : ∀ x, some x ∈ l → 0 ≤ x) : Fl.sqrt s v = v.map s := by
  unfold IsAvg at h
  split at h
  · rw [h]; rfl
  · rw [h]
    have : 0 ≤ avg (present l) := by
      unfold avg
      apply div_nonneg _ (Nat.cast_nonneg _)
      apply List.sum_nonneg
      intro x hx
      obtain ⟨y, hy, hy'⟩ := List.mem_filterMap.1 hx
      exact hl x (by rw [← (show y = some x from hy')]; exact hy)
    simp [Fl.sqrt, this]

/-- **C75**, any class: if `f_determ()` returns `f`, then `error()`, `ab_error()`, `sq_error()` and `rmse()` return at
every kept position the average over the averaging axes of the difference, its absolute value and its square, and the
root of the last. -/
theorem C75_errors (hP : Shared c obs emb P) {o : Obj X} {axes : Option (List Int)} (hb : o.boot = .none)
    (hax : axisArg o.avg = .ok axes) {w0 : World (PyVal K)} {f : NDArr (Fl K)}
    (hf : result C I P mids (.slot .fDeterm) (unsaved o) w0 = .ok (some (.num f)))
    (hsh : f.shape = (obs o.ext).shape) (hok : OptOK f.shape.length axes) (w : World (PyVal K)) :
    ∃ e a q r, result C I P mids (.slot .error) (unsaved o) w = .ok (some (.num e)) ∧
      result C I P mids (.slot .abError) (unsaved o) w = .ok (some (.num a)) ∧
      result C I P mids (.slot .sqError) (unsaved o) w = .ok (some (.num q)) ∧
      result C I P mids .rmse (unsaved o) w = .ok (some (.num r)) ∧
      (e.shape = dropAxes (nums f.shape.length axes) f.shape ∧ a.shape = e.shape ∧ q.shape = e.shape ∧
        r.shape = e.shape) ∧
      ∀ k, InB e.shape k →
        let Q := pairsAt f (obs o.ext) (nums f.shape.length axes) k
        IsAvg c.skipNan (Q.map (both fun x y => x - y)) (e.get k) ∧
        IsAvg c.skipNan (Q.map (both fun x y => |x - y|)) (a.get k) ∧
        IsAvg c.skipNan (Q.map (both fun x y => (x - y) ^ 2)) (q.get k) ∧
        r.get k = (q.get k).map c.sqrt := by
  obtain ⟨e, a, q, he, ha, hq, ⟨se, sa, sq⟩, hfib⟩ := error_bodies hP hf hsh
  obtain ⟨n1, hn1⟩ := fixed_ok I (some "error".toList)
  obtain ⟨n2, hn2⟩ := fixed_ok I (some "ab_error".toList)
  obtain ⟨n3, hn3⟩ := fixed_ok I (some "sq_error".toList)
  obtain ⟨e', e1, e2, e3⟩ := avg_result (mids := mids) (s := .error) hP rfl hn1 rfl hb hax (m := e) (by rwa [se])
    (w := w) he
  obtain ⟨a', a1, a2, a3⟩ := avg_result (mids := mids) (s := .abError) hP rfl hn2 rfl hb hax (m := a) (by rwa [sa])
    (w := w) ha
  obtain ⟨q', q1, q2, q3⟩ := avg_result (mids := mids) (s := .sqError) hP rfl hn3 rfl hb hax (m := q) (by rwa [sq])
    (w := w) hq
  rw [se] at e2 e3
  rw [sa] at a2 a3
  rw [sq] at q2 q3
  refine ⟨e', a', q', q'.map (Fl.sqrt c.sqrt), e1, a1, q1, ?_, ⟨e2, a2.trans e2.symm, q2.trans e2.symm,
    q2.trans e2.symm⟩, ?_⟩
  · rw [result_slot (s := .sqError) rfl hn3 (hq w)] at q1
    have hpost : slotPost P o.avg o.boot (.sqError : Slot A) = bootOrAvgP P o.avg o.boot .ok := rfl
    rw [hpost, avg_run hP hb hax] at q1
    have hn3' : slotName I (.sqError : Slot A) = .ok n3 := hn3
    have hq' : (sqBody C I P o.ext).run none w = (.ok (.num q), w) := hq w
    rw [result_eq]
    simp only [metricProg, hn3', Prog.callName]
    rw [run_call_none _ _ _ _ hq', avg_run hP hb hax]
    cases hr : bootOrAvg c.skipNan axes none c.reps c.conf (c.rng 0 0) q with
    | error e => rw [hr] at q1; cases q1
    | ok r =>
      rw [hr] at q1
      cases q1
      rw [hP.sqrt]
      rfl
  · intro k hk Q
    rw [e2] at hk
    have h := hfib (nums f.shape.length axes) k
    refine ⟨?_, ?_, ?_, ?_⟩
    · have := e3 k hk; rwa [h.1] at this
    · have := a3 k hk; rwa [h.2.1] at this
    · have := q3 k hk; rwa [h.2.2] at this
    · rw [get_map _ q' (by rw [q2]; exact hk)]
      have hq3 := q3 k hk
      rw [h.2.2] at hq3
      exact sqrt_avg hq3 (by
        rintro x hx
        obtain ⟨p, -, hp⟩ := List.mem_map.1 hx
        obtain ⟨u, v⟩ := p
        cases u <;> cases v <;> simp only [both, reduceCtorEq, Option.some.injEq] at hp
        rw [← hp]
        positivity)

/-- **C75**, any class, with bootstrapping: the numbers returned for a kept position summarise resamples of the
differences (their absolute values, their squares) of exactly the pairs of that position; `rmse()` is the root of
such a summary. -/
theorem C75_errors_boot (hP : Shared c obs emb P) {o : Obj X} {axes : Option (List Int)} {n : Nat}
    (hb : o.boot = .int n) (hax : axisArg o.avg = .ok axes) {w0 : World (PyVal K)} {f : NDArr (Fl K)}
    (hf : result C I P mids (.slot .fDeterm) (unsaved o) w0 = .ok (some (.num f)))
    (hsh : f.shape = (obs o.ext).shape) (hok : BootAxes f.shape.length axes) (w : World (PyVal K)) :
    let D := dropAxes (nums f.shape.length axes) f.shape
    let Sums : (K → K → K) → NDArr (Fl K) → Prop := fun g r => r.shape = 3 :: D ∧ ∀ k, InB D k →
      ∃ samples, IsResample ((pairsAt f (obs o.ext) (nums f.shape.length axes) k).map (both g)) n c.reps samples ∧
        IsBootSummary samples c.conf c.skipNan [r.get (0 :: k), r.get (1 :: k), r.get (2 :: k)]
    (∀ v, result C I P mids (.slot .error) (unsaved o) w = .ok (some v) → ∃ r, v = .num r ∧ Sums (fun x y => x - y) r) ∧
    (∀ v, result C I P mids (.slot .abError) (unsaved o) w = .ok (some v) →
      ∃ r, v = .num r ∧ Sums (fun x y => |x - y|) r) ∧
    (∀ v, result C I P mids (.slot .sqError) (unsaved o) w = .ok (some v) →
      ∃ r, v = .num r ∧ Sums (fun x y => (x - y) ^ 2) r) ∧
    (∀ v, result C I P mids .rmse (unsaved o) w = .ok (some v) →
      ∃ r q, v = .num r ∧ Sums (fun x y => (x - y) ^ 2) q ∧ r.shape = q.shape ∧
        ∀ k, InB r.shape k → r.get k = Fl.sqrt c.sqrt (q.get k)) := by
  intro D Sums
  obtain ⟨e, a, q, he, ha, hq, ⟨se, sa, sq⟩, hfib⟩ := error_bodies hP hf hsh
  obtain ⟨n1, hn1⟩ := fixed_ok I (some "error".toList)
  obtain ⟨n2, hn2⟩ := fixed_ok I (some "ab_error".toList)
  obtain ⟨n3, hn3⟩ := fixed_ok I (some "sq_error".toList)
  refine ⟨fun v hv => ?_, fun v hv => ?_, fun v hv => ?_, fun v hv => ?_⟩
  · obtain ⟨r, r1, r2, r3⟩ := boot_result (s := .error) hP rfl hn1 rfl hb hax (m := e) (by rwa [se]) he hv
    rw [se] at r2 r3
    exact ⟨r, r1, r2, fun k hk => by have := r3 k hk; rwa [(hfib _ k).1] at this⟩
  · obtain ⟨r, r1, r2, r3⟩ := boot_result (s := .abError) hP rfl hn2 rfl hb hax (m := a) (by rwa [sa]) ha hv
    rw [sa] at r2 r3
    exact ⟨r, r1, r2, fun k hk => by have := r3 k hk; rwa [(hfib _ k).2.1] at this⟩
  · obtain ⟨r, r1, r2, r3⟩ := boot_result (s := .sqError) hP rfl hn3 rfl hb hax (m := q) (by rwa [sq]) hq hv
    rw [sq] at r2 r3
    exact ⟨r, r1, r2, fun k hk => by have := r3 k hk; rwa [(hfib _ k).2.2] at this⟩
  · have hn3' : slotName I (.sqError : Slot A) = .ok n3 := hn3
    have hq' : (sqBody C I P o.ext).run none w = (.ok (.num q), w) := hq w
    rw [result_eq] at hv
    simp only [metricProg, hn3', Prog.callName] at hv
    rw [run_call_none _ _ _ _ hq', boot_run hP hb hax] at hv
    cases hr : bootOrAvg c.skipNan axes (some n) c.reps c.conf (c.rng (w.seed w.pos) 0) q with
    | error e => rw [hr] at hv; cases hv
    | ok r =>
      rw [hr, hP.sqrt] at hv
      have hv' : v = .num (r.map (Fl.sqrt c.sqrt)) := by cases hv; rfl
      obtain ⟨r2, r3⟩ := bootOrAvg_some (by rwa [sq]) hr
      rw [sq] at r2 r3
      exact ⟨_, r, hv', ⟨r2, fun k hk => by have := r3 k hk; rwa [(hfib _ k).2.2] at this⟩, rfl,
        fun k hk => get_map _ r hk⟩

/-! ### probabilities -/

/-- **C75**, any probabilistic class: `cdf(over=t)` is one minus `cdf(below=t)`, everywhere. -/
theorem C75_over (hP : Shared c obs emb P) {o : Obj X} {a : A} (ha : Printable I a) {w0 : World (PyVal K)}
    {p : NDArr (Fl K)} (hp : result C I P mids (.slot (.cdf none (some a))) (unsaved o) w0 = .ok (some (.num p)))
    (w : World (PyVal K)) :
    result C I P mids (.slot (.cdf (some a) none)) (unsaved o) w =
      .ok (some (.num (p.map fun x => Fl.sub (some 1) x))) := by
  obtain ⟨hC, ⟨nm, hn⟩, hr⟩ := cdf_runs hp
  obtain ⟨ps, hps⟩ := obArgs_ok (I := I) (ov := some a) (be := none) (by rintro _ ⟨⟩; exact ha) (by simp)
  obtain ⟨nm', hn'⟩ := toName_ok hps (some "cdf".toList)
  have hb : (cdfBody C I P o.ext (some a) none).run none w = (.ok (.num (p.map fun x => Fl.sub (some 1) x)), w) := by
    simp only [cdfBody, if_neg hC, hn, Prog.callName]
    have h1 := hr w
    simp only [cdfBody, if_neg hC] at h1
    rw [run_call_none _ _ _ _ h1, hP.oneMinus]
    rfl
  rw [result_slot (s := .cdf (some a) none) rfl hn' hb]
  rfl

theorem binarize_spec (hP : Shared c obs emb P) {x : X} {a : A} {t : Thr K} (hemb : emb a = .thr t) (isOver : Bool)
    (ht : ThrOK t (obs x).shape) :
    ∃ ob, P.binarize x (overArg isOver a) (belowArg isOver a) = .ok (.bool ob) ∧ ob.shape = (obs x).shape ∧
      ∀ k, InB (obs x).shape k → (ob.get k = true ↔ Event isOver t (obs x) k) := by
  rw [hP.binarize]
  cases isOver with
  | true =>
    obtain ⟨e, e1, e2, e3⟩ := cmpThr_spec (fun x v => Fl.lt v x) (obs x) t ht
    refine ⟨e, ?_, e2, fun k hk => ?_⟩
    · simp only [basePrims, overArg, belowArg, if_true, Option.map, optThr, hemb, Arg.asThr, binarizeObs, bind,
        Except.bind, pure, Except.pure, e1]
    · rw [e3 k hk, lt_iff_LtP]
      simp [Event]
  | false =>
    obtain ⟨e, e1, e2, e3⟩ := cmpThr_spec Fl.lt (obs x) t ht
    refine ⟨e, ?_, e2, fun k hk => ?_⟩
    · simp only [basePrims, overArg, belowArg, Bool.false_eq_true, if_false, Option.map, optThr, hemb, Arg.asThr,
        binarizeObs, bind, Except.bind, pure, Except.pure, e1]
    · rw [e3 k hk, lt_iff_LtP]
      simp [Event]

theorem brier_body (hP : Shared c obs emb P) {o : Obj X} {a : A} {t : Thr K} (hemb : emb a = .thr t) (isOver : Bool)
    {w0 : World (PyVal K)} {p : NDArr (Fl K)}
    (hp : result C I P mids (.slot (.cdf (overArg isOver a) (belowArg isOver a))) (unsaved o) w0 = .ok (some (.num p)))
    (ht : ThrOK t (obs o.ext).shape) (hsh : p.shape = (obs o.ext).shape) :
    ∃ m, (∀ w, (slotBody C I P o.ext o.avg o.boot (.brier (overArg isOver a) (belowArg isOver a))).run none w =
        (.ok (.num m), w)) ∧ m.shape = (obs o.ext).shape ∧
      ∀ B k, fiber m B k = brierAt isOver t p (obs o.ext) B k := by
  obtain ⟨ob, h1, h2, h3⟩ := binarize_spec hP hemb isOver ht
  have hso : p.shape = ob.shape := hsh.trans h2.symm
  obtain ⟨m, m1, m2, m3⟩ := zipWith_spec (fun p b => Fl.sq (Fl.sub p (some (if b then (1 : K) else 0)))) p ob hso
  refine ⟨m, fun w => ?_, m2.trans hsh, fun B k => ?_⟩
  · simp only [slotBody]
    rw [brierBody_run hp h1, hP.brierOf]
    simp only [basePrims, PyVal.asNum, PyVal.asBool, bind, Except.bind, brierArr, m1]
    rfl
  · unfold fiber brierAt
    rw [m2, hsh]
    apply List.map_congr_left
    intro i hi
    have hi' := (mem_fiberIdx.1 hi).1
    rw [m3 i (by rw [hsh]; exact hi')]
    have := h3 i hi'
    have hind : (if ob.get i = true then (1 : K) else 0) = indicator (Event isOver t (obs o.ext) i) := by
      unfold indicator
      by_cases hE : Event isOver t (obs o.ext) i
      · rw [if_pos (this.2 hE), if_pos hE]
      · rw [if_neg (fun h => hE (this.1 h)), if_neg hE]
    rw [hind]
    cases p.get i <;> simp [Fl.sq, Fl.sub, Fl.lift2, sq]

/-- **C75**, any probabilistic class: if `cdf(...)` returns `p` for a threshold, `brier(...)` returns at every kept
position the average of `(p - 1{event})²`, the event being strict. -/
theorem C75_brier (hP : Shared c obs emb P) {o : Obj X} {a : A} {t : Thr K} (hemb : emb a = .thr t) (isOver : Bool)
    {axes : Option (List Int)} (hb : o.boot = .none) (hax : axisArg o.avg = .ok axes)
    {w0 : World (PyVal K)} {p : NDArr (Fl K)}
    (hp : result C I P mids (.slot (.cdf (overArg isOver a) (belowArg isOver a))) (unsaved o) w0 = .ok (some (.num p)))
    (ht : ThrOK t (obs o.ext).shape) (hsh : p.shape = (obs o.ext).shape)
    (hok : OptOK (obs o.ext).shape.length axes) (w : World (PyVal K)) :
    ∃ r, result C I P mids (.slot (.brier (overArg isOver a) (belowArg isOver a))) (unsaved o) w =
        .ok (some (.num r)) ∧
      r.shape = dropAxes (nums (obs o.ext).shape.length axes) (obs o.ext).shape ∧
      ∀ k, InB r.shape k →
        IsAvg c.skipNan (brierAt isOver t p (obs o.ext) (nums (obs o.ext).shape.length axes) k) (r.get k) := by
  obtain ⟨m, m1, m2, m3⟩ := brier_body hP hemb isOver hp ht hsh
  obtain ⟨nm, hn⟩ := (cdf_runs hp).2.1
  obtain ⟨ps, hps⟩ := obArgs_of_cdf hn
  obtain ⟨nm', hn'⟩ := toName_ok hps (some "brier".toList)
  obtain ⟨r, r1, r2, r3⟩ := avg_result (mids := mids) (s := .brier (overArg isOver a) (belowArg isOver a)) hP rfl hn'
    rfl hb hax (m := m) (by rwa [m2]) (w := w) m1
  rw [m2] at r2 r3
  exact ⟨r, r1, r2, fun k hk => by rw [r2] at hk; have := r3 k hk; rwa [m3] at this⟩

/-- **C75**, the same with bootstrapping. -/
theorem C75_brier_boot (hP : Shared c obs emb P) {o : Obj X} {a : A} {t : Thr K} (hemb : emb a = .thr t)
    (isOver : Bool) {axes : Option (List Int)} {n : Nat} (hb : o.boot = .int n) (hax : axisArg o.avg = .ok axes)
    {w0 : World (PyVal K)} {p : NDArr (Fl K)}
    (hp : result C I P mids (.slot (.cdf (overArg isOver a) (belowArg isOver a))) (unsaved o) w0 = .ok (some (.num p)))
    (ht : ThrOK t (obs o.ext).shape) (hsh : p.shape = (obs o.ext).shape)
    (hok : BootAxes (obs o.ext).shape.length axes) {w : World (PyVal K)} {v : PyVal K}
    (hv : result C I P mids (.slot (.brier (overArg isOver a) (belowArg isOver a))) (unsaved o) w = .ok (some v)) :
    ∃ r, v = .num r ∧ r.shape = 3 :: dropAxes (nums (obs o.ext).shape.length axes) (obs o.ext).shape ∧
      ∀ k, InB (dropAxes (nums (obs o.ext).shape.length axes) (obs o.ext).shape) k → ∃ samples,
        IsResample (brierAt isOver t p (obs o.ext) (nums (obs o.ext).shape.length axes) k) n c.reps samples ∧
        IsBootSummary samples c.conf c.skipNan [r.get (0 :: k), r.get (1 :: k), r.get (2 :: k)] := by
  obtain ⟨m, m1, m2, m3⟩ := brier_body hP hemb isOver hp ht hsh
  obtain ⟨nm, hn⟩ := (cdf_runs hp).2.1
  obtain ⟨ps, hps⟩ := obArgs_of_cdf hn
  obtain ⟨nm', hn'⟩ := toName_ok hps (some "brier".toList)
  obtain ⟨r, r1, r2, r3⟩ := boot_result (s := .brier (overArg isOver a) (belowArg isOver a)) hP rfl hn' rfl hb hax
    (m := m) (by rwa [m2]) m1 hv
  rw [m2] at r2 r3
  exact ⟨r, r1, r2, fun k hk => by have := r3 k hk; rwa [m3] at this⟩

/-- **C75**, any probabilistic class: `sharpness(...)` is `cdf(...)`. -/
theorem C75_sharpness {o : Obj X} {ov be : Option A} {w0 : World (PyVal K)} {v : PyVal K}
    (hp : result C I P mids (.slot (.cdf ov be)) (unsaved o) w0 = .ok (some v)) (w : World (PyVal K)) :
    result C I P mids (.slot (.sharpness ov be)) (unsaved o) w = .ok (some v) := by
  obtain ⟨nm, hn⟩ := (cdf_runs hp).2.1
  obtain ⟨ps, hps⟩ := obArgs_of_cdf hn
  obtain ⟨nm', hn'⟩ := toName_ok hps (some "sharpness".toList)
  have hb : (slotBody C I P o.ext o.avg o.boot (.sharpness ov be)).run none w = (.ok v, w) := by
    simp only [slotBody, if_neg (cdf_runs hp).1]
    rw [cdfCall_run hp]
    rfl
  rw [result_slot (s := .sharpness ov be) rfl hn' hb]
  rfl

end Props
