import Verif.Spec.Unaveraged
import Verif.Props.BootFixed

/-!
# What is averaged: C139, and the intervals of C136 and C138 for all metrics that average
-/

set_option linter.unusedSectionVars false

namespace Props
open Np NDArr Model Spec Lemmas

section
variable {K : Type} [Field K] [LinearOrder K] [IsStrictOrderedRing K] [FloorRing K]
variable {A X : Type} {C : Cls} {I : ArgInfo A} {P : Prims X (PyVal K) A} {mids : FS (PyVal K) → Model.Path → List (FS (PyVal K))}
  {c : Cfg K} {obs : X → NDArr (Fl K)} {emb : A → Arg K} {o : Obj X} {s : Slot A} {w : World (PyVal K)}

theorem dropAxes_none (l : List ℕ) : dropAxes [] l = l := by
  unfold dropAxes
  simp only [List.not_mem_nil, not_false_eq_true, decide_true, List.filter_true]
  refine List.ext_getElem (by simp) fun i h1 h2 => ?_
  simp [List.getD_eq_getElem?_getD, List.getElem?_eq_getElem h2]

theorem fiberIdx_none {sh k : List ℕ} (hk : InB sh k) : fiberIdx sh [] k = [k] := by
  have hk' : InB (dropAxes [] sh) k := by rwa [dropAxes_none]
  have hl : (fiberIdx sh [] k).length = 1 := by
    rw [length_fiberIdx hk']
    simp [takeAxes]
  obtain ⟨i, hi⟩ := List.length_eq_one_iff.1 hl
  have : i ∈ fiberIdx sh [] k := by rw [hi]; simp
  have e := (mem_fiberIdx.1 this).2
  rw [dropAxes_none] at e
  rw [hi, e]

theorem fiber_none {m : NDArr (Fl K)} {k : List ℕ} (hk : InB m.shape k) : fiber m [] k = [m.get k] := by
  rw [fiber, fiberIdx_none hk]
  rfl

theorem meanOf_one (skip : Bool) (x : Fl K) : meanOf skip [x] = x := by
  cases x <;> cases skip <;> simp [meanOf, mean, nanmean, fsum, Fl.add, Fl.lift2, Fl.div]

theorem body_indep (hs : Averaged s) (a a' : PyAxis) (b b' : PyBoot) :
    slotBody C I P o.ext a b s = slotBody C I P o.ext a' b' s := by
  cases hs <;> rfl

theorem post_averaged (hs : Averaged s) (a : PyAxis) (b : PyBoot) : slotPost P a b s = bootOrAvgP P a b .ok := by
  cases hs <;> rfl

theorem not_probOnly (hs : Averaged s) : s.probOnly = false := by
  cases hs <;> rfl

/-- what the private method computes is what the public one returns without averaging -/
theorem plain_body (hP : Shared c obs emb P) (hs : Averaged s) {v : PyVal K}
    (h : result C I P mids (.slot s) (unsaved (plain o)) w = .ok (some v)) :
    ∃ nm m m' w1, v = .num m ∧ slotName I s = .ok nm ∧
      (∀ a b, (slotBody C I P o.ext a b s).run none w = (.ok (.num m'), w1)) ∧ m'.shape = m.shape ∧
      ∀ i, InB m.shape i → m'.get i = m.get i := by
  obtain ⟨nm, u, w1, w2, hn, hb, hp⟩ := result_slot_inv h
  rw [post_averaged hs] at hp
  have hu : ∃ m', u = .num m' := by
    simp only [bootOrAvgP, plain, if_true, Prog.run, hP.avg, basePrims] at hp
    cases u with
    | num m' => exact ⟨m', rfl⟩
    | _ => simp [PyVal.asNum, bind, Except.bind, axisArg] at hp
  obtain ⟨m', rfl⟩ := hu
  have hok : OptOK m'.shape.length (some []) := ⟨by simp, by simp⟩
  obtain ⟨r, r1, r2, r3⟩ := bootOrAvg_none c.skipNan (some []) c.reps c.conf (c.rng 0 0) m' hok
  rw [avg_run hP (o := plain o) rfl (axes := some []) rfl, r1] at hp
  simp only [Except.map, bind, Except.bind, Prod.mk.injEq, Except.ok.injEq] at hp
  rw [show nums m'.shape.length (some []) = [] from rfl, dropAxes_none] at r2 r3
  refine ⟨nm, r, m', w1, hp.1.symm, hn, fun a b => ?_, r2.symm, fun i hi => ?_⟩
  · rw [body_indep hs a (plain o).avg b (plain o).boot]
    exact hb
  · rw [r2] at hi
    rw [r3 i hi, fiber_none hi, meanOf_one]

theorem fiber_same {m m' : NDArr (Fl K)} (h : m'.shape = m.shape) (hg : ∀ i, InB m.shape i → m'.get i = m.get i)
    (B k : List ℕ) : fiber m' B k = fiber m B k := by
  unfold fiber
  rw [h]
  exact List.map_congr_left fun i hi => hg i (mem_fiberIdx.1 hi).1

/-- **C139**, averages. A metric that returns `m` with `avg_axis=()` returns with any other axes, at every kept position, the
average of the numbers of `m` at the positions that are averaged. -/
theorem C139_average (hP : Shared c obs emb P) (hs : Averaged s) {v : PyVal K}
    (h : result C I P mids (.slot s) (unsaved (plain o)) w = .ok (some v)) :
    ∃ m, v = .num m ∧ ∀ {a : PyAxis} {axes : Option (List Int)}, axisArg a = .ok axes → OptOK m.shape.length axes →
      ∃ r, result C I P mids (.slot s) (unsaved (withAvg o a .none)) w = .ok (some (.num r)) ∧
        r.shape = dropAxes (nums m.shape.length axes) m.shape ∧
        ∀ k, InB r.shape k → IsAvg c.skipNan (fiber m (nums m.shape.length axes) k) (r.get k) := by
  obtain ⟨nm, m, m', w1, rfl, hn, hb, hsh, hg⟩ := plain_body hP hs h
  refine ⟨m, rfl, fun {a axes} hax hok => ?_⟩
  obtain ⟨r, r1, r2, r3⟩ := C62_average_partial c.skipNan axes c.reps c.conf (c.rng 0 0) m' (by rwa [hsh])
  rw [hsh] at r2 r3
  refine ⟨r, ?_, r2, fun k hk => ?_⟩
  · rw [result_slot (o := withAvg o a .none) (not_probOnly hs) hn (hb a .none), post_averaged hs,
      avg_run hP (o := withAvg o a .none) rfl hax, r1]
    rfl
  · rw [r2] at hk
    have := r3 k hk
    rwa [fiber_same hsh hg] at this

/-- **C139**, intervals: with bootstrapping the resampled numbers are those of `m` at the positions that are averaged. -/
theorem C139_boot (hP : Shared c obs emb P) (hs : Averaged s) {m : NDArr (Fl K)}
    (h : result C I P mids (.slot s) (unsaved (plain o)) w = .ok (some (.num m))) {a : PyAxis} {axes : Option (List Int)}
    (hax : axisArg a = .ok axes) (hok : BootAxes m.shape.length axes) {n : ℕ} {v : PyVal K}
    (hv : result C I P mids (.slot s) (unsaved (withAvg o a (.int n))) w = .ok (some v)) :
    ∃ r, v = .num r ∧ r.shape = 3 :: dropAxes (nums m.shape.length axes) m.shape ∧
      ∀ k, InB (dropAxes (nums m.shape.length axes) m.shape) k →
        ∃ samples, IsResample (fiber m (nums m.shape.length axes) k) n c.reps samples ∧
          IsBootSummary samples c.conf c.skipNan [r.get (0 :: k), r.get (1 :: k), r.get (2 :: k)] := by
  obtain ⟨nm, m0, m', w1, e, hn, hb, hsh, hg⟩ := plain_body hP hs h
  cases e
  rw [result_slot (o := withAvg o a (.int n)) (not_probOnly hs) hn (hb a (.int n)), post_averaged hs,
    boot_run hP (o := withAvg o a (.int n)) rfl hax] at hv
  cases hr : bootOrAvg c.skipNan axes (some n) c.reps c.conf (c.rng (w1.seed w1.pos) 0) m' with
  | error e => rw [hr] at hv; cases hv
  | ok r =>
    rw [hr] at hv
    simp only [Except.map, bind, Except.bind, Except.ok.injEq, Option.some.injEq] at hv
    obtain ⟨r2, r3⟩ := bootOrAvg_some (by rwa [hsh]) hr
    rw [hsh] at r2 r3
    refine ⟨r, hv.symm, r2, fun k hk => ?_⟩
    have := r3 k hk
    rwa [fiber_same hsh hg] at this

/-- the converse of `plain_body` -/
theorem plain_of_body (hP : Shared c obs emb P) (hs : Averaged s) {nm : Option Name} (hn : slotName I s = .ok nm)
    {m' : NDArr (Fl K)} {w1 : World (PyVal K)} (hb : (slotBody C I P o.ext o.avg o.boot s).run none w = (.ok (.num m'), w1)) :
    ∃ m, result C I P mids (.slot s) (unsaved (plain o)) w = .ok (some (.num m)) ∧ m.shape = m'.shape ∧
      ∀ i, InB m.shape i → m.get i = m'.get i := by
  obtain ⟨r, r1, r2, r3⟩ := bootOrAvg_none c.skipNan (some []) c.reps c.conf (c.rng 0 0) m' ⟨by simp, by simp⟩
  rw [show nums m'.shape.length (some []) = [] from rfl, dropAxes_none] at r2 r3
  rw [body_indep hs _ (plain o).avg _ (plain o).boot] at hb
  refine ⟨r, ?_, r2, fun i hi => ?_⟩
  · rw [result_slot (o := plain o) (not_probOnly hs) hn hb, post_averaged hs, avg_run hP (o := plain o) rfl (axes := some []) rfl,
      r1]
    rfl
  · rw [r2] at hi
    rw [r3 i hi, fiber_none hi, meanOf_one]

/-- **C139**, nothing else is needed: whichever axes and draws, a metric that returns something returns an array with
`avg_axis=()`. -/
theorem C139_needed (hP : Shared c obs emb P) (hs : Averaged s) {a : PyAxis} {b : PyBoot} {v : PyVal K}
    (h : result C I P mids (.slot s) (unsaved (withAvg o a b)) w = .ok (some v)) :
    ∃ m, result C I P mids (.slot s) (unsaved (plain o)) w = .ok (some (.num m)) := by
  obtain ⟨nm, u, w1, w2, hn, hb, hp⟩ := result_slot_inv h
  rw [post_averaged hs] at hp
  have hu : ∃ m', u = .num m' := by
    simp only [bootOrAvgP] at hp
    split at hp
    · simp only [Prog.run, hP.avg, basePrims] at hp
      cases u with
      | num m' => exact ⟨m', rfl⟩
      | _ => cases a <;> simp [withAvg, PyVal.asNum, bind, Except.bind, axisArg] at hp
    · simp only [Prog.run, hP.bootArr, basePrims] at hp
      cases u with
      | num m' => exact ⟨m', rfl⟩
      | _ => cases a <;> rcases hba : bootArg b with _ | _ <;>
          simp [withAvg, PyVal.asNum, bind, Except.bind, axisArg, hba] at hp
  obtain ⟨m', rfl⟩ := hu
  obtain ⟨m, hm, -, -⟩ := plain_of_body (o := withAvg o a b) (mids := mids) hP hs hn hb
  exact ⟨m, hm⟩

end

/-! ### how often the intervals hold a number -/

section
open MeasureTheory ProbabilityTheory Filter Topology

variable {Ω Ω' : Type} [MeasurableSpace Ω] [MeasurableSpace Ω'] {P : Measure Ω} [IsProbabilityMeasure P] {Q : Measure Ω'}
  [IsProbabilityMeasure Q] {Z : ℕ → Ω → ℝ} {n : ℕ → ℕ} {U : ℕ → ℕ → ℕ → Ω' → ℕ} {c conf z : ℝ}
  {A X : Type} {C : Cls} {I : ArgInfo A} {mids : FS (PyVal ℝ) → Model.Path → List (FS (PyVal ℝ))}
  {obs : X → NDArr (Fl ℝ)} {emb : A → Arg ℝ}

/-- from `boot_vec` to the metrics that average -/
theorem longRun_metric {μ q' : ℝ} (h0 : 0 ≤ conf) (h1 : conf ≤ 1) (hnp : ∀ᶠ N in atTop, 0 < n N)
    (hlim : LongRunProb (P.prod Q) (fun N R => {p | Covers μ
      (bootVec (firstDays Z N p.1) (n N) R conf false fun r j => U N r j p.2)}) q')
    {cf : ℕ → ℕ → Ω' → Cfg ℝ} {Pr : ℕ → ℕ → Ω' → Prims X (PyVal ℝ) A} (hP : ∀ N R ω', Shared (cf N R ω') obs emb (Pr N R ω'))
    (hcf : ∀ N R ω', (cf N R ω').reps = R ∧ (cf N R ω').conf = conf) {o : ℕ → Ω → Obj X}
    (hb : ∀ N ω, (o N ω).boot = .int (n N)) {axes : Option (List Int)} (hax : ∀ N ω, axisArg (o N ω).avg = .ok axes)
    {w : ℕ → ℕ → Ω → Ω' → World (PyVal ℝ)} {m : ℕ → Ω → NDArr (Fl ℝ)} {s : Slot A} (hav : Averaged s)
    (hm : ∀ N R ω ω', result C I (Pr N R ω') mids (.slot s) (unsaved (plain (o N ω))) (w N R ω ω') = .ok (some (.num (m N ω))))
    (hok : ∀ N ω, BootAxes (m N ω).shape.length axes) {k : List ℕ}
    (hk : ∀ N ω, 0 < N → InB (dropAxes (nums (m N ω).shape.length axes) (m N ω).shape) k)
    (hdata : ∀ N ω, 0 < N → fiber (m N ω) (nums (m N ω).shape.length axes) k = firstDays Z N ω)
    (hrng : ∀ N R ω ω' i r j, (cf N R ω').rng i 0 (ravel (dropAxes (nums (m N ω).shape.length axes) (m N ω).shape) k) r j =
      U N r j ω') :
    LongRunProb (P.prod Q) (fun N R => {p | Returns μ k
      (result C I (Pr N R p.2) mids (.slot s) (unsaved (o N p.1)) (w N R p.1 p.2))}) q' := by
  have key : ∀ N R ω ω', 0 < N → (Returns μ k (result C I (Pr N R ω') mids (.slot s) (unsaved (o N ω)) (w N R ω ω')) ↔
      Covers μ (bootVec (firstDays Z N ω) (n N) R conf (cf N R ω').skipNan fun r j => U N r j ω')) := by
    intro N R ω ω' hN
    obtain ⟨nm, m0, m', w1, e, hn, hbody, hsh, hg⟩ := plain_body (hP N R ω') hav (hm N R ω ω')
    cases e
    have hd := hdata N ω hN
    rw [← fiber_same hsh hg] at hd
    obtain ⟨r, hr, hiff⟩ := boot_at (skip := (cf N R ω').skipNan) (m := m') (axes := axes) (by rw [hsh]; exact hok N ω) (k := k)
      (by rw [hsh]; exact hk N ω hN) (by rw [hsh]; exact hd) (firstDays_ne hN ω) (n N) R h0 h1
      ((cf N R ω').rng (w1.seed w1.pos) 0) μ
    have hdr : (cf N R ω').rng (w1.seed w1.pos) 0
        (ravel (dropAxes (nums (m N ω).shape.length axes) (m N ω).shape) k) = fun r j => U N r j ω' := by
      funext r j; exact hrng N R ω ω' _ r j
    rw [hsh, hdr] at hiff
    rw [← hiff, result_slot (not_probOnly hav) hn (hbody _ _), post_averaged hav, boot_run (hP N R ω') (hb N ω) (hax N ω),
      (hcf N R ω').1, (hcf N R ω').2, hr]
    unfold Returns
    constructor
    · rintro ⟨r', e', h⟩
      have : r = r' := by
        have e2 : (Except.ok (some (PyVal.num r)) : Except Err (Option (PyVal ℝ))) = .ok (some (.num r')) := e'
        cases e2
        rfl
      rw [this]
      exact h
    · exact fun h => ⟨r, rfl, h⟩
  intro ε hε
  filter_upwards [hlim ε hε, eventually_gt_atTop 0, hnp] with N hlim hN hnN
  filter_upwards [hlim, eventually_gt_atTop 0] with R hR hR0
  have : {p : Ω × Ω' | Returns μ k
      (result C I (Pr N R p.2) mids (.slot s) (unsaved (o N p.1)) (w N R p.1 p.2))} = {p | Covers μ
      (bootVec (firstDays Z N p.1) (n N) R conf false fun r j => U N r j p.2)} := by
    ext ⟨ω, ω'⟩
    exact (key N R ω ω' hN).trans (covers_skip (x := fun t => Z t ω) hN hnN hR0 h0 h1 _ _ _)
  rwa [this]

/-- **C136**, any class, all metrics that average (`crps`, `error`, `spread`, `sq_error`, `ab_error`, `brier`): `m` is what the
verifier returns with `avg_axis=()`, `Z` are the numbers of `m` that are averaged at position `k`. -/
theorem C136_metrics (hZ : ∀ t, Measurable (Z t)) (hi : iIndepFun Z P) (hs : ∀ t, IdentDistrib (Z t) (Z 0) P P)
    (h2 : MemLp (Z 0) 2 P) (hv : 0 < Var[Z 0; P]) (hU : ∀ N, 0 < N → FairDraws Q N (U N)) (hc : 0 < c)
    (hn : Tendsto (fun N => (n N : ℝ) / N) atTop (𝓝 c)) (h0 : 0 < conf) (h1 : conf < 1) (hz : Phi z = (1 + conf) / 2)
    {cf : ℕ → ℕ → Ω' → Cfg ℝ} {Pr : ℕ → ℕ → Ω' → Prims X (PyVal ℝ) A} (hP : ∀ N R ω', Shared (cf N R ω') obs emb (Pr N R ω'))
    (hcf : ∀ N R ω', (cf N R ω').reps = R ∧ (cf N R ω').conf = conf) {o : ℕ → Ω → Obj X}
    (hb : ∀ N ω, (o N ω).boot = .int (n N)) {axes : Option (List Int)} (hax : ∀ N ω, axisArg (o N ω).avg = .ok axes)
    {w : ℕ → ℕ → Ω → Ω' → World (PyVal ℝ)} {m : ℕ → Ω → NDArr (Fl ℝ)} {s : Slot A} (hav : Averaged s)
    (hm : ∀ N R ω ω', result C I (Pr N R ω') mids (.slot s) (unsaved (plain (o N ω))) (w N R ω ω') = .ok (some (.num (m N ω))))
    (hok : ∀ N ω, BootAxes (m N ω).shape.length axes) {k : List ℕ}
    (hk : ∀ N ω, 0 < N → InB (dropAxes (nums (m N ω).shape.length axes) (m N ω).shape) k)
    (hdata : ∀ N ω, 0 < N → fiber (m N ω) (nums (m N ω).shape.length axes) k = firstDays Z N ω)
    (hrng : ∀ N R ω ω' i r j, (cf N R ω').rng i 0 (ravel (dropAxes (nums (m N ω).shape.length axes) (m N ω).shape) k) r j =
      U N r j ω') :
    LongRunProb (P.prod Q) (fun N R => {p | Returns (∫ ω, Z 0 ω ∂P) k
      (result C I (Pr N R p.2) mids (.slot s) (unsaved (o N p.1)) (w N R p.1 p.2))}) (1 - 2 * Phi (-(z / √c))) :=
  longRun_metric h0.le h1.le (n_pos hc hn) (C136_boot_vec hZ hi hs h2 hv hU hc hn h0 h1 hz) hP hcf hb hax hav hm hok hk hdata
    hrng

/-- **C138**, any class, all metrics that average. -/
theorem C138_metrics {n : ℕ} {μ : ℝ} (hZ : ∀ t, Measurable (Z t)) (hi : iIndepFun Z P)
    (hs : ∀ t, IdentDistrib (Z t) (Z 0) P P)
    (hint : Integrable (Z 0) P) (hU : ∀ N, 0 < N → FairDraws Q N (U N)) (hn : 0 < n) (h0 : 0 ≤ conf) (h1 : conf ≤ 1)
    {cf : ℕ → ℕ → Ω' → Cfg ℝ} {Pr : ℕ → ℕ → Ω' → Prims X (PyVal ℝ) A} (hP : ∀ N R ω', Shared (cf N R ω') obs emb (Pr N R ω'))
    (hcf : ∀ N R ω', (cf N R ω').reps = R ∧ (cf N R ω').conf = conf) {o : ℕ → Ω → Obj X}
    (hb : ∀ N ω, (o N ω).boot = .int (n)) {axes : Option (List Int)} (hax : ∀ N ω, axisArg (o N ω).avg = .ok axes)
    {w : ℕ → ℕ → Ω → Ω' → World (PyVal ℝ)} {m : ℕ → Ω → NDArr (Fl ℝ)} {s : Slot A} (hav : Averaged s)
    (hm : ∀ N R ω ω', result C I (Pr N R ω') mids (.slot s) (unsaved (plain (o N ω))) (w N R ω ω') = .ok (some (.num (m N ω))))
    (hok : ∀ N ω, BootAxes (m N ω).shape.length axes) {k : List ℕ}
    (hk : ∀ N ω, 0 < N → InB (dropAxes (nums (m N ω).shape.length axes) (m N ω).shape) k)
    (hdata : ∀ N ω, 0 < N → fiber (m N ω) (nums (m N ω).shape.length axes) k = firstDays Z N ω)
    (hrng : ∀ N R ω ω' i r j, (cf N R ω').rng i 0 (ravel (dropAxes (nums (m N ω).shape.length axes) (m N ω).shape) k) r j =
      U N r j ω') :
    ((1 - conf) / 2 < P.real {ω | (∑ j ∈ Finset.range n, Z j ω) / n < μ} →
      (1 - conf) / 2 < P.real {ω | μ < (∑ j ∈ Finset.range n, Z j ω) / n} →
      LongRunProb (P.prod Q) (fun N R => {p | Returns μ k
        (result C I (Pr N R p.2) mids (.slot s) (unsaved (o N p.1)) (w N R p.1 p.2))}) 1) ∧
    (P.real {ω | (∑ j ∈ Finset.range n, Z j ω) / n ≤ μ} < (1 - conf) / 2 ∨
      P.real {ω | μ ≤ (∑ j ∈ Finset.range n, Z j ω) / n} < (1 - conf) / 2 →
      LongRunProb (P.prod Q) (fun N R => {p | Returns μ k
        (result C I (Pr N R p.2) mids (.slot s) (unsaved (o N p.1)) (w N R p.1 p.2))}) 0) :=
  ⟨fun hl hr => longRun_metric (n := fun _ => n) h0 h1 (Eventually.of_forall fun _ => hn)
      ((C138_boot_vec hZ hi hs hint hU hn h0 h1).1 hl hr) hP hcf hb hax hav hm hok hk hdata hrng,
    fun hlr => longRun_metric (n := fun _ => n) h0 h1 (Eventually.of_forall fun _ => hn)
      ((C138_boot_vec hZ hi hs hint hU hn h0 h1).2 hlr) hP hcf hb hax hav hm hok hk hdata hrng⟩

end

end Props
