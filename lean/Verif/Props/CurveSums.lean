import Verif.Lemmas.CurveSums
import Verif.Props.EndToEndCurves
import Verif.Props.Exchange

/-!
# The points of the curves add up to the averages: C101
-/

set_option linter.unusedSectionVars false

namespace Props
open Np NDArr Spec Model Lemmas

variable {K : Type} [Field K] [LinearOrder K] [IsStrictOrderedRing K] [FloorSemiring K]
variable {A X : Type} {C : Cls} {I : ArgInfo A} {P : Prims X (PyVal K) A}
  {mids : FS (PyVal K) → Path → List (FS (PyVal K))} {c : Cfg K} {obs : X → NDArr (Fl K)} {emb : A → Arg K}

theorem plain_optOK {n : Nat} {axes : List Int} (h : PlainAxes n axes) :
    OptOK n (some axes) ∧ nums n (some axes) = axes.map Int.toNat := by
  have e := axisNum_inj_nonneg (n := n) (fun x hx => (h.1 x hx).1)
  refine ⟨⟨fun x hx => ⟨by have := h.1 x hx; omega, (h.1 x hx).2⟩, ?_⟩, e⟩
  rw [e]
  refine h.2.map_on fun a ha b hb hab => ?_
  have h1 := (h.1 a ha).1
  have h2 := (h.1 b hb).1
  omega

/-- every probability is a number, none is negative -/
def AllProbs (p : NDArr (Fl K)) : Prop := ∀ i, InB p.shape i → ∃ v, p.get i = some v ∧ 0 ≤ v

theorem AllProbs.probsOK {p : NDArr (Fl K)} (h : AllProbs p) : ProbsOK p := by
  intro i hi v hv
  obtain ⟨u, hu, h0⟩ := h i hi
  rw [hu] at hv
  cases hv
  exact h0

/-- a curve of pairs of probability and event, and the Brier score of the same position -/
theorem curve_brier {isOver : Bool} {t : Thr K} {p o : NDArr (Fl K)} {ob : NDArr Bool} (hob : IsEvents isOver t o ob)
    (hsh : p.shape = o.shape) (hp : AllProbs p) {ax k : List Nat} (hne : fiberIdx o.shape ax k ≠ []) {skip : Bool} {r : Fl K}
    (hr : IsAvg skip (brierAt isOver t p o ax k) r) {nbins : Nat} (hn : 1 ≤ nbins) {pp pt : List (Fl K)} {pc : List Nat}
    (hc : IsRelCurve nbins (pairsAt p ob ax k) pp pt pc) :
    ∃ (Q : List (K × Bool)) (ps ts : List K) (b : K), pairsAt p ob ax k = Q.map (fun q => (some q.1, q.2)) ∧
      pp = ps.map some ∧ pt = ts.map some ∧ CurveAddsUp Q pc ps ts ∧ r = some b ∧
      weighted pc (List.zipWith (fun p t => (p - t) ^ 2) ps ts) ≤ pc.sum * b := by
  let v : List Nat → K := fun i => (p.get i).getD 0
  have hv : ∀ i ∈ fiberIdx o.shape ax k, p.get i = some (v i) ∧ 0 ≤ v i := by
    intro i hi
    obtain ⟨u, hu, h0⟩ := hp i (hsh ▸ (mem_fiberIdx.1 hi).1)
    simp only [v, hu]
    exact ⟨rfl, h0⟩
  let Q : List (K × Bool) := (fiberIdx o.shape ax k).map fun i => (v i, ob.get i)
  have hQ : pairsAt p ob ax k = Q.map (fun q => (some q.1, q.2)) := by
    unfold pairsAt
    rw [hsh, List.map_map]
    exact List.map_congr_left fun i hi => by rw [(hv i hi).1]; rfl
  obtain ⟨ps, ts, h1, h2, h3⟩ := relCurve_addsUp hn Q (by
    intro q hq
    obtain ⟨i, hi, rfl⟩ := List.mem_map.1 hq
    exact (hv i hi).2)
  rw [hQ] at hc
  have hb := isAvg_some' (h := fun i => (v i - evt (ob.get i)) ^ 2) hne (by
    intro i hi
    have he : (indicator (Event isOver t o i) : K) = evt (ob.get i) := by
      have := hob.2 i (mem_fiberIdx.1 hi).1
      unfold indicator evt
      by_cases h : Event isOver t o i
      · rw [if_pos h, if_pos (this.2 h)]
      · rw [if_neg h, if_neg fun h' => h (this.1 h')]
    rw [(hv i hi).1, he]
    rfl) hr
  rw [← hc.2.2] at h3
  refine ⟨Q, ps, ts, _, hQ, hc.1.trans h1, hc.2.1.trans h2, h3, hb, ?_⟩
  have h4 := length_mul_avg (l := (fiberIdx o.shape ax k).map fun i => (v i - evt (ob.get i)) ^ 2) (by simpa using hne)
  have h5 : (Q.map fun q => (q.1 - evt q.2) ^ 2) = (fiberIdx o.shape ax k).map fun i => (v i - evt (ob.get i)) ^ 2 := by
    simp [Q, Function.comp_def]
  rw [h3.total, show (Q.length : K) = ((fiberIdx o.shape ax k).map fun i => (v i - evt (ob.get i)) ^ 2).length by simp [Q],
    h4, ← h5]
  exact h3.distance

/-- **C101**, any probabilistic class, all axes averaged: the points of `reliability(nbins, ...)`, weighted with the
counts it returns, add up to the number of positions, the sum of the probabilities and the number of observed events; their
weighted mean squared distance from the diagonal is at most `brier(...)`. -/
theorem C101_reliability_all (hP : Shared c obs emb P) {o : Obj X} {a nb : A} {nbins : Nat} (hnb : emb nb = .num nbins)
    (hpn : Printable I nb) {t : Thr K} (hemb : emb a = .thr t) (isOver : Bool) {axes : List Int}
    (hb : o.boot = .none) (hax : axisArg o.avg = .ok (some axes)) {w0 : World (PyVal K)} {p : NDArr (Fl K)}
    (hp : result C I P mids (.slot (.cdf (overArg isOver a) (belowArg isOver a))) (unsaved o) w0 = .ok (some (.num p)))
    (ht : ThrOK t (obs o.ext).shape) (hsh : p.shape = (obs o.ext).shape) (hpl : PlainAxes p.shape.length axes)
    (hn : 1 ≤ nbins) (hpr : AllProbs p) (hpos : 0 ∉ p.shape) (hD : dropAxes (axes.map Int.toNat) p.shape = [])
    {ob : NDArr Bool} (hob : IsEvents isOver t (obs o.ext) ob) (w : World (PyVal K)) :
    ∃ s r, result C I P mids (.slot (.reliability nb (overArg isOver a) (belowArg isOver a))) (unsaved o) w =
        .ok (some (.rel (.slice s))) ∧
      result C I P mids (.slot (.brier (overArg isOver a) (belowArg isOver a))) (unsaved o) w = .ok (some (.num r)) ∧
      ∃ (Q : List (K × Bool)) (ps ts : List K) (b : K),
        pairsAt p ob (axes.map Int.toNat) [] = Q.map (fun q => (some q.1, q.2)) ∧
        s.probPred = ps.map some ∧ s.probTrue = ts.map some ∧ CurveAddsUp Q (s.predCount.map Prod.snd) ps ts ∧
        r.get [] = some b ∧
        weighted (s.predCount.map Prod.snd) (List.zipWith (fun p t => (p - t) ^ 2) ps ts) ≤
          (s.predCount.map Prod.snd).sum * b := by
  obtain ⟨hok, hnum⟩ := plain_optOK hpl
  obtain ⟨s, s1, s2⟩ := C75_reliability_all hP hnb hpn hemb isOver hb hax hp ht hsh hpl hn hpr.probsOK hD hob w
  rw [hsh] at hok hnum
  obtain ⟨r, r1, r2, r3⟩ := C75_brier hP hemb isOver hb hax hp ht hsh hok w
  rw [hnum] at r2 r3
  have hD' : InB (dropAxes (axes.map Int.toNat) (obs o.ext).shape) [] := by rw [← hsh, hD]; trivial
  refine ⟨s, r, s1, r1, curve_brier hob hsh hpr ?_ (r3 [] (by rw [r2]; exact hD')) hn s2⟩
  exact fiberIdx_ne (by rw [← hsh]; exact hpos) hD'

/-- **C101**, kept axes: the same of the row of every kept position. -/
theorem C101_reliability_kept (hP : Shared c obs emb P) {o : Obj X} {a nb : A} {nbins : Nat} (hnb : emb nb = .num nbins)
    {t : Thr K} (hemb : emb a = .thr t) (isOver : Bool) {axes : List Int}
    (hb : o.boot = .none) (hax : axisArg o.avg = .ok (some axes)) {w0 : World (PyVal K)} {p : NDArr (Fl K)}
    (hp : result C I P mids (.slot (.cdf (overArg isOver a) (belowArg isOver a))) (unsaved o) w0 = .ok (some (.num p)))
    (ht : ThrOK t (obs o.ext).shape) (hsh : p.shape = (obs o.ext).shape) (hpl : PlainAxes p.shape.length axes)
    (hn : 1 ≤ nbins) (hpr : AllProbs p) (hpos : 0 ∉ p.shape) (hD : dropAxes (axes.map Int.toNat) p.shape ≠ [])
    {ob : NDArr Bool} (hob : IsEvents isOver t (obs o.ext) ob) {w : World (PyVal K)} {v : PyVal K}
    (hv : result C I P mids (.slot (.reliability nb (overArg isOver a) (belowArg isOver a))) (unsaved o) w =
      .ok (some v)) :
    let D := dropAxes (axes.map Int.toNat) p.shape
    ∃ pp pt pc tc r, v = .rel (.multi D pp pt pc tc) ∧
      result C I P mids (.slot (.brier (overArg isOver a) (belowArg isOver a))) (unsaved o) w = .ok (some (.num r)) ∧
      ∀ k, InB D k → ∃ (Q : List (K × Bool)) (ps ts : List K) (cs : List Nat) (b : K),
        pairsAt p ob (axes.map Int.toNat) k = Q.map (fun q => (some q.1, q.2)) ∧
        pp[ravel D k]? = some (ps.map some) ∧ pt[ravel D k]? = some (ts.map some) ∧ pc[ravel D k]? = some cs ∧
        CurveAddsUp Q cs ps ts ∧ r.get k = some b ∧
        weighted cs (List.zipWith (fun p t => (p - t) ^ 2) ps ts) ≤ cs.sum * b := by
  intro D
  obtain ⟨hok, hnum⟩ := plain_optOK hpl
  have hDp : D.prod ≠ 0 := by
    have := prod_take_drop p.shape (axes.map Int.toNat)
    have hz : p.shape.prod ≠ 0 := by simpa [List.prod_eq_zero_iff] using hpos
    refine fun h => hz ?_
    rw [this, h]
    simp
  obtain ⟨pp, pt, pc, tc, h1, h2⟩ := C75_reliability_kept hP hnb hemb isOver hb hax hp ht hsh hpl hn hpr.probsOK hD hDp hob hv
  rw [hsh] at hok hnum
  obtain ⟨r, r1, r2, r3⟩ := C75_brier hP hemb isOver hb hax hp ht hsh hok w
  rw [hnum] at r2 r3
  refine ⟨pp, pt, pc, tc, r, h1, r1, fun k hk => ?_⟩
  obtain ⟨ppk, ptk, pck, e1, e2, e3, e4⟩ := h2 k hk
  have hk' : InB (dropAxes (axes.map Int.toNat) (obs o.ext).shape) k := by rw [← hsh]; exact hk
  obtain ⟨Q, ps, ts, b, q1, q2, q3, q4, q5, q6⟩ := curve_brier hob hsh hpr
    (fiberIdx_ne (by rw [← hsh]; exact hpos) hk') (r3 k (by rw [r2]; exact hk')) hn e4
  exact ⟨Q, ps, ts, pck, b, q1, by rw [e1, q2], by rw [e2, q3], e3, q4, q5, q6⟩

/-- means of the groups of a list that has no missing value -/
theorem group_means {nbins : Nat} {L : List (Fl K × Fl K)} {gs : List (List (Fl K × Fl K))} (hg : IsGrouping nbins L gs)
    (hle : nbins ≤ L.length) (skip : Bool) (col : Fl K × Fl K → Fl K) (x : Fl K × Fl K → K)
    (hx : ∀ q ∈ L, col q = some (x q) ∧ 0 ≤ x q) :
    (∀ g ∈ gs, meanOf skip (g.map col) = some (avg (g.map x)) ∧ 0 ≤ avg (g.map x)) ∧
    weighted (gs.map List.length) (gs.map fun g => avg (g.map x)) = (L.map x).sum := by
  have hm : ∀ g ∈ gs, ∀ q ∈ g, q ∈ L := fun g hg' q hq =>
    hg.complete.mem_iff.1 (List.mem_flatten.2 ⟨g, hg', hq⟩)
  have hne := grouping_ne hg hle
  refine ⟨fun g h => ⟨isAvg_some' (hne g h) (fun q hq => (hx q (hm g h q hq)).1) (meanOf_isAvg skip _),
    avg_nonneg' g fun q hq => (hx q (hm g h q hq)).2⟩, ?_⟩
  have := grouping_addsUp (gs := gs.map fun g => g.map x) (by
    intro g h
    obtain ⟨g', h', rfl⟩ := List.mem_map.1 h
    simpa using hne g' h')
  rw [List.map_map, List.map_map] at this
  have e : (gs.map fun g => g.map x).flatten = gs.flatten.map x := by rw [List.map_flatten]
  rw [e, (hg.complete.map x).sum_eq] at this
  simpa [Function.comp_def] using this

/-- **C101**, any probabilistic class: weighted with the sizes of the bins, the squares of the two returned curves of
`binned_spread_skill(nbins)` add up to the sum of `variance()` and to the number of positions times the square of `rmse()`. -/
theorem C101_spread_skill (hP : Shared c obs emb P) (hs : IsSqrt c.sqrt) {o : Obj X} {nb : A} {nbins : Nat}
    (hnb : emb nb = .num nbins) (hpn : Printable I nb) {axes : List Int} (hb : o.boot = .none)
    (hax : axisArg o.avg = .ok (some axes)) {w0 : World (PyVal K)} {f var : NDArr (Fl K)}
    (hf : result C I P mids (.slot .fDeterm) (unsaved o) w0 = .ok (some (.num f)))
    (hvar : result C I P mids (.slot .variance) (unsaved o) w0 = .ok (some (.num var)))
    (hsh : f.shape = (obs o.ext).shape) (hsv : var.shape = f.shape)
    (hargs : ∀ i l, IsArgsort l (c.argsort i l)) (hpl : PlainAxes f.shape.length axes) (hpos : 0 ∉ f.shape)
    (hn : nbins ≠ 0) (hle : nbins ≤ (takeAxes (axes.map Int.toNat) f.shape).prod)
    (hvn : ∀ i, InB f.shape i → f.get i ≠ none ∧ (obs o.ext).get i ≠ none ∧ ∃ v, var.get i = some v ∧ 0 ≤ v)
    (w : World (PyVal K)) :
    ∃ spread rmse R, result C I P mids (.slot (.ss nb)) (unsaved o) w = .ok (some (.pair spread rmse)) ∧
      result C I P mids .rmse (unsaved o) w = .ok (some (.num R)) ∧
      ∀ k, InB (dropAxes (axes.map Int.toNat) f.shape) k →
        ∃ (ns : List Nat) (ss rs vs : List K) (e : K), ns.length = nbins ∧
          (ns.Pairwise fun m n => n ≤ m ∧ m ≤ n + 1) ∧
          (List.range nbins).map (fun b => spread.get (k ++ [b])) = ss.map some ∧
          (List.range nbins).map (fun b => rmse.get (k ++ [b])) = rs.map some ∧
          fiber var (axes.map Int.toNat) k = vs.map some ∧ R.get k = some e ∧ ns.sum = vs.length ∧
          weighted ns (ss.map fun s => s ^ 2) = vs.sum ∧ weighted ns (rs.map fun r => r ^ 2) = vs.length * e ^ 2 := by
  obtain ⟨hok, hnum⟩ := plain_optOK hpl
  have hDp : (dropAxes (axes.map Int.toNat) f.shape).prod ≠ 0 := by
    have := prod_take_drop f.shape (axes.map Int.toNat)
    have hz : f.shape.prod ≠ 0 := by simpa [List.prod_eq_zero_iff] using hpos
    refine fun h => hz ?_
    rw [this, h]
    simp
  obtain ⟨spread, rmse, q, s1, s2, s3, s4⟩ := C75_spread_skill hP hnb hpn hb hax hf hvar hsh hsv hargs
    (by rw [hsv]; exact hpl) (by rw [hsv]; exact hDp) hn (by rw [hsv]; exact hle) w
  obtain ⟨e0, a0, qq, R, -, -, -, R1, ⟨z1, z2⟩, R2⟩ := C75_errors hP hb hax hf hsh hok w
  rw [hnum] at z1 R2
  refine ⟨spread, rmse, R, s1, R1, fun k hk => ?_⟩
  obtain ⟨gs, hgs, hget⟩ := s4 k (by rw [hsv]; exact hk)
  obtain ⟨-, -, q3, q4⟩ := R2 k (by rw [z1]; exact hk)
  let L := fiberIdx f.shape (axes.map Int.toNat) k
  have hL : L ≠ [] := fiberIdx_ne hpos hk
  have hin : ∀ i ∈ L, InB f.shape i := fun i hi => (mem_fiberIdx.1 hi).1
  have hpairs : pairsAt var q (axes.map Int.toNat) k = L.map fun i => (var.get i, q.get i) := by
    unfold pairsAt; rw [hsv]
  have hLlen : L.length = (takeAxes (axes.map Int.toNat) f.shape).prod := length_fiberIdx hk
  let V : List Nat → K := fun i => (var.get i).getD 0
  let E : List Nat → K := fun i => (q.get i).getD 0
  have hV : ∀ i ∈ L, var.get i = some (V i) ∧ 0 ≤ V i := by
    intro i hi
    obtain ⟨-, -, v, hv, h0⟩ := hvn i (hin i hi)
    simp only [V, hv]
    exact ⟨rfl, h0⟩
  have hE : ∀ i ∈ L, q.get i = some (E i) ∧ 0 ≤ E i ∧
      both (fun x y => (x - y) ^ 2) (f.get i, (obs o.ext).get i) = some (E i) := by
    intro i hi
    obtain ⟨h1, h2, -⟩ := hvn i (hin i hi)
    obtain ⟨x, hx⟩ := Option.ne_none_iff_exists'.1 h1
    obtain ⟨y, hy⟩ := Option.ne_none_iff_exists'.1 h2
    have := s3 i (hin i hi)
    rw [hx, hy] at this ⊢
    simp only [E, this]
    exact ⟨rfl, sq_nonneg _, rfl⟩
  rw [hpairs] at hgs
  have hle' : nbins ≤ (L.map fun i => (var.get i, q.get i)).length := by rw [List.length_map, hLlen]; exact hle
  obtain ⟨v1, v2⟩ := group_means hgs hle' c.skipNan Prod.fst (fun z => z.1.getD 0) (by
    intro z hz
    obtain ⟨i, hi, rfl⟩ := List.mem_map.1 hz
    exact hV i hi)
  obtain ⟨e1, e2⟩ := group_means hgs hle' c.skipNan Prod.snd (fun z => z.2.getD 0) (by
    intro z hz
    obtain ⟨i, hi, rfl⟩ := List.mem_map.1 hz
    exact ⟨(hE i hi).1, (hE i hi).2.1⟩)
  have sq : ∀ x, 0 ≤ x → Fl.sqrt c.sqrt (some x) = some (c.sqrt x) ∧ c.sqrt x ^ 2 = x := by
    intro x hx
    exact ⟨if_pos hx, by rw [pow_two, hs.sq x hx]⟩
  -- the value of `rmse()`
  have hQ : qq.get k = some (avg (L.map E)) := by
    refine isAvg_some' (skip := c.skipNan) (g := fun i => both (fun x y => (x - y) ^ 2) (f.get i, (obs o.ext).get i)) hL
      (fun i hi => (hE i hi).2.2) ?_
    have := q3
    unfold pairsAt at this
    rwa [List.map_map] at this
  have hn2 : 0 ≤ avg (L.map E) := avg_nonneg' L fun i hi => (hE i hi).2.1
  have rows : ∀ (arr : NDArr (Fl K)) (x : Fl K × Fl K → K),
      (∀ b g, gs[b]? = some g → arr.get (k ++ [b]) = some (c.sqrt (avg (g.map x)))) →
      (List.range nbins).map (fun b => arr.get (k ++ [b])) = (gs.map fun g => c.sqrt (avg (g.map x))).map some := by
    intro arr x h
    rw [List.map_map]
    refine List.ext_getElem (by simp [hgs.count]) fun b h1 h2 => ?_
    rw [List.length_map, List.length_range, ← hgs.count] at h1
    rw [List.getElem_map, List.getElem_map, List.getElem_range, h b gs[b] (List.getElem?_eq_getElem h1)]
    rfl
  refine ⟨gs.map List.length, gs.map fun g => c.sqrt (avg (g.map fun z => z.1.getD 0)),
    gs.map fun g => c.sqrt (avg (g.map fun z => z.2.getD 0)), L.map V, c.sqrt (avg (L.map E)),
    by rw [List.length_map, hgs.count], List.pairwise_map.2 hgs.balanced, ?_, ?_, ?_, ?_, ?_, ?_, ?_⟩
  · refine rows spread _ fun b g hb => ?_
    have hm := List.mem_of_getElem? hb
    rw [(hget b g hb).1, (v1 g hm).1, (sq _ (v1 g hm).2).1]
  · refine rows rmse _ fun b g hb => ?_
    have hm := List.mem_of_getElem? hb
    rw [(hget b g hb).2, (e1 g hm).1, (sq _ (e1 g hm).2).1]
  · unfold fiber
    rw [hsv, List.map_map]
    exact List.map_congr_left fun i hi => (hV i hi).1
  · rw [q4, hQ]; rfl
  · rw [← List.length_flatten, hgs.complete.length_eq, List.length_map, List.length_map]
  · have e : ((gs.map fun g => c.sqrt (avg (g.map fun z => z.1.getD 0))).map fun s => s ^ 2) =
        gs.map fun g => avg (g.map fun z => z.1.getD 0) := by
      rw [List.map_map]
      exact List.map_congr_left fun g hg => (sq _ (v1 g hg).2).2
    rw [e, v2, List.map_map]
    rfl
  · have e : ((gs.map fun g => c.sqrt (avg (g.map fun z => z.2.getD 0))).map fun s => s ^ 2) =
        gs.map fun g => avg (g.map fun z => z.2.getD 0) := by
      rw [List.map_map]
      exact List.map_congr_left fun g hg => (sq _ (e1 g hg).2).2
    have := length_mul_avg (l := L.map E) (by simpa using hL)
    rw [List.length_map] at this
    rw [e, e2, List.map_map, (sq _ hn2).2, List.length_map, this]
    rfl

/-- **C101**, the ensemble class from its constructor on: without missing values, the squared curves add up to the sum of
the member variances and to the number of positions times the square of `rmse()`. -/
theorem C101_ens_spread_skill {oi o : Obj (EnsX K)} {w w' : World (PyVal K)}
    (h : construct (ensPrims c emb) mids oi w = (.ok o, w')) (hb : oi.boot = .none)
    (hg : ∀ f ax, oi.ext.collapse f ax = reduceAxes mean f (some [ax])) (hs : IsSqrt c.sqrt)
    (h0 : 0 ∉ oi.ext.f.shape) (hf : none ∉ oi.ext.f.data) (ho : none ∉ oi.ext.o.data) {nb : A} {nbins : Nat}
    (hnb : emb nb = .num nbins) (hpn : Printable I nb)
    {axes : List Int} (haxes : axesOf oi.avg = some axes) (hpl : PlainAxes oi.ext.o.shape.length axes)
    (hn : nbins ≠ 0) (hle : nbins ≤ (takeAxes (axes.map Int.toNat) oi.ext.o.shape).prod)
    (hargs : ∀ i l, IsArgsort l (c.argsort i l)) (w1 : World (PyVal K)) :
    ∃ ax spread rmse R, o.ext.axis = some ax ∧
      result .ensemble I (ensPrims c emb) mids (.slot (.ss nb)) (unsaved o) w1 = .ok (some (.pair spread rmse)) ∧
      result .ensemble I (ensPrims c emb) mids .rmse (unsaved o) w1 = .ok (some (.num R)) ∧
      ∀ k, InB (dropAxes (axes.map Int.toNat) oi.ext.o.shape) k →
        let L := fiberIdx oi.ext.o.shape (axes.map Int.toNat) k
        let varAt := fun i => let M := present (membersAt oi.ext.f ax i)
          avg (M.map fun x => (x - avg M) ^ 2)
        ∃ (ns : List Nat) (ss rs : List K) (e : K), ns.length = nbins ∧
          (ns.Pairwise fun m n => n ≤ m ∧ m ≤ n + 1) ∧
          (List.range nbins).map (fun b => spread.get (k ++ [b])) = ss.map some ∧
          (List.range nbins).map (fun b => rmse.get (k ++ [b])) = rs.map some ∧
          R.get k = some e ∧ ns.sum = L.length ∧
          weighted ns (ss.map fun s => s ^ 2) = (L.map varAt).sum ∧
          weighted ns (rs.map fun r => r ^ 2) = L.length * e ^ 2 := by
  obtain ⟨ax, fc, h1, h2, h3, h4, h5, -, -⟩ := C75_construct_ens h
  have hax := h1.axisOK
  have hsh := h1.shape
  rw [h3] at hax hsh
  rw [h4] at hsh
  have hpos : 0 ∉ oi.ext.o.shape := by
    rw [hsh, posShape]
    exact fun h => h0 (List.eraseIdx_subset h)
  obtain ⟨r', q1, q2, q3⟩ := reduceAxes_spec mean oi.ext.f (axes := some [ax]) ⟨by simpa using hax, by simp⟩
  rw [hg, q1] at h2
  simp only [Except.ok.injEq] at h2
  subst h2
  have hnum : nums oi.ext.f.shape.length (some [ax]) = [axisNum oi.ext.f.shape.length ax] := rfl
  rw [hnum, dropAxes_single (axisNum_lt hax)] at q2 q3
  have hfc : r'.shape = oi.ext.o.shape := q2.trans hsh.symm
  have hvn : ∀ i, InB oi.ext.f.shape i → oi.ext.f.get i ≠ none := fun i hi hn => by
    obtain ⟨x, hx⟩ := get_some hf hi
    rw [hx] at hn
    cases hn
  have hok : OptOK oi.ext.o.shape.length (axesOf oi.avg) := by
    rw [haxes]
    exact (plain_optOK hpl).1
  obtain ⟨ax', var, spr, r'', a0', v1, -, v2, -, v3, -⟩ := C75_ens_spread (I := I) (mids := mids) h hb hvn h0 hok w1
  have := h1.axis
  rw [a0'] at this
  cases this
  obtain ⟨spread, rmse, R, s1, s2, s3⟩ := C101_spread_skill (C := .ensemble) (I := I) (mids := mids) (shared_ens c emb) hs
    (o := o) hnb hpn (axes := axes) (h5.trans hb) (by rw [← haxes]; exact axisArg_ready h1.avg) (w0 := w1)
    (fDeterm_ens h1 w1) v1 (by rw [h4]; exact hfc) (v2.trans hfc.symm) hargs (by rw [hfc]; exact hpl)
    (by rw [hfc]; exact hpos) hn (by rw [hfc]; exact hle) (by
      rw [hfc, h4]
      intro i hi
      refine ⟨?_, ?_, _, (v3 i hi).1, avg_nonneg (by
        intro x hx
        obtain ⟨y, -, rfl⟩ := List.mem_map.1 hx
        exact sq_nonneg _)⟩
      · rw [q3 i (by rw [← q2, hfc]; exact hi)]
        obtain ⟨l, hl⟩ := exists_map_some (l := fiber oi.ext.f [axisNum oi.ext.f.shape.length ax] i) (by
          intro hm
          obtain ⟨j, hj, e⟩ := List.mem_map.1 hm
          exact hvn j (mem_fiberIdx.1 hj).1 e)
        have hlne : l ≠ [] := by
          rintro rfl
          refine membersAt_ne_nil oi.ext.f hax ?_ (hsh ▸ hi) hl
          intro hz
          have hlt := axisNum_lt hax
          rw [List.getD_eq_getElem?_getD, List.getElem?_eq_getElem hlt, Option.getD_some] at hz
          exact h0 (hz ▸ List.getElem_mem hlt)
        rw [hl, mean_some _ hlne]
        simp
      · obtain ⟨y, hy⟩ := get_some ho hi
        rw [hy]
        simp) w1
  rw [hfc] at s3
  refine ⟨ax, spread, rmse, R, h1.axis, s1, s2, fun k hk => ?_⟩
  intro L varAt
  obtain ⟨ns, ss, rs, vs, e, t1, t2, t3, t4, t5, t6, t7, t8, t9⟩ := s3 k hk
  have hvs : vs = L.map varAt := by
    have e1 : fiber var (axes.map Int.toNat) k = (L.map varAt).map some := by
      unfold fiber
      rw [v2, List.map_map]
      exact List.map_congr_left fun i hi => (v3 i (mem_fiberIdx.1 hi).1).1
    rw [t5] at e1
    exact List.map_injective_iff.2 (Option.some_injective K) e1
  rw [hvs] at t7 t8 t9
  rw [List.length_map] at t7 t9
  exact ⟨ns, ss, rs, e, t1, t2, t3, t4, t6, t7, t8, t9⟩

/-! ### a case -/

/-- four positions, five members each; `over=0` gives the probabilities 1/5, 0, 4/5 and 3/5 -/
def quarters : Obj (EnsX ℚ) := ⟨.tuple [0], .none, .none, some true,
  ⟨⟨[4, 5], [some (-1), some (-2), some 1, some (-1), some (-3), some (-1), some (-2), some (-3), some (-1), some (-5),
      some 1, some 2, some (-3), some 1, some 2, some 1, some (-1), some 3, some (-1), some 5], rfl⟩,
    ⟨[4], [some (-1), some 2, some 1, some 3], rfl⟩, none, fun f ax => reduceAxes mean f (some [ax]), none⟩⟩

/-- the two bins of `reliability(2, over=0)`: means 1/10 and 7/10, frequencies 1/2 and 1, counts 2 and 2; the weighted
squared distance is `1/2`, at most four times the Brier score `31/100` -/
example : ∃ o w, construct (ensPrims caseCfg embInt) noMids quarters world0 = (.ok o, w) ∧
    numOf (result .ensemble intInfo (ensPrims caseCfg embInt) noMids (.slot (.cdf (some 0) none)) (unsaved o) w) =
      some ([4], [some (1 / 5), some 0, some (4 / 5), some (3 / 5)]) ∧
    numOf (result .ensemble intInfo (ensPrims caseCfg embInt) noMids (.slot (.brier (some 0) none)) (unsaved o) w) =
      some ([], [some (31 / 100)]) ∧
    PlainAxes 1 [0] ∧ dropAxes [0] [4] = [] ∧ Printable intInfo 2 :=
  ⟨_, _, rfl, by decide +kernel, by decide +kernel, ⟨by decide, by decide⟩, rfl, fun h => by cases h⟩

example : CurveAddsUp ([(1 / 5, false), (0, true), (4 / 5, true), (3 / 5, true)] : List (ℚ × Bool)) [2, 2]
    [1 / 10, 7 / 10] [1 / 2, 1] := by
  constructor <;> simp [weighted, evt] <;> norm_num

example : weighted [2, 2] (List.zipWith (fun p t => (p - t) ^ 2) [1 / 10, 7 / 10] [1 / 2, (1 : ℚ)]) = 1 / 2 ∧
    (1 / 2 : ℚ) ≤ 4 * (31 / 100) := by
  constructor <;> norm_num [weighted]

/-- the two bins of `binned_spread_skill(2)` of three positions with member variances 1, 9/4 and 1/4 -/
example : ∃ (c : Cfg ℝ) (o : Obj (EnsX ℝ)) (w : World (PyVal ℝ)) (spread rmse : NDArr (Fl ℝ)) (ss : List ℝ),
    construct (ensPrims c fun n : Nat => .num n) noMids turnsR world0 = (.ok o, w) ∧
    result .ensemble ⟨fun _ => [], fun _ => false, fun _ => false, fun _ => 1, fun _ => none, fun _ => none⟩
      (ensPrims c fun n : Nat => .num n) noMids (.slot (.ss 2)) (unsaved o) world0 = .ok (some (.pair spread rmse)) ∧
    [spread.get [0], spread.get [1]] = ss.map some ∧
    weighted [2, 1] (ss.map fun s => s ^ 2) = 7 / 2 := by
  obtain ⟨argsort, hargs⟩ := exists_argsort (K := ℝ)
  let c : Cfg ℝ := { cfgR with argsort := argsort }
  have h : ∃ o w, construct (ensPrims c fun n : Nat => .num n) noMids turnsR world0 = (.ok o, w) := ⟨_, _, rfl⟩
  obtain ⟨o, w, h⟩ := h
  obtain ⟨ax, spread, rmse, R, a1, r1, -, hk⟩ := C101_ens_spread_skill
    (I := ⟨fun _ => [], fun _ => false, fun _ => false, fun _ => 1, fun _ => none, fun _ => none⟩) (nb := 2) h rfl
    (fun _ _ => rfl) ⟨fun x _ => Real.sqrt_nonneg x, fun _ hx => Real.mul_self_sqrt hx⟩ (by simp [turnsR])
    (by simp [turnsR]) (by simp [turnsR]) rfl (fun h => by cases h) (axes := [0]) rfl ⟨by simp [turnsR], by simp⟩
    two_ne_zero (by decide) hargs world0
  obtain ⟨_, fc, d1, -, -, -, -, -, d2⟩ := C75_construct_ens h
  have d3 := d1.axis
  rw [a1] at d3
  cases d3
  obtain rfl : ax = -1 := by
    rcases d2 rfl with ⟨d, -⟩ | ⟨-, d, -⟩
    · exact d
    · exact absurd rfl d
  have L : fiberIdx turnsR.ext.o.shape ([0].map Int.toNat) [] = [[0], [1], [2]] := by decide
  obtain ⟨ns, ss, rs, e, t1, t2, t3, -, -, t7, t8, -⟩ := hk [] (by decide)
  rw [L] at t7 t8
  obtain ⟨m, n, rfl⟩ : ∃ m n, ns = [m, n] := List.length_eq_two.1 t1
  simp only [List.pairwise_cons, List.sum_cons, List.sum_nil, List.length_cons, List.length_nil] at t2 t7
  have hmn := t2.1 n (by simp)
  obtain ⟨rfl, rfl⟩ : m = 2 ∧ n = 1 := by omega
  refine ⟨c, o, w, spread, rmse, ss, h, r1, t3, t8.trans ?_⟩
  have m0 : membersAt turnsR.ext.f (-1) [0] = [some 2, some 4] := rfl
  have m1 : membersAt turnsR.ext.f (-1) [1] = [some 4, some 1] := rfl
  have m2 : membersAt turnsR.ext.f (-1) [2] = [some 2, some 1] := rfl
  simp only [List.map_cons, List.map_nil, m0, m1, m2, present, List.filterMap_cons, List.filterMap_nil, id_eq, avg,
    List.sum_cons, List.sum_nil, List.length_cons, List.length_nil]
  norm_num

end Props
