import Verif.Lemmas.Exchange
import Verif.Props.Proper

/-!
# What the metrics say of an ensemble whose observation cannot be told from its members: C99
-/

set_option linter.unusedSectionVars false

namespace Props
open Np NDArr Spec Model Lemmas

variable {K : Type} [Field K] [LinearOrder K] [IsStrictOrderedRing K] [FloorSemiring K]
variable {A : Type} {I : ArgInfo A} {mids : FS (PyVal K) → Path → List (FS (PyVal K))} {c : Cfg K} {emb : A → Arg K}

theorem numLt_some (M : List K) (y : K) : numLt (M.map some) (some y) = M.countP fun x => decide (x < y) := by
  unfold numLt
  rw [← List.countP_eq_length_filter, List.countP_map]
  congr 1
  funext x
  simp [LtP]

/-- **C99**: if the cases of some positions are exchangeable and no group of values has a tie, `rank_hist()` gives every
rank from 1 to members + 1 to the same number of these positions. -/
theorem C99_flat {oi o : Obj (EnsX K)} {w w' : World (PyVal K)}
    (h : construct (ensPrims c emb) mids oi w = (.ok o, w')) (hskip : c.skipNan = false)
    (hne : oi.ext.o.shape ≠ []) (hmap : MapOK c.workers c.mapAxis oi.ext.o.shape)
    (hf : none ∉ oi.ext.f.data) (hon : none ∉ oi.ext.o.data) (w1 : World (PyVal K)) :
    ∃ ax r, o.ext.axis = some ax ∧
      result .ensemble I (ensPrims c emb) mids (.slot .rankHist) (unsaved o) w1 = .ok (some (.ranks r)) ∧
      ∀ (L : List (List Nat)) (Y : List Nat → K) (M : List Nat → List K) (n : Nat) (groups : List (List K)),
        (∀ i ∈ L, InB oi.ext.o.shape i ∧ oi.ext.o.get i = some (Y i) ∧ membersAt oi.ext.f ax i = (M i).map some) →
        IsExchangeable n groups (L.map fun i => (Y i, M i)) → (∀ V ∈ groups, V.Nodup) →
        L.length = groups.length * (n + 1) ∧
        ∀ j, 1 ≤ j → j ≤ n + 1 → (L.map r.get).count (some j) = groups.length := by
  obtain ⟨ax, r, a1, r1, -, r3⟩ := C75_ens_rank (I := I) h hskip hne hmap hf hon w1
  refine ⟨ax, r, a1, r1, fun L Y M n groups hL hE hd => ?_⟩
  have hlen := exch_length hE
  rw [List.length_map] at hlen
  refine ⟨hlen, fun j h1 h2 => ?_⟩
  have hr := exch_ranks hE hd h1 h2
  rw [List.map_map] at hr
  have e : L.map r.get = (L.map ((fun p : K × List K => 1 + p.2.countP fun x => decide (x < p.1)) ∘
      fun i => (Y i, M i))).map some := by
    rw [List.map_map]
    refine List.map_congr_left fun i hi => ?_
    obtain ⟨b, e1, e2⟩ := hL i hi
    obtain ⟨m, m1, -, -, -, m2⟩ := r3 i b
    obtain ⟨V, hV, hv, hp⟩ := (exch_case hE hi).2
    rw [e1, e2] at m2
    rw [m1, m2 ?_, numLt_some]
    · rfl
    · intro y hy
      obtain ⟨x, hx, rfl⟩ := List.mem_map.1 hy
      intro he
      cases he
      exact ((hd V hV).not_mem_erase) (hp.mem_iff.1 hx)
  rw [e, List.count_map_of_injective _ _ (Option.some_injective _), hr]

/-- **C99**: at every kept position whose pooled cases are exchangeable, with the mean as collapse function, `error()` is
zero, and `sq_error()` exceeds the mean of `variance()` over the pooled positions by the factor (n + 1) / (n - 1), for `n`
members. -/
theorem C99_errors {oi o : Obj (EnsX K)} {w w' : World (PyVal K)}
    (h : construct (ensPrims c emb) mids oi w = (.ok o, w')) (hb : oi.boot = .none)
    (hg : ∀ f ax, oi.ext.collapse f ax = reduceAxes mean f (some [ax]))
    (h0 : 0 ∉ oi.ext.f.shape) (hf : none ∉ oi.ext.f.data)
    (hok : OptOK oi.ext.o.shape.length (axesOf oi.avg)) (w1 : World (PyVal K)) :
    ∃ ax e q var, o.ext.axis = some ax ∧
      result .ensemble I (ensPrims c emb) mids (.slot .error) (unsaved o) w1 = .ok (some (.num e)) ∧
      result .ensemble I (ensPrims c emb) mids (.slot .sqError) (unsaved o) w1 = .ok (some (.num q)) ∧
      result .ensemble I (ensPrims c emb) mids (.slot .variance) (unsaved o) w1 = .ok (some (.num var)) ∧
      e.shape = dropAxes (nums oi.ext.o.shape.length (axesOf oi.avg)) oi.ext.o.shape ∧ q.shape = e.shape ∧
      ∀ k, InB e.shape k → ∀ (Y : List Nat → K) (M : List Nat → List K) (n : Nat) (groups : List (List K)),
        let L := fiberIdx oi.ext.o.shape (nums oi.ext.o.shape.length (axesOf oi.avg)) k
        (∀ i ∈ L, oi.ext.o.get i = some (Y i) ∧ membersAt oi.ext.f ax i = (M i).map some) →
        IsExchangeable n groups (L.map fun i => (Y i, M i)) →
        e.get k = some 0 ∧ ∃ mse v, q.get k = some mse ∧ (∀ i ∈ L, var.get i = some (v i)) ∧
          ((n : K) - 1) * mse = (n + 1) * avg (L.map v) := by
  obtain ⟨ax, e, a, q, r, a0, e1, -, e3, -, ⟨s1, -, s3, -⟩, e5⟩ := C75_ens_errors (I := I) h hb hg hok w1
  obtain ⟨ax', var, spr, r', a0', v1, -, v2, -, v3, -⟩ := C75_ens_spread (I := I) h hb (fun i hi hn => by
    obtain ⟨x, hx⟩ := get_some hf hi
    rw [hx] at hn
    cases hn) h0 hok w1
  rw [a0] at a0'
  cases a0'
  obtain ⟨ax', fc, h1, -, h3, h4, -, -, -⟩ := C75_construct_ens h
  have hax := h1.axis
  rw [a0] at hax
  cases hax
  have hax := h1.axisOK
  have hsh := h1.shape
  rw [h3] at hax hsh
  rw [h4] at hsh
  have hpos : 0 ∉ oi.ext.o.shape := by
    rw [hsh, posShape]
    exact fun h => h0 (List.eraseIdx_subset h)
  refine ⟨ax, e, q, var, a0, e1, e3, v1, s1, s3, ?_⟩
  intro k hk Y M n groups L hL hE
  have hLne : L ≠ [] := fiberIdx_ne hpos (s1 ▸ hk)
  have hin : ∀ i ∈ L, InB oi.ext.o.shape i := fun i hi => (mem_fiberIdx.1 hi).1
  have hMne : ∀ i ∈ L, M i ≠ [] := by
    intro i hi hM
    have := (hL i hi).2
    rw [hM] at this
    refine membersAt_ne_nil oi.ext.f hax ?_ (hsh ▸ hin i hi) this
    intro hz
    have hlt := axisNum_lt hax
    rw [List.getD_eq_getElem?_getD, List.getElem?_eq_getElem hlt, Option.getD_some] at hz
    exact h0 (hz ▸ List.getElem_mem hlt)
  have hn : n ≠ 0 := by
    obtain ⟨i, l, hl⟩ := List.exists_cons_of_ne_nil hLne
    have hi : i ∈ L := by rw [hl]; simp
    rw [← (exch_case hE hi).1]
    exact (List.length_pos_iff.2 (hMne i hi)).ne'
  obtain ⟨b1, -, b3, -⟩ := e5 k hk
  have hmean : ∀ i ∈ L, (mean (membersAt oi.ext.f ax i), oi.ext.o.get i) = (some (avg (M i)), some (Y i)) := by
    intro i hi
    rw [(hL i hi).1, (hL i hi).2, mean_some _ (hMne i hi)]
    rfl
  rw [List.map_map] at b1 b3
  have hb1 := isAvg_some' hLne (h := fun i => avg (M i) - Y i) (fun i hi => by
    simp only [Function.comp]; rw [hmean i hi]; rfl) b1
  have hb3 := isAvg_some' hLne (h := fun i => (avg (M i) - Y i) ^ 2) (fun i hi => by
    simp only [Function.comp]; rw [hmean i hi]; rfl) b3
  refine ⟨by rw [hb1, exch_bias hE hn], _, fun i => avg ((M i).map fun x => (x - avg (M i)) ^ 2), hb3, fun i hi => ?_,
    exch_skill hE hn⟩
  have hm : present (fiber oi.ext.f [axisNum oi.ext.f.shape.length ax] i) = M i := by
    have := (hL i hi).2
    unfold membersAt at this
    rw [this, present, filterMap_id_map_some]
  have := (v3 i (hin i hi)).1
  rw [hm] at this
  exact this

/-- **C99**: over positions whose cases are exchangeable, the mean of `cdf(over=t)` is the frequency of the event, and the
mean of `cdf(below=t)` the frequency of the event plus that of observations equal to the threshold. -/
theorem C99_probability {oi o : Obj (EnsX K)} {w w' : World (PyVal K)}
    (h : construct (ensPrims c emb) mids oi w = (.ok o, w')) (hm : c.method = .moments)
    {a : A} (ha : Printable I a) {t : K} (hemb : emb a = .thr (.scalar (some t)))
    (h0 : 0 ∉ oi.ext.f.shape) (isOver : Bool) (w1 : World (PyVal K)) :
    ∃ ax p, o.ext.axis = some ax ∧ result .ensemble I (ensPrims c emb) mids
        (.slot (.cdf (overArg isOver a) (belowArg isOver a))) (unsaved o) w1 = .ok (some (.num p)) ∧
      ∀ (L : List (List Nat)) (Y : List Nat → K) (M : List Nat → List K) (n : Nat) (groups : List (List K)),
        (∀ i ∈ L, InB oi.ext.o.shape i ∧ oi.ext.o.get i = some (Y i) ∧ membersAt oi.ext.f ax i = (M i).map some) →
        IsExchangeable n groups (L.map fun i => (Y i, M i)) → ∃ q : List Nat → K,
          (∀ i ∈ L, p.get i = some (q i)) ∧
          avg (L.map q) = avg (L.map fun i => (indicator (Event isOver (.scalar (some t)) oi.ext.o i) : K)) +
            if isOver then 0 else avg (L.map fun i => (indicator (oi.ext.o.get i = some t) : K)) := by
  classical
  obtain ⟨ax, fc, h1, -, h3, h4, -, -, -⟩ := C75_construct_ens h
  have hax := h1.axisOK
  have hsh := h1.shape
  rw [h3] at hax hsh
  rw [h4] at hsh
  have hpos : 0 ∉ oi.ext.o.shape := by
    rw [hsh, posShape]
    exact fun h => h0 (List.eraseIdx_subset h)
  obtain ⟨p, p1, -, p3⟩ := C75_ens_cdf (mids := mids) (I := I) h1 hm ha hemb trivial
    (by rw [h4]; simpa [List.prod_eq_zero_iff] using hpos) isOver w1
  rw [h3, h4] at p3
  refine ⟨ax, p, h1.axis, p1, fun L Y M n groups hL hE => ?_⟩
  have hMne : ∀ i ∈ L, M i ≠ [] := by
    intro i hi hM
    have := (hL i hi).2.2
    rw [hM] at this
    refine membersAt_ne_nil oi.ext.f hax ?_ (hsh ▸ (hL i hi).1) this
    intro hz
    have hlt := axisNum_lt hax
    rw [List.getD_eq_getElem?_getD, List.getElem?_eq_getElem hlt, Option.getD_some] at hz
    exact h0 (hz ▸ List.getElem_mem hlt)
  by_cases hLne : L = []
  · subst hLne
    refine ⟨fun _ => 0, by simp, ?_⟩
    cases isOver <;> simp [avg]
  have hn : n ≠ 0 := by
    obtain ⟨i, l, hl⟩ := List.exists_cons_of_ne_nil hLne
    have hi : i ∈ L := by rw [hl]; simp
    rw [← (exch_case hE hi).1]
    exact (List.length_pos_iff.2 (hMne i hi)).ne'
  have hfrac : ∀ i ∈ L, fractionLe (membersAt oi.ext.f ax i) (some t) =
      some (avg ((M i).map fun x => if x ≤ t then (1 : K) else 0)) := by
    intro i hi
    rw [(hL i hi).2.2, fractionLe, if_neg (by simpa using hMne i hi)]
    have e : ∀ l : List K, (((l.map some).filter fun x => decide (LeP x (some t))).length : K) =
        (l.map fun x => if x ≤ t then (1 : K) else 0).sum := by
      intro l
      induction l with
      | nil => simp
      | cons x l ih =>
        rw [List.map_cons, List.map_cons, List.sum_cons, ← ih]
        by_cases hx : x ≤ t
        · rw [List.filter_cons_of_pos (by simp [LeP, hx]), if_pos hx, List.length_cons]
          push_cast
          ring
        · rw [List.filter_cons_of_neg (by simpa [LeP] using hx), if_neg hx, zero_add]
    simp only [avg, List.length_map, e]
  have key := exch_freq hE hn fun x => if x ≤ t then (1 : K) else 0
  cases isOver with
  | false =>
    refine ⟨fun i => avg ((M i).map fun x => if x ≤ t then (1 : K) else 0), fun i hi => ?_, ?_⟩
    · rw [p3 i (hL i hi).1]
      simp only [ensProb, Bool.false_eq_true, if_false, thrAt]
      exact hfrac i hi
    · rw [key]
      simp only [Bool.false_eq_true, if_false]
      simp only [avg, List.length_map, ← add_div]
      rw [← List.sum_map_add]
      congr 2
      refine List.map_congr_left fun i hi => ?_
      have e1 : Event false (.scalar (some t)) oi.ext.o i ↔ Y i < t := by simp [Event, thrAt, (hL i hi).2.1, LtP]
      have e2 : (oi.ext.o.get i = some t) ↔ Y i = t := by rw [(hL i hi).2.1, Option.some.injEq]
      simp only [indicator, e1, e2]
      rcases lt_trichotomy (Y i) t with hlt | heq | hgt
      · simp [hlt, hlt.le, hlt.ne]
      · simp [heq]
      · simp [hgt.not_ge, hgt.not_gt, hgt.ne']
  | true =>
    refine ⟨fun i => 1 - avg ((M i).map fun x => if x ≤ t then (1 : K) else 0), fun i hi => ?_, ?_⟩
    · rw [p3 i (hL i hi).1]
      simp only [ensProb, if_true, thrAt]
      rw [hfrac i hi]
      rfl
    · have hl : (L.length : K) ≠ 0 := by
        have := List.length_pos_iff.2 hLne
        exact_mod_cast this.ne'
      have e1 : avg (L.map fun i => 1 - avg ((M i).map fun x => if x ≤ t then (1 : K) else 0)) =
          avg (L.map fun i => 1 - if Y i ≤ t then (1 : K) else 0) := by
        have k1 := sum_sub L (fun _ => (1 : K)) fun i => avg ((M i).map fun x => if x ≤ t then (1 : K) else 0)
        have k2 := sum_sub L (fun _ => (1 : K)) fun i => if Y i ≤ t then (1 : K) else 0
        rw [avg, avg, k1, k2, List.length_map, List.length_map]
        rw [avg, avg, List.length_map, List.length_map, div_left_inj' hl] at key
        rw [key]
      rw [e1]
      simp only [if_true, add_zero]
      congr 1
      refine List.map_congr_left fun i hi => ?_
      have e1 : Event true (.scalar (some t)) oi.ext.o i ↔ t < Y i := by simp [Event, thrAt, (hL i hi).2.1, LtP]
      simp only [indicator, e1]
      rcases le_or_gt (Y i) t with hle | hgt
      · simp [hle, hle.not_gt]
      · simp [hgt, hgt.not_ge]

/-- **C99**: `binned_spread_skill(nbins=1)` of exchangeable cases is not on the diagonal: the squared skill exceeds the
squared spread by the factor (n + 1) / (n - 1), for `n` members. -/
theorem C99_spread_skill {oi o : Obj (EnsX K)} {w w' : World (PyVal K)}
    (h : construct (ensPrims c emb) mids oi w = (.ok o, w')) (hb : oi.boot = .none)
    (hg : ∀ f ax, oi.ext.collapse f ax = reduceAxes mean f (some [ax])) (hs : IsSqrt c.sqrt)
    (h0 : 0 ∉ oi.ext.f.shape) (hf : none ∉ oi.ext.f.data) {nb : A} (hnb : emb nb = .num 1) (hpn : Printable I nb)
    {axes : List Int} (haxes : axesOf oi.avg = some axes) (hpl : PlainAxes oi.ext.o.shape.length axes)
    (hargs : ∀ i l, IsArgsort l (c.argsort i l)) (w1 : World (PyVal K)) :
    ∃ ax spread rmse, o.ext.axis = some ax ∧
      result .ensemble I (ensPrims c emb) mids (.slot (.ss nb)) (unsaved o) w1 = .ok (some (.pair spread rmse)) ∧
      ∀ k, InB (dropAxes (axes.map Int.toNat) oi.ext.o.shape) k →
        ∀ (Y : List Nat → K) (M : List Nat → List K) (n : Nat) (groups : List (List K)),
        let L := fiberIdx oi.ext.o.shape (axes.map Int.toNat) k
        (∀ i ∈ L, oi.ext.o.get i = some (Y i) ∧ membersAt oi.ext.f ax i = (M i).map some) →
        IsExchangeable n groups (L.map fun i => (Y i, M i)) →
        ∃ sp sk, spread.get (k ++ [0]) = some sp ∧ rmse.get (k ++ [0]) = some sk ∧
          ((n : K) - 1) * sk ^ 2 = (n + 1) * sp ^ 2 := by
  obtain ⟨ax, fc, h1, h2, h3, h4, h5, -, -⟩ := C75_construct_ens h
  have hax := h1.axisOK
  have hsh := h1.shape
  rw [h3] at hax hsh
  rw [h4] at hsh
  have hpos : 0 ∉ oi.ext.o.shape := by
    rw [hsh, posShape]
    exact fun h => h0 (List.eraseIdx_subset h)
  obtain ⟨r', q1, q2, q3⟩ := reduceAxes_spec mean oi.ext.f (axes := some [ax]) ⟨by simpa using hax, by simp⟩
  rw [hg, q1] at h2
  simp only [Except.ok.injEq] at h2
  subst h2
  have hnum : nums oi.ext.f.shape.length (some [ax]) = [axisNum oi.ext.f.shape.length ax] := rfl
  rw [hnum, dropAxes_single (axisNum_lt hax)] at q2 q3
  have hfc : r'.shape = oi.ext.o.shape := q2.trans hsh.symm
  have hvn : ∀ i, InB oi.ext.f.shape i → oi.ext.f.get i ≠ none := fun i hi hn => by
    obtain ⟨x, hx⟩ := get_some hf hi
    rw [hx] at hn
    cases hn
  obtain ⟨var, vw, v1⟩ : ∃ var, var.shape = oi.ext.o.shape ∧
      result .ensemble I (ensPrims c emb) mids (.slot .variance) (unsaved o) w1 = .ok (some (.num var)) ∧
      ∀ k, InB oi.ext.o.shape k → let M := present (fiber oi.ext.f [axisNum oi.ext.f.shape.length ax] k)
        var.get k = some (avg (M.map fun x => (x - avg M) ^ 2)) := by
    have hok : OptOK oi.ext.o.shape.length (axesOf oi.avg) := by
      rw [haxes]
      refine ⟨fun x hx => ⟨by have := hpl.1 x hx; omega, (hpl.1 x hx).2⟩, ?_⟩
      rw [axisNum_inj_nonneg fun x hx => (hpl.1 x hx).1]
      refine hpl.2.map_on fun a ha b hb hab => ?_
      have h1 := (hpl.1 a ha).1
      have h2 := (hpl.1 b hb).1
      omega
    obtain ⟨ax', var, spr, r'', a0', v1, -, v2, -, v3, -⟩ := C75_ens_spread (I := I) (mids := mids) h hb hvn h0 hok w1
    have := h1.axis
    rw [a0'] at this
    cases this
    exact ⟨var, v2, v1, fun k hk => (v3 k hk).1⟩
  obtain ⟨v1, v3⟩ := v1
  have hplen : 0 < (takeAxes (axes.map Int.toNat) oi.ext.o.shape).prod ∧
      (dropAxes (axes.map Int.toNat) oi.ext.o.shape).prod ≠ 0 := by
    have := prod_take_drop oi.ext.o.shape (axes.map Int.toNat)
    have hz : oi.ext.o.shape.prod ≠ 0 := by simpa [List.prod_eq_zero_iff] using hpos
    constructor
    · refine Nat.pos_of_ne_zero fun h => hz ?_
      rw [this, h]
      simp
    · refine fun h => hz ?_
      rw [this, h]
      simp
  obtain ⟨spread, rmse, q, s1, s2, s3, s4⟩ := C75_spread_skill (C := .ensemble) (I := I) (mids := mids) (shared_ens c emb)
    (o := o) hnb hpn (axes := axes) (h5.trans hb) (by rw [← haxes]; exact axisArg_ready h1.avg) (w0 := w1)
    (fDeterm_ens h1 w1) v1 (by rw [h4]; exact hfc) (vw.trans hfc.symm) hargs (by rw [vw]; exact hpl)
    (by rw [vw]; exact hplen.2) one_ne_zero (by rw [vw]; exact hplen.1) w1
  rw [hfc] at s2
  rw [hfc, h4] at s3
  rw [vw] at s4
  refine ⟨ax, spread, rmse, h1.axis, s1, ?_⟩
  intro k hk Y M n groups L hL hE
  have hLne : L ≠ [] := fiberIdx_ne hpos hk
  have hin : ∀ i ∈ L, InB oi.ext.o.shape i := fun i hi => (mem_fiberIdx.1 hi).1
  have hMne : ∀ i ∈ L, M i ≠ [] := by
    intro i hi hM
    have := (hL i hi).2
    rw [hM] at this
    refine membersAt_ne_nil oi.ext.f hax ?_ (hsh ▸ hin i hi) this
    intro hz
    have hlt := axisNum_lt hax
    rw [List.getD_eq_getElem?_getD, List.getElem?_eq_getElem hlt, Option.getD_some] at hz
    exact h0 (hz ▸ List.getElem_mem hlt)
  have hn : n ≠ 0 := by
    obtain ⟨i, l, hl⟩ := List.exists_cons_of_ne_nil hLne
    have hi : i ∈ L := by rw [hl]; simp
    rw [← (exch_case hE hi).1]
    exact (List.length_pos_iff.2 (hMne i hi)).ne'
  obtain ⟨gs, hgs, hget⟩ := s4 k hk
  obtain ⟨g, rfl⟩ := List.length_eq_one_iff.1 hgs.count
  have hperm : g.Perm (L.map fun i => (var.get i, q.get i)) := by
    have := hgs.complete
    simp only [List.flatten_cons, List.flatten_nil, List.append_nil] at this
    unfold pairsAt at this
    rwa [vw] at this
  obtain ⟨g1, g2⟩ := hget 0 g rfl
  -- values of the two columns
  have hvar : ∀ i ∈ L, var.get i = some (avg ((M i).map fun x => (x - avg (M i)) ^ 2)) := by
    intro i hi
    have hm : present (fiber oi.ext.f [axisNum oi.ext.f.shape.length ax] i) = M i := by
      have := (hL i hi).2
      unfold membersAt at this
      rw [this, present, filterMap_id_map_some]
    have := v3 i (hin i hi)
    rw [hm] at this
    exact this
  have hq : ∀ i ∈ L, q.get i = some ((avg (M i) - Y i) ^ 2) := by
    intro i hi
    rw [s3 i (hin i hi), (hL i hi).1, q3 i (by rw [← q2, hfc]; exact hin i hi)]
    have hm : fiber oi.ext.f [axisNum oi.ext.f.shape.length ax] i = (M i).map some := (hL i hi).2
    rw [hm, mean_some _ (hMne i hi)]
    rfl
  have key : ∀ (col : Fl K × Fl K → Fl K) (v : List Nat → K), (∀ i ∈ L, col (var.get i, q.get i) = some (v i)) →
      meanOf c.skipNan (g.map col) = some (avg (L.map v)) := by
    intro col v hcol
    have hp : (g.map col).Perm ((L.map v).map some) := by
      refine (hperm.map col).trans (List.Perm.of_eq ?_)
      rw [List.map_map, List.map_map]
      exact List.map_congr_left fun i hi => hcol i hi
    obtain ⟨l, hl⟩ := exists_map_some (l := g.map col) (by
      intro hc
      have := hp.mem_iff.1 hc
      simp at this)
    rw [hl] at hp ⊢
    have hpl : l.Perm (L.map v) := by
      have := hp.filterMap id
      simpa using this
    have hv := isAvg_some' (skip := c.skipNan) (L := l) (g := some) (h := fun x => x) (fun h => by
      rw [h] at hpl
      exact hLne (by simpa using hpl.symm)) (fun _ _ => rfl) (meanOf_isAvg c.skipNan (l.map some))
    rw [hv, List.map_id', avg, avg, hpl.sum_eq, hpl.length_eq]
  have k1 := key Prod.fst _ hvar
  have k2 := key Prod.snd _ hq
  rw [k1] at g1
  rw [k2] at g2
  have n1 : 0 ≤ avg (L.map fun i => avg ((M i).map fun x => (x - avg (M i)) ^ 2)) :=
    avg_nonneg' L fun i _ => avg_nonneg' (M i) fun _ _ => sq_nonneg _
  have n2 : 0 ≤ avg (L.map fun i => (avg (M i) - Y i) ^ 2) := avg_nonneg' L fun i _ => sq_nonneg _
  have sq : ∀ x, 0 ≤ x → Fl.sqrt c.sqrt (some x) = some (c.sqrt x) ∧ c.sqrt x ^ 2 = x := by
    intro x hx
    exact ⟨if_pos hx, by rw [pow_two, hs.sq x hx]⟩
  rw [(sq _ n1).1] at g1
  rw [(sq _ n2).1] at g2
  refine ⟨_, _, g1, g2, ?_⟩
  rw [(sq _ n1).2, (sq _ n2).2]
  exact exch_skill hE hn

/-! ### a case -/

/-- the values 1, 2, 4 take turns as the observation -/
def turnsX : EnsX ℚ := ⟨⟨[3, 2], [some 2, some 4, some 4, some 1, some 2, some 1], rfl⟩,
  ⟨[3], [some 1, some 2, some 4], rfl⟩, none, fun f ax => reduceAxes mean f (some [ax]), none⟩

def turns : Obj (EnsX ℚ) := ⟨.int 0, .none, .none, some true, turnsX⟩

theorem turns_exchangeable : IsExchangeable 2 [[1, 2, 4]] [((1 : ℚ), [2, 4]), (2, [4, 1]), (4, [2, 1])] := by
  constructor <;> decide +kernel

example : ∃ o w, construct (ensPrims caseCfg embInt) noMids turns world0 = (.ok o, w) ∧ o.ext.axis = some (-1) ∧
    (∀ i : Fin 3, turnsX.o.get [i] = some ([1, 2, 4][i]) ∧
      membersAt turnsX.f (-1) [i] = ([[2, 4], [4, 1], [2, 1]][i]).map some) ∧
    numOf (result .ensemble intInfo (ensPrims caseCfg embInt) noMids (.slot .error) (unsaved o) w) = some ([], [some 0]) ∧
    numOf (result .ensemble intInfo (ensPrims caseCfg embInt) noMids (.slot .sqError) (unsaved o) w) =
      some ([], [some (7 / 2)]) ∧
    numOf (result .ensemble intInfo (ensPrims caseCfg embInt) noMids (.slot .variance) (unsaved o) w) =
      some ([3], [some 1, some (9 / 4), some (1 / 4)]) :=
  ⟨_, _, rfl, rfl, by decide +kernel, by decide +kernel, by decide +kernel, by decide +kernel⟩

/-- the same over the real numbers -/
noncomputable def turnsR : Obj (EnsX ℝ) := ⟨.int 0, .none, .none, some true,
  ⟨⟨[3, 2], [some 2, some 4, some 4, some 1, some 2, some 1], rfl⟩, ⟨[3], [some 1, some 2, some 4], rfl⟩, none,
    fun f ax => reduceAxes mean f (some [ax]), none⟩⟩

/-- With a single bin the squared skill of these cases is three times the squared spread. -/
example : ∃ (c : Cfg ℝ) (o : Obj (EnsX ℝ)) (w : World (PyVal ℝ)) (spread rmse : NDArr (Fl ℝ)) (sp sk : ℝ),
    construct (ensPrims c fun n : Nat => .num n) noMids turnsR world0 = (.ok o, w) ∧
    result .ensemble ⟨fun _ => [], fun _ => false, fun _ => false, fun _ => 1, fun _ => none, fun _ => none⟩
      (ensPrims c fun n : Nat => .num n) noMids (.slot (.ss 1)) (unsaved o) world0 = .ok (some (.pair spread rmse)) ∧
    spread.get [0] = some sp ∧ rmse.get [0] = some sk ∧ sk ^ 2 = 3 * sp ^ 2 := by
  obtain ⟨argsort, hargs⟩ := exists_argsort (K := ℝ)
  let c : Cfg ℝ := { cfgR with argsort := argsort }
  have h : ∃ o w, construct (ensPrims c fun n : Nat => .num n) noMids turnsR world0 = (.ok o, w) := ⟨_, _, rfl⟩
  obtain ⟨o, w, h⟩ := h
  obtain ⟨ax, spread, rmse, a1, r1, hk⟩ := C99_spread_skill
    (I := ⟨fun _ => [], fun _ => false, fun _ => false, fun _ => 1, fun _ => none, fun _ => none⟩) (nb := 1) h rfl
    (fun _ _ => rfl) ⟨fun x _ => Real.sqrt_nonneg x, fun _ hx => Real.mul_self_sqrt hx⟩ (by simp [turnsR])
    (by simp [turnsR]) rfl (fun h => by cases h) (axes := [0]) rfl ⟨by simp [turnsR], by simp⟩ hargs world0
  obtain ⟨_, fc, d1, -, -, -, -, -, d2⟩ := C75_construct_ens h
  have d3 := d1.axis
  rw [a1] at d3
  cases d3
  obtain rfl : ax = -1 := by
    rcases d2 rfl with ⟨d, -⟩ | ⟨-, d, -⟩
    · exact d
    · exact absurd rfl d
  have L : fiberIdx turnsR.ext.o.shape ([0].map Int.toNat) [] = [[0], [1], [2]] := by decide
  obtain ⟨sp, sk, e1, e2, e3⟩ := hk [] (by decide) (fun i => [1, 2, 4].getD (i.getD 0 0) 0)
    (fun i => [[2, 4], [4, 1], [2, 1]].getD (i.getD 0 0) []) 2 [[1, 2, 4]] (by
      rw [L]
      intro i hi
      simp only [List.mem_cons, List.not_mem_nil, or_false] at hi
      rcases hi with rfl | rfl | rfl <;> exact ⟨rfl, rfl⟩) (by
      rw [L]
      refine ⟨by simp, ?_⟩
      simp only [List.map_cons, List.map_nil, List.flatMap_cons, List.flatMap_nil, List.append_nil]
      refine List.Perm.of_eq ?_
      have p1 : (([1, 2, 4] : List ℝ).erase 1) = [2, 4] := by simp
      have p2 : (([1, 2, 4] : List ℝ).erase 2) = [1, 4] := by
        rw [List.erase_cons_tail (by norm_num), List.erase_cons_head]
      have p3 : (([1, 2, 4] : List ℝ).erase 4) = [1, 2] := by
        rw [List.erase_cons_tail (by norm_num), List.erase_cons_tail (by norm_num), List.erase_cons_head]
      rw [p1, p2, p3]
      have q1 : (([4, 1] : List ℝ) : Multiset ℝ) = ([1, 4] : List ℝ) := Multiset.coe_eq_coe.2 (.swap ..)
      have q2 : (([2, 1] : List ℝ) : Multiset ℝ) = ([1, 2] : List ℝ) := Multiset.coe_eq_coe.2 (.swap ..)
      simp [q1, q2])
  refine ⟨c, o, w, spread, rmse, sp, sk, h, r1, e1, e2, ?_⟩
  norm_num at e3
  linarith

end Props
