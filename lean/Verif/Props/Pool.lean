import Verif.Lemmas.Pool
import Verif.Props.EndToEndClasses
import Verif.Props.Shuffle

/-!
# A number depends on the data pooled in it and on nothing else: C84
-/

set_option linter.unusedSectionVars false

namespace Props
open Np NDArr Spec Model Lemmas

variable {K : Type} [Field K] [LinearOrder K] [IsStrictOrderedRing K] [FloorSemiring K]
variable {A A' X X' : Type} {C C' : Cls} {I : ArgInfo A} {I' : ArgInfo A'} {P : Prims X (PyVal K) A}
  {P' : Prims X' (PyVal K) A'} {mids mids' : FS (PyVal K) → Path → List (FS (PyVal K))} {c c' : Cfg K}
  {obs : X → NDArr (Fl K)} {obs' : X' → NDArr (Fl K)} {emb : A → Arg K} {emb' : A' → Arg K}

theorem isAvg_perm {skip : Bool} {l m : List (Fl K)} (h : l.Perm m) {v : Fl K} (hv : IsAvg skip l v) :
    IsAvg skip m v := by
  have hp : (present l).Perm (present m) := h.filterMap _
  unfold IsAvg at *
  rw [← avg_perm hp]
  have e : ((skip = false ∧ none ∈ m) ∨ present m = []) ↔ ((skip = false ∧ none ∈ l) ∨ present l = []) := by
    rw [h.mem_iff, ← List.length_eq_zero_iff, ← List.length_eq_zero_iff, hp.length_eq]
  by_cases h0 : (skip = false ∧ none ∈ l) ∨ present l = []
  · rw [if_pos h0] at hv; rw [if_pos (e.2 h0)]; exact hv
  · rw [if_neg h0] at hv; rw [if_neg fun h1 => h0 (e.1 h1)]; exact hv

theorem isAvg_pool {skip : Bool} {β : Type} {g : β → Fl K} {l m : List β} (h : l.Perm m) {v v' : Fl K}
    (hv : IsAvg skip (l.map g) v) (hv' : IsAvg skip (m.map g) v') : v = v' :=
  isAvg_unique (isAvg_perm (h.map g) hv) hv'

/-- **C84**, every class, even two different ones: when the pairs of forecast and observation behind two numbers are
the same up to order, then the errors and the root mean square error are the same. -/
theorem C84_errors (hP : Shared c obs emb P) (hP' : Shared c' obs' emb' P') (hskip : c'.skipNan = c.skipNan)
    (hsq : c'.sqrt = c.sqrt) {o : Obj X} {o' : Obj X'}
    {axes axes' : Option (List Int)} (hb : o.boot = .none) (hb' : o'.boot = .none) (hax : axisArg o.avg = .ok axes)
    (hax' : axisArg o'.avg = .ok axes') {w0 w0' : World (PyVal K)} {f f' : NDArr (Fl K)}
    (hf : result C I P mids (.slot .fDeterm) (unsaved o) w0 = .ok (some (.num f)))
    (hf' : result C' I' P' mids' (.slot .fDeterm) (unsaved o') w0' = .ok (some (.num f')))
    (hsh : f.shape = (obs o.ext).shape) (hsh' : f'.shape = (obs' o'.ext).shape) (hok : OptOK f.shape.length axes)
    (hok' : OptOK f'.shape.length axes') (w w' : World (PyVal K)) :
    ∃ e a q r e' a' q' r', result C I P mids (.slot .error) (unsaved o) w = .ok (some (.num e)) ∧
      result C I P mids (.slot .abError) (unsaved o) w = .ok (some (.num a)) ∧
      result C I P mids (.slot .sqError) (unsaved o) w = .ok (some (.num q)) ∧
      result C I P mids .rmse (unsaved o) w = .ok (some (.num r)) ∧
      result C' I' P' mids' (.slot .error) (unsaved o') w' = .ok (some (.num e')) ∧
      result C' I' P' mids' (.slot .abError) (unsaved o') w' = .ok (some (.num a')) ∧
      result C' I' P' mids' (.slot .sqError) (unsaved o') w' = .ok (some (.num q')) ∧
      result C' I' P' mids' .rmse (unsaved o') w' = .ok (some (.num r')) ∧
      ∀ k k', InB (dropAxes (nums f.shape.length axes) f.shape) k →
        InB (dropAxes (nums f'.shape.length axes') f'.shape) k' →
        (pairsAt f (obs o.ext) (nums f.shape.length axes) k).Perm
          (pairsAt f' (obs' o'.ext) (nums f'.shape.length axes') k') →
        e.get k = e'.get k' ∧ a.get k = a'.get k' ∧ q.get k = q'.get k' ∧ r.get k = r'.get k' := by
  obtain ⟨e, a, q, r, h1, h2, h3, h4, ⟨s1, -, -, -⟩, h5⟩ := C75_errors (mids := mids) (I := I) hP hb hax hf hsh hok w
  obtain ⟨e', a', q', r', h1', h2', h3', h4', ⟨s1', -, -, -⟩, h5'⟩ :=
    C75_errors (mids := mids') (I := I') hP' hb' hax' hf' hsh' hok' w'
  refine ⟨e, a, q, r, e', a', q', r', h1, h2, h3, h4, h1', h2', h3', h4', fun k k' hk hk' hp => ?_⟩
  obtain ⟨g1, g2, g3, g4⟩ := h5 k (s1 ▸ hk)
  obtain ⟨g1', g2', g3', g4'⟩ := h5' k' (s1' ▸ hk')
  rw [hskip] at g1' g2' g3'
  have hq : q.get k = q'.get k' := isAvg_pool hp g3 g3'
  refine ⟨isAvg_pool hp g1 g1', isAvg_pool hp g2 g2', hq, ?_⟩
  rw [g4, g4', hq, hsq]

/-- **C84**, correlation -/
theorem C84_corr (hP : Shared c obs emb P) (hP' : Shared c' obs' emb' P') (hs : IsSqrt c.sqrt) (hs' : IsSqrt c'.sqrt)
    (hskip : c'.skipNan = c.skipNan) {o : Obj X} {o' : Obj X'} {B B' : List Nat} (hb : o.boot = .none)
    (hb' : o'.boot = .none) (hax : axisArg o.avg = .ok (some (B.map Int.ofNat)))
    (hax' : axisArg o'.avg = .ok (some (B'.map Int.ofNat))) {w0 w0' : World (PyVal K)} {f f' : NDArr (Fl K)}
    (hf : result C I P mids (.slot .fDeterm) (unsaved o) w0 = .ok (some (.num f)))
    (hf' : result C' I' P' mids' (.slot .fDeterm) (unsaved o') w0' = .ok (some (.num f')))
    (hsh : f.shape = (obs o.ext).shape) (hsh' : f'.shape = (obs' o'.ext).shape) (hB : SliceAxes f.shape B)
    (hB' : SliceAxes f'.shape B') (w w' : World (PyVal K)) :
    ∃ r r', result C I P mids (.slot .corr) (unsaved o) w = .ok (some (.num r)) ∧
      result C' I' P' mids' (.slot .corr) (unsaved o') w' = .ok (some (.num r')) ∧
      ∀ k k', InB (dropAxes B f.shape) k → InB (dropAxes B' f'.shape) k' →
        (pairsAt f (obs o.ext) B k).Perm (pairsAt f' (obs' o'.ext) B' k') → r.get k = r'.get k' := by
  obtain ⟨r, h1, -, h3⟩ := C75_corr (mids := mids) (I := I) hP hs hb hax hf hsh hB w
  obtain ⟨r', h1', -, h3'⟩ := C75_corr (mids := mids') (I := I') hP' hs' hb' hax' hf' hsh' hB' w'
  refine ⟨r, r', h1, h1', fun k k' hk hk' hp => ?_⟩
  have := h3' k' hk'
  rw [hskip] at this
  exact isCorr_unique (isCorr_perm hp (h3 k hk)) this

/-- **C84**, Brier score: the pool consists of probability, observation and threshold -/
theorem C84_brier (hP : Shared c obs emb P) (hP' : Shared c' obs' emb' P') (hskip : c'.skipNan = c.skipNan)
    {o : Obj X} {o' : Obj X'} {a : A} {a' : A'} {t t' : Thr K} (hemb : emb a = .thr t) (hemb' : emb' a' = .thr t')
    (isOver : Bool) {axes axes' : Option (List Int)} (hb : o.boot = .none) (hb' : o'.boot = .none)
    (hax : axisArg o.avg = .ok axes) (hax' : axisArg o'.avg = .ok axes') {w0 w0' : World (PyVal K)}
    {p p' : NDArr (Fl K)}
    (hp : result C I P mids (.slot (.cdf (overArg isOver a) (belowArg isOver a))) (unsaved o) w0 = .ok (some (.num p)))
    (hp' : result C' I' P' mids' (.slot (.cdf (overArg isOver a') (belowArg isOver a'))) (unsaved o') w0' =
      .ok (some (.num p')))
    (ht : ThrOK t (obs o.ext).shape) (ht' : ThrOK t' (obs' o'.ext).shape) (hsh : p.shape = (obs o.ext).shape)
    (hsh' : p'.shape = (obs' o'.ext).shape) (hok : OptOK (obs o.ext).shape.length axes)
    (hok' : OptOK (obs' o'.ext).shape.length axes') (w w' : World (PyVal K)) :
    ∃ r r', result C I P mids (.slot (.brier (overArg isOver a) (belowArg isOver a))) (unsaved o) w =
        .ok (some (.num r)) ∧
      result C' I' P' mids' (.slot (.brier (overArg isOver a') (belowArg isOver a'))) (unsaved o') w' =
        .ok (some (.num r')) ∧
      ∀ k k', InB (dropAxes (nums (obs o.ext).shape.length axes) (obs o.ext).shape) k →
        InB (dropAxes (nums (obs' o'.ext).shape.length axes') (obs' o'.ext).shape) k' →
        (eventPool p (obs o.ext) t (nums (obs o.ext).shape.length axes) k).Perm
          (eventPool p' (obs' o'.ext) t' (nums (obs' o'.ext).shape.length axes') k') → r.get k = r'.get k' := by
  obtain ⟨r, h1, h2, h3⟩ := C75_brier (mids := mids) hP hemb isOver hb hax hp ht hsh hok w
  obtain ⟨r', h1', h2', h3'⟩ := C75_brier (mids := mids') hP' hemb' isOver hb' hax' hp' ht' hsh' hok' w'
  refine ⟨r, r', h1, h1', fun k k' hk hk' hpool => ?_⟩
  have g := h3 k (h2 ▸ hk)
  have g' := h3' k' (h2' ▸ hk')
  rw [hskip] at g'
  let F : Fl K × Fl K × Fl K → Fl K := fun x =>
    x.1.map fun v => (v - indicator (if isOver then LtP x.2.2 x.2.1 else LtP x.2.1 x.2.2)) ^ 2
  have e1 : brierAt isOver t p (obs o.ext) (nums (obs o.ext).shape.length axes) k =
      (eventPool p (obs o.ext) t (nums (obs o.ext).shape.length axes) k).map F := by
    rw [eventPool, List.map_map]; rfl
  have e2 : brierAt isOver t' p' (obs' o'.ext) (nums (obs' o'.ext).shape.length axes') k' =
      (eventPool p' (obs' o'.ext) t' (nums (obs' o'.ext).shape.length axes') k').map F := by
    rw [eventPool, List.map_map]; rfl
  rw [e1] at g
  rw [e2] at g'
  exact isAvg_pool hpool g g'

/-- **C84**, ensemble class, CRPS: the pool consists of the observations and their members -/
theorem C84_crps {oi o oi' o' : Obj (EnsX K)} {w w' w2 w2' : World (PyVal K)}
    (h : construct (ensPrims c emb) mids oi w = (.ok o, w'))
    (h' : construct (ensPrims c' emb') mids' oi' w2 = (.ok o', w2')) (hskip : c'.skipNan = c.skipNan)
    (hb : oi.boot = .none) (hb' : oi'.boot = .none) {pt : Fl K → List (Fl K) → Fl K} {split split' : Bool}
    (hc : ∀ o f ax, c.crpsEns o f ax = ensembleCrps pt split ax o f)
    (hc' : ∀ o f ax, c'.crpsEns o f ax = ensembleCrps pt split' ax o f)
    (hne : 0 < oi.ext.o.shape.headD 0) (hne' : 0 < oi'.ext.o.shape.headD 0)
    (hok : OptOK oi.ext.o.shape.length (axesOf oi.avg)) (hok' : OptOK oi'.ext.o.shape.length (axesOf oi'.avg))
    (w1 w1' : World (PyVal K)) :
    ∃ ax ax' r r', o.ext.axis = some ax ∧ o'.ext.axis = some ax' ∧
      result .ensemble I (ensPrims c emb) mids (.slot .crps) (unsaved o) w1 = .ok (some (.num r)) ∧
      result .ensemble I' (ensPrims c' emb') mids' (.slot .crps) (unsaved o') w1' = .ok (some (.num r')) ∧
      ∀ k k', InB (dropAxes (nums oi.ext.o.shape.length (axesOf oi.avg)) oi.ext.o.shape) k →
        InB (dropAxes (nums oi'.ext.o.shape.length (axesOf oi'.avg)) oi'.ext.o.shape) k' →
        (memberPool oi.ext.f oi.ext.o ax (nums oi.ext.o.shape.length (axesOf oi.avg)) k).Perm
          (memberPool oi'.ext.f oi'.ext.o ax' (nums oi'.ext.o.shape.length (axesOf oi'.avg)) k') →
        r.get k = r'.get k' := by
  obtain ⟨ax, r, h1, h2, h3, h4⟩ := C75_ens_crps (I := I) h hb hc hne hok w1
  obtain ⟨ax', r', h1', h2', h3', h4'⟩ := C75_ens_crps (I := I') h' hb' hc' hne' hok' w1'
  refine ⟨ax, ax', r, r', h1, h1', h2, h2', fun k k' hk hk' hpool => ?_⟩
  have g := h4 k (h3 ▸ hk)
  have g' := h4' k' (h3' ▸ hk')
  rw [hskip] at g'
  have e : ∀ (f o : NDArr (Fl K)) (ax : Int) (B k : List Nat),
      ((fiberIdx o.shape B k).map fun i => pt (o.get i) (membersAt f ax i)) =
        (memberPool f o ax B k).map fun x => pt x.1 x.2 := by
    intro f o ax B k
    rw [memberPool, List.map_map]; rfl
  rw [e] at g g'
  exact isAvg_pool hpool g g'

/-! ### selecting along a kept axis -/

/-- a deterministic verifier whose data are selected along axis `n` -/
def detTake (n : Nat) (σ : List Nat) (oi : Obj (DetX K)) : Obj (DetX K) :=
  { oi with ext := ⟨takeAlong oi.ext.f n σ, takeAlong oi.ext.o n σ⟩ }

/-- **C84**, deterministic class: selecting hyperplanes of a kept axis before verification (one station at a time, a
subset, another order, repetitions) gives the same as selecting them in the errors afterwards. -/
theorem C84_det_select {oi o o' : Obj (DetX K)} {w w' w2 w2' : World (PyVal K)} {n : Nat} {σ : List Nat}
    (h : construct (detPrims c emb) mids oi w = (.ok o, w'))
    (h' : construct (detPrims c emb) mids (detTake n σ oi) w2 = (.ok o', w2')) (hb : oi.boot = .none)
    (hok : OptOK oi.ext.f.shape.length (axesOf oi.avg)) (hn : n < oi.ext.f.shape.length)
    (hkept : n ∉ nums oi.ext.f.shape.length (axesOf oi.avg)) (hσ : ∀ j ∈ σ, j < oi.ext.f.shape.getD n 0)
    (w1 w1' : World (PyVal K)) :
    let m := keptPos (nums oi.ext.f.shape.length (axesOf oi.avg)) n
    ∃ e a q r, result .determ I (detPrims c emb) mids (.slot .error) (unsaved o) w1 = .ok (some (.num e)) ∧
      result .determ I (detPrims c emb) mids (.slot .abError) (unsaved o) w1 = .ok (some (.num a)) ∧
      result .determ I (detPrims c emb) mids (.slot .sqError) (unsaved o) w1 = .ok (some (.num q)) ∧
      result .determ I (detPrims c emb) mids .rmse (unsaved o) w1 = .ok (some (.num r)) ∧
      result .determ I (detPrims c emb) mids (.slot .error) (unsaved o') w1' = .ok (some (.num (takeAlong e m σ))) ∧
      result .determ I (detPrims c emb) mids (.slot .abError) (unsaved o') w1' = .ok (some (.num (takeAlong a m σ))) ∧
      result .determ I (detPrims c emb) mids (.slot .sqError) (unsaved o') w1' = .ok (some (.num (takeAlong q m σ))) ∧
      result .determ I (detPrims c emb) mids .rmse (unsaved o') w1' = .ok (some (.num (takeAlong r m σ))) := by
  intro m
  obtain ⟨hr, he, -⟩ := C75_construct_det h
  have hsh : oi.ext.f.shape = oi.ext.o.shape := he ▸ hr.shape
  obtain ⟨e, a, q, r, h1, h2, h3, h4, ⟨s1, s2, s3, s4⟩, h5⟩ := C75_det_metrics (I := I) h hb hok w1
  obtain ⟨e', a', q', r', h1', h2', h3', h4', ⟨s1', s2', s3', s4'⟩, h5'⟩ :=
    C75_det_metrics (I := I) h' hb (by simpa [detTake, shape_takeAlong] using hok) w1'
  simp only [detTake, shape_takeAlong, List.length_set] at s1' h5'
  have hdrop : dropAxes (nums oi.ext.f.shape.length (axesOf oi.avg)) (oi.ext.f.shape.set n σ.length) =
      e.shape.set m σ.length := by
    rw [dropAxes_set, if_neg hkept, s1]
  have hpt : ∀ k, InB e'.shape k → e'.get k = e.get (lookAt m σ k) ∧ a'.get k = a.get (lookAt m σ k) ∧
      q'.get k = q.get (lookAt m σ k) ∧ r'.get k = r.get (lookAt m σ k) := by
    intro k hk
    have hk1 := hk
    rw [s1'] at hk
    have hk2 : InB e.shape (lookAt m σ k) := by
      rw [hdrop] at hk
      refine inB_lookAt ?_ ?_ hk
      · rw [s1]; exact keptPos_lt hn hkept
      · rw [s1, dropAxes_getD _ hkept]; exact hσ
    obtain ⟨g1, g2, g3, g4⟩ := h5 _ hk2
    obtain ⟨g1', g2', g3', g4'⟩ := h5' k hk1
    rw [pairsAt_kept hsh hn hkept hσ hk] at g1' g2' g3'
    have hq := isAvg_unique g3' g3
    exact ⟨isAvg_unique g1' g1, isAvg_unique g2' g2, hq, by rw [g4', g4, hq]⟩
  have hse : e'.shape = e.shape.set m σ.length := s1'.trans hdrop
  refine ⟨e, a, q, r, h1, h2, h3, h4, ?_, ?_, ?_, ?_⟩
  · rw [h1', eq_takeAlong hse fun k hk => (hpt k hk).1]
  · rw [h2', eq_takeAlong (s2'.trans (s2 ▸ hse)) fun k hk => (hpt k (s2' ▸ hk)).2.1]
  · rw [h3', eq_takeAlong (s3'.trans (s3 ▸ hse)) fun k hk => (hpt k (s3' ▸ hk)).2.2.1]
  · rw [h4', eq_takeAlong (s4'.trans (s4 ▸ hse)) fun k hk => (hpt k (s4' ▸ hk)).2.2.2]

/-- **C84**, deterministic class: reordering the data along an averaged axis changes none of the errors. -/
theorem C84_det_reorder {oi o o' : Obj (DetX K)} {w w' w2 w2' : World (PyVal K)} {n : Nat} {σ : List Nat}
    (h : construct (detPrims c emb) mids oi w = (.ok o, w'))
    (h' : construct (detPrims c emb) mids (detTake n σ oi) w2 = (.ok o', w2')) (hb : oi.boot = .none)
    (hok : OptOK oi.ext.f.shape.length (axesOf oi.avg)) (hn : n < oi.ext.f.shape.length)
    (havg : n ∈ nums oi.ext.f.shape.length (axesOf oi.avg)) (hσ : σ.Perm (List.range (oi.ext.f.shape.getD n 0)))
    (w1 w1' : World (PyVal K)) :
    ∃ e a q r, result .determ I (detPrims c emb) mids (.slot .error) (unsaved o) w1 = .ok (some (.num e)) ∧
      result .determ I (detPrims c emb) mids (.slot .abError) (unsaved o) w1 = .ok (some (.num a)) ∧
      result .determ I (detPrims c emb) mids (.slot .sqError) (unsaved o) w1 = .ok (some (.num q)) ∧
      result .determ I (detPrims c emb) mids .rmse (unsaved o) w1 = .ok (some (.num r)) ∧
      result .determ I (detPrims c emb) mids (.slot .error) (unsaved o') w1' = .ok (some (.num e)) ∧
      result .determ I (detPrims c emb) mids (.slot .abError) (unsaved o') w1' = .ok (some (.num a)) ∧
      result .determ I (detPrims c emb) mids (.slot .sqError) (unsaved o') w1' = .ok (some (.num q)) ∧
      result .determ I (detPrims c emb) mids .rmse (unsaved o') w1' = .ok (some (.num r)) := by
  obtain ⟨hr, he, -⟩ := C75_construct_det h
  have hsh : oi.ext.f.shape = oi.ext.o.shape := he ▸ hr.shape
  obtain ⟨e, a, q, r, h1, h2, h3, h4, ⟨s1, s2, s3, s4⟩, h5⟩ := C75_det_metrics (I := I) h hb hok w1
  have hs := shape_takeAlong_perm oi.ext.f hσ
  obtain ⟨e', a', q', r', h1', h2', h3', h4', ⟨s1', s2', s3', s4'⟩, h5'⟩ :=
    C75_det_metrics (I := I) h' hb (by simpa [detTake, hs] using hok) w1'
  simp only [detTake, hs] at s1' h5'
  have hse : e'.shape = e.shape := s1'.trans s1.symm
  have hpt : ∀ k, InB e'.shape k → e'.get k = e.get k ∧ a'.get k = a.get k ∧ q'.get k = q.get k ∧
      r'.get k = r.get k := by
    intro k hk
    obtain ⟨g1, g2, g3, g4⟩ := h5 k (hse ▸ hk)
    obtain ⟨g1', g2', g3', g4'⟩ := h5' k hk
    have hp := pairsAt_averaged (k := k) hsh hn havg hσ
    have hq := isAvg_pool hp g3' g3
    exact ⟨isAvg_pool hp g1' g1, isAvg_pool hp g2' g2, hq, by rw [g4', g4, hq]⟩
  refine ⟨e, a, q, r, h1, h2, h3, h4, ?_, ?_, ?_, ?_⟩
  · rw [h1', ext_get hse fun k hk => (hpt k hk).1]
  · rw [h2', ext_get (s2'.trans (hse.trans s2.symm)) fun k hk => (hpt k (s2' ▸ hk)).2.1]
  · rw [h3', ext_get (s3'.trans (hse.trans s3.symm)) fun k hk => (hpt k (s3' ▸ hk)).2.2.1]
  · rw [h4', ext_get (s4'.trans (hse.trans s4.symm)) fun k hk => (hpt k (s4' ▸ hk)).2.2.2]

/-! ### ensembles -/

/-- an ensemble verifier whose data are selected along axis `n` of the forecasts, which is axis `m` of the
observations -/
def ensTake (n m : Nat) (σ : List Nat) (oi : Obj (EnsX K)) : Obj (EnsX K) :=
  { oi with ext := { oi.ext with f := takeAlong oi.ext.f n σ, o := takeAlong oi.ext.o m σ } }

theorem memberPool_select {f o : NDArr (Fl K)} {ax : Int} {B σ k : List Nat} {n : Nat} (hax : AxisOK f.shape.length ax)
    (hsh : o.shape = posShape f.shape ax) (hn : n < f.shape.length) (hne : n ≠ axisNum f.shape.length ax)
    (hσ : ∀ j ∈ σ, j < f.shape.getD n 0) (hB : keptPos [axisNum f.shape.length ax] n ∉ B)
    (hk : InB (dropAxes B (o.shape.set (keptPos [axisNum f.shape.length ax] n) σ.length)) k) :
    let m := keptPos [axisNum f.shape.length ax] n
    memberPool (takeAlong f n σ) (takeAlong o m σ) ax B k = memberPool f o ax B (lookAt (keptPos B m) σ k) := by
  intro m
  have hlt := axisNum_lt hax
  have hd : dropAxes [axisNum f.shape.length ax] f.shape = o.shape := by rw [dropAxes_single hlt, hsh]; rfl
  have hA : n ∉ [axisNum f.shape.length ax] := by simpa using hne
  have hm : m < o.shape.length := by rw [← hd]; exact keptPos_lt hn hA
  have hσ' : ∀ j ∈ σ, j < o.shape.getD m 0 := by rw [← hd, dropAxes_getD _ hA]; exact hσ
  unfold memberPool
  rw [shape_takeAlong, ← map_fiberIdx_kept (fun i => (o.get i, membersAt f ax i)) hm hB hσ' hk]
  refine List.map_congr_left fun i hi => ?_
  have hi := (mem_fiberIdx.1 hi).1
  rw [get_takeAlong o hi, membersAt_taken hn hne hσ (by rw [dropAxes_set, if_neg hA, hd]; exact hi)]

theorem memberPool_reorder {f o : NDArr (Fl K)} {ax : Int} {B σ k : List Nat} {n : Nat} (hax : AxisOK f.shape.length ax)
    (hsh : o.shape = posShape f.shape ax) (hn : n < f.shape.length) (hne : n ≠ axisNum f.shape.length ax)
    (hσ : σ.Perm (List.range (f.shape.getD n 0))) (hB : keptPos [axisNum f.shape.length ax] n ∈ B) :
    let m := keptPos [axisNum f.shape.length ax] n
    (memberPool (takeAlong f n σ) (takeAlong o m σ) ax B k).Perm (memberPool f o ax B k) := by
  intro m
  have hlt := axisNum_lt hax
  have hd : dropAxes [axisNum f.shape.length ax] f.shape = o.shape := by rw [dropAxes_single hlt, hsh]; rfl
  have hA : n ∉ [axisNum f.shape.length ax] := by simpa using hne
  have hm : m < o.shape.length := by rw [← hd]; exact keptPos_lt hn hA
  have hσ' : σ.Perm (List.range (o.shape.getD m 0)) := by rw [← hd, dropAxes_getD _ hA]; exact hσ
  have hlt' : ∀ j ∈ σ, j < f.shape.getD n 0 := fun j hj => by simpa using hσ.mem_iff.1 hj
  unfold memberPool
  refine .trans (.of_eq ?_) (map_fiberIdx_averaged (fun i => (o.get i, membersAt f ax i)) hm hB hσ')
  have e := shape_takeAlong_perm o hσ'
  rw [e]
  refine List.map_congr_left fun i hi => ?_
  have hi := (mem_fiberIdx.1 hi).1
  rw [← e, shape_takeAlong] at hi
  rw [get_takeAlong o hi, membersAt_taken hn hne hlt' (by rw [dropAxes_set, if_neg hA, hd]; exact hi)]

/-- **C84**, ensemble class: selecting along a kept axis commutes with the averaged CRPS. -/
theorem C84_crps_select {oi o o' : Obj (EnsX K)} {w w' w2 w2' : World (PyVal K)} {ax : Int} {n : Nat} {σ : List Nat}
    (h : construct (ensPrims c emb) mids oi w = (.ok o, w')) (hax : oi.ext.axis = some ax)
    (h' : construct (ensPrims c emb) mids (ensTake n (keptPos [axisNum oi.ext.f.shape.length ax] n) σ oi) w2 =
      (.ok o', w2')) (hb : oi.boot = .none)
    {pt : Fl K → List (Fl K) → Fl K} {split : Bool} (hc : ∀ o f ax, c.crpsEns o f ax = ensembleCrps pt split ax o f)
    (hne : 0 < oi.ext.o.shape.headD 0) (hpos : σ ≠ []) (hok : OptOK oi.ext.o.shape.length (axesOf oi.avg))
    (hn : n < oi.ext.f.shape.length) (hna : n ≠ axisNum oi.ext.f.shape.length ax)
    (hkept : keptPos [axisNum oi.ext.f.shape.length ax] n ∉ nums oi.ext.o.shape.length (axesOf oi.avg))
    (hσ : ∀ j ∈ σ, j < oi.ext.f.shape.getD n 0) (w1 w1' : World (PyVal K)) :
    ∃ r, result .ensemble I (ensPrims c emb) mids (.slot .crps) (unsaved o) w1 = .ok (some (.num r)) ∧
      result .ensemble I (ensPrims c emb) mids (.slot .crps) (unsaved o') w1' = .ok (some (.num (takeAlong r
        (keptPos (nums oi.ext.o.shape.length (axesOf oi.avg)) (keptPos [axisNum oi.ext.f.shape.length ax] n)) σ))) := by
  obtain ⟨ax0, fc, hr, -, hf, ho, -, hsame, -⟩ := C75_construct_ens h
  have hax0 := hsame ax hax
  subst hax0
  have hAx := hr.axisOK
  have hsh := hr.shape
  rw [hf] at hAx hsh
  rw [ho] at hsh
  set m := keptPos [axisNum oi.ext.f.shape.length ax0] n with hm
  set B := nums oi.ext.o.shape.length (axesOf oi.avg) with hB
  have hlt := axisNum_lt hAx
  have hd : dropAxes [axisNum oi.ext.f.shape.length ax0] oi.ext.f.shape = oi.ext.o.shape := by
    rw [dropAxes_single hlt, hsh]; rfl
  have hA : n ∉ [axisNum oi.ext.f.shape.length ax0] := by simpa using hna
  have hmo : m < oi.ext.o.shape.length := by rw [← hd]; exact keptPos_lt hn hA
  have hσ' : ∀ j ∈ σ, j < oi.ext.o.shape.getD m 0 := by rw [← hd, hm, dropAxes_getD _ hA]; exact hσ
  obtain ⟨ax1, r, h1, h2, h3, h4⟩ := C75_ens_crps (I := I) h hb hc hne hok w1
  have hne' : 0 < (oi.ext.o.shape.set m σ.length).headD 0 := by
    cases hs : oi.ext.o.shape with
    | nil => rw [hs] at hne; cases hne
    | cons x l =>
      rw [hs] at hne
      cases m with
      | zero => exact List.length_pos_iff.2 hpos
      | succ m => exact hne
  obtain ⟨ax2, r', h1', h2', h3', h4'⟩ := C75_ens_crps (I := I) h' hb hc (by simpa [ensTake, shape_takeAlong] using hne')
    (by simpa [ensTake, shape_takeAlong] using hok) w1'
  have e1 : ax1 = ax0 := by rw [hr.axis] at h1; cases h1; rfl
  obtain ⟨ax3, _, hr', -, -, -, -, hsame', -⟩ := C75_construct_ens h'
  have e2 : ax2 = ax0 := by
    rw [hr'.axis, hsame' ax0 hax] at h1'; cases h1'; rfl
  subst e1
  subst e2
  simp only [ensTake, shape_takeAlong, List.length_set] at h3' h4'
  rw [← hB] at h3 h4 h3' h4'
  have hdrop : dropAxes B (oi.ext.o.shape.set m σ.length) = r.shape.set (keptPos B m) σ.length := by
    rw [dropAxes_set, if_neg hkept, h3]
  refine ⟨r, h2, ?_⟩
  rw [h2', eq_takeAlong (h3'.trans hdrop) fun k hk => ?_]
  have g' := h4' k hk
  rw [h3'] at hk
  have hk2 : InB r.shape (lookAt (keptPos B m) σ k) := by
    rw [hdrop] at hk
    refine inB_lookAt ?_ ?_ hk
    · rw [h3]; exact keptPos_lt hmo hkept
    · rw [h3, dropAxes_getD _ hkept]; exact hσ'
  have g := h4 _ hk2
  have e : ∀ (f o : NDArr (Fl K)) (ax : Int) (B k : List Nat),
      ((fiberIdx o.shape B k).map fun i => pt (o.get i) (membersAt f ax i)) =
        (memberPool f o ax B k).map fun x => pt x.1 x.2 := by
    intro f o ax B k
    rw [memberPool, List.map_map]; rfl
  have eq := e (takeAlong oi.ext.f n σ) (takeAlong oi.ext.o m σ) ax2 B k
  rw [shape_takeAlong] at eq
  rw [eq, memberPool_select hAx hsh hn hna hσ hkept hk] at g'
  rw [e] at g
  exact isAvg_unique g' g

/-- **C84**, ensemble class: reordering along an averaged axis does not change the averaged CRPS. -/
theorem C84_crps_reorder {oi o o' : Obj (EnsX K)} {w w' w2 w2' : World (PyVal K)} {ax : Int} {n : Nat} {σ : List Nat}
    (h : construct (ensPrims c emb) mids oi w = (.ok o, w')) (hax : oi.ext.axis = some ax)
    (h' : construct (ensPrims c emb) mids (ensTake n (keptPos [axisNum oi.ext.f.shape.length ax] n) σ oi) w2 =
      (.ok o', w2')) (hb : oi.boot = .none)
    {pt : Fl K → List (Fl K) → Fl K} {split : Bool} (hc : ∀ o f ax, c.crpsEns o f ax = ensembleCrps pt split ax o f)
    (hne : 0 < oi.ext.o.shape.headD 0) (hok : OptOK oi.ext.o.shape.length (axesOf oi.avg))
    (hn : n < oi.ext.f.shape.length) (hna : n ≠ axisNum oi.ext.f.shape.length ax)
    (havg : keptPos [axisNum oi.ext.f.shape.length ax] n ∈ nums oi.ext.o.shape.length (axesOf oi.avg))
    (hσ : σ.Perm (List.range (oi.ext.f.shape.getD n 0))) (w1 w1' : World (PyVal K)) :
    ∃ r, result .ensemble I (ensPrims c emb) mids (.slot .crps) (unsaved o) w1 = .ok (some (.num r)) ∧
      result .ensemble I (ensPrims c emb) mids (.slot .crps) (unsaved o') w1' = .ok (some (.num r)) := by
  obtain ⟨ax0, fc, hr, -, hf, ho, -, hsame, -⟩ := C75_construct_ens h
  have hax0 := hsame ax hax
  subst hax0
  have hAx := hr.axisOK
  have hsh := hr.shape
  rw [hf] at hAx hsh
  rw [ho] at hsh
  have hlt := axisNum_lt hAx
  have hd : dropAxes [axisNum oi.ext.f.shape.length ax0] oi.ext.f.shape = oi.ext.o.shape := by
    rw [dropAxes_single hlt, hsh]; rfl
  have hA : n ∉ [axisNum oi.ext.f.shape.length ax0] := by simpa using hna
  have hso : (takeAlong oi.ext.o (keptPos [axisNum oi.ext.f.shape.length ax0] n) σ).shape = oi.ext.o.shape :=
    shape_takeAlong_perm _ (by rw [← hd, dropAxes_getD _ hA]; exact hσ)
  obtain ⟨ax1, r, h1, h2, h3, h4⟩ := C75_ens_crps (I := I) h hb hc hne hok w1
  obtain ⟨ax2, r', h1', h2', h3', h4'⟩ := C75_ens_crps (I := I) h' hb hc (by simpa [ensTake, hso] using hne)
    (by simpa [ensTake, hso] using hok) w1'
  have e1 : ax1 = ax0 := by rw [hr.axis] at h1; cases h1; rfl
  obtain ⟨ax3, _, hr', -, -, -, -, hsame', -⟩ := C75_construct_ens h'
  have e2 : ax2 = ax0 := by
    rw [hr'.axis, hsame' ax0 hax] at h1'; cases h1'; rfl
  subst e1
  subst e2
  simp only [ensTake, hso] at h3' h4'
  refine ⟨r, h2, ?_⟩
  rw [h2', ext_get (h3'.trans h3.symm) fun k hk => ?_]
  have g' := h4' k hk
  have g := h4 k (by rw [h3, ← h3']; exact hk)
  have e : ∀ (f o : NDArr (Fl K)) (ax : Int) (B k : List Nat),
      ((fiberIdx o.shape B k).map fun i => pt (o.get i) (membersAt f ax i)) =
        (memberPool f o ax B k).map fun x => pt x.1 x.2 := by
    intro f o ax B k
    rw [memberPool, List.map_map]; rfl
  have eq := e (takeAlong oi.ext.f n σ) (takeAlong oi.ext.o (keptPos [axisNum oi.ext.f.shape.length ax2] n) σ) ax2
    (nums oi.ext.o.shape.length (axesOf oi.avg)) k
  rw [hso] at eq
  rw [eq] at g'
  rw [e] at g
  exact isAvg_pool (memberPool_reorder hAx hsh hn hna hσ havg) g' g

/-! ### concrete cases -/

/-- three stations, two days -/
def stations : DetX ℚ :=
  ⟨⟨[3, 2], [some 1, some 2, some 3, some 5, some 8, some 13], rfl⟩,
   ⟨[3, 2], [some 2, some 2, some 1, none, some 4, some 4], rfl⟩⟩

def stationsO : Obj (DetX ℚ) := ⟨.int 1, .none, .none, some true, stations⟩

/-- The hypotheses can be met: the third and the first station, in that order; the days in reverse. -/
example : (∃ o w, construct detP noMids stationsO world0 = (.ok o, w) ∧
      numOf (result .determ intInfo detP noMids (.slot .error) (unsaved o) w) =
        some ([3], [some (-1 / 2), none, some (13 / 2)])) ∧
    (∃ o w, construct detP noMids (detTake 0 [2, 0] stationsO) world0 = (.ok o, w) ∧
      numOf (result .determ intInfo detP noMids (.slot .error) (unsaved o) w) =
        some ([2], [some (13 / 2), some (-1 / 2)])) ∧
    (∃ o w, construct detP noMids (detTake 1 [1, 0] stationsO) world0 = (.ok o, w) ∧
      numOf (result .determ intInfo detP noMids (.slot .error) (unsaved o) w) =
        some ([3], [some (-1 / 2), none, some (13 / 2)])) ∧
    OptOK stations.f.shape.length (axesOf stationsO.avg) ∧ 0 ∉ nums stations.f.shape.length (axesOf stationsO.avg) ∧
    1 ∈ nums stations.f.shape.length (axesOf stationsO.avg) ∧
    keptPos (nums stations.f.shape.length (axesOf stationsO.avg)) 0 = 0 ∧
    [1, 0].Perm (List.range (stations.f.shape.getD 1 0)) := by
  refine ⟨⟨_, _, rfl, by decide +kernel⟩, ⟨_, _, rfl, by decide +kernel⟩, ⟨_, _, rfl, by decide +kernel⟩, ?_, ?_, ?_, ?_, ?_⟩
  · exact ⟨by simp [AxisOK, stations], by decide +kernel⟩
  all_goals decide +kernel

/-- The claim needs the axis to be kept: selecting two of three samples of an averaged axis changes the error. -/
example : numOf (result .determ intInfo detP noMids (.slot .error) ⟨.tuple [1], .none, .none, some true,
      (detTake 1 [0] stationsO).ext⟩ world0) ≠
    numOf (result .determ intInfo detP noMids (.slot .error) ⟨.tuple [1], .none, .none, some true, stations⟩ world0) := by
  decide +kernel

/-- two members at three stations on two days; the ensemble axis comes first -/
def ensStations : EnsX ℚ :=
  ⟨⟨[2, 3, 2], [some 1, some 2, some 3, some 5, some 8, some 13, some 0, some 1, some 2, some 6, some 9, some 11], rfl⟩,
   ⟨[3, 2], [some 2, some 2, some 1, none, some 4, some 4], rfl⟩, some 0, member 0, none⟩

def ensStationsO : Obj (EnsX ℚ) := ⟨.int 1, .none, .none, some true, ensStations⟩

example : builtAxis (construct (ensPrims distCfg embInt) noMids ensStationsO world0) = some 0 ∧
    keptPos [axisNum ensStations.f.shape.length 0] 1 = 0 ∧ keptPos [axisNum ensStations.f.shape.length 0] 2 = 1 ∧
    builtAxis (construct (ensPrims distCfg embInt) noMids (ensTake 1 0 [2, 0] ensStationsO) world0) = some 0 ∧
    builtAxis (construct (ensPrims distCfg embInt) noMids (ensTake 2 1 [1, 0] ensStationsO) world0) = some 0 ∧
    0 ∉ nums ensStations.o.shape.length (axesOf ensStationsO.avg) ∧
    1 ∈ nums ensStations.o.shape.length (axesOf ensStationsO.avg) ∧ 0 < ensStations.o.shape.headD 0 := by
  decide +kernel

end Props
