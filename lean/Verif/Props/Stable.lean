import Verif.Lemmas.Stable
import Verif.Props.Members

/-!
# Small changes of the data: C108
-/

set_option linter.unusedSectionVars false

namespace Props
open Np NDArr Spec Model Lemmas

section
variable {K : Type} [Field K] [LinearOrder K] [IsStrictOrderedRing K] [FloorSemiring K]
variable {X A : Type} {C : Cls} {I : ArgInfo A} {P : Prims X (PyVal K) A} {mids : FS (PyVal K) → Path → List (FS (PyVal K))}
variable {c : Cfg K} {emb : A → Arg K} {obs : X → NDArr (Fl K)}

/-- the values of complete arrays that are near each other -/
theorem near_values {δ : K} {f g : NDArr (Fl K)} (h : NearArr δ f g) :
    ∃ x y : List Nat → K, ∀ i, InB f.shape i → f.get i = some (x i) ∧ g.get i = some (y i) ∧ |x i - y i| ≤ δ :=
  ⟨fun i => (f.get i).getD 0, fun i => (g.get i).getD 0, fun i hi => by
    obtain ⟨x, y, h1, h2, h3⟩ := h.2 i hi
    simpa [h1, h2] using h3⟩

/-- **C108**, every class: if the deterministic forecasts of two verifiers differ by at most `δ` everywhere and the
observations by at most `ε`, then `error()`, `ab_error()` and `rmse()` differ by at most `δ + ε`, and `sq_error()` by at
most `δ + ε` times the sum of the two `rmse()`. -/
theorem C108_errors (hP : Shared c obs emb P) (hs : IsSqrt c.sqrt) {o o' : Obj X} {axes : Option (List Int)}
    (hb : o.boot = .none) (hb' : o'.boot = .none) (hax : axisArg o.avg = .ok axes) (hax' : axisArg o'.avg = .ok axes)
    {w0 w0' : World (PyVal K)} {f f' : NDArr (Fl K)}
    (hf : result C I P mids (.slot .fDeterm) (unsaved o) w0 = .ok (some (.num f)))
    (hf' : result C I P mids (.slot .fDeterm) (unsaved o') w0' = .ok (some (.num f')))
    (hsh : f.shape = (obs o.ext).shape) {δ ε : K} (hδ : NearArr δ f f') (hε : NearArr ε (obs o.ext) (obs o'.ext))
    (h0 : 0 ∉ f.shape) (hok : OptOK f.shape.length axes) (w w' : World (PyVal K)) :
    ∃ e a q r e' a' q' r', (result C I P mids (.slot .error) (unsaved o) w = .ok (some (.num e)) ∧
      result C I P mids (.slot .abError) (unsaved o) w = .ok (some (.num a)) ∧
      result C I P mids (.slot .sqError) (unsaved o) w = .ok (some (.num q)) ∧
      result C I P mids .rmse (unsaved o) w = .ok (some (.num r))) ∧
      (result C I P mids (.slot .error) (unsaved o') w' = .ok (some (.num e')) ∧
      result C I P mids (.slot .abError) (unsaved o') w' = .ok (some (.num a')) ∧
      result C I P mids (.slot .sqError) (unsaved o') w' = .ok (some (.num q')) ∧
      result C I P mids .rmse (unsaved o') w' = .ok (some (.num r'))) ∧
      NearArr (δ + ε) e e' ∧ NearArr (δ + ε) a a' ∧ NearArr (δ + ε) r r' ∧
      ∀ k, InB q.shape k → ∃ x y u v, q.get k = some x ∧ q'.get k = some y ∧ r.get k = some u ∧ r'.get k = some v ∧
        |x - y| ≤ (δ + ε) * (u + v) := by
  have hsh' : f'.shape = (obs o'.ext).shape := by rw [← hδ.1, hsh, hε.1]
  obtain ⟨e, a, q, r, r1, r2, r3, r4, ⟨s1, s2, s3, s4⟩, hv⟩ := C75_errors (mids := mids) hP hb hax hf hsh hok w
  obtain ⟨e', a', q', r', r1', r2', r3', r4', ⟨s1', s2', s3', s4'⟩, hv'⟩ :=
    C75_errors (mids := mids) hP hb' hax' hf' hsh' (hδ.1 ▸ hok) w'
  rw [← hδ.1] at s1' hv'
  have see : e.shape = e'.shape := s1.trans s1'.symm
  obtain ⟨x, x', hx⟩ := near_values hδ
  obtain ⟨y, y', hy⟩ := near_values hε
  rw [← hsh] at hy
  have key : ∀ k, InB e.shape k → ∃ L : List (List Nat), L ≠ [] ∧
      (∀ i ∈ L, |(x i - y i) - (x' i - y' i)| ≤ δ + ε) ∧
      (e.get k = some (avg (L.map fun i => x i - y i)) ∧ a.get k = some (avg (L.map fun i => |x i - y i|)) ∧
        q.get k = some (avg (L.map fun i => (x i - y i) ^ 2)) ∧
        r.get k = some (c.sqrt (avg (L.map fun i => (x i - y i) ^ 2)))) ∧
      (e'.get k = some (avg (L.map fun i => x' i - y' i)) ∧ a'.get k = some (avg (L.map fun i => |x' i - y' i|)) ∧
        q'.get k = some (avg (L.map fun i => (x' i - y' i) ^ 2)) ∧
        r'.get k = some (c.sqrt (avg (L.map fun i => (x' i - y' i) ^ 2)))) := by
    intro k hk
    set L := fiberIdx f.shape (nums f.shape.length axes) k with hLdef
    have hL : L ≠ [] := fiberIdx_ne h0 (s1 ▸ hk)
    have hin : ∀ i ∈ L, InB f.shape i := fun i hi => (mem_fiberIdx.1 hi).1
    obtain ⟨g1, g2, g3, g4⟩ := hv k hk
    obtain ⟨g1', g2', g3', g4'⟩ := hv' k (see ▸ hk)
    simp only [pairsAt, ← hδ.1, List.map_map] at g1 g2 g3 g1' g2' g3'
    have q1 := isAvg_some' hL (h := fun i => (x i - y i) ^ 2) (fun i hi => by
      simp only [Function.comp, (hx i (hin i hi)).1, (hy i (hin i hi)).1, both]) g3
    have q1' := isAvg_some' hL (h := fun i => (x' i - y' i) ^ 2) (fun i hi => by
      simp only [Function.comp, (hx i (hin i hi)).2.1, (hy i (hin i hi)).2.1, both]) g3'
    refine ⟨L, hL, fun i hi => ?_, ⟨?_, ?_, q1, by rw [g4, q1]; rfl⟩, ?_, ?_, q1', by rw [g4', q1']; rfl⟩
    · have e : (x i - y i) - (x' i - y' i) = (x i - x' i) - (y i - y' i) := by ring
      rw [e]
      exact (abs_sub _ _).trans (add_le_add (hx i (hin i hi)).2.2 (hy i (hin i hi)).2.2)
    · exact isAvg_some' hL (fun i hi => by simp only [Function.comp, (hx i (hin i hi)).1, (hy i (hin i hi)).1, both]) g1
    · exact isAvg_some' hL (fun i hi => by simp only [Function.comp, (hx i (hin i hi)).1, (hy i (hin i hi)).1, both]) g2
    · exact isAvg_some' hL (fun i hi => by simp only [Function.comp, (hx i (hin i hi)).2.1, (hy i (hin i hi)).2.1, both]) g1'
    · exact isAvg_some' hL (fun i hi => by simp only [Function.comp, (hx i (hin i hi)).2.1, (hy i (hin i hi)).2.1, both]) g2'
  refine ⟨e, a, q, r, e', a', q', r', ⟨r1, r2, r3, r4⟩, ⟨r1', r2', r3', r4'⟩, ⟨see, fun k hk => ?_⟩,
    ⟨by rw [s2, s2', see], fun k hk => ?_⟩, ⟨by rw [s4, s4', see], fun k hk => ?_⟩, fun k hk => ?_⟩
  · obtain ⟨L, hL, hd, ⟨v1, -⟩, v1', -⟩ := key k hk
    exact ⟨_, _, v1, v1', avg_near hL hd⟩
  · obtain ⟨L, hL, hd, ⟨-, v1, -⟩, -, v1', -⟩ := key k (s2 ▸ hk)
    exact ⟨_, _, v1, v1', avg_near hL fun i hi => (abs_abs_sub_abs_le _ _).trans (hd i hi)⟩
  · obtain ⟨L, hL, hd, ⟨-, -, -, v1⟩, -, -, -, v1'⟩ := key k (s4 ▸ hk)
    exact ⟨_, _, v1, v1', rms_near hs hL hd⟩
  · obtain ⟨L, hL, hd, ⟨-, -, v1, v2⟩, -, -, v1', v2'⟩ := key k (s3 ▸ hk)
    refine ⟨_, _, _, _, v1, v1', v2, v2', ?_⟩
    have p1 : 0 ≤ avg (L.map fun i => (x i - y i) ^ 2) := avg_nonneg' L fun i _ => sq_nonneg _
    have p2 : 0 ≤ avg (L.map fun i => (x' i - y' i) ^ 2) := avg_nonneg' L fun i _ => sq_nonneg _
    have n1 := hs.nonneg _ p1
    have n2 := hs.nonneg _ p2
    have hr := rms_near hs hL hd
    have e1 : avg (L.map fun i => (x i - y i) ^ 2) - avg (L.map fun i => (x' i - y' i) ^ 2) =
        (c.sqrt (avg (L.map fun i => (x i - y i) ^ 2)) - c.sqrt (avg (L.map fun i => (x' i - y' i) ^ 2))) *
        (c.sqrt (avg (L.map fun i => (x i - y i) ^ 2)) + c.sqrt (avg (L.map fun i => (x' i - y' i) ^ 2))) := by
      linear_combination -hs.sq _ p1 + hs.sq _ p2
    rw [e1, abs_mul, abs_of_nonneg (add_nonneg n1 n2)]
    exact mul_le_mul_of_nonneg_right hr (add_nonneg n1 n2)

/-- two constructions of ensemble verifiers with the same settings, from members that differ by at most `δ` and
observations that differ by at most `ε` -/
structure NearEns (δ ε : K) (oi oi' : Obj (EnsX K)) : Prop where
  f : NearArr δ oi.ext.f oi'.ext.f
  o : NearArr ε oi.ext.o oi'.ext.o
  axis : oi.ext.axis = oi'.ext.axis
  avg : oi.avg = oi'.avg
  boot : oi.boot = .none
  boot' : oi'.boot = .none

theorem same_axis {δ ε : K} {oi oi' o o' : Obj (EnsX K)} (hn : NearEns δ ε oi oi') {w w1 w' w1' : World (PyVal K)}
    (h : construct (ensPrims c emb) mids oi w = (.ok o, w1)) (h' : construct (ensPrims c emb) mids oi' w' = (.ok o', w1'))
    {ax ax' : Int} (ha : o.ext.axis = some ax) (ha' : o'.ext.axis = some ax') : ax = ax' := by
  obtain ⟨b, fc, h1, -, -, -, -, h2, h3⟩ := C75_construct_ens h
  obtain ⟨b', fc', h1', -, -, -, -, h2', h3'⟩ := C75_construct_ens h'
  obtain rfl : ax = b := Option.some.inj (ha.symm.trans h1.axis)
  obtain rfl : ax' = b' := Option.some.inj (ha'.symm.trans h1'.axis)
  rw [← hn.axis, ← hn.f.1, ← hn.o.1] at h3'
  rw [← hn.axis] at h2'
  rcases hx : oi.ext.axis with _ | a
  · rcases h3 hx with ⟨e, q⟩ | ⟨e, q, -⟩ <;> rcases h3' hx with ⟨e', q'⟩ | ⟨e', q', -⟩
    · rw [e, e']
    · exact absurd q q'
    · exact absurd q' q
    · rw [e, e']
  · rw [h2 a hx, h2' a hx]

theorem near_members {δ : K} {f f' : NDArr (Fl K)} (h : NearArr δ f f') (ax : Int) (k : List Nat) :
    ∃ Q : List (K × K), membersAt f ax k = (Q.map Prod.fst).map some ∧ membersAt f' ax k = (Q.map Prod.snd).map some ∧
      (∀ p ∈ Q, |p.1 - p.2| ≤ δ) ∧ ∀ p ∈ Q, ∃ i, InB f.shape i ∧ f.get i = some p.1 := by
  obtain ⟨x, y, hxy⟩ := near_values h
  refine ⟨(fiberIdx f.shape [axisNum f.shape.length ax] k).map fun i => (x i, y i), ?_, ?_, ?_, ?_⟩
  · simp only [membersAt, fiber, List.map_map]
    exact List.map_congr_left fun i hi => (hxy i (mem_fiberIdx.1 hi).1).1
  · simp only [membersAt, fiber, List.map_map, ← h.1]
    exact List.map_congr_left fun i hi => (hxy i (mem_fiberIdx.1 hi).1).2.1
  · intro p hp
    obtain ⟨i, hi, rfl⟩ := List.mem_map.1 hp
    exact (hxy i (mem_fiberIdx.1 hi).1).2.2
  · intro p hp
    obtain ⟨i, hi, rfl⟩ := List.mem_map.1 hp
    exact ⟨i, (mem_fiberIdx.1 hi).1, (hxy i (mem_fiberIdx.1 hi).1).1⟩

theorem near_complete {δ : K} {f f' : NDArr (Fl K)} (h : NearArr δ f f') :
    (∀ i, InB f.shape i → f.get i ≠ none) ∧ ∀ i, InB f'.shape i → f'.get i ≠ none := by
  constructor
  · intro i hi
    obtain ⟨x, y, h1, -⟩ := h.2 i hi
    rw [h1]; simp
  · intro i hi
    obtain ⟨x, y, -, h1, -⟩ := h.2 i (h.1 ▸ hi)
    rw [h1]; simp

theorem no_none {f : NDArr (Fl K)} (h : ∀ i, InB f.shape i → f.get i ≠ none) : none ∉ f.data := by
  rw [data_eq]
  intro hc
  obtain ⟨i, hi, he⟩ := List.mem_map.1 hc
  exact h i (mem_allIdx.1 hi) he

theorem present_some' (l : List K) : present (l.map some) = l := by
  simp [present]

/-- **C108**, ensembles: `spread()` changes by at most `2 δ`. -/
theorem C108_spread {δ ε : K} {oi oi' o o' : Obj (EnsX K)} (hn : NearEns δ ε oi oi') {w w1 w' w1' : World (PyVal K)}
    (h : construct (ensPrims c emb) mids oi w = (.ok o, w1)) (h' : construct (ensPrims c emb) mids oi' w' = (.ok o', w1'))
    (h0 : 0 ∉ oi.ext.f.shape) (hok : OptOK oi.ext.o.shape.length (axesOf oi.avg)) (w2 w2' : World (PyVal K)) :
    ∃ r r', result .ensemble I (ensPrims c emb) mids (.slot .spread) (unsaved o) w2 = .ok (some (.num r)) ∧
      result .ensemble I (ensPrims c emb) mids (.slot .spread) (unsaved o') w2' = .ok (some (.num r')) ∧
      NearArr (2 * δ) r r' := by
  obtain ⟨c1, c2⟩ := near_complete hn.f
  obtain ⟨ax, var, spr, r, a0, -, r1, -, s1, v1, r2, r3⟩ := C75_ens_spread (I := I) h hn.boot c1 h0 hok w2
  obtain ⟨ax', var', spr', r', a0', -, r1', -, s1', v1', r2', r3'⟩ := C75_ens_spread (I := I) h' hn.boot' c2
    (hn.f.1 ▸ h0) (hn.o.1 ▸ hn.avg ▸ hok) w2'
  obtain rfl := same_axis hn h h' a0 a0'
  rw [← hn.o.1, ← hn.avg] at r2' r3'
  rw [← hn.o.1] at s1' v1'
  obtain ⟨b, fc, h1, -, h3, h4, -⟩ := C75_construct_ens h
  have hb := h1.axis
  rw [a0] at hb
  cases hb
  have hsh := h1.shape
  rw [h3, h4] at hsh
  have hpos : 0 ∉ oi.ext.o.shape := by
    rw [hsh, posShape]
    exact fun h => h0 (List.eraseIdx_subset h)
  have hs : NearArr (2 * δ) spr spr' := by
    refine ⟨s1.trans s1'.symm, fun i hi => ?_⟩
    rw [s1] at hi
    obtain ⟨-, hi1, lo1, m1, m2, m3, e1⟩ := v1 i hi
    obtain ⟨-, hi2, lo2, m1', m2', m3', e1'⟩ := v1' i hi
    obtain ⟨Q, q1, q2, q3, -⟩ := near_members hn.f ax i
    simp only [membersAt] at q1 q2
    rw [q1, present_some'] at m1 m2 m3
    rw [q2, present_some'] at m1' m2' m3'
    exact ⟨_, _, e1, e1', range_near q3 m1 m2 m3 m1' m2' m3'⟩
  obtain ⟨x, y, hxy⟩ := near_values hs
  refine ⟨r, r', r1, r1', r2.trans r2'.symm, fun k hk => ?_⟩
  have g := r3 k hk
  have g' := r3' k (by rw [r2', ← r2]; exact hk)
  rw [r2] at hk
  simp only [fiber, s1, s1'] at g g'
  have hL := fiberIdx_ne hpos hk
  have hin : ∀ i ∈ fiberIdx oi.ext.o.shape (nums oi.ext.o.shape.length (axesOf oi.avg)) k, InB spr.shape i :=
    fun i hi => s1 ▸ (mem_fiberIdx.1 hi).1
  exact ⟨_, _, isAvg_some' hL (fun i hi => (hxy i (hin i hi)).1) g, isAvg_some' hL (fun i hi => (hxy i (hin i hi)).2.1) g',
    avg_near hL fun i hi => (hxy i (hin i hi)).2.2⟩

/-- **C108**, ensembles collapsed by the mean: the deterministic forecasts differ by at most `δ`, so that `C108_errors`
applies. -/
theorem C108_mean {δ ε : K} {oi oi' o o' : Obj (EnsX K)} (hn : NearEns δ ε oi oi') {w w1 w' w1' : World (PyVal K)}
    (h : construct (ensPrims c emb) mids oi w = (.ok o, w1)) (h' : construct (ensPrims c emb) mids oi' w' = (.ok o', w1'))
    (hg : ∀ f ax, oi.ext.collapse f ax = reduceAxes mean f (some [ax]))
    (hg' : ∀ f ax, oi'.ext.collapse f ax = reduceAxes mean f (some [ax]))
    (h0 : 0 ∉ oi.ext.f.shape) (w2 w2' : World (PyVal K)) :
    ∃ d d', result .ensemble I (ensPrims c emb) mids (.slot .fDeterm) (unsaved o) w2 = .ok (some (.num d)) ∧
      result .ensemble I (ensPrims c emb) mids (.slot .fDeterm) (unsaved o') w2' = .ok (some (.num d')) ∧
      d.shape = oi.ext.o.shape ∧ NearArr δ d d' := by
  obtain ⟨ax, fc, h1, h2, h3, h4, -⟩ := C75_construct_ens h
  obtain ⟨ax', fc', h1', h2', h3', h4', -⟩ := C75_construct_ens h'
  obtain rfl := same_axis hn h h' h1.axis h1'.axis
  have hax := h1.axisOK
  have hsh := h1.shape
  rw [h3] at hax hsh
  rw [h4] at hsh
  obtain ⟨d, r1, r2, r3⟩ := reduceAxes_spec mean oi.ext.f (axes := some [ax]) ⟨by simpa using hax, by simp⟩
  obtain ⟨d', r1', r2', r3'⟩ := reduceAxes_spec mean oi'.ext.f (axes := some [ax])
    ⟨by rw [← hn.f.1]; simpa using hax, by simp⟩
  rw [hg, r1, Except.ok.injEq] at h2
  rw [hg', r1', Except.ok.injEq] at h2'
  subst h2 h2'
  have hs : d.shape = oi.ext.o.shape := by
    rw [r2, hsh]
    exact dropAxes_single (axisNum_lt hax)
  refine ⟨d, d', fDeterm_ens h1 w2, fDeterm_ens h1' w2', hs, by rw [r2, r2', hn.f.1], fun i hi => ?_⟩
  rw [r2] at hi
  have e := r3 i hi
  have e' := r3' i (by rw [← hn.f.1]; exact hi)
  obtain ⟨Q, q1, q2, q3, -⟩ := near_members hn.f ax i
  have hQ : Q ≠ [] := by
    intro hc
    have hl : (membersAt oi.ext.f ax i).length = 0 := by rw [q1, hc]; rfl
    rw [membersAt_length oi.ext.f hax (by rw [← hsh, ← hs, r2]; exact hi)] at hl
    have hlt := axisNum_lt hax
    rw [List.getD_eq_getElem?_getD, List.getElem?_eq_getElem hlt, Option.getD_some] at hl
    exact h0 (hl ▸ List.getElem_mem hlt)
  have n1 : fiber oi.ext.f (nums oi.ext.f.shape.length (some [ax])) i = (Q.map Prod.fst).map some := q1
  have n2 : fiber oi'.ext.f (nums oi'.ext.f.shape.length (some [ax])) i = (Q.map Prod.snd).map some := q2
  rw [n1, mean_some _ (by simpa using hQ)] at e
  rw [n2, mean_some _ (by simpa using hQ)] at e'
  exact ⟨_, _, e, e', avg_near hQ q3⟩

theorem frac_some (l : List K) (t : K) : fractionLe (l.map some) (some t) =
    if l = [] then none else some (((l.filter fun x => decide (x ≤ t)).length : K) / (l.length : K)) := by
  classical
  unfold fractionLe
  have : ∀ x : K, LeP (some x) (some t) ↔ x ≤ t := fun x => by simp [LeP]
  simp only [List.map_eq_nil_iff, List.filter_map, List.length_map, Function.comp_def, this]

/-- **C108**, ensembles: a Brier score or probability does not change at all, as long as no member comes within `δ` and no
observation within `ε` of the threshold. -/
theorem C108_brier {δ ε : K} {oi oi' o o' : Obj (EnsX K)} (hn : NearEns δ ε oi oi') {w w1 w' w1' : World (PyVal K)}
    (h : construct (ensPrims c emb) mids oi w = (.ok o, w1)) (h' : construct (ensPrims c emb) mids oi' w' = (.ok o', w1'))
    (hm : c.method = .moments) {a : A} (ha : Printable I a) {t : K} (hemb : emb a = .thr (.scalar (some t)))
    (h0 : 0 ∉ oi.ext.f.shape) (hok : OptOK oi.ext.o.shape.length (axesOf oi.avg))
    (hf : ∀ i x, InB oi.ext.f.shape i → oi.ext.f.get i = some x → δ < |x - t|)
    (ho : ∀ i y, InB oi.ext.o.shape i → oi.ext.o.get i = some y → ε < |y - t|)
    (isOver : Bool) (w2 w2' : World (PyVal K)) :
    ∃ p p' r r', result .ensemble I (ensPrims c emb) mids (.slot (.cdf (overArg isOver a) (belowArg isOver a))) (unsaved o) w2 =
        .ok (some (.num p)) ∧
      result .ensemble I (ensPrims c emb) mids (.slot (.cdf (overArg isOver a) (belowArg isOver a))) (unsaved o') w2' =
        .ok (some (.num p')) ∧
      result .ensemble I (ensPrims c emb) mids (.slot (.brier (overArg isOver a) (belowArg isOver a))) (unsaved o) w2 =
        .ok (some (.num r)) ∧
      result .ensemble I (ensPrims c emb) mids (.slot (.brier (overArg isOver a) (belowArg isOver a))) (unsaved o') w2' =
        .ok (some (.num r')) ∧
      (p.shape = p'.shape ∧ ∀ i, InB p.shape i → p.get i = p'.get i) ∧
      r.shape = r'.shape ∧ ∀ k, InB r.shape k → r.get k = r'.get k := by
  obtain ⟨ax, fc, h1, -, h3, h4, -⟩ := C75_construct_ens h
  obtain ⟨ax', fc', h1', -, h3', h4', -⟩ := C75_construct_ens h'
  obtain rfl := same_axis hn h h' h1.axis h1'.axis
  have hsh := h1.shape
  rw [h3, h4] at hsh
  have hprod : oi.ext.o.shape.prod ≠ 0 := by
    rw [hsh, posShape]
    exact List.prod_ne_zero fun h => h0 (List.eraseIdx_subset h)
  obtain ⟨p, p1, p2, p3⟩ := C75_ens_cdf (mids := mids) (I := I) h1 hm ha hemb (by trivial) (by rw [h4]; exact hprod) isOver w2
  obtain ⟨p', p1', p2', p3'⟩ := C75_ens_cdf (mids := mids) (I := I) h1' hm ha hemb (by trivial)
    (by rw [h4', ← hn.o.1]; exact hprod) isOver w2'
  obtain ⟨b, r, b0, r1, r2, r3⟩ := C75_ens_brier (I := I) h hn.boot hm ha hemb (by trivial) hprod hok isOver w2
  obtain ⟨b', r', b0', r1', r2', r3'⟩ := C75_ens_brier (I := I) h' hn.boot' hm ha hemb (by trivial)
    (by rw [← hn.o.1]; exact hprod) (hn.o.1 ▸ hn.avg ▸ hok) isOver w2'
  have hb1 := h1.axis
  rw [b0] at hb1
  cases hb1
  have hb1 := h1'.axis
  rw [b0'] at hb1
  cases hb1
  rw [← hn.o.1, ← hn.avg] at r2' r3'
  rw [h4] at p2 p3
  rw [h4', ← hn.o.1] at p2' p3'
  have side : ∀ {x y d : K}, |x - y| ≤ d → d < |x - t| → (x ≤ t ↔ y ≤ t) ∧ (x < t ↔ y < t) ∧ (t < x ↔ t < y) := by
    intro x y d hxy hd
    obtain ⟨a1, a2⟩ := abs_sub_le_iff.1 hxy
    rcases lt_abs.1 hd with hd | hd
    · exact ⟨⟨fun _ => by linarith, fun _ => by linarith⟩, ⟨fun _ => by linarith, fun _ => by linarith⟩,
        ⟨fun _ => by linarith, fun _ => by linarith⟩⟩
    · exact ⟨⟨fun _ => by linarith, fun _ => by linarith⟩, ⟨fun _ => by linarith, fun _ => by linarith⟩,
        ⟨fun _ => by linarith, fun _ => by linarith⟩⟩
  have hens : ∀ i, ensProb isOver (.scalar (some t)) oi.ext.f ax i = ensProb isOver (.scalar (some t)) oi'.ext.f ax i := by
    intro i
    have : fractionLe (membersAt oi.ext.f ax i) (some t) = fractionLe (membersAt oi'.ext.f ax i) (some t) := by
      obtain ⟨Q, q1, q2, q3, q4⟩ := near_members hn.f ax i
      rw [q1, q2, frac_some, frac_some]
      simp only [List.map_eq_nil_iff, List.filter_map, List.length_map, Function.comp_def]
      have : (Q.filter fun p => decide (p.1 ≤ t)) = Q.filter fun p => decide (p.2 ≤ t) := by
        refine List.filter_congr fun p hp => ?_
        obtain ⟨j, j1, j2⟩ := q4 p hp
        simp only [(side (q3 p hp) (hf j _ j1 j2)).1]
      rw [this]
    simp only [ensProb, thrAt, this]
  have hev : ∀ i, InB oi.ext.o.shape i →
      (Event isOver (.scalar (some t)) oi.ext.o i ↔ Event isOver (.scalar (some t)) oi'.ext.o i) := by
    intro i hi
    obtain ⟨x, y, e1, e2, e3⟩ := hn.o.2 i hi
    obtain ⟨-, s1, s2⟩ := side e3 (ho i x hi e1)
    cases isOver <;> simp [Event, thrAt, LtP, e1, e2, s1, s2]
  refine ⟨p, p', r, r', p1, p1', r1, r1', ⟨p2.trans p2'.symm, fun i hi => ?_⟩, r2.trans r2'.symm, fun k hk => ?_⟩
  · rw [p2] at hi
    rw [p3 i hi, p3' i hi, h3, h3', hens]
  · have g := r3 k hk
    have g' := r3' k (by rw [r2', ← r2]; exact hk)
    have e : ((fiberIdx oi.ext.o.shape (nums oi.ext.o.shape.length (axesOf oi.avg)) k).map fun i =>
        (ensProb isOver (.scalar (some t)) oi.ext.f ax i).map fun v =>
          (v - indicator (Event isOver (.scalar (some t)) oi.ext.o i)) ^ 2) =
        (fiberIdx oi.ext.o.shape (nums oi.ext.o.shape.length (axesOf oi.avg)) k).map fun i =>
        (ensProb isOver (.scalar (some t)) oi'.ext.f ax i).map fun v =>
          (v - indicator (Event isOver (.scalar (some t)) oi'.ext.o i)) ^ 2 := by
      refine List.map_congr_left fun i hi => ?_
      have hp := propext (hev i (mem_fiberIdx.1 hi).1)
      rw [hens, hp]
    rw [e] at g
    exact isAvg_unique g g'

end

/-- **C108**, ensembles over the real numbers: `crps()` is the average, over the positions pooled, of the mean distance of
the observation from the interval between two members; it changes by at most `δ + ε`. -/
theorem C108_crps {A : Type} {I : ArgInfo A} {mids : FS (PyVal ℝ) → Path → List (FS (PyVal ℝ))} {c : Cfg ℝ} {emb : A → Arg ℝ}
    {δ ε : ℝ} {oi oi' o o' : Obj (EnsX ℝ)} (hn : NearEns δ ε oi oi') {w w1 w' w1' : World (PyVal ℝ)}
    (h : construct (ensPrims c emb) mids oi w = (.ok o, w1)) (h' : construct (ensPrims c emb) mids oi' w' = (.ok o', w1'))
    {pt : Fl ℝ → List (Fl ℝ) → Fl ℝ} (hpt : IsEnergyScore pt) {split : Bool}
    (hc : ∀ o f ax, c.crpsEns o f ax = ensembleCrps pt split ax o f) (hs : oi.ext.o.shape ≠ [])
    (h0 : 0 ∉ oi.ext.f.shape) (hok : OptOK oi.ext.o.shape.length (axesOf oi.avg)) (w2 w2' : World (PyVal ℝ)) :
    ∃ ax r r', o.ext.axis = some ax ∧
      result .ensemble I (ensPrims c emb) mids (.slot .crps) (unsaved o) w2 = .ok (some (.num r)) ∧
      result .ensemble I (ensPrims c emb) mids (.slot .crps) (unsaved o') w2' = .ok (some (.num r')) ∧
      (∀ k, InB r.shape k → r.get k =
        some (avg ((fiberIdx oi.ext.o.shape (nums oi.ext.o.shape.length (axesOf oi.avg)) k).map fun i =>
          let M := present (membersAt oi.ext.f ax i)
          avg (M.map fun a => avg (M.map fun b => gap a b ((oi.ext.o.get i).getD 0)))))) ∧
      NearArr (δ + ε) r r' := by
  have hcomp : ∀ {η : ℝ} {f f' : NDArr (Fl ℝ)}, NearArr η f f' → none ∉ f.data ∧ none ∉ f'.data := by
    intro η f f' hf
    obtain ⟨a, b⟩ := near_complete hf
    exact ⟨no_none a, no_none b⟩
  obtain ⟨ax, r, a0, r1, r2, Y, M, m1, r3⟩ := C88_crps (I := I) h hn.boot hpt hc hs h0 (hcomp hn.f).1 (hcomp hn.o).1 hok w2
  obtain ⟨ax', r', a0', r1', r2', Y', M', m1', r3'⟩ := C88_crps (I := I) h' hn.boot' hpt hc (hn.o.1 ▸ hs) (hn.f.1 ▸ h0)
    (hcomp hn.f).2 (hcomp hn.o).2 (hn.o.1 ▸ hn.avg ▸ hok) w2'
  obtain rfl := same_axis hn h h' a0 a0'
  rw [← hn.o.1, ← hn.avg] at r2' r3'
  rw [← hn.o.1] at m1'
  obtain ⟨b, fc, h1, -, h3, h4, -⟩ := C75_construct_ens h
  have hb := h1.axis
  rw [a0] at hb
  cases hb
  have hsh := h1.shape
  rw [h3, h4] at hsh
  have hpos : 0 ∉ oi.ext.o.shape := by
    rw [hsh, posShape]
    exact fun h => h0 (List.eraseIdx_subset h)
  refine ⟨ax, r, r', a0, r1, r1', fun k hk => ?_, r2.trans r2'.symm, fun k hk => ?_⟩
  · rw [r3 k hk]
    congr 2
    refine List.map_congr_left fun i hi => ?_
    obtain ⟨e1, e2, e3, -⟩ := m1 i (mem_fiberIdx.1 hi).1
    rw [energyScore_gap _ e3, e1, e2, present_some']
    rfl
  · refine ⟨_, _, r3 k hk, r3' k (by rw [r2', ← r2]; exact hk), avg_near (fiberIdx_ne hpos (r2 ▸ hk)) fun i hi => ?_⟩
    have hi' := (mem_fiberIdx.1 hi).1
    obtain ⟨e1, e2, e3, -⟩ := m1 i hi'
    obtain ⟨e1', e2', e3', -⟩ := m1' i hi'
    obtain ⟨Q, q1, q2, q3, -⟩ := near_members hn.f ax i
    obtain ⟨x, y, y1, y2, y3⟩ := hn.o.2 i hi'
    have inj := List.map_injective_iff.2 (Option.some_injective ℝ)
    rw [inj (e2.symm.trans q1)] at e3 ⊢
    rw [inj (e2'.symm.trans q2)]
    cases e1.symm.trans y1
    cases e1'.symm.trans y2
    exact energyScore_near (by simpa using e3) q3 y3

/-- one member `v` and the observation 1 -/
noncomputable def jumpR (v : ℝ) : Obj (EnsX ℝ) := ⟨.none, .none, .none, some true,
  ⟨⟨[1, 1], [some v], rfl⟩, ⟨[1], [some 1], rfl⟩, some 0, fun f ax => reduceAxes mean f (some [ax]), none⟩⟩

theorem jump_near {u v δ : ℝ} (h : |u - v| ≤ δ) : NearEns δ 0 (jumpR u) (jumpR v) where
  f := ⟨rfl, fun i hi => by
    rw [← mem_allIdx] at hi
    have hi : i ∈ allIdx [1, 1] := hi
    fin_cases hi
    exact ⟨u, v, rfl, rfl, h⟩⟩
  o := ⟨rfl, fun i hi => by
    rw [← mem_allIdx] at hi
    have hi : i ∈ allIdx [1] := hi
    fin_cases hi
    exact ⟨1, 1, rfl, rfl, by simp⟩⟩
  axis := rfl
  avg := rfl
  boot := rfl
  boot' := rfl

theorem jump_built (v : ℝ) : ∃ o w', construct (ensPrims cfgR embReal) noMids (jumpR v) world0 = (.ok o, w') := ⟨_, _, rfl⟩

/-- the Brier score of exceeding 0 -/
theorem jump_brier {v : ℝ} {o : Obj (EnsX ℝ)} {w' : World (PyVal ℝ)}
    (h : construct (ensPrims cfgR embReal) noMids (jumpR v) world0 = (.ok o, w')) :
    ∃ r, result .ensemble realInfo (ensPrims cfgR embReal) noMids (.slot (.brier (some 0) none)) (unsaved o) world0 =
      .ok (some (.num r)) ∧ r.get [] = some (if v ≤ 0 then 1 else 0) := by
  obtain ⟨ax, r, a0, r1, r2, r3⟩ := C75_ens_brier (I := realInfo) (a := (0 : ℝ)) (t := .scalar (some 0)) h rfl rfl
    (fun h => by cases h) rfl trivial (by simp [jumpR]) trivial true world0
  refine ⟨r, r1, ?_⟩
  obtain ⟨b, fc, h1, -, h3, h4, -, d2, -⟩ := C75_construct_ens h
  have hb := h1.axis
  rw [a0] at hb
  cases hb
  obtain rfl : ax = 0 := d2 0 rfl
  have g := r3 [] (by
    rw [r2]
    show InB (dropAxes (nums 1 none) [1]) []
    decide)
  have hfib : fiberIdx (jumpR v).ext.o.shape (nums (jumpR v).ext.o.shape.length (axesOf (jumpR v).avg)) [] = [[0]] := by
    show fiberIdx [1] (nums 1 none) [] = [[0]]
    decide
  rw [hfib] at g
  refine (isAvg_some' (L := [[0]]) (h := fun _ => if v ≤ 0 then (1 : ℝ) else 0) (by simp) (fun i hi => ?_) g).trans (by simp [avg])
  obtain rfl : i = [0] := by simpa using hi
  have hm : membersAt (jumpR v).ext.f 0 [0] = [v].map some := rfl
  have ho : (jumpR v).ext.o.get [0] = some 1 := rfl
  simp only [ensProb, thrAt, hm, frac_some, Event, ho, if_true]
  have he : LtP (some (0 : ℝ)) (some 1) := ⟨0, 1, rfl, rfl, zero_lt_one⟩
  rw [indicator, if_pos he]
  by_cases hv : v ≤ 0
  · simp [hv, Fl.sub, Fl.lift2]
  · simp [hv, Fl.sub, Fl.lift2]

/-- **C108**: `brier()` has no such bound. However small `δ`, there are verifiers whose members differ by at most `δ` and
whose observations are the same, with Brier scores 0 and 1. -/
theorem C108_jump {δ : ℝ} (hδ : 0 < δ) : ∃ oi oi' o o' w w' r r', NearEns δ 0 oi oi' ∧
    construct (ensPrims cfgR embReal) noMids oi world0 = (.ok o, w) ∧
    construct (ensPrims cfgR embReal) noMids oi' world0 = (.ok o', w') ∧
    result .ensemble realInfo (ensPrims cfgR embReal) noMids (.slot (.brier (some 0) none)) (unsaved o) world0 =
      .ok (some (.num r)) ∧
    result .ensemble realInfo (ensPrims cfgR embReal) noMids (.slot (.brier (some 0) none)) (unsaved o') world0 =
      .ok (some (.num r')) ∧ r.get [] = some 0 ∧ r'.get [] = some 1 := by
  obtain ⟨o, w, h⟩ := jump_built δ
  obtain ⟨o', w', h'⟩ := jump_built 0
  obtain ⟨r, r1, r2⟩ := jump_brier h
  obtain ⟨r', r1', r2'⟩ := jump_brier h'
  exact ⟨jumpR δ, jumpR 0, o, o', w, w', r, r', jump_near (by rw [sub_zero, abs_of_pos hδ]), h, h', r1, r1',
    by rw [r2, if_neg (not_le.2 hδ)], by rw [r2', if_pos le_rfl]⟩

/-! ### cases -/

/-- A member 2 that becomes 9/4, with observation 1: `crps()` and `spread()` of both exist and are near, the probability of
exceeding 0 and its Brier score are the same, and so are the deterministic errors up to 1/4. -/
example : ∃ o o' w w', construct (ensPrims cfgR embReal) noMids (jumpR 2) world0 = (.ok o, w) ∧
    construct (ensPrims cfgR embReal) noMids (jumpR (9 / 4)) world0 = (.ok o', w') ∧
    (∃ r r', result .ensemble realInfo (ensPrims cfgR embReal) noMids (.slot .crps) (unsaved o) world0 = .ok (some (.num r)) ∧
      result .ensemble realInfo (ensPrims cfgR embReal) noMids (.slot .crps) (unsaved o') world0 = .ok (some (.num r')) ∧
      NearArr (1 / 4 + 0) r r') ∧
    (∃ r r', result .ensemble realInfo (ensPrims cfgR embReal) noMids (.slot .spread) (unsaved o) world0 = .ok (some (.num r)) ∧
      result .ensemble realInfo (ensPrims cfgR embReal) noMids (.slot .spread) (unsaved o') world0 = .ok (some (.num r')) ∧
      NearArr (2 * (1 / 4)) r r') ∧
    (∃ r r', result .ensemble realInfo (ensPrims cfgR embReal) noMids (.slot (.brier (some 0) none)) (unsaved o) world0 =
        .ok (some (.num r)) ∧
      result .ensemble realInfo (ensPrims cfgR embReal) noMids (.slot (.brier (some 0) none)) (unsaved o') world0 =
        .ok (some (.num r')) ∧ ∀ k, InB r.shape k → r.get k = r'.get k) ∧
    ∃ r r', result .ensemble realInfo (ensPrims cfgR embReal) noMids .rmse (unsaved o) world0 = .ok (some (.num r)) ∧
      result .ensemble realInfo (ensPrims cfgR embReal) noMids .rmse (unsaved o') world0 = .ok (some (.num r')) ∧
      NearArr (1 / 4 + 0) r r' := by
  obtain ⟨o, w, h⟩ := jump_built 2
  obtain ⟨o', w', h'⟩ := jump_built (9 / 4)
  have hn : NearEns (1 / 4 : ℝ) 0 (jumpR 2) (jumpR (9 / 4)) := jump_near (by norm_num [abs_le])
  have h0 : 0 ∉ (jumpR 2).ext.f.shape := by simp [jumpR]
  refine ⟨o, o', w, w', h, h', ?_, ?_, ?_, ?_⟩
  · obtain ⟨-, r, r', -, r1, r2, -, r3⟩ := C108_crps (I := realInfo) hn h h' psScore_energy (split := false)
      (fun _ _ _ => rfl) (by simp [jumpR]) h0 trivial world0 world0
    exact ⟨r, r', r1, r2, r3⟩
  · exact C108_spread hn h h' h0 trivial world0 world0
  · obtain ⟨p, p', r, r', -, -, r1, r2, -, -, r3⟩ := C108_brier (I := realInfo) (a := (0 : ℝ)) (t := 0) hn h h' rfl
      (fun h => by cases h) rfl h0 trivial
      (fun i x hi hx => by
        rw [← mem_allIdx] at hi
        have hi : i ∈ allIdx [1, 1] := hi
        fin_cases hi
        cases hx
        norm_num)
      (fun i x hi hx => by
        rw [← mem_allIdx] at hi
        have hi : i ∈ allIdx [1] := hi
        fin_cases hi
        cases hx
        norm_num) true world0 world0
    exact ⟨r, r', r1, r2, r3⟩
  · obtain ⟨d, d', d1, d2, d3, d4⟩ := C108_mean (I := realInfo) hn h h' (fun _ _ => rfl) (fun _ _ => rfl) h0 world0 world0
    obtain ⟨_, _, c1, -, -, c4, c5, -⟩ := C75_construct_ens h
    obtain ⟨_, _, c1', -, -, c4', c5', -⟩ := C75_construct_ens h'
    have hs : d.shape = [1] := d3
    obtain ⟨_, _, _, r, _, _, _, r', ⟨-, -, -, r1⟩, ⟨-, -, -, r2⟩, -, -, r3, -⟩ := C108_errors (axes := none) (shared_ens cfgR embReal)
      ⟨fun _ _ => Real.sqrt_nonneg _, fun _ h => Real.mul_self_sqrt h⟩ c5 c5' (axisArg_ready c1.avg) (axisArg_ready c1'.avg)
      d1 d2 (by rw [c4]; exact d3) d4 (by rw [c4, c4']; exact hn.o) (by rw [hs]; decide) trivial world0 world0
    exact ⟨r, r', r1, r2, r3⟩

end Props
