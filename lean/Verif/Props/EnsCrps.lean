import Verif.Lemmas.EnsCrps
import Verif.Props.EndToEndClasses

/-!
# The score of an ensemble and its Brier scores: C88
-/

namespace Props
open Np NDArr Spec Model Lemmas MeasureTheory

variable {A : Type} {I : ArgInfo A} {mids : FS (PyVal ℝ) → Path → List (FS (PyVal ℝ))} {c : Cfg ℝ} {emb : A → Arg ℝ}

/-- average of a non-empty list of present values -/
theorem isAvg_some {α : Type} {skip : Bool} {L : List α} {g : α → Fl ℝ} {h : α → ℝ} {v : Fl ℝ} (hL : L ≠ [])
    (e : ∀ a ∈ L, g a = some (h a)) (hv : IsAvg skip (L.map g) v) : v = some (avg (L.map h)) := by
  have e1 : L.map g = (L.map h).map some := by
    rw [List.map_map]
    exact List.map_congr_left fun a ha => e a ha
  rw [e1] at hv
  have e2 : present ((L.map h).map some) = L.map h := by
    unfold present
    rw [filterMap_id_map_some]
  rw [IsAvg, e2, if_neg] at hv
  · exact hv
  · simp [hL]

/-- complete data: every position has an observation and a non-empty list of members -/
theorem position_some {f o : NDArr (Fl ℝ)} {ax : Int} (hax : AxisOK f.shape.length ax) (hsh : o.shape = posShape f.shape ax)
    (h0 : 0 ∉ f.shape) (hf : none ∉ f.data) (ho : none ∉ o.data) {i : List Nat} (hi : InB o.shape i) :
    ∃ y ms, ms ≠ [] ∧ o.get i = some y ∧ membersAt f ax i = ms.map some ∧ present (membersAt f ax i) = ms := by
  obtain ⟨y, hy⟩ := get_some ho hi
  obtain ⟨ms, hms⟩ := exists_map_some (l := membersAt f ax i) (not_none_fiber hf _ _)
  refine ⟨y, ms, ?_, hy, hms, ?_⟩
  · rintro rfl
    refine membersAt_ne_nil f hax ?_ (hsh ▸ hi) hms
    intro h
    have hlt := axisNum_lt hax
    rw [List.getD_eq_getElem?_getD, List.getElem?_eq_getElem hlt, Option.getD_some] at h
    exact h0 (h ▸ List.getElem_mem hlt)
  · rw [hms, present, filterMap_id_map_some]

theorem fraction_ecdf {ms : List ℝ} (hm : ms ≠ []) (t : ℝ) : fractionLe (ms.map some) (some t) = some (ecdf ms t) := by
  classical
  unfold fractionLe ecdf
  rw [if_neg (by simpa using hm), count_step, ← List.countP_eq_length_filter, List.countP_map, List.length_map]
  congr 4
  funext x
  simp [LeP]

theorem indicator_iff {p q : Prop} [Decidable q] (h : p ↔ q) : (indicator p : ℝ) = if q then 1 else 0 := by
  unfold indicator
  by_cases hq : q
  · rw [if_pos (h.2 hq), if_pos hq]
  · rw [if_neg (fun hp => hq (h.1 hp)), if_neg hq]

theorem ens_prod {f o : NDArr (Fl ℝ)} {ax : Int} (hsh : o.shape = posShape f.shape ax) (h0 : 0 ∉ f.shape) :
    0 ∉ o.shape := by
  rw [hsh, posShape]
  exact fun h => h0 (List.eraseIdx_subset h)

theorem fiberIdx_ne {s : List Nat} {axes k : List Nat} (h0 : 0 ∉ s) (hk : InB (dropAxes axes s) k) : fiberIdx s axes k ≠ [] := by
  intro h
  have h1 := length_fiberIdx hk
  rw [h] at h1
  have h2 := prod_take_drop s axes
  rw [← h1] at h2
  simp only [List.length_nil, mul_zero, List.prod_eq_zero_iff] at h2
  exact h0 h2

/-- **C88**: for complete data the value of `crps()` is the average over the pooled positions of the score of the
documentation of `properscoring`, which is the integral of the squared difference between the distribution function of
the members and that of the observation. -/
theorem C88_crps {oi o : Obj (EnsX ℝ)} {w w' : World (PyVal ℝ)}
    (h : construct (ensPrims c emb) mids oi w = (.ok o, w')) (hb : oi.boot = .none)
    {pt : Fl ℝ → List (Fl ℝ) → Fl ℝ} (hpt : IsEnergyScore pt) {split : Bool}
    (hc : ∀ o f ax, c.crpsEns o f ax = ensembleCrps pt split ax o f) (hs : oi.ext.o.shape ≠ [])
    (h0 : 0 ∉ oi.ext.f.shape) (hf : none ∉ oi.ext.f.data) (ho : none ∉ oi.ext.o.data)
    (hok : OptOK oi.ext.o.shape.length (axesOf oi.avg)) (w1 : World (PyVal ℝ)) :
    ∃ ax r, o.ext.axis = some ax ∧
      result .ensemble I (ensPrims c emb) mids (.slot .crps) (unsaved o) w1 = .ok (some (.num r)) ∧
      r.shape = dropAxes (nums oi.ext.o.shape.length (axesOf oi.avg)) oi.ext.o.shape ∧
      ∃ (Y : List Nat → ℝ) (M : List Nat → List ℝ), (∀ i, InB oi.ext.o.shape i →
          oi.ext.o.get i = some (Y i) ∧ membersAt oi.ext.f ax i = (M i).map some ∧ M i ≠ [] ∧
          Integrable (crpsIntegrand (ecdf (M i)) (Y i)) ∧ energyScore (M i) (Y i) = crpsOf (ecdf (M i)) (Y i)) ∧
        ∀ k, InB r.shape k → r.get k =
          some (avg ((fiberIdx oi.ext.o.shape (nums oi.ext.o.shape.length (axesOf oi.avg)) k).map fun i =>
            energyScore (M i) (Y i))) := by
  obtain ⟨ax', fc, h1, -, h3, h4, -, -, -⟩ := C75_construct_ens h
  have hax := h1.axisOK
  have hsh := h1.shape
  rw [h3] at hax hsh
  rw [h4] at hsh
  have hpos := ens_prod hsh h0
  obtain ⟨ax, r, r0, r1, r2, r3⟩ := C75_ens_crps (I := I) h hb hc
    (by
      cases hd : oi.ext.o.shape with
      | nil => exact absurd hd hs
      | cons n l =>
        rw [hd] at hpos
        simp only [List.mem_cons, not_or] at hpos
        exact Nat.pos_of_ne_zero (Ne.symm hpos.1)) hok w1
  have : ax = ax' := by
    have := h1.axis
    rw [r0] at this
    exact Option.some.inj this
  subst this
  refine ⟨ax, r, r0, r1, r2, fun i => (oi.ext.o.get i).getD 0, fun i => present (membersAt oi.ext.f ax i), ?_, ?_⟩
  · intro i hi
    obtain ⟨y, ms, hm, e1, e2, e3⟩ := position_some hax hsh h0 hf ho hi
    simp only [e1, e3, Option.getD_some]
    exact ⟨trivial, e2, hm, (crps_ecdf hm y).1, (crps_ecdf hm y).2.symm⟩
  · intro k hk
    refine isAvg_some (fiberIdx_ne hpos (r2 ▸ hk)) ?_ (r3 k hk)
    intro i hi
    obtain ⟨y, ms, hm, e1, e2, e3⟩ := position_some hax hsh h0 hf ho (mem_fiberIdx.1 hi).1
    simp only [e1, e3, Option.getD_some]
    rw [e2]
    exact hpt y ms hm

/-- **C88**: the value of `crps()` at every kept position is the integral, over all thresholds, of the values of
`brier(over=t)`, and also of those of `brier(below=t)`, of the same verifier at that position. -/
theorem C88_crps_brier {oi o : Obj (EnsX ℝ)} {w w' : World (PyVal ℝ)}
    (h : construct (ensPrims c emb) mids oi w = (.ok o, w')) (hb : oi.boot = .none) (hm : c.method = .moments)
    {pt : Fl ℝ → List (Fl ℝ) → Fl ℝ} (hpt : IsEnergyScore pt) {split : Bool}
    (hc : ∀ o f ax, c.crpsEns o f ax = ensembleCrps pt split ax o f) (hs : oi.ext.o.shape ≠ [])
    (h0 : 0 ∉ oi.ext.f.shape) (hf : none ∉ oi.ext.f.data) (ho : none ∉ oi.ext.o.data)
    (hok : OptOK oi.ext.o.shape.length (axesOf oi.avg))
    {num : ℝ → A} (hnum : ∀ t, emb (num t) = .thr (.scalar (some t))) (hpr : ∀ t, Printable I (num t))
    (w1 : World (PyVal ℝ)) :
    ∃ r, result .ensemble I (ensPrims c emb) mids (.slot .crps) (unsaved o) w1 = .ok (some (.num r)) ∧
      ∀ k, InB r.shape k → ∀ isOver, ∃ B : ℝ → ℝ,
        (∀ t, ∃ b, result .ensemble I (ensPrims c emb) mids
            (.slot (.brier (overArg isOver (num t)) (belowArg isOver (num t)))) (unsaved o) w1 = .ok (some (.num b)) ∧
          b.shape = r.shape ∧ b.get k = some (B t)) ∧
        Integrable B ∧ r.get k = some (∫ t, B t) := by
  obtain ⟨ax', fc, h1, -, h3, h4, -, -, -⟩ := C75_construct_ens h
  have hax := h1.axisOK
  have hsh := h1.shape
  rw [h3] at hax hsh
  rw [h4] at hsh
  have hpos := ens_prod hsh h0
  obtain ⟨ax, r, r0, r1, r2, Y, M, hYM, r3⟩ := C88_crps (I := I) h hb hpt hc hs h0 hf ho hok w1
  have : ax = ax' := by
    have := h1.axis
    rw [r0] at this
    exact Option.some.inj this
  subst this
  refine ⟨r, r1, fun k hk isOver => ?_⟩
  have hne := fiberIdx_ne hpos (r2 ▸ hk)
  -- the score of one position at one threshold
  let q : Bool → List Nat → ℝ → ℝ := fun ov i t => if ov then crpsIntegrand (ecdf (M i)) (Y i) t
    else (ecdf (M i) t - if Y i < t then 1 else 0) ^ 2
  have hae : ∀ i, q isOver i =ᵐ[volume] crpsIntegrand (ecdf (M i)) (Y i) := by
    intro i
    cases isOver with
    | true => exact Filter.Eventually.of_forall fun t => rfl
    | false =>
      have : ∀ᵐ t ∂(volume : Measure ℝ), t ≠ Y i := by
        rw [ae_iff]; simp
      filter_upwards [this] with t ht
      have e : (Y i < t) = (Y i ≤ t) := propext ⟨le_of_lt, fun h => lt_of_le_of_ne h ht.symm⟩
      simp only [q, crpsIntegrand, e, Bool.false_eq_true, if_false]
  have hint := integral_avg (fiberIdx oi.ext.o.shape (nums oi.ext.o.shape.length (axesOf oi.avg)) k) (q isOver) fun i hi =>
    (hYM i (mem_fiberIdx.1 hi).1).2.2.2.1.congr (hae i).symm
  refine ⟨_, fun t => ?_, hint.1, ?_⟩
  · obtain ⟨ax2, b, b0, b1, b2, b3⟩ := C75_ens_brier (I := I) h hb hm (hpr t) (hnum t) trivial
      (by simpa [List.prod_eq_zero_iff] using hpos) hok isOver w1
    have : ax2 = ax := by
      rw [r0] at b0
      exact (Option.some.inj b0).symm
    subst this
    refine ⟨b, b1, b2.trans r2.symm, isAvg_some hne ?_ (b3 k (by rw [b2, ← r2]; exact hk))⟩
    intro i hi
    obtain ⟨e1, e2, e3, -, -⟩ := hYM i (mem_fiberIdx.1 hi).1
    cases isOver with
    | true =>
      have e : indicator (Event true (.scalar (some t)) oi.ext.o i) = if t < Y i then (1 : ℝ) else 0 := by
        apply indicator_iff
        simp [Event, thrAt, e1, LtP]
      simp only [ensProb, if_true, thrAt, e2, fraction_ecdf e3, e, q, crpsIntegrand]
      change some ((1 - ecdf (M i) t - if t < Y i then (1 : ℝ) else 0) ^ 2) = some _
      rcases lt_or_ge t (Y i) with hlt | hle
      · rw [if_pos hlt, if_neg (not_le.2 hlt)]
        congr 1; ring
      · rw [if_neg (not_lt.2 hle), if_pos hle]
        congr 1; ring
    | false =>
      have e : indicator (Event false (.scalar (some t)) oi.ext.o i) = if Y i < t then (1 : ℝ) else 0 := by
        apply indicator_iff
        simp [Event, thrAt, e1, LtP]
      simp only [ensProb, Bool.false_eq_true, if_false, thrAt, e2, fraction_ecdf e3, e, q, Option.map_some]
  · rw [r3 k hk, hint.2]
    congr 2
    refine List.map_congr_left fun i hi => ?_
    rw [(hYM i (mem_fiberIdx.1 hi).1).2.2.2.2, integral_congr_ae (hae i)]
    rfl

/-- **C88**: for complete data `crps()` is never negative and never more than the mean distance of the members from
their observations; it is zero exactly when every member equals its observation, and a member that misses by `d` in an
ensemble of `n` members at one of `m` pooled positions costs at least `d / n² / m`. -/
theorem C88_bounds {oi o : Obj (EnsX ℝ)} {w w' : World (PyVal ℝ)}
    (h : construct (ensPrims c emb) mids oi w = (.ok o, w')) (hb : oi.boot = .none)
    {pt : Fl ℝ → List (Fl ℝ) → Fl ℝ} (hpt : IsEnergyScore pt) {split : Bool}
    (hc : ∀ o f ax, c.crpsEns o f ax = ensembleCrps pt split ax o f) (hs : oi.ext.o.shape ≠ [])
    (h0 : 0 ∉ oi.ext.f.shape) (hf : none ∉ oi.ext.f.data) (ho : none ∉ oi.ext.o.data)
    (hok : OptOK oi.ext.o.shape.length (axesOf oi.avg)) (w1 : World (PyVal ℝ)) :
    ∃ ax r, o.ext.axis = some ax ∧
      result .ensemble I (ensPrims c emb) mids (.slot .crps) (unsaved o) w1 = .ok (some (.num r)) ∧
      r.shape = dropAxes (nums oi.ext.o.shape.length (axesOf oi.avg)) oi.ext.o.shape ∧
      ∀ k, InB r.shape k → ∃ v, r.get k = some v ∧ 0 ≤ v ∧
        (let L := fiberIdx oi.ext.o.shape (nums oi.ext.o.shape.length (axesOf oi.avg)) k
        (v = 0 ↔ ∀ i ∈ L, ∀ x ∈ membersAt oi.ext.f ax i, x = oi.ext.o.get i) ∧
        v ≤ avg (L.map fun i => avg ((present (membersAt oi.ext.f ax i)).map fun x => |x - (oi.ext.o.get i).getD 0|)) ∧
        ∀ i ∈ L, ∀ x y, some x ∈ membersAt oi.ext.f ax i → oi.ext.o.get i = some y →
          |x - y| / ((membersAt oi.ext.f ax i).length : ℝ) ^ 2 / L.length ≤ v) := by
  obtain ⟨ax, r, r0, r1, r2, Y, M, hYM, r3⟩ := C88_crps (I := I) h hb hpt hc hs h0 hf ho hok w1
  refine ⟨ax, r, r0, r1, r2, fun k hk => ⟨_, r3 k hk, ?_, ?_, ?_, ?_⟩⟩
  · apply avg_nonneg
    intro v hv
    obtain ⟨i, hi, rfl⟩ := List.mem_map.1 hv
    exact score_nonneg (hYM i (mem_fiberIdx.1 hi).1).2.2.1 _
  · rw [avg_zero_iff]
    · constructor
      · intro hz i hi x hx
        obtain ⟨e1, e2, e3, -, -⟩ := hYM i (mem_fiberIdx.1 hi).1
        rw [e2] at hx
        obtain ⟨x, hx', rfl⟩ := List.mem_map.1 hx
        rw [e1, (score_zero e3 _).1 (hz i hi) x hx']
      · intro hz i hi
        obtain ⟨e1, e2, e3, -, -⟩ := hYM i (mem_fiberIdx.1 hi).1
        refine (score_zero e3 _).2 fun x hx => ?_
        have := hz i hi (some x) (by rw [e2]; exact List.mem_map_of_mem hx)
        rw [e1] at this
        exact Option.some.inj this
    · intro i hi
      exact score_nonneg (hYM i (mem_fiberIdx.1 hi).1).2.2.1 _
  · refine avg_mono fun i hi => ?_
    obtain ⟨e1, e2, e3, -, -⟩ := hYM i (mem_fiberIdx.1 hi).1
    rw [e1, e2, present, filterMap_id_map_some]
    exact score_le _ _
  · intro i hi x y hx hy
    obtain ⟨e1, e2, e3, -, -⟩ := hYM i (mem_fiberIdx.1 hi).1
    rw [e2] at hx ⊢
    rw [e1] at hy
    cases hy
    simp only [List.mem_map, Option.some.injEq, exists_eq_right] at hx
    rw [List.length_map, avg, List.length_map]
    refine div_le_div_of_nonneg_right ((le_score hx _).trans ?_) (Nat.cast_nonneg _)
    refine List.single_le_sum ?_ _ (List.mem_map_of_mem hi)
    intro v hv
    obtain ⟨j, hj, rfl⟩ := List.mem_map.1 hv
    exact score_nonneg (hYM j (mem_fiberIdx.1 hj).1).2.2.1 _

/-- **C88**: the score of an ensemble of one member is its mean absolute error: `crps()` and `ab_error()` return the
same, if the collapse function returns the only member. -/
theorem C88_single {oi o : Obj (EnsX ℝ)} {w w' : World (PyVal ℝ)}
    (h : construct (ensPrims c emb) mids oi w = (.ok o, w')) (hb : oi.boot = .none)
    {pt : Fl ℝ → List (Fl ℝ) → Fl ℝ} (hpt : IsEnergyScore pt) {split : Bool}
    (hc : ∀ o f ax, c.crpsEns o f ax = ensembleCrps pt split ax o f) (hs : oi.ext.o.shape ≠ [])
    (h0 : 0 ∉ oi.ext.f.shape) (hf : none ∉ oi.ext.f.data) (ho : none ∉ oi.ext.o.data)
    (hok : OptOK oi.ext.o.shape.length (axesOf oi.avg)) {g : List (Fl ℝ) → Fl ℝ} (hg1 : ∀ x, g [some x] = some x)
    (hg : ∀ f ax, oi.ext.collapse f ax = reduceAxes g f (some [ax]))
    (hone : ∀ ax i, o.ext.axis = some ax → InB oi.ext.o.shape i → (membersAt oi.ext.f ax i).length = 1)
    (w1 : World (PyVal ℝ)) :
    ∃ r, result .ensemble I (ensPrims c emb) mids (.slot .crps) (unsaved o) w1 = .ok (some (.num r)) ∧
      result .ensemble I (ensPrims c emb) mids (.slot .abError) (unsaved o) w1 = .ok (some (.num r)) := by
  obtain ⟨ax, r, r0, r1, r2, Y, M, hYM, r3⟩ := C88_crps (I := I) h hb hpt hc hs h0 hf ho hok w1
  obtain ⟨ax', e, a, q, rr, a0, -, a1, -, -, ⟨s1, s2, -, -⟩, a2⟩ := C75_ens_errors (I := I) h hb hg hok w1
  rw [r0] at a0
  cases a0
  obtain ⟨ax', fc, h1, -, h3, h4, -, -, -⟩ := C75_construct_ens h
  have hax := h1.axis
  rw [r0] at hax
  cases hax
  have hsh := h1.shape
  rw [h3, h4] at hsh
  have hpos := ens_prod hsh h0
  refine ⟨r, r1, ?_⟩
  rw [a1]
  congr 3
  refine ext_get (s2.trans (s1.trans r2.symm)) fun k hk => ?_
  rw [s2] at hk
  rw [r3 k (by rw [r2, ← s1]; exact hk)]
  have := (a2 k hk).2.1
  rw [List.map_map] at this
  refine isAvg_some (fiberIdx_ne hpos (s1 ▸ hk)) ?_ this
  intro i hi
  obtain ⟨e1, e2, e3, -, -⟩ := hYM i (mem_fiberIdx.1 hi).1
  have hl := hone ax i r0 (mem_fiberIdx.1 hi).1
  rw [e2, List.length_map] at hl
  obtain ⟨x, hx⟩ := List.length_eq_one_iff.1 hl
  simp only [Function.comp, e2, hx, e1, List.map_cons, List.map_nil, hg1, both, score_single]

/-! ### cases -/

/-- the score of the documentation of `properscoring`, missing when a value is -/
noncomputable def psScore (y : Fl ℝ) (ms : List (Fl ℝ)) : Fl ℝ :=
  if none ∈ ms then none else y.map fun y => energyScore (present ms) y

theorem psScore_energy : IsEnergyScore psScore := by
  intro y ms _
  rw [psScore, if_neg (by simp), present, filterMap_id_map_some]
  rfl

/-- settings over the real numbers -/
noncomputable def cfgR : Cfg ℝ where
  skipNan := false
  npFloat := true
  workers := 1
  mapAxis := -1
  method := .moments
  kde _ := none
  sqrt := Real.sqrt
  reps := 1
  conf := 19 / 20
  argsort n _ := List.range n
  rocCurve _ _ := .error .value
  crpsEns o f ax := ensembleCrps psScore false ax o f
  rng _ _ _ _ := fun _ => 0

/-- real thresholds -/
def embReal (t : ℝ) : Arg ℝ := .thr (.scalar (some t))

def realInfo : ArgInfo ℝ := ⟨fun _ => [], fun _ => false, fun _ => false, fun _ => 1, fun _ => none, fun _ => none⟩

/-- two members at two positions; the collapse function takes the mean -/
noncomputable def ensR : Obj (EnsX ℝ) := ⟨.none, .none, .none, some true,
  ⟨⟨[2, 2], [some 1, some 5, some 2, some 6], rfl⟩, ⟨[2], [some 3, some 5], rfl⟩, some 0,
    fun f ax => reduceAxes mean f (some [ax]), none⟩⟩

theorem ensR_built : ∃ o w', construct (ensPrims cfgR embReal) noMids ensR world0 = (.ok o, w') := ⟨_, _, rfl⟩

theorem ensR_axes : OptOK ensR.ext.o.shape.length (axesOf ensR.avg) := trivial

/-- The Brier scores of two members 1 and 2 with observation 3 and of two members 5 and 6 with observation 5, integrated
over all thresholds, give 3/4. -/
example : ∃ o w', construct (ensPrims cfgR embReal) noMids ensR world0 = (.ok o, w') ∧
    ∃ B : ℝ → ℝ, (∀ t, ∃ b, result .ensemble realInfo (ensPrims cfgR embReal) noMids (.slot (.brier (some t) none))
      (unsaved o) world0 = .ok (some (.num b)) ∧ b.shape = [] ∧ b.get [] = some (B t)) ∧ ∫ t, B t = 3 / 4 := by
  obtain ⟨o, w', h⟩ := ensR_built
  refine ⟨o, w', h, ?_⟩
  have hf : none ∉ ensR.ext.f.data := by simp [ensR]
  have ho : none ∉ ensR.ext.o.data := by simp [ensR]
  obtain ⟨r, r1, r2⟩ := C88_crps_brier (I := realInfo) (num := id) h rfl rfl psScore_energy (split := false)
    (fun _ _ _ => rfl) (by simp [ensR]) (by simp [ensR]) hf ho ensR_axes (fun _ => rfl) (fun _ h => by cases h) world0
  obtain ⟨ax, r', a1, r1', s, Y, M, hYM, v⟩ := C88_crps (I := realInfo) h rfl psScore_energy (split := false)
    (fun _ _ _ => rfl) (by simp [ensR]) (by simp [ensR]) hf ho ensR_axes world0
  rw [r1] at r1'
  cases r1'
  have hs : r.shape = [] := by rw [s]; rfl
  have hk : InB r.shape [] := by rw [hs]; trivial
  obtain ⟨B, b1, -, b3⟩ := r2 [] hk true
  refine ⟨B, fun t => ?_, ?_⟩
  · obtain ⟨b, c1, c2, c3⟩ := b1 t
    exact ⟨b, c1, c2.trans hs, c3⟩
  · rw [v [] hk] at b3
    obtain ⟨ax', fc, d1, -, -, -, -, d2, -⟩ := C75_construct_ens h
    have d3 := d1.axis
    rw [a1, d2 0 rfl] at d3
    cases d3
    obtain ⟨y0, m0, -, -, -⟩ := hYM [0] (by decide)
    obtain ⟨y1, m1, -, -, -⟩ := hYM [1] (by decide)
    have e0 : [some 1, some 2] = (M [0]).map some := m0
    have e1 : [some 5, some 6] = (M [1]).map some := m1
    have f0 : some 3 = some (Y [0]) := y0
    have f1 : some 5 = some (Y [1]) := y1
    have inj : ∀ a b : List ℝ, a.map some = b.map some → a = b := fun a b h =>
      List.map_injective_iff.2 (Option.some_injective ℝ) h
    have g0 := inj [1, 2] _ e0
    have g1 := inj [5, 6] _ e1
    have L : fiberIdx ensR.ext.o.shape (nums ensR.ext.o.shape.length (axesOf ensR.avg)) [] = [[0], [1]] := by decide
    rw [L] at b3
    simp only [List.map_cons, List.map_nil, ← g0, ← g1, ← Option.some.inj f0, ← Option.some.inj f1, Option.some.injEq] at b3
    rw [← b3]
    norm_num [avg, energyScore, abs_of_neg, abs_of_pos]

/-- one member at two positions -/
noncomputable def ensOne : Obj (EnsX ℝ) := ⟨.none, .none, .none, some true,
  ⟨⟨[1, 2], [some 1, some 5], rfl⟩, ⟨[2], [some 3, some 5], rfl⟩, some 0, fun f ax => reduceAxes mean f (some [ax]), none⟩⟩

example : ∃ o w', construct (ensPrims cfgR embReal) noMids ensOne world0 = (.ok o, w') ∧
    ∃ r, result .ensemble realInfo (ensPrims cfgR embReal) noMids (.slot .crps) (unsaved o) world0 = .ok (some (.num r)) ∧
      result .ensemble realInfo (ensPrims cfgR embReal) noMids (.slot .abError) (unsaved o) world0 = .ok (some (.num r)) := by
  refine ⟨_, _, rfl, C88_single (I := realInfo) (oi := ensOne) (w := world0) rfl rfl psScore_energy (split := false)
    (fun _ _ _ => rfl) (by simp [ensOne]) (by simp [ensOne]) (by simp [ensOne]) (by simp [ensOne]) trivial (g := mean)
    (fun x => by rw [show [some x] = [x].map some from rfl, mean_some _ (by simp)]; simp) (fun _ _ => rfl) ?_ world0⟩
  intro ax i hax hi
  obtain rfl : (0 : Int) = ax := Option.some.inj hax
  rw [membersAt_length _ (by unfold AxisOK; decide) hi]
  decide

end Props
