import Verif.Spec.Determ
import Verif.Lemmas.Members
import Verif.Props.EnsCrps
import Verif.Props.Exchange

/-!
# An ensemble and its members: C106
-/

set_option linter.unusedSectionVars false

namespace Props
open Np NDArr Spec Model Lemmas

variable {K : Type} [Field K] [LinearOrder K] [IsStrictOrderedRing K] [FloorSemiring K]
variable {A : Type} {I : ArgInfo A} {mids : FS (PyVal K) → Path → List (FS (PyVal K))} {c : Cfg K} {emb : A → Arg K}

/-- the four errors of a deterministic verifier with complete data -/
theorem det_values {di d : Obj (DetX K)} {w w' : World (PyVal K)}
    (h : construct (detPrims c emb) mids di w = (.ok d, w')) (hb : di.boot = .none)
    {s : List Nat} (hs : di.ext.o.shape = s) (h0 : 0 ∉ s) (hok : OptOK s.length (axesOf di.avg)) {x y : List Nat → K}
    (hx : ∀ i, InB s i → di.ext.f.get i = some (x i)) (hy : ∀ i, InB s i → di.ext.o.get i = some (y i))
    (w1 : World (PyVal K)) :
    ∃ e a q r, result .determ I (detPrims c emb) mids (.slot .error) (unsaved d) w1 = .ok (some (.num e)) ∧
      result .determ I (detPrims c emb) mids (.slot .abError) (unsaved d) w1 = .ok (some (.num a)) ∧
      result .determ I (detPrims c emb) mids (.slot .sqError) (unsaved d) w1 = .ok (some (.num q)) ∧
      result .determ I (detPrims c emb) mids .rmse (unsaved d) w1 = .ok (some (.num r)) ∧
      ∀ k, InB (dropAxes (nums s.length (axesOf di.avg)) s) k →
        let L := fiberIdx s (nums s.length (axesOf di.avg)) k
        e.get k = some (avg (L.map fun i => x i - y i)) ∧ a.get k = some (avg (L.map fun i => |x i - y i|)) ∧
        q.get k = some (avg (L.map fun i => (x i - y i) ^ 2)) ∧
        r.get k = some (c.sqrt (avg (L.map fun i => (x i - y i) ^ 2))) := by
  obtain ⟨h1, h2, -⟩ := C75_construct_det h
  have hsh := h1.shape
  rw [h2, hs] at hsh
  obtain ⟨e, a, q, r, r1, r2, r3, r4, ⟨s1, -, -, -⟩, r5⟩ := C75_det_metrics (I := I) h hb (by rw [hsh]; exact hok) w1
  refine ⟨e, a, q, r, r1, r2, r3, r4, fun k hk => ?_⟩
  have hk' : InB e.shape k := by rw [s1, hsh]; exact hk
  obtain ⟨g1, g2, g3, g4⟩ := r5 k hk'
  rw [hsh] at g1 g2 g3
  intro L
  have hL : L ≠ [] := fiberIdx_ne h0 hk
  have hin : ∀ i ∈ L, InB s i := fun i hi => (mem_fiberIdx.1 hi).1
  simp only [pairsAt, hsh, List.map_map] at g1 g2 g3
  have hq := isAvg_some' hL (h := fun i => (x i - y i) ^ 2) (fun i hi => by
    simp only [Function.comp, hx i (hin i hi), hy i (hin i hi), both]) g3
  exact ⟨isAvg_some' hL (fun i hi => by simp only [Function.comp, hx i (hin i hi), hy i (hin i hi), both]) g1,
    isAvg_some' hL (fun i hi => by simp only [Function.comp, hx i (hin i hi), hy i (hin i hi), both]) g2, hq,
    by rw [g4, hq]; rfl⟩

/-- `d m`, for every member `m` of the `n` members of the ensemble `f`, is a `VerifyDeterm` constructed with that member as
forecasts, the observations `o`, this `avg_axis` and no bootstrapping -/
def MembersAlone (c : Cfg K) (emb : A → Arg K) (mids : FS (PyVal K) → Path → List (FS (PyVal K))) (f o : NDArr (Fl K))
    (ax : Int) (avg : PyAxis) (n : Nat) (d : Nat → Obj (DetX K)) : Prop :=
  ∀ m < n, ∃ di w w', IsMember f ax m di.ext.f ∧ di.ext.o = o ∧ di.avg = avg ∧ di.boot = .none ∧
    construct (detPrims c emb) mids di w = (.ok (d m), w')

/-- values of complete data, member by member -/
theorem member_values {f o : NDArr (Fl K)} {ax : Int} (hax : AxisOK f.shape.length ax) (hsh : o.shape = posShape f.shape ax)
    (hf : none ∉ f.data) (ho : none ∉ o.data) {n : Nat} (hn : n = f.shape.getD (axisNum f.shape.length ax) 0) :
    ∃ (x : Nat → List Nat → K) (y : List Nat → K), ∀ i, InB o.shape i → o.get i = some (y i) ∧
      membersAt f ax i = ((List.range n).map fun m => x m i).map some := by
  refine ⟨fun m i => ((membersAt f ax i).getD m none).getD 0, fun i => (o.get i).getD 0, fun i hi => ?_⟩
  obtain ⟨y, hy⟩ := get_some ho hi
  refine ⟨by simp [hy], ?_⟩
  have hlen : (membersAt f ax i).length = n := by rw [membersAt_length f hax (hsh ▸ hi), hn]
  obtain ⟨ms, hms⟩ := exists_map_some (l := membersAt f ax i) (not_none_fiber hf _ _)
  simp only [hms] at hlen ⊢
  rw [List.length_map] at hlen
  congr 1
  refine List.ext_getElem (by simp [hlen]) fun m h1 h2 => ?_
  simp [h1]

theorem isMember_value {f g : NDArr (Fl K)} {ax : Int} {m n : Nat} {x : Nat → List Nat → K} (h : IsMember f ax m g) {i : List Nat}
    (hi : InB (posShape f.shape ax) i) (hx : membersAt f ax i = ((List.range n).map fun m => x m i).map some) (hm : m < n) :
    g.get i = some (x m i) := by
  have := h.2 i hi
  rw [hx] at this
  simpa [hm] using this.symm

/-- **C106**: with the mean as collapse function and complete data, at every kept position
- `error()` of the ensemble is the mean of the errors that `VerifyDeterm` finds for the members;
- `sq_error()` of the ensemble plus the mean `variance()` over the pooled positions is the mean of their squared errors;
- `ab_error()` and `rmse()` of the ensemble are at most the means of theirs. -/
theorem C106_errors {oi o : Obj (EnsX K)} {w w' : World (PyVal K)}
    (h : construct (ensPrims c emb) mids oi w = (.ok o, w')) (hb : oi.boot = .none)
    (hg : ∀ f ax, oi.ext.collapse f ax = reduceAxes mean f (some [ax])) (hs : IsSqrt c.sqrt)
    (h0 : 0 ∉ oi.ext.f.shape) (hf : none ∉ oi.ext.f.data) (ho : none ∉ oi.ext.o.data)
    (hok : OptOK oi.ext.o.shape.length (axesOf oi.avg)) (w1 : World (PyVal K)) :
    ∃ ax e a q r var, o.ext.axis = some ax ∧
      result .ensemble I (ensPrims c emb) mids (.slot .error) (unsaved o) w1 = .ok (some (.num e)) ∧
      result .ensemble I (ensPrims c emb) mids (.slot .abError) (unsaved o) w1 = .ok (some (.num a)) ∧
      result .ensemble I (ensPrims c emb) mids (.slot .sqError) (unsaved o) w1 = .ok (some (.num q)) ∧
      result .ensemble I (ensPrims c emb) mids .rmse (unsaved o) w1 = .ok (some (.num r)) ∧
      result .ensemble I (ensPrims c emb) mids (.slot .variance) (unsaved o) w1 = .ok (some (.num var)) ∧
      ∀ (n : Nat) (d : Nat → Obj (DetX K)), n = oi.ext.f.shape.getD (axisNum oi.ext.f.shape.length ax) 0 →
        MembersAlone c emb mids oi.ext.f oi.ext.o ax oi.avg n d →
        ∃ E B Q R : Nat → NDArr (Fl K), (∀ m < n,
            result .determ I (detPrims c emb) mids (.slot .error) (unsaved (d m)) w1 = .ok (some (.num (E m))) ∧
            result .determ I (detPrims c emb) mids (.slot .abError) (unsaved (d m)) w1 = .ok (some (.num (B m))) ∧
            result .determ I (detPrims c emb) mids (.slot .sqError) (unsaved (d m)) w1 = .ok (some (.num (Q m))) ∧
            result .determ I (detPrims c emb) mids .rmse (unsaved (d m)) w1 = .ok (some (.num (R m)))) ∧
          ∀ k, InB (dropAxes (nums oi.ext.o.shape.length (axesOf oi.avg)) oi.ext.o.shape) k →
            ∃ (ek ak qk rk : K) (em am qm rm : Nat → K) (v : List Nat → K),
              (e.get k = some ek ∧ a.get k = some ak ∧ q.get k = some qk ∧ r.get k = some rk) ∧
              (∀ m < n, (E m).get k = some (em m) ∧ (B m).get k = some (am m) ∧ (Q m).get k = some (qm m) ∧
                (R m).get k = some (rm m)) ∧
              (∀ i, InB oi.ext.o.shape i → var.get i = some (v i)) ∧
              ek = avg ((List.range n).map em) ∧
              qk + avg ((fiberIdx oi.ext.o.shape (nums oi.ext.o.shape.length (axesOf oi.avg)) k).map v) =
                avg ((List.range n).map qm) ∧
              ak ≤ avg ((List.range n).map am) ∧ rk ≤ avg ((List.range n).map rm) := by
  obtain ⟨ax, e, a, q, r, a0, e1, e2, e3, e4, ⟨s1, s2, s3, s4⟩, e5⟩ := C75_ens_errors (I := I) h hb hg hok w1
  obtain ⟨ax', var, spr, r', a0', v1, -, v2, -, v3, -⟩ := C75_ens_spread (I := I) h hb (fun i hi hn => by
    obtain ⟨x, hx⟩ := get_some hf hi
    rw [hx] at hn
    cases hn) h0 hok w1
  rw [a0] at a0'
  cases a0'
  obtain ⟨ax', fc, h1, -, h3, h4, -, -, -⟩ := C75_construct_ens h
  have hax := h1.axis
  rw [a0] at hax
  cases hax
  have hax := h1.axisOK
  have hsh := h1.shape
  rw [h3] at hax hsh
  rw [h4] at hsh
  have hpos : 0 ∉ oi.ext.o.shape := by
    rw [hsh, posShape]
    exact fun h => h0 (List.eraseIdx_subset h)
  refine ⟨ax, e, a, q, r, var, a0, e1, e2, e3, e4, v1, fun n d hn hd => ?_⟩
  have hn0 : n ≠ 0 := by
    have hlt := axisNum_lt hax
    rw [hn, List.getD_eq_getElem?_getD, List.getElem?_eq_getElem hlt, Option.getD_some]
    exact fun h => h0 (h ▸ List.getElem_mem hlt)
  obtain ⟨x, y, hxy⟩ := member_values hax hsh hf ho hn
  have hN : List.range n ≠ [] := by simpa using hn0
  have hdet : ∀ m, ∃ E B Q R, m < n →
      (result .determ I (detPrims c emb) mids (.slot .error) (unsaved (d m)) w1 = .ok (some (.num E)) ∧
      result .determ I (detPrims c emb) mids (.slot .abError) (unsaved (d m)) w1 = .ok (some (.num B)) ∧
      result .determ I (detPrims c emb) mids (.slot .sqError) (unsaved (d m)) w1 = .ok (some (.num Q)) ∧
      result .determ I (detPrims c emb) mids .rmse (unsaved (d m)) w1 = .ok (some (.num R))) ∧
      ∀ k, InB (dropAxes (nums oi.ext.o.shape.length (axesOf oi.avg)) oi.ext.o.shape) k →
        let L := fiberIdx oi.ext.o.shape (nums oi.ext.o.shape.length (axesOf oi.avg)) k
        E.get k = some (avg (L.map fun i => x m i - y i)) ∧ B.get k = some (avg (L.map fun i => |x m i - y i|)) ∧
        Q.get k = some (avg (L.map fun i => (x m i - y i) ^ 2)) ∧
        R.get k = some (c.sqrt (avg (L.map fun i => (x m i - y i) ^ 2))) := by
    intro m
    by_cases hm : m < n
    · obtain ⟨di, wa, wb, d1, d2, d3, d4, d5⟩ := hd m hm
      obtain ⟨E, B, Q, R, t1, t2, t3, t4, t5⟩ := det_values (I := I) d5 d4 (s := oi.ext.o.shape) (by rw [d2]) hpos
        (by rw [d3]; exact hok) (x := x m) (y := y)
        (fun i hi => isMember_value d1 (hsh ▸ hi) (hxy i hi).2 hm) (fun i hi => by rw [d2]; exact (hxy i hi).1) w1
      rw [d3] at t5
      exact ⟨E, B, Q, R, fun _ => ⟨⟨t1, t2, t3, t4⟩, t5⟩⟩
    · exact ⟨e, e, e, e, fun h => absurd h hm⟩
  choose E B Q R hE using hdet
  refine ⟨E, B, Q, R, fun m hm => (hE m hm).1, fun k hk => ?_⟩
  obtain ⟨g1, g2, g3, g4⟩ := e5 k (s1 ▸ hk)
  set L := fiberIdx oi.ext.o.shape (nums oi.ext.o.shape.length (axesOf oi.avg)) k with hLdef
  have hL : L ≠ [] := fiberIdx_ne hpos hk
  have hin : ∀ i ∈ L, InB oi.ext.o.shape i := fun i hi => (mem_fiberIdx.1 hi).1
  have hmean : ∀ i ∈ L, (mean (membersAt oi.ext.f ax i), oi.ext.o.get i) =
      (some (avg ((List.range n).map fun m => x m i)), some (y i)) := by
    intro i hi
    rw [(hxy i (hin i hi)).1, (hxy i (hin i hi)).2, mean_some _ (by simpa using hn0)]
    rfl
  rw [List.map_map] at g1 g2 g3
  have hb1 := isAvg_some' hL (h := fun i => avg ((List.range n).map fun m => x m i) - y i) (fun i hi => by
    simp only [Function.comp]; rw [hmean i hi]; rfl) g1
  have hb2 := isAvg_some' hL (h := fun i => |avg ((List.range n).map fun m => x m i) - y i|) (fun i hi => by
    simp only [Function.comp]; rw [hmean i hi]; rfl) g2
  have hb3 := isAvg_some' hL (h := fun i => (avg ((List.range n).map fun m => x m i) - y i) ^ 2) (fun i hi => by
    simp only [Function.comp]; rw [hmean i hi]; rfl) g3
  have hsub : ∀ i, avg ((List.range n).map fun m => x m i) - y i = avg ((List.range n).map fun m => x m i - y i) :=
    fun i => (avg_sub_const hN _ _).symm
  refine ⟨_, _, _, _, fun m => avg (L.map fun i => x m i - y i), fun m => avg (L.map fun i => |x m i - y i|),
    fun m => avg (L.map fun i => (x m i - y i) ^ 2), fun m => c.sqrt (avg (L.map fun i => (x m i - y i) ^ 2)),
    fun i => avg ((List.range n).map fun m => (avg ((List.range n).map fun m => x m i) - x m i) ^ 2),
    ⟨hb1, hb2, hb3, by rw [g4, hb3]; rfl⟩, fun m hm => (hE m hm).2 k hk, fun i hi => ?_, ?_, ?_, ?_, ?_⟩
  · have hm : present (fiber oi.ext.f [axisNum oi.ext.f.shape.length ax] i) = (List.range n).map fun m => x m i := by
      have := (hxy i hi).2
      unfold membersAt at this
      rw [this, present, filterMap_id_map_some]
    have := (v3 i hi).1
    rw [hm, List.map_map] at this
    rw [this]
    congr 2
    refine List.map_congr_left fun m _ => ?_
    simp only [Function.comp]
    ring
  · simp only [hsub]
    rw [avg_swap]
  · rw [← avg_swap L (List.range n) fun i m => (x m i - y i) ^ 2, ← avg_add]
    congr 1
    refine List.map_congr_left fun i _ => ?_
    have := avg_sq_split hN (fun m => x m i) (y i)
    have e : ∀ u v : K, (u - v) ^ 2 = (v - u) ^ 2 := fun u v => by ring
    simp only [e _ (y i)]
    rw [this]
  · rw [← avg_swap]
    refine avg_le_avg fun i _ => ?_
    rw [hsub]
    have := abs_avg_le ((List.range n).map fun m => x m i - y i)
    rw [List.map_map] at this
    exact this
  · simp only [hsub]
    exact rms_avg_le hs L (List.range n) fun i m => x m i - y i

/-- **C106**: the members of an ensemble that a `VerifyEnsemble` accepted can be verified alone, with the same `avg_axis`. -/
theorem C106_alone {oi o : Obj (EnsX K)} {w w' : World (PyVal K)}
    (h : construct (ensPrims c emb) mids oi w = (.ok o, w')) :
    ∃ ax d, o.ext.axis = some ax ∧ MembersAlone c emb mids oi.ext.f oi.ext.o ax oi.avg
      (oi.ext.f.shape.getD (axisNum oi.ext.f.shape.length ax) 0) d := by
  obtain ⟨ax, fc, h1, -, h3, h4, -, -, -⟩ := C75_construct_ens h
  have hsh := h1.shape
  have hax := h1.axisOK
  rw [h3] at hsh hax
  rw [h4] at hsh
  have ha := construct_axis h
  have hd : ∀ m, ∃ d : Obj (DetX K), m < oi.ext.f.shape.getD (axisNum oi.ext.f.shape.length ax) 0 →
      ∃ di w w', IsMember oi.ext.f ax m di.ext.f ∧ di.ext.o = oi.ext.o ∧ di.avg = oi.avg ∧ di.boot = .none ∧
        construct (detPrims c emb) mids di w = (.ok d, w') := by
    intro m
    refine ⟨⟨(validateAxis oi.avg).2, .none, .none, some true,
      ⟨ofFn oi.ext.o.shape fun i => (membersAt oi.ext.f ax i).getD m none, oi.ext.o⟩⟩, fun hm => ?_⟩
    refine ⟨⟨oi.avg, .none, .none, some true,
      ⟨ofFn oi.ext.o.shape fun i => (membersAt oi.ext.f ax i).getD m none, oi.ext.o⟩⟩, w, w, ⟨hsh, fun i hi => ?_⟩, rfl,
      rfl, rfl, ?_⟩
    · rw [get_ofFn _ (hsh ▸ hi)]
      have hl := membersAt_length oi.ext.f hax hi
      have hm' : m < (membersAt oi.ext.f ax i).length := by rw [hl]; exact hm
      simp [hm']
    · rcases hva : validateAxis oi.avg with ⟨r, a⟩
      rw [hva] at ha
      simp only at ha
      subst ha
      simp only [construct, validate, hva, validateSaving, detPrims, basePrims, shape_ofFn, if_true]
  choose d hd using hd
  exact ⟨ax, d, h1.axis, hd⟩

/-- **C106**: for complete real data, `crps()` plus half the mean distance between two members is the mean of the absolute
errors that `VerifyDeterm` finds for the members. So `crps()` is at most that mean, and equal to it only if the members
agree everywhere. -/
theorem C106_crps {mids : FS (PyVal ℝ) → Path → List (FS (PyVal ℝ))} {c : Cfg ℝ} {emb : A → Arg ℝ} {oi o : Obj (EnsX ℝ)}
    {w w' : World (PyVal ℝ)} (h : construct (ensPrims c emb) mids oi w = (.ok o, w')) (hb : oi.boot = .none)
    {pt : Fl ℝ → List (Fl ℝ) → Fl ℝ} (hpt : IsEnergyScore pt) {split : Bool}
    (hc : ∀ o f ax, c.crpsEns o f ax = ensembleCrps pt split ax o f) (hs : oi.ext.o.shape ≠ [])
    (h0 : 0 ∉ oi.ext.f.shape) (hf : none ∉ oi.ext.f.data) (ho : none ∉ oi.ext.o.data)
    (hok : OptOK oi.ext.o.shape.length (axesOf oi.avg)) (w1 : World (PyVal ℝ)) :
    ∃ ax r, o.ext.axis = some ax ∧
      result .ensemble I (ensPrims c emb) mids (.slot .crps) (unsaved o) w1 = .ok (some (.num r)) ∧
      ∀ (n : Nat) (d : Nat → Obj (DetX ℝ)), n = oi.ext.f.shape.getD (axisNum oi.ext.f.shape.length ax) 0 →
        MembersAlone c emb mids oi.ext.f oi.ext.o ax oi.avg n d →
        ∃ B : Nat → NDArr (Fl ℝ), (∀ m < n,
            result .determ I (detPrims c emb) mids (.slot .abError) (unsaved (d m)) w1 = .ok (some (.num (B m)))) ∧
          ∀ k, InB (dropAxes (nums oi.ext.o.shape.length (axesOf oi.avg)) oi.ext.o.shape) k →
            ∃ (v : ℝ) (am : Nat → ℝ), r.get k = some v ∧ (∀ m < n, (B m).get k = some (am m)) ∧
              (let L := fiberIdx oi.ext.o.shape (nums oi.ext.o.shape.length (axesOf oi.avg)) k
              v + avg (L.map fun i => let ms := present (membersAt oi.ext.f ax i)
                avg (ms.map fun x => avg (ms.map fun x' => |x - x'|)) / 2) = avg ((List.range n).map am) ∧
              v ≤ avg ((List.range n).map am) ∧
              (v = avg ((List.range n).map am) ↔
                ∀ i ∈ L, ∀ x ∈ membersAt oi.ext.f ax i, ∀ x' ∈ membersAt oi.ext.f ax i, x = x')) := by
  obtain ⟨ax, r, r0, r1, r2, Y, M, hYM, r3⟩ := C88_crps (I := I) h hb hpt hc hs h0 hf ho hok w1
  obtain ⟨ax', fc, h1, -, h3, h4, -, -, -⟩ := C75_construct_ens h
  have hax := h1.axis
  rw [r0] at hax
  cases hax
  have hax := h1.axisOK
  have hsh := h1.shape
  rw [h3] at hax hsh
  rw [h4] at hsh
  have hpos : 0 ∉ oi.ext.o.shape := by
    rw [hsh, posShape]
    exact fun h => h0 (List.eraseIdx_subset h)
  refine ⟨ax, r, r0, r1, fun n d hn hd => ?_⟩
  obtain ⟨x, y, hxy⟩ := member_values hax hsh hf ho hn
  have hM : ∀ i, InB oi.ext.o.shape i → M i = (List.range n).map (fun m => x m i) ∧ Y i = y i := by
    intro i hi
    obtain ⟨e1, e2, -⟩ := hYM i hi
    obtain ⟨e3, e4⟩ := hxy i hi
    rw [e1] at e3
    rw [e2] at e4
    exact ⟨(List.map_injective_iff.2 (Option.some_injective _)) e4, Option.some.inj e3⟩
  have hdet : ∀ m, ∃ B, m < n →
      result .determ I (detPrims c emb) mids (.slot .abError) (unsaved (d m)) w1 = .ok (some (.num B)) ∧
      ∀ k, InB (dropAxes (nums oi.ext.o.shape.length (axesOf oi.avg)) oi.ext.o.shape) k →
        B.get k = some (avg ((fiberIdx oi.ext.o.shape (nums oi.ext.o.shape.length (axesOf oi.avg)) k).map fun i =>
          |x m i - y i|)) := by
    intro m
    by_cases hm : m < n
    · obtain ⟨di, wa, wb, d1, d2, d3, d4, d5⟩ := hd m hm
      obtain ⟨E, B, Q, R, t1, t2, t3, t4, t5⟩ := det_values (I := I) d5 d4 (s := oi.ext.o.shape) (by rw [d2]) hpos
        (by rw [d3]; exact hok) (x := x m) (y := y)
        (fun i hi => isMember_value d1 (hsh ▸ hi) (hxy i hi).2 hm) (fun i hi => by rw [d2]; exact (hxy i hi).1) w1
      rw [d3] at t5
      exact ⟨B, fun _ => ⟨t2, fun k hk => (t5 k hk).2.1⟩⟩
    · exact ⟨r, fun h => absurd h hm⟩
  choose B hB using hdet
  refine ⟨B, fun m hm => (hB m hm).1, fun k hk => ?_⟩
  have hv := r3 k (r2 ▸ hk)
  set L := fiberIdx oi.ext.o.shape (nums oi.ext.o.shape.length (axesOf oi.avg)) k with hLdef
  have hL : L ≠ [] := fiberIdx_ne hpos hk
  have hin : ∀ i ∈ L, InB oi.ext.o.shape i := fun i hi => (mem_fiberIdx.1 hi).1
  have hp : ∀ i ∈ L, present (membersAt oi.ext.f ax i) = M i := by
    intro i hi
    rw [(hYM i (hin i hi)).2.1, present, filterMap_id_map_some]
  have hsum : avg (L.map fun i => energyScore (M i) (Y i)) +
      avg (L.map fun i => let ms := present (membersAt oi.ext.f ax i)
        avg (ms.map fun x => avg (ms.map fun x' => |x - x'|)) / 2) =
      avg ((List.range n).map fun m => avg (L.map fun i => |x m i - y i|)) := by
    rw [← avg_swap L (List.range n) fun i m => |x m i - y i|, ← avg_add]
    congr 1
    refine List.map_congr_left fun i hi => ?_
    obtain ⟨q1, q2⟩ := hM i (hin i hi)
    simp only [hp i hi, energyScore, sub_add_cancel]
    rw [q1, q2, List.map_map]
    rfl
  have hnn : ∀ i ∈ L, 0 ≤ (let ms := present (membersAt oi.ext.f ax i)
        avg (ms.map fun x => avg (ms.map fun x' => |x - x'|)) / 2) := by
    intro i _
    exact div_nonneg (avg_nonneg' _ fun x _ => avg_nonneg' _ fun x' _ => abs_nonneg _) (by norm_num)
  refine ⟨_, _, hv, fun m hm => (hB m hm).2 k hk, hsum, ?_, ?_⟩
  · rw [← hsum]
    exact le_add_of_nonneg_right (avg_nonneg' L hnn)
  · rw [← hsum, left_eq_add, avg_zero_iff hnn]
    refine forall₂_congr fun i hi => ?_
    simp only [hp i hi]
    rw [(hYM i (hin i hi)).2.1, div_eq_zero_iff, or_iff_left (by norm_num : (2 : ℝ) ≠ 0),
      avg_zero_iff fun x _ => avg_nonneg' _ fun x' _ => abs_nonneg _]
    simp only [List.mem_map, forall_exists_index, and_imp, forall_apply_eq_imp_iff₂, Option.some.injEq]
    refine forall₂_congr fun x hx => ?_
    rw [avg_zero_iff fun x' _ => abs_nonneg _]
    refine forall₂_congr fun x' hx' => ?_
    rw [abs_eq_zero, sub_eq_zero]

/-! ### cases -/

/-- Over real numbers: an ensemble of two members 1 and 2 with observation 3, and 5 and 6 with observation 5. The members
alone have mean absolute errors 1 and 1, so `crps()` and a quarter - half the mean distance of two members - make 1. -/
example : ∃ o w' d, construct (ensPrims cfgR embReal) noMids ensR world0 = (.ok o, w') ∧
    MembersAlone cfgR embReal noMids ensR.ext.f ensR.ext.o 0 ensR.avg 2 d ∧
    ∃ (r : NDArr (Fl ℝ)) (B : Nat → NDArr (Fl ℝ)) (v : ℝ) (am : Nat → ℝ), result .ensemble realInfo (ensPrims cfgR embReal) noMids (.slot .crps) (unsaved o) world0 =
        .ok (some (.num r)) ∧
      (∀ m < 2, result .determ realInfo (detPrims cfgR embReal) noMids (.slot .abError) (unsaved (d m)) world0 =
        .ok (some (.num (B m)))) ∧
      r.get [] = some v ∧ (∀ m < 2, (B m).get [] = some (am m)) ∧ v ≤ avg ((List.range 2).map am) := by
  obtain ⟨o, w', h⟩ := ensR_built
  obtain ⟨ax, d, h1, h2⟩ := C106_alone h
  obtain ⟨ax', r, a1, r1, r2⟩ := C106_crps (I := realInfo) h rfl psScore_energy (split := false)
    (fun _ _ _ => rfl) (by simp [ensR]) (by simp [ensR]) (by simp [ensR]) (by simp [ensR]) ensR_axes world0
  rw [h1] at a1
  cases a1
  obtain ⟨_, fc, d1, -, -, -, -, d2, -⟩ := C75_construct_ens h
  have d3 := d1.axis
  rw [h1] at d3
  cases d3
  obtain rfl : ax = 0 := d2 0 rfl
  obtain ⟨B, b1, b2⟩ := r2 2 d rfl h2
  obtain ⟨v, am, c1, c2, -, c3, -⟩ := b2 [] (by decide)
  exact ⟨o, w', d, h, h2, r, B, v, am, r1, b1, c1, c2, c3⟩

/-- members 1 and 2 with observation 3, 5 and 7 with observation 5 -/
def membersX : EnsX ℚ := ⟨⟨[2, 2], [some 1, some 5, some 2, some 7], rfl⟩, ⟨[2], [some 3, some 5], rfl⟩, some 0,
  fun f ax => reduceAxes mean f (some [ax]), none⟩

def alone (m : Fin 2) : DetX ℚ := ⟨⟨[2], [some ([1, 2][m]), some ([5, 7][m])], rfl⟩, membersX.o⟩

/-- The errors of the ensemble, and those of the members, each verified alone: the errors average to that of the ensemble,
the squared errors to that of the ensemble plus the mean variance 5/8. -/
example : (∀ m : Fin 2, IsMember membersX.f 0 m (alone m).f) ∧
    ∃ o w, construct (ensPrims caseCfg embInt) noMids ⟨.none, .none, .none, some true, membersX⟩ world0 = (.ok o, w) ∧
    numOf (result .ensemble intInfo (ensPrims caseCfg embInt) noMids (.slot .error) (unsaved o) w) =
      some ([], [some (-1 / 4)]) ∧
    numOf (result .ensemble intInfo (ensPrims caseCfg embInt) noMids (.slot .sqError) (unsaved o) w) =
      some ([], [some (13 / 8)]) ∧
    numOf (result .ensemble intInfo (ensPrims caseCfg embInt) noMids (.slot .variance) (unsaved o) w) =
      some ([2], [some (1 / 4), some 1]) ∧
    ∃ u w u' w', construct (detPrims caseCfg embInt) noMids ⟨.none, .none, .none, some true, alone 0⟩ world0 = (.ok u, w) ∧
      construct (detPrims caseCfg embInt) noMids ⟨.none, .none, .none, some true, alone 1⟩ world0 = (.ok u', w') ∧
      numOf (result .determ intInfo (detPrims caseCfg embInt) noMids (.slot .error) (unsaved u) w) = some ([], [some (-1)]) ∧
      numOf (result .determ intInfo (detPrims caseCfg embInt) noMids (.slot .error) (unsaved u') w) =
        some ([], [some (1 / 2)]) ∧
      numOf (result .determ intInfo (detPrims caseCfg embInt) noMids (.slot .sqError) (unsaved u) w) = some ([], [some 2]) ∧
      numOf (result .determ intInfo (detPrims caseCfg embInt) noMids (.slot .sqError) (unsaved u') w) =
        some ([], [some (5 / 2)]) := by
  refine ⟨?_, _, _, rfl, by decide +kernel, by decide +kernel, by decide +kernel, _, _, _, _, rfl, rfl, by decide +kernel,
    by decide +kernel, by decide +kernel, by decide +kernel⟩
  have key : ∀ m : Fin 2, ∀ i ∈ allIdx [2], (membersAt membersX.f 0 i)[(m : Nat)]? = some ((alone m).f.get i) := by
    decide +kernel
  exact fun m => ⟨rfl, fun i hi => key m i (mem_allIdx.2 hi)⟩

end Props
