import Verif.Lemmas.RandomEnsMoments
import Verif.Props.Honest
import Verif.Props.Exchange

/-!
# What the metrics of an ensemble are on average when its members are drawn by chance: C118
-/

set_option linter.unusedSectionVars false

namespace Props
open Np NDArr Model Spec Lemmas MeasureTheory

variable {A : Type} {I : ArgInfo A} {c : Cfg ℝ} {emb : A → Arg ℝ}
  {mids : FS (PyVal ℝ) → Model.Path → List (FS (PyVal ℝ))}
variable {Ω : Type} [MeasurableSpace Ω] {P : Measure Ω} [IsProbabilityMeasure P]
  {sh : List Nat} {n : Nat} {ax : Int} {Y : List Nat → Ω → ℝ} {X : List Nat → Nat → Ω → ℝ} {F G : List Nat → ℝ → ℝ}

theorem not_none_data {o : NDArr (Fl ℝ)} {y : List Nat → ℝ} (h : ∀ i, InB o.shape i → o.get i = some (y i)) :
    none ∉ o.data := by
  intro hn
  rw [data_eq, List.mem_map] at hn
  obtain ⟨i, hi, e⟩ := hn
  rw [h i (mem_allIdx.1 hi)] at e
  cases e

theorem map_some_inj {a b : List ℝ} (h : a.map some = b.map some) : a = b :=
  List.map_injective_iff.2 (Option.some_injective ℝ) h

/-- **C118**: the mean of every number that `crps()` gives is the average over the pooled positions of the squared distance
between the distribution function of the members and that of the observation, plus the spread of the observation, plus the
spread of a member divided by the number of members. -/
theorem C118_crps {oi o : Ω → Obj (EnsX ℝ)} {w w' w1 : Ω → World (PyVal ℝ)}
    (h : ∀ ω, construct (ensPrims c emb) mids (oi ω) (w ω) = (.ok (o ω), w' ω)) (hb : ∀ ω, (oi ω).boot = .none)
    {pt : Fl ℝ → List (Fl ℝ) → Fl ℝ} (hpt : IsEnergyScore pt) {split : Bool}
    (hc : ∀ o f ax, c.crpsEns o f ax = ensembleCrps pt split ax o f) (hs : sh ≠ []) (hn : 0 < n)
    (h0 : ∀ ω, 0 ∉ (oi ω).ext.f.shape) (hf : ∀ ω, none ∉ (oi ω).ext.f.data) (hax : ∀ ω, (o ω).ext.axis = some ax)
    (d : RandomEns P sh n (fun ω => (oi ω).ext.o) (fun ω => (oi ω).ext.f) ax Y X F G)
    {a : PyAxis} (ha : ∀ ω, (oi ω).avg = a) (hok : OptOK sh.length (axesOf a)) :
    ∃ r : Ω → NDArr (Fl ℝ),
      (∀ ω, result .ensemble I (ensPrims c emb) mids (.slot .crps) (unsaved (o ω)) (w1 ω) = .ok (some (.num (r ω)))) ∧
      (∀ ω, (r ω).shape = dropAxes (nums sh.length (axesOf a)) sh) ∧
      ∀ k, InB (dropAxes (nums sh.length (axesOf a)) sh) k → ∃ S : Ω → ℝ, (∀ ω, (r ω).get k = some (S ω)) ∧
        Integrable S P ∧ ∫ ω, S ω ∂P = avg ((fiberIdx sh (nums sh.length (axesOf a)) k).map fun i =>
          cdfDist (F i) (G i) + cdfSpread (G i) + cdfSpread (F i) / n) := by
  have main : ∀ ω, ∃ r, result .ensemble I (ensPrims c emb) mids (.slot .crps) (unsaved (o ω)) (w1 ω) =
        .ok (some (.num r)) ∧ r.shape = dropAxes (nums sh.length (axesOf a)) sh ∧
      ∀ k, InB (dropAxes (nums sh.length (axesOf a)) sh) k → r.get k =
        some (avg ((fiberIdx sh (nums sh.length (axesOf a)) k).map fun i =>
          energyScore ((List.range n).map fun j => X i j ω) (Y i ω))) := by
    intro ω
    have hsh := d.shape ω
    have hok' : OptOK (oi ω).ext.o.shape.length (axesOf (oi ω).avg) := by rw [hsh, ha]; exact hok
    obtain ⟨ax', r, r0, r1, r2, Y', M', hYM, r3⟩ := C88_crps (I := I) (h ω) (hb ω) hpt hc (by rw [hsh]; exact hs) (h0 ω)
      (hf ω) (not_none_data (y := fun i => Y i ω) fun i hi => d.value i (by rw [← hsh]; exact hi) ω) hok' (w1 ω)
    rw [hax ω] at r0
    cases r0
    rw [hsh] at hYM
    rw [hsh, ha] at r2
    simp only [hsh, ha] at r3
    refine ⟨r, r1, r2, fun k hk => ?_⟩
    rw [r3 k (by rw [r2]; exact hk)]
    congr 2
    refine List.map_congr_left fun i hi => ?_
    have hi' := (mem_fiberIdx.1 hi).1
    obtain ⟨g1, g2, -⟩ := hYM i hi'
    rw [d.value i hi' ω] at g1
    rw [d.members ω i hi'] at g2
    have g2 : ((List.range n).map fun j => X i j ω).map some = (M' i).map some := by
      rw [← g2, List.map_map]; rfl
    rw [← Option.some.inj g1, ← map_some_inj g2]
  choose r r1 r2 r3 using main
  refine ⟨r, r1, r2, fun k hk => ⟨_, fun ω => r3 ω k hk, ?_⟩⟩
  refine mean_avg (P := P) _ (g := fun i ω => energyScore ((List.range n).map fun j => X i j ω) (Y i ω)) fun i hi => ?_
  have hi' := (mem_fiberIdx.1 hi).1
  exact expected_energy hn (d.measX i hi') (d.meas i hi') (d.meanX i hi') (d.mean i hi') (d.lawX i hi') (d.law i hi')
    (d.indepY i hi') (d.indepX i hi')

/-- **C118**: members drawn from the distribution of the observations make the least possible expected `crps()` larger by
one over their number. -/
theorem C118_honest {oi o : Ω → Obj (EnsX ℝ)} {w w' w1 : Ω → World (PyVal ℝ)}
    (h : ∀ ω, construct (ensPrims c emb) mids (oi ω) (w ω) = (.ok (o ω), w' ω)) (hb : ∀ ω, (oi ω).boot = .none)
    {pt : Fl ℝ → List (Fl ℝ) → Fl ℝ} (hpt : IsEnergyScore pt) {split : Bool}
    (hc : ∀ o f ax, c.crpsEns o f ax = ensembleCrps pt split ax o f) (hs : sh ≠ []) (hn : 0 < n)
    (h0 : ∀ ω, 0 ∉ (oi ω).ext.f.shape) (hf : ∀ ω, none ∉ (oi ω).ext.f.data) (hax : ∀ ω, (o ω).ext.axis = some ax)
    (d : RandomEns P sh n (fun ω => (oi ω).ext.o) (fun ω => (oi ω).ext.f) ax Y X G G)
    {a : PyAxis} (ha : ∀ ω, (oi ω).avg = a) (hok : OptOK sh.length (axesOf a)) :
    ∃ r : Ω → NDArr (Fl ℝ),
      (∀ ω, result .ensemble I (ensPrims c emb) mids (.slot .crps) (unsaved (o ω)) (w1 ω) = .ok (some (.num (r ω)))) ∧
      ∀ k, InB (dropAxes (nums sh.length (axesOf a)) sh) k → ∃ S : Ω → ℝ, (∀ ω, (r ω).get k = some (S ω)) ∧
        Integrable S P ∧ ∫ ω, S ω ∂P = (1 + 1 / n) * avg ((fiberIdx sh (nums sh.length (axesOf a)) k).map fun i =>
          cdfSpread (G i)) := by
  obtain ⟨r, r1, -, r3⟩ := C118_crps (I := I) (w1 := w1) h hb hpt hc hs hn h0 hf hax d ha hok
  refine ⟨r, r1, fun k hk => ?_⟩
  obtain ⟨S, s1, s2, s3⟩ := r3 k hk
  refine ⟨S, s1, s2, ?_⟩
  rw [s3]
  have e : ∀ i, cdfDist (G i) (G i) + cdfSpread (G i) + cdfSpread (G i) / n = cdfSpread (G i) * (1 + 1 / n) := by
    intro i
    rw [cdfDist_self]
    ring
  simp only [e, avg, List.length_map, List.sum_map_mul_right]
  ring

/-- **C118**, errors of the ensemble mean: members with mean `m` and variance `v`, observations with mean `m'` and variance
`v'`. The expected `error()` is the average difference of the means; the expected `sq_error()` the average of its square
plus the variance of the observation plus that of a member divided by the number of members; the expected `variance()` at a
position is short of the variance of a member by one over the number of members. -/
theorem C118_errors {oi o : Ω → Obj (EnsX ℝ)} {w w' w1 : Ω → World (PyVal ℝ)}
    (h : ∀ ω, construct (ensPrims c emb) mids (oi ω) (w ω) = (.ok (o ω), w' ω)) (hb : ∀ ω, (oi ω).boot = .none)
    (hg : ∀ ω f ax, (oi ω).ext.collapse f ax = reduceAxes mean f (some [ax])) (hn : 0 < n)
    (h0 : ∀ ω, 0 ∉ (oi ω).ext.f.shape) (hf : ∀ ω, none ∉ (oi ω).ext.f.data) (hax : ∀ ω, (o ω).ext.axis = some ax)
    (d : RandomEns P sh n (fun ω => (oi ω).ext.o) (fun ω => (oi ω).ext.f) ax Y X F G) {m v m' v' : List Nat → ℝ}
    (hX : ∀ i, InB sh i → ∀ j, j < n → MemLp (X i j) 2 P ∧ ∫ ω, X i j ω ∂P = m i ∧ ∫ ω, (X i j ω - m i) ^ 2 ∂P = v i)
    (hY : ∀ i, InB sh i → MemLp (Y i) 2 P ∧ ∫ ω, Y i ω ∂P = m' i ∧ ∫ ω, (Y i ω - m' i) ^ 2 ∂P = v' i)
    {a : PyAxis} (ha : ∀ ω, (oi ω).avg = a) (hok : OptOK sh.length (axesOf a)) :
    ∃ e q var : Ω → NDArr (Fl ℝ),
      (∀ ω, result .ensemble I (ensPrims c emb) mids (.slot .error) (unsaved (o ω)) (w1 ω) = .ok (some (.num (e ω)))) ∧
      (∀ ω, result .ensemble I (ensPrims c emb) mids (.slot .sqError) (unsaved (o ω)) (w1 ω) = .ok (some (.num (q ω)))) ∧
      (∀ ω, result .ensemble I (ensPrims c emb) mids (.slot .variance) (unsaved (o ω)) (w1 ω) =
        .ok (some (.num (var ω)))) ∧
      (∀ k, InB (dropAxes (nums sh.length (axesOf a)) sh) k → ∃ E Q : Ω → ℝ,
        (∀ ω, (e ω).get k = some (E ω) ∧ (q ω).get k = some (Q ω)) ∧ Integrable E P ∧ Integrable Q P ∧
        ∫ ω, E ω ∂P = avg ((fiberIdx sh (nums sh.length (axesOf a)) k).map fun i => m i - m' i) ∧
        ∫ ω, Q ω ∂P = avg ((fiberIdx sh (nums sh.length (axesOf a)) k).map fun i =>
          (m i - m' i) ^ 2 + v' i + v i / n)) ∧
      ∀ i, InB sh i → ∃ V : Ω → ℝ, (∀ ω, (var ω).get i = some (V ω)) ∧ Integrable V P ∧ ∫ ω, V ω ∂P = v i - v i / n := by
  have hne : List.range n ≠ [] := by simpa using hn.ne'
  have main : ∀ ω, ∃ e q var, result .ensemble I (ensPrims c emb) mids (.slot .error) (unsaved (o ω)) (w1 ω) =
        .ok (some (.num e)) ∧
      result .ensemble I (ensPrims c emb) mids (.slot .sqError) (unsaved (o ω)) (w1 ω) = .ok (some (.num q)) ∧
      result .ensemble I (ensPrims c emb) mids (.slot .variance) (unsaved (o ω)) (w1 ω) = .ok (some (.num var)) ∧
      (∀ k, InB (dropAxes (nums sh.length (axesOf a)) sh) k →
        e.get k = some (avg ((fiberIdx sh (nums sh.length (axesOf a)) k).map fun i =>
          avg ((List.range n).map fun j => X i j ω) - Y i ω)) ∧
        q.get k = some (avg ((fiberIdx sh (nums sh.length (axesOf a)) k).map fun i =>
          (avg ((List.range n).map fun j => X i j ω) - Y i ω) ^ 2))) ∧
      ∀ i, InB sh i → var.get i = some (avg ((List.range n).map fun j =>
        (X i j ω - avg ((List.range n).map fun j => X i j ω)) ^ 2)) := by
    intro ω
    have hsh := d.shape ω
    have hok' : OptOK (oi ω).ext.o.shape.length (axesOf (oi ω).avg) := by rw [hsh, ha]; exact hok
    obtain ⟨ax', e, ab, q, r, a0, e1, -, e3, -, ⟨s1, -, s3, -⟩, e5⟩ := C75_ens_errors (I := I) (h ω) (hb ω) (hg ω) hok' (w1 ω)
    obtain ⟨ax'', var, spr, r', a0', v1, -, v2, -, v3, -⟩ := C75_ens_spread (I := I) (h ω) (hb ω) (fun i hi hn => by
      obtain ⟨x, hx⟩ := get_some (hf ω) hi
      rw [hx] at hn
      cases hn) (h0 ω) hok' (w1 ω)
    rw [hax ω] at a0 a0'
    cases a0
    cases a0'
    rw [hsh, ha] at s1
    simp only [hsh, ha] at e5
    rw [hsh] at v3
    have hM : ∀ i, InB sh i → membersAt (oi ω).ext.f ax i = ((List.range n).map fun j => X i j ω).map some := fun i hi => by
      rw [d.members ω i hi, List.map_map]; rfl
    have hsh0 : 0 ∉ sh := by
      obtain ⟨ax', fc, h1, -, h3, h4, -, -, -⟩ := C75_construct_ens (h ω)
      have hs := h1.shape
      rw [h3, h4, hsh] at hs
      rw [hs, posShape]
      exact fun h => h0 ω (List.eraseIdx_subset h)
    refine ⟨e, q, var, e1, e3, v1, fun k hk => ?_, fun i hi => ?_⟩
    · have hLne := fiberIdx_ne hsh0 hk
      have hmean : ∀ i ∈ fiberIdx sh (nums sh.length (axesOf a)) k,
          (mean (membersAt (oi ω).ext.f ax i), (oi ω).ext.o.get i) =
          (some (avg ((List.range n).map fun j => X i j ω)), some (Y i ω)) := by
        intro i hi
        have hi' := (mem_fiberIdx.1 hi).1
        rw [d.value i hi' ω, hM i hi', mean_some _ (by simpa using hn.ne')]
        rfl
      obtain ⟨b1, -, b3, -⟩ := e5 k (by rw [s1]; exact hk)
      rw [List.map_map] at b1 b3
      exact ⟨isAvg_some' hLne (fun i hi => by simp only [Function.comp]; rw [hmean i hi]; rfl) b1,
        isAvg_some' hLne (fun i hi => by simp only [Function.comp]; rw [hmean i hi]; rfl) b3⟩
    · have hm : present (fiber (oi ω).ext.f [axisNum (oi ω).ext.f.shape.length ax] i) =
          (List.range n).map fun j => X i j ω := by
        have := hM i hi
        unfold membersAt at this
        rw [this, present, filterMap_id_map_some]
      have := (v3 i hi).1
      rw [hm, List.map_map] at this
      exact this
  choose e q var e1 q1 v1 eq3 v3 using main
  refine ⟨e, q, var, e1, q1, v1, fun k hk => ?_, fun i hi => ?_⟩
  · have he := mean_avg (P := P) (fiberIdx sh (nums sh.length (axesOf a)) k)
      (g := fun i ω => avg ((List.range n).map fun j => X i j ω) - Y i ω) (e := fun i => m i - m' i) fun i hi => by
        have hi' := (mem_fiberIdx.1 hi).1
        exact expected_error hn (d.meanX i hi') (d.mean i hi') (fun j hj => (hX i hi' j hj).2.1) (hY i hi').2.1
    have hq := mean_avg (P := P) (fiberIdx sh (nums sh.length (axesOf a)) k)
      (g := fun i ω => (avg ((List.range n).map fun j => X i j ω) - Y i ω) ^ 2)
      (e := fun i => (m i - m' i) ^ 2 + v' i + v i / n) fun i hi => by
        have hi' := (mem_fiberIdx.1 hi).1
        exact expected_sq_error hn (fun j hj => (hX i hi' j hj).1) (hY i hi').1 (fun j hj => (hX i hi' j hj).2.1)
          (fun j hj => (hX i hi' j hj).2.2) (hY i hi').2.1 (hY i hi').2.2 (d.indepY i hi') (d.indepX i hi')
    exact ⟨_, _, fun ω => eq3 ω k hk, he.1, hq.1, he.2, hq.2⟩
  · refine ⟨_, fun ω => v3 ω i hi, ?_⟩
    exact expected_variance hn (fun j hj => (hX i hi j hj).1) (fun j hj => (hX i hi j hj).2.1)
      (fun j hj => (hX i hi j hj).2.2) (d.indepX i hi)

end Props
