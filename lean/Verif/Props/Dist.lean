import Verif.Lemmas.Dist
import Verif.Lemmas.Ensemble
import Verif.Props.Integration
import Mathlib.Tactic.FieldSimp

/-!
# Distribution functions: C33 - C37, C41
-/

set_option linter.unusedSectionVars false

namespace Props
open Np NDArr Model Spec

variable {K : Type} [Field K] [LinearOrder K] [IsStrictOrderedRing K]

/-! ### C33 -/

/-- a Gamma hurdle forecast at position `k`: probability of precipitation `p`, and `G` the CDF that the statistics
library gives for the Gamma distribution with mean `m` and standard deviation `sd` -/
structure HurdleAt (S : Scipy K) (pop mu sigma : NDArr (Fl K)) (s : List Nat) (k : List Nat) (p : K)
    (G : K → K) : Prop where
  spop : pop.shape = s
  smu : mu.shape = s
  ssigma : sigma.shape = s
  inB : InB s k
  hpop : pop.get k = some p
  p0 : 0 ≤ p
  p1 : p ≤ 1
  par : ∃ m sd, mu.get k = some m ∧ sigma.get k = some sd ∧ m ≠ 0 ∧ sd ≠ 0 ∧
    ∀ x, 0 < x → S.gamma (some x) (some (m / sd * (m / sd))) (some 0) (some (sd * sd / m)) = some (G x)
  g0 : ∀ x, 0 < x → 0 ≤ G x
  g1 : ∀ x, 0 < x → G x ≤ 1
  gmono : ∀ x y, 0 < x → x ≤ y → G x ≤ G y

/-- the distribution function of the mixture, on the whole axis -/
def hurdleCdf (p : K) (G : K → K) (t : K) : K := if 0 < t then (1 - p) + p * G t else 1 - p

/-- **C33**: for a finite threshold `t` the hurdle CDF is `1 - pop` for `t ≤ 0` and `(1 - pop) + pop * G t` for
`t > 0`, for every way of running it. -/
theorem C33_value (S : Scipy K) {workers mapAxis : Int} {pop mu sigma : NDArr (Fl K)} {s : List Nat}
    {k : List Nat} {p : K} {G : K → K} (H : HurdleAt S pop mu sigma s k p G) {below : Thr K}
    (hb : ThrOK below s) (hpool : PoolOK workers mapAxis s) (t : K) (ht : thrAt below k = some t) :
    ∃ r, cdfGammaHurdle S workers mapAxis pop mu sigma below = .ok r ∧ r.shape = s ∧
      r.get k = some (hurdleCdf p G t) ∧ 0 ≤ hurdleCdf p G t ∧ hurdleCdf p G t ≤ 1 := by
  obtain ⟨m, sd, hm, hsd, hm0, hsd0, hG⟩ := H.par
  have hrange : 0 ≤ hurdleCdf p G t ∧ hurdleCdf p G t ≤ 1 := by
    unfold hurdleCdf
    have := H.p0; have := H.p1
    split
    · rename_i h
      have h0 := H.g0 t h
      have h1 := H.g1 t h
      constructor <;> nlinarith
    · constructor <;> linarith
  have hz : mu.shape = sigma.shape := by rw [H.smu, H.ssigma]
  unfold cdfGammaHurdle
  rw [zipWith_ok _ _ _ hz, zipWith_ok _ _ _ hz]
  simp only [bind, Except.bind]
  have hs : ∀ q ∈ [pop, ofFn mu.shape fun i => gammaShape (mu.get i) (sigma.get i),
      ofFn mu.shape fun i => gammaScale (mu.get i) (sigma.get i)], q.shape = s := by
    intro q hq
    simp only [List.mem_cons, List.not_mem_nil, or_false] at hq
    rcases hq with rfl | rfl | rfl
    · exact H.spop
    · exact H.smu
    · exact H.smu
  obtain ⟨r, r1, r2, r3⟩ := cdfGeneric_ok (workers := workers) (mapAxis := mapAxis) (hurdleElem S) (hurdleElem S)
    H.smu hs hb hpool
  refine ⟨r, r1, r2, ?_, hrange⟩
  have hkm : InB mu.shape k := by rw [H.smu]; exact H.inB
  rw [r3 k H.inB, ite_self]
  simp only [List.map_cons, List.map_nil, List.cons_append, List.nil_append]
  rw [get_ofFn _ hkm, get_ofFn _ hkm, ht, H.hpop, hm, hsd]
  have he : hurdleElem S [some p, gammaShape (some m) (some sd), gammaScale (some m) (some sd), some t] =
      some (hurdleCdf p G t) := by
    have e1 : gammaShape (some m) (some sd) = some (m / sd * (m / sd)) := by
      simp [gammaShape, Fl.div, hsd0, Fl.sq]
    have e2 : gammaScale (some m) (some sd) = some (sd * sd / m) := by
      simp [gammaScale, Fl.div, hm0, Fl.sq]
    rw [e1, e2]
    simp only [hurdleElem, List.getD_cons_zero, List.getD_cons_succ, hurdleCdf]
    by_cases h : 0 < t
    · rw [hG t h]; simp [Fl.lt, h]
    · simp [Fl.lt, h]
  rw [he]
  exact clip01_id hrange.1 hrange.2

/-- **C33**: the hurdle CDF is non-decreasing in the threshold. -/
theorem C33_monotone (S : Scipy K) {workers mapAxis : Int} {pop mu sigma : NDArr (Fl K)} {s : List Nat}
    {k : List Nat} {p : K} {G : K → K} (H : HurdleAt S pop mu sigma s k p G) {below below' : Thr K}
    (hb : ThrOK below s) (hb' : ThrOK below' s) (hpool : PoolOK workers mapAxis s) (t t' : K)
    (ht : thrAt below k = some t) (ht' : thrAt below' k = some t') (hle : t ≤ t') :
    ∃ r r' v v', cdfGammaHurdle S workers mapAxis pop mu sigma below = .ok r ∧
      cdfGammaHurdle S workers mapAxis pop mu sigma below' = .ok r' ∧ r.get k = some v ∧ r'.get k = some v' ∧
      v ≤ v' := by
  obtain ⟨r, h1, -, h2, -⟩ := C33_value S H hb hpool t ht
  obtain ⟨r', h1', -, h2', -⟩ := C33_value S H hb' hpool t' ht'
  refine ⟨r, r', _, _, h1, h1', h2, h2', ?_⟩
  unfold hurdleCdf
  have := H.p0
  by_cases h : 0 < t
  · rw [if_pos h, if_pos (by linarith)]
    have := H.gmono t t' h hle
    nlinarith
  · rw [if_neg h]
    split
    · rename_i h'
      have := H.g0 t' h'
      nlinarith
    · exact le_rfl

/-- a stand-in for the statistics library at ℚ: `x / (1 + x)` is a distribution function on the positive axis -/
def demoScipy : Scipy ℚ where
  norm := fun x m s => Fl.div (Fl.sub x m) s
  truncnorm := fun x _ m s => Fl.div (Fl.sub x m) s
  gamma := fun x _ _ _ => x.bind fun v => some (v / (1 + v))
  truncgamma := fun x _ _ _ _ => x.bind fun v => some (v / (1 + v))

theorem demo_hurdle : HurdleAt demoScipy (full [2] (some (1/2))) (full [2] (some 3)) (full [2] (some 2)) [2] [1]
    (1/2) (fun x => x / (1 + x)) where
  spop := rfl
  smu := rfl
  ssigma := rfl
  inB := by decide
  hpop := by decide +kernel
  p0 := by norm_num
  p1 := by norm_num
  par := ⟨3, 2, by decide +kernel, by decide +kernel, by norm_num, by norm_num, fun x _ => rfl⟩
  g0 := fun x hx => by positivity
  g1 := fun x hx => by rw [div_le_one (by positivity)]; linarith
  gmono := fun x y hx hxy => by
    rw [div_le_div_iff₀ (by linarith) (by linarith)]; nlinarith

/-- the hypotheses of C33 are satisfiable, with and without a pool -/
example : ∃ r : NDArr (Fl ℚ), cdfGammaHurdle demoScipy 2 (-1) (full [2] (some (1/2))) (full [2] (some 3))
    (full [2] (some 2)) (.scalar (some 1)) = .ok r ∧ r.get [1] = some (3/4) := by
  obtain ⟨r, h1, -, h2, -⟩ := C33_value (workers := 2) (mapAxis := -1) demoScipy demo_hurdle
    (below := .scalar (some 1)) trivial (Or.inr (by decide)) 1 rfl
  refine ⟨r, h1, ?_⟩
  rw [h2]
  decide +kernel

/-! ### C34 -/

theorem trapezoid_split (x F : ℕ → K) (m n : ℕ) (hn : n ≠ 0) :
    trapezoid x F (m + n) = trapezoid x F (m + 1) + trapezoid (fun i => x (m + i)) (fun i => F (m + i)) n := by
  unfold trapezoid
  rw [show m + n - 1 = m + (n - 1) by omega, Finset.sum_range_add]
  rfl

/-- **C34** (exact effect): adding grid points `pre` below zero in front of a grid `seq` that starts at or below zero
adds `(1 - pop)² · (length of the extension)` to the CRPS of a Gamma hurdle forecast with a non-negative
observation. -/
theorem C34_excess_partial (S : Scipy K) {workers mapAxis : Int} {pop mu sigma : NDArr (Fl K)}
    {k : List Nat} {p y : K} {G : K → K} (I : Integ K) (ho : OrderOK I)
    (H : HurdleAt S pop mu sigma I.shape k p G) (hpool : PoolOK workers mapAxis I.shape)
    (o : NDArr (Fl K)) (hos : o.shape = I.shape) (hy : o.get k = some y) (hy0 : 0 ≤ y)
    (hrow : I.row = brierRow (fun t => cdfGammaHurdle S workers mapAxis pop mu sigma (.scalar (some t))) o)
    (pre : List K) (x₀ : K) (seq : List K) (hseq : I.seq = x₀ :: seq) (hpre : ∀ x ∈ pre, x ≤ 0) (hx₀ : x₀ ≤ 0)
    (w w' w1 w1' : IWorld K) (r r1 : NDArr (Fl K))
    (h : integrate I .crps w = (.ok r, w'))
    (h1 : integrate { I with seq := pre ++ x₀ :: seq } .crps w1 = (.ok r1, w1')) :
    ∃ v, r.get k = some v ∧
      r1.get k = some (v + (1 - p) * (1 - p) * (x₀ - (pre ++ [x₀]).headD 0)) := by
  -- the value of a row at any grid point
  let B : K → K := fun t => (hurdleCdf p G t - if y < t then 1 else 0) * (hurdleCdf p G t - if y < t then 1 else 0)
  have hB : ∀ t, ∃ a, I.row t = .ok a ∧ a.get k = some (B t) := by
    intro t
    obtain ⟨c, c1, c2, c3, -⟩ := C33_value (workers := workers) (mapAxis := mapAxis) S H
      (below := .scalar (some t)) trivial hpool t rfl
    rw [hrow]
    unfold brierRow
    simp only [c1, bind, Except.bind, binarizeObs, cmpThr, brierArr]
    rw [zipWith_ok _ _ _ (by rw [c2, ← hos]; rfl)]
    refine ⟨_, rfl, ?_⟩
    rw [get_ofFn _ (by rw [c2]; exact H.inB), c3, get_map _ _ (by rw [hos]; exact H.inB), hy]
    simp only [B, Fl.lt, decide_eq_true_eq]
    rfl
  have hgd : ∀ (l : List K) i (hi : i < l.length), l.getD i 0 = l[i] := by
    intro l i hi
    rw [List.getD_eq_getElem?_getD, List.getElem?_eq_getElem hi]; rfl
  have hR : ∀ l : List K, RowsAt { I with seq := l } k (fun i => B (l.getD i 0)) := by
    intro l i hi
    obtain ⟨a, ha, hak⟩ := hB l[i]
    exact ⟨a, ha, by simp only [hgd l i hi]; exact hak⟩
  have hI : I = { I with seq := x₀ :: seq } := by rw [← hseq]
  rw [hI] at h
  obtain ⟨-, hv⟩ := C28_value { I with seq := x₀ :: seq } ho .crps w w' r h k H.inB _ (hR _)
  obtain ⟨-, hv1⟩ := C28_value { I with seq := pre ++ x₀ :: seq } ho .crps w1 w1' r1 h1 k H.inB _ (hR _)
  refine ⟨_, hv, ?_⟩
  rw [hv1]
  congr 1
  simp only [integral]
  rw [show (pre ++ x₀ :: seq).length = pre.length + (x₀ :: seq).length by simp,
    trapezoid_split _ _ _ _ (by simp), add_comm]
  congr 1
  · have e : ∀ i, (pre ++ x₀ :: seq).getD (pre.length + i) 0 = (x₀ :: seq).getD i 0 := by
      intro i
      rw [List.getD_eq_getElem?_getD, List.getElem?_append_right (by omega), ← List.getD_eq_getElem?_getD]
      congr 1; omega
    simp only [e]
  · have hneg : ∀ i, i ≤ pre.length → B ((pre ++ x₀ :: seq).getD i 0) = (1 - p) * (1 - p) := by
      intro i hi
      have : (pre ++ x₀ :: seq).getD i 0 ≤ 0 := by
        rcases Nat.lt_or_ge i pre.length with h' | h'
        · rw [List.getD_eq_getElem?_getD, List.getElem?_append_left h', List.getElem?_eq_getElem h']
          exact hpre _ (List.getElem_mem h')
        · have : i = pre.length := by omega
          subst this
          rw [List.getD_eq_getElem?_getD, List.getElem?_append_right (le_refl _)]
          simpa using hx₀
      simp only [B, hurdleCdf, if_neg (not_lt.2 this), if_neg (not_lt.2 (le_trans this hy0)), sub_zero]
    have hsum : trapezoid (fun i => (pre ++ x₀ :: seq).getD i 0)
        (fun i => B ((pre ++ x₀ :: seq).getD i 0)) (pre.length + 1) =
        ∑ i ∈ Finset.range pre.length, ((1 - p) * (1 - p)) *
          ((pre ++ x₀ :: seq).getD (i + 1) 0 - (pre ++ x₀ :: seq).getD i 0) := by
      unfold trapezoid
      apply Finset.sum_congr (by simp)
      intro i hi
      have := Finset.mem_range.1 hi
      simp only []
      rw [hneg i (by omega), hneg (i + 1) (by omega)]
      ring
    rw [hsum, ← Finset.mul_sum, Finset.sum_range_sub (fun i => (pre ++ x₀ :: seq).getD i 0)]
    congr 2
    · rw [List.getD_eq_getElem?_getD, List.getElem?_append_right (le_refl _)]
      simp
    · cases pre <;> rfl

/-- an integration of the CRPS of a Gamma hurdle forecast -/
def hurdleInteg (seq : List ℚ) : Integ ℚ :=
  { cores := 1, lessMemory := false, seq := seq, shape := [1], scratch := "s",
    row := brierRow (fun t => cdfGammaHurdle demoScipy 1 (-1) (full [1] (some (1/2))) (full [1] (some 3))
      (full [1] (some 2)) (.scalar (some t))) (full [1] (some 1)),
    pick := fun _ => 0, order := id }

def defaultWorld : IWorld ℚ := ⟨fun k => if k = "pyanen_tqdm_disable" then some "False".toList
    else if k = "pyanen_tqdm_workers" then some "1".toList else none, fun _ => none⟩

/-- **C34** is false: with `pop = 1/2` and observation 1, integrating over `[-4, 2]` gives a larger CRPS than integrating
over `[-1, 2]`, on grids with the same spacing. -/
theorem C34_false : ∃ u v : ℚ,
    okAnd (integrate (hurdleInteg (linspace (-1) 2 4)) .crps defaultWorld).1 (fun r => r.get [0] = some u) ∧
    okAnd (integrate (hurdleInteg (linspace (-4) 2 7)) .crps defaultWorld).1 (fun r => r.get [0] = some v) ∧
    v = u + 3/4 := by
  refine ⟨137/144, 245/144, ?_, ?_, ?_⟩
  · decide +kernel
  · decide +kernel
  · norm_num

/-! ### C35 -/

/-- every number in the array is in `[0, 1]` -/
def InUnit (r : NDArr (Fl K)) : Prop := ∀ k, InB r.shape k → ∀ v, r.get k = some v → 0 ≤ v ∧ v ≤ 1

theorem inUnit_generic {masked : Bool} {ref : List Nat} {workers mapAxis : Int} {serial wrapper : List (Fl K) → Fl K}
    {params : List (NDArr (Fl K))} {b : Thr K} {r : NDArr (Fl K)}
    (h : cdfGeneric masked ref workers mapAxis serial wrapper params b = .ok r) : InUnit r := by
  obtain ⟨p, rfl⟩ := cdfGeneric_clip h
  intro k hk v hv
  rw [get_map _ _ (by exact hk)] at hv
  exact clip01_range hv

theorem C35_gaussian (S : Scipy K) {workers mapAxis : Int} {mu sigma : NDArr (Fl K)} {b : Thr K} {tr : Bool}
    {r : NDArr (Fl K)} (h : cdfGaussian S workers mapAxis mu sigma b tr = .ok r) : InUnit r :=
  inUnit_generic h

theorem C35_gamma (S : Scipy K) {workers mapAxis : Int} {mu sigma shift : NDArr (Fl K)} {b : Thr K} {tr : Bool}
    {r : NDArr (Fl K)} (h : cdfGamma S workers mapAxis mu sigma shift b tr = .ok r) : InUnit r := by
  unfold cdfGamma at h
  simp only [bind, Except.bind] at h
  split at h
  · cases h
  · split at h
    · cases h
    · exact inUnit_generic h

theorem C35_hurdle (S : Scipy K) {workers mapAxis : Int} {pop mu sigma : NDArr (Fl K)} {b : Thr K}
    {r : NDArr (Fl K)} (h : cdfGammaHurdle S workers mapAxis pop mu sigma b = .ok r) : InUnit r := by
  unfold cdfGammaHurdle at h
  simp only [bind, Except.bind] at h
  split at h
  · cases h
  · split at h
    · cases h
    · exact inUnit_generic h

/-- **C35**: for a verifier whose distribution function clips to `[0, 1]` (the three above), `cdf(over=t)` succeeds
exactly when `cdf(below=t)` does, is one minus it at every position (NaN where it is NaN), and lies in `[0, 1]`
too. -/
theorem C35_complement (cdf : Thr K → Except Err (NDArr (Fl K))) (hcdf : ∀ t r, cdf t = .ok r → InUnit r)
    (t : Thr K) (r : NDArr (Fl K)) :
    probCdf cdf (some t) none = .ok r ↔ ∃ q, probCdf cdf none (some t) = .ok q ∧ InUnit q ∧ InUnit r ∧
      r.shape = q.shape ∧ ∀ k, InB q.shape k → r.get k = Fl.sub (some 1) (q.get k) := by
  simp only [probCdf, bind, Except.bind, pure, Except.pure]
  cases hq : cdf t with
  | error e => simp
  | ok q =>
    simp only [Except.ok.injEq]
    have hunit := hcdf t q hq
    constructor
    · rintro rfl
      refine ⟨q, rfl, hunit, ?_, rfl, fun k hk => get_map _ _ hk⟩
      intro k hk v hv
      rw [get_map _ _ (by exact hk)] at hv
      cases hqk : q.get k with
      | none => rw [hqk] at hv; simp [Fl.sub, Fl.lift2] at hv
      | some x =>
        rw [hqk] at hv
        simp only [Fl.sub_some, Option.some.injEq] at hv
        obtain ⟨h0, h1⟩ := hunit k hk x hqk
        subst hv
        constructor <;> linarith
    · rintro ⟨q', rfl, -, -, hsh, hget⟩
      apply ext_get (by rw [hsh]; rfl)
      intro k hk
      have hk' : InB q.shape k := hk
      rw [hget k hk', get_map _ _ hk']

/-- C35 is not about all-NaN arrays: values outside `[0,1]` returned by the library are clipped -/
example : okAnd (cdfGaussian demoScipy 1 (-1) (full [2] (some 0)) (full [2] (some 2)) (.scalar (some 7)) false)
    (fun r => r.get [1] = some 1) := by decide +kernel
example : okAnd (probCdf (fun b => cdfGaussian demoScipy 2 (-1) (full [2] (some 0)) (full [2] (some 4)) b false)
    (some (.scalar (some 1))) none) (fun r => r.get [1] = some (3/4)) := by decide +kernel

/-- the error for a threshold that is not usable: an array of another shape fails an assertion, anything that is
neither an array nor a number is a `RuntimeError` -/
def thrErr : Thr K → Err
  | .other => .runtime
  | _ => .assertion

/-- **C35**, the thresholds without probabilities: an array of another shape than the forecasts, or an object that is
neither an array nor a number, raises in all three distribution functions, for every way of running them -/
theorem C35_rejects (S : Scipy K) {workers mapAxis : Int} {p1 p2 p3 : NDArr (Fl K)} {s : List Nat} {b : Thr K}
    (h1 : p1.shape = s) (h2 : p2.shape = s) (h3 : p3.shape = s) (hb : ¬ ThrOK b s) (tr : Bool) :
    cdfGaussian S workers mapAxis p1 p2 b tr = .error (thrErr b) ∧
    cdfGamma S workers mapAxis p1 p2 p3 b tr = .error (thrErr b) ∧
    cdfGammaHurdle S workers mapAxis p1 p2 p3 b = .error (thrErr b) := by
  have key : broadcastBelow s b = .error (thrErr b) := by
    cases b with
    | scalar v => exact absurd trivial hb
    | array a => exact if_neg hb
    | other => rfl
  refine ⟨?_, ?_, ?_⟩
  · simp only [cdfGaussian, cdfGeneric, h1, key, bind, Except.bind]
  · simp only [cdfGamma, zipWith_ok _ _ _ (h1.trans h2.symm), cdfGeneric, shape_ofFn, h1, key, bind,
      Except.bind]
  · simp only [cdfGammaHurdle, zipWith_ok _ _ _ (h2.trans h3.symm), cdfGeneric, shape_ofFn, h2, key, bind,
      Except.bind]

/-- **C35**, forecasts without axes: with one worker the three functions raise `TypeError` for every usable threshold
(the library returns a bare number there, which cannot be clipped in place) -/
theorem C35_no_axes (S : Scipy K) {mapAxis : Int} {p1 p2 p3 : NDArr (Fl K)} {b : Thr K}
    (h1 : p1.shape = []) (h2 : p2.shape = []) (h3 : p3.shape = []) (hb : ThrOK b []) (tr : Bool) :
    cdfGaussian S 1 mapAxis p1 p2 b tr = .error .type ∧
    cdfGamma S 1 mapAxis p1 p2 p3 b tr = .error .type ∧
    cdfGammaHurdle S 1 mapAxis p1 p2 p3 b = .error .type := by
  obtain ⟨a, ha, hash, -⟩ := broadcastBelow_ok hb
  have key : ∀ (masked : Bool) (f g : List (Fl K) → Fl K) (ps : List (NDArr (Fl K))), (∀ p ∈ ps, p.shape = []) →
      cdfGeneric masked [] 1 mapAxis f g ps b = .error .type := by
    intro masked f g ps hps
    have hall : ∀ p ∈ ps ++ [a], p.shape = [] := by
      intro p hp
      rcases List.mem_append.1 hp with h | h
      · exact hps p h
      · simp only [List.mem_singleton] at h; rw [h]; exact hash
    unfold cdfGeneric
    simp only [ha, bind, Except.bind, if_true]
    rw [runElems_ok masked f (by simp) hall]
    rfl
  refine ⟨?_, ?_, ?_⟩
  · simp only [cdfGaussian, h1]
    exact key _ _ _ _ (by simp [h1, h2])
  · simp only [cdfGamma, zipWith_ok _ _ _ (h1.trans h2.symm), shape_ofFn, h1, bind, Except.bind]
    exact key _ _ _ _ (by simp [h3])
  · simp only [cdfGammaHurdle, zipWith_ok _ _ _ (h2.trans h3.symm), shape_ofFn, h2, bind, Except.bind]
    exact key _ _ _ _ (by simp [h1])

/-- one forecast given as an array without axes -/
example : (full [] (some (3 : ℚ))).shape = [] ∧ ThrOK (.scalar (some (1 : ℚ))) [] := ⟨rfl, trivial⟩

/-- a threshold of one element too many -/
example : ¬ ThrOK (.array (full [3] (some (1 : ℚ)))) [2] := by simp [ThrOK, full]

/-! ### C36 -/

theorem cdfGeneric_workers {masked : Bool} {workers workers' mapAxis mapAxis' : Int} {f : List (Fl K) → Fl K}
    {params : List (NDArr (Fl K))} {s : List Nat} (hs : ∀ p ∈ params, p.shape = s)
    {b : Thr K} (hb : ThrOK b s) (hpool : PoolOK workers mapAxis s) (hpool' : PoolOK workers' mapAxis' s) :
    cdfGeneric masked s workers mapAxis f f params b = cdfGeneric masked s workers' mapAxis' f f params b := by
  obtain ⟨r, r1, r2, r3⟩ := cdfGeneric_ok (masked := masked) f f rfl hs hb hpool
  obtain ⟨q, q1, q2, q3⟩ := cdfGeneric_ok (masked := masked) f f rfl hs hb hpool'
  rw [r1, q1]
  congr 1
  apply ext_get (by rw [r2, q2])
  intro k hk
  rw [r2] at hk
  rw [r3 k hk, q3 k hk, ite_self, ite_self]

/-- **C36** for the Gaussian (truncated or not): the same result for all worker counts and split axes that can run. -/
theorem C36_gaussian_partial (S : Scipy K) {workers workers' mapAxis mapAxis' : Int} {mu sigma : NDArr (Fl K)}
    (hsh : sigma.shape = mu.shape) {b : Thr K} (hb : ThrOK b mu.shape) (hpool : PoolOK workers mapAxis mu.shape)
    (hpool' : PoolOK workers' mapAxis' mu.shape) (tr : Bool) :
    ∃ r, cdfGaussian S workers mapAxis mu sigma b tr = .ok r ∧
      cdfGaussian S workers' mapAxis' mu sigma b tr = .ok r := by
  have hs : ∀ p ∈ [mu, sigma], p.shape = mu.shape := by simp [hsh]
  unfold cdfGaussian
  simp only []
  rw [cdfGeneric_workers hs hb hpool' hpool]
  obtain ⟨r, r1, -⟩ := cdfGeneric_ok (workers := workers) (mapAxis := mapAxis) (fun p : List (Fl K) =>
    if tr = true then S.truncnorm (p.getD 2 none) (Fl.div (Fl.mul (some (-1)) (p.getD 0 none)) (p.getD 1 none))
      (p.getD 0 none) (p.getD 1 none) else S.norm (p.getD 2 none) (p.getD 0 none) (p.getD 1 none)) (fun p : List (Fl K) =>
    if tr = true then S.truncnorm (p.getD 2 none) (Fl.div (Fl.mul (some (-1)) (p.getD 0 none)) (p.getD 1 none))
      (p.getD 0 none) (p.getD 1 none) else S.norm (p.getD 2 none) (p.getD 0 none) (p.getD 1 none)) rfl hs hb hpool
  exact ⟨r, r1, r1⟩

/-- **C36** for the untruncated Gamma. -/
theorem C36_gamma_partial (S : Scipy K) {workers workers' mapAxis mapAxis' : Int}
    {umu sigma shift : NDArr (Fl K)} (hsh : sigma.shape = umu.shape) (hsh' : shift.shape = umu.shape) {b : Thr K}
    (hb : ThrOK b umu.shape) (hpool : PoolOK workers mapAxis umu.shape)
    (hpool' : PoolOK workers' mapAxis' umu.shape) :
    ∃ r, cdfGamma S workers mapAxis umu sigma shift b false = .ok r ∧
      cdfGamma S workers' mapAxis' umu sigma shift b false = .ok r := by
  unfold cdfGamma
  rw [zipWith_ok _ _ _ hsh.symm, zipWith_ok _ _ _ hsh.symm]
  simp only [bind, Except.bind, Bool.false_eq_true, if_false, shape_ofFn]
  have hs : ∀ p ∈ [ofFn umu.shape fun i => gammaShape (umu.get i) (sigma.get i),
      ofFn umu.shape fun i => gammaScale (umu.get i) (sigma.get i), shift], p.shape = umu.shape := by
    intro q hq
    simp only [List.mem_cons, List.not_mem_nil, or_false] at hq
    rcases hq with rfl | rfl | rfl
    · rfl
    · rfl
    · exact hsh'
  rw [cdfGeneric_workers hs hb hpool' hpool]
  obtain ⟨r, r1, -⟩ := cdfGeneric_ok (workers := workers) (mapAxis := mapAxis)
    (fun p : List (Fl K) => S.gamma (p.getD 3 none) (p.getD 0 none) (p.getD 2 none) (p.getD 1 none))
    (fun p : List (Fl K) => S.gamma (p.getD 3 none) (p.getD 0 none) (p.getD 2 none) (p.getD 1 none))
    rfl hs hb hpool
  exact ⟨r, r1, r1⟩

/-- **C36** for the Gamma hurdle. -/
theorem C36_hurdle_partial (S : Scipy K) {workers workers' mapAxis mapAxis' : Int}
    {pop mu sigma : NDArr (Fl K)} (hsh : sigma.shape = mu.shape) (hsh' : pop.shape = mu.shape) {b : Thr K}
    (hb : ThrOK b mu.shape) (hpool : PoolOK workers mapAxis mu.shape)
    (hpool' : PoolOK workers' mapAxis' mu.shape) :
    ∃ r, cdfGammaHurdle S workers mapAxis pop mu sigma b = .ok r ∧
      cdfGammaHurdle S workers' mapAxis' pop mu sigma b = .ok r := by
  unfold cdfGammaHurdle
  rw [zipWith_ok _ _ _ hsh.symm, zipWith_ok _ _ _ hsh.symm]
  simp only [bind, Except.bind, shape_ofFn]
  have hs : ∀ p ∈ [pop, ofFn mu.shape fun i => gammaShape (mu.get i) (sigma.get i),
      ofFn mu.shape fun i => gammaScale (mu.get i) (sigma.get i)], p.shape = mu.shape := by
    intro q hq
    simp only [List.mem_cons, List.not_mem_nil, or_false] at hq
    rcases hq with rfl | rfl | rfl
    · exact hsh'
    · rfl
    · rfl
  rw [cdfGeneric_workers hs hb hpool' hpool]
  obtain ⟨r, r1, -⟩ := cdfGeneric_ok (workers := workers) (mapAxis := mapAxis) (hurdleElem S) (hurdleElem S)
    rfl hs hb hpool
  exact ⟨r, r1, r1⟩

/-- **C36** (what the truncated Gamma gives in the pool): the probability at 3, whatever the threshold. -/
theorem C36_truncgamma_ignores_threshold (S : Scipy K) {workers mapAxis : Int}
    {umu sigma shift : NDArr (Fl K)} (hsh : sigma.shape = umu.shape) (hsh' : shift.shape = umu.shape)
    {b b' : Thr K} (hb : ThrOK b umu.shape) (hb' : ThrOK b' umu.shape) (hw : 1 < workers)
    (hpool : PoolOK workers mapAxis umu.shape) :
    ∃ r, cdfGamma S workers mapAxis umu sigma shift b true = .ok r ∧
      cdfGamma S workers mapAxis umu sigma shift b' true = .ok r := by
  unfold cdfGamma
  rw [zipWith_ok _ _ _ hsh.symm, zipWith_ok _ _ _ hsh.symm]
  simp only [bind, Except.bind, if_true, shape_ofFn]
  have hs : ∀ p ∈ [ofFn umu.shape fun i => gammaShape (umu.get i) (sigma.get i),
      ofFn umu.shape fun i => gammaScale (umu.get i) (sigma.get i), shift], p.shape = umu.shape := by
    intro q hq
    simp only [List.mem_cons, List.not_mem_nil, or_false] at hq
    rcases hq with rfl | rfl | rfl
    · rfl
    · rfl
    · exact hsh'
  have key := fun {c : Thr K} (hc : ThrOK c umu.shape) => cdfGeneric_ok (masked := false) (workers := workers) (mapAxis := mapAxis)
    (fun p : List (Fl K) => S.truncgamma (p.getD 3 none) (Fl.div (Fl.mul (some (-1)) (p.getD 2 none))
      (p.getD 1 none)) (p.getD 0 none) (p.getD 2 none) (p.getD 1 none))
    (fun p : List (Fl K) => S.truncgamma (some 3) (Fl.div (Fl.mul (some (-1)) (p.getD 2 none))
      (p.getD 1 none)) (p.getD 0 none) (p.getD 2 none) (p.getD 1 none))
    rfl hs hc hpool
  obtain ⟨r, r1, r2, r3⟩ := key hb
  obtain ⟨q, q1, q2, q3⟩ := key hb'
  refine ⟨r, r1, ?_⟩
  rw [q1]
  congr 1
  apply ext_get (by rw [r2, q2])
  intro k hk
  rw [q2] at hk
  rw [r3 k hk, q3 k hk, if_neg (by omega)]
  rfl

/-- **C36** is false for the truncated Gamma: with two workers `cdf(below=1)` differs from the one-worker value. -/
theorem C36_false : ∃ (umu sigma shift : NDArr (Fl ℚ)) (r r' : NDArr (Fl ℚ)),
    cdfGamma demoScipy 1 (-1) umu sigma shift (.scalar (some 1)) true = .ok r ∧
    cdfGamma demoScipy 2 (-1) umu sigma shift (.scalar (some 1)) true = .ok r' ∧
    PoolOK 2 (-1) umu.shape ∧ r.get [0] = some (1/2) ∧ r'.get [0] = some (3/4) := by
  obtain ⟨r, h1, h2⟩ := okAnd_iff.1 (show okAnd (cdfGamma demoScipy 1 (-1) (full [2] (some 3)) (full [2] (some 2))
    (full [2] (some 0)) (.scalar (some 1)) true) (fun r => r.get [0] = some (1/2)) by decide +kernel)
  obtain ⟨r', h1', h2'⟩ := okAnd_iff.1 (show okAnd (cdfGamma demoScipy 2 (-1) (full [2] (some 3)) (full [2] (some 2))
    (full [2] (some 0)) (.scalar (some 1)) true) (fun r => r.get [0] = some (3/4)) by decide +kernel)
  exact ⟨_, _, _, r, r', h1, h1', Or.inr (by decide), of_decide_eq_true h2,
    of_decide_eq_true h2'⟩

/-- **C36** is false for parameters of different shapes: one standard deviation for two means is broadcast by a single
worker, while the pool pairs up the pieces and forgets the second mean. -/
theorem C36_broadcast_false : ∃ (mu sigma : NDArr (Fl ℚ)) (r r' : NDArr (Fl ℚ)), PoolOK 2 (-1) mu.shape ∧
    cdfGaussian demoScipy 1 (-1) mu sigma (.scalar (some 1)) false = .ok r ∧ r.shape = [2] ∧
    cdfGaussian demoScipy 2 (-1) mu sigma (.scalar (some 1)) false = .ok r' ∧ r'.shape = [1] := by
  obtain ⟨r, h1, h2⟩ := okAnd_iff.1 (show okAnd (cdfGaussian demoScipy 1 (-1) (full [2] (some 3)) (full [1] (some 2))
    (.scalar (some 1)) false) (fun r => r.shape = [2]) by decide +kernel)
  obtain ⟨r', h1', h2'⟩ := okAnd_iff.1 (show okAnd (cdfGaussian demoScipy 2 (-1) (full [2] (some 3)) (full [1] (some 2))
    (.scalar (some 1)) false) (fun r => r.shape = [1]) by decide +kernel)
  exact ⟨_, _, r, r', Or.inr (by decide), h1, of_decide_eq_true h2, h1', of_decide_eq_true h2'⟩

/-- the pool settings of C36 on a 2 x 3 array -/
example : PoolOK 4 (-2) [2, 3] ∧ PoolOK 7 (-1) [2, 3] ∧ PoolOK 1 5 [2, 3] :=
  ⟨Or.inr (by decide), Or.inr (by decide), Or.inl (by decide)⟩

/-! ### C37 -/

/-- what is used of the regularised incomplete gamma function and its inverse -/
structure GammaOK (G : GammaInc K) : Prop where
  zero : G.inc 0 = 0
  mono : ∀ x y, 0 ≤ x → x < y → G.inc x < G.inc y
  inv : ∀ x y, 0 ≤ x → 0 ≤ y → y ≤ G.inc x → 0 ≤ G.inv y ∧ G.inc (G.inv y) = y

theorem GammaOK.le {G : GammaInc K} (h : GammaOK G) {x y : K} (hx : 0 ≤ x) (hxy : x ≤ y) : G.inc x ≤ G.inc y := by
  rcases hxy.lt_or_eq with h1 | rfl
  · exact (h.mono x y hx h1).le
  · exact le_rfl

theorem GammaOK.le_iff {G : GammaInc K} (h : GammaOK G) {x y : K} (hx : 0 ≤ x) (hy : 0 ≤ y) :
    G.inc x ≤ G.inc y ↔ x ≤ y := by
  constructor
  · intro hle
    by_contra hlt
    exact absurd (h.mono y x hy (not_le.1 hlt)) (not_lt.2 hle)
  · exact h.le hx

theorem ppf_spec {G : GammaInc K} (h : GammaOK G) {a b q : K} (ha : 0 ≤ a) (hab : a < b) (hq0 : 0 ≤ q)
    (hq1 : q ≤ 1) : G.inc (truncPpf G a b q) = q * (G.inc b - G.inc a) + G.inc a ∧
      a ≤ truncPpf G a b q ∧ truncPpf G a b q ≤ b := by
  have hlt := h.mono a b ha hab
  have hia : 0 ≤ G.inc a := by rw [← h.zero]; exact h.le le_rfl ha
  have hy0 : G.inc a ≤ q * (G.inc b - G.inc a) + G.inc a := by nlinarith
  have hy1 : q * (G.inc b - G.inc a) + G.inc a ≤ G.inc b := by nlinarith
  obtain ⟨h0, h1⟩ := h.inv b _ (by linarith) (le_trans hia hy0) hy1
  refine ⟨h1, ?_, ?_⟩
  · exact (h.le_iff ha h0).1 (le_trans hy0 h1.ge)
  · exact (h.le_iff h0 (by linarith)).1 (le_trans h1.le hy1)

/-- **C37**: the quantile function stays within the bounds and the CDF inverts it. -/
theorem C37_inverts {G : GammaInc K} (h : GammaOK G) {a b q : K} (hok : truncArgcheck a b = true) (hq0 : 0 ≤ q)
    (hq1 : q ≤ 1) : a ≤ truncPpf G a b q ∧ truncPpf G a b q ≤ b ∧
      truncCdf G a b (truncPpf G a b q) = some q := by
  simp only [truncArgcheck, Bool.and_eq_true, decide_eq_true_eq] at hok
  obtain ⟨ha, hab⟩ := hok
  obtain ⟨h1, h2, h3⟩ := ppf_spec h ha hab hq0 hq1
  have hlt := h.mono a b ha hab
  refine ⟨h2, h3, ?_⟩
  unfold truncCdf
  simp only []
  rw [if_neg (by rintro (h' | h') <;> [exact absurd h' (not_lt.2 h2); exact absurd h' (not_lt.2 h3)]), h1]
  have hd : G.inc b - G.inc a ≠ 0 := by intro h0; linarith
  simp only [Fl.div, if_neg hd, add_sub_cancel_right, Option.some.injEq]
  exact mul_div_cancel_right₀ q hd

/-- **C37**: the CDF is 0 at the lower and 1 at the upper bound. -/
theorem C37_bounds {G : GammaInc K} (h : GammaOK G) {a b : K} (hok : truncArgcheck a b = true) :
    truncCdf G a b a = some 0 ∧ truncCdf G a b b = some 1 := by
  simp only [truncArgcheck, Bool.and_eq_true, decide_eq_true_eq] at hok
  obtain ⟨ha, hab⟩ := hok
  have hlt := h.mono a b ha hab
  have hd : G.inc b - G.inc a ≠ 0 := by intro h0; linarith
  unfold truncCdf
  simp only []
  constructor
  · rw [if_neg (by rintro (h' | h') <;> [exact absurd h' (lt_irrefl _); exact absurd h' (not_lt.2 hab.le)])]
    simp [Fl.div, hd]
  · rw [if_neg (by rintro (h' | h') <;> [exact absurd h' (not_lt.2 hab.le); exact absurd h' (lt_irrefl _)])]
    simp [Fl.div, hd]

/-- **C37**: up to the upper bound the CDF is non-decreasing with values in `[0, 1]`, also across the lower bound. -/
theorem C37_monotone_partial {G : GammaInc K} (h : GammaOK G) {a b x y : K} (hok : truncArgcheck a b = true)
    (hxy : x ≤ y) (hy : y ≤ b) : ∃ u v, truncCdf G a b x = some u ∧ truncCdf G a b y = some v ∧ 0 ≤ u ∧ u ≤ v ∧
      v ≤ 1 := by
  simp only [truncArgcheck, Bool.and_eq_true, decide_eq_true_eq] at hok
  obtain ⟨ha, hab⟩ := hok
  have hlt := h.mono a b ha hab
  have hd0 : 0 < G.inc b - G.inc a := by linarith
  have key : ∀ z, z ≤ b → truncCdf G a b z = some (if z < a then 0 else
      (G.inc z - G.inc a) / (G.inc b - G.inc a)) := by
    intro z hz
    unfold truncCdf
    simp only []
    by_cases hza : z < a
    · rw [if_pos (Or.inl hza), if_pos hza]
    · rw [if_neg (by rintro (h' | h') <;> [exact hza h'; exact absurd h' (not_lt.2 hz)]), if_neg hza]
      simp [Fl.div, hd0.ne']
  refine ⟨_, _, key x (le_trans hxy hy), key y hy, ?_, ?_, ?_⟩
  · split
    · exact le_rfl
    · rename_i hx
      have := h.le ha (not_lt.1 hx)
      exact div_nonneg (by linarith) hd0.le
  · split
    · split
      · exact le_rfl
      · rename_i hya
        have := h.le ha (not_lt.1 hya)
        exact div_nonneg (by linarith) hd0.le
    · rename_i hx
      rw [if_neg (by intro h'; exact hx (lt_of_le_of_lt hxy h'))]
      have := h.le (le_trans ha (not_lt.1 hx)) hxy
      gcongr
  · split
    · exact zero_le_one
    · rename_i hya
      have := h.le (le_trans ha (not_lt.1 hya)) hy
      rw [div_le_one hd0]; linarith

/-- **C37**: every sample drawn for a truncated Gamma forecast is non-negative (and below the far upper bound),
whatever uniform number it comes from; a positive shift is rejected. -/
theorem C37_sample {G : GammaInc K} (h : GammaOK G) {shift scale q v : K} (hq0 : 0 ≤ q) (hq1 : q ≤ 1)
    (hs : truncSample G shift scale q = .ok v) : 0 ≤ v ∧ v ≤ shift + scale * 10000 ∧ shift ≤ 0 ∧ 0 < scale := by
  unfold truncSample at hs
  simp only [Bool.and_eq_true, decide_eq_true_eq] at hs
  split at hs
  · rename_i hc
    obtain ⟨hok, hsc⟩ := hc
    cases hs
    obtain ⟨h1, h2, -⟩ := C37_inverts h hok hq0 hq1
    simp only [truncArgcheck, Bool.and_eq_true, decide_eq_true_eq] at hok
    refine ⟨?_, ?_, ?_, hsc⟩
    · have : scale * (-shift / scale) ≤ scale * truncPpf G (-shift / scale) 10000 q :=
        mul_le_mul_of_nonneg_left h1 hsc.le
      rw [mul_div_cancel₀ _ hsc.ne'] at this
      linarith
    · have : scale * truncPpf G (-shift / scale) 10000 q ≤ scale * 10000 :=
        mul_le_mul_of_nonneg_left h2 hsc.le
      linarith
    · have := mul_nonneg hok.1 hsc.le
      rw [div_mul_cancel₀ _ hsc.ne'] at this
      linarith
  · cases hs

/-- `x / (1 + x)` has the assumed properties -/
def demoInc : GammaInc ℚ := ⟨fun x => x / (1 + x), fun y => y / (1 - y)⟩

theorem demoInc_ok : GammaOK demoInc where
  zero := by simp [demoInc]
  mono := by
    intro x y hx hxy
    simp only [demoInc]
    rw [div_lt_div_iff₀ (by linarith) (by linarith)]; nlinarith
  inv := by
    intro x y hx hy hyx
    simp only [demoInc] at hyx ⊢
    have h1 : x / (1 + x) < 1 := by rw [div_lt_one (by linarith)]; linarith
    have h2 : 0 < 1 - y := by linarith
    refine ⟨div_nonneg hy h2.le, ?_⟩
    have h3 : (1 - y) + y = 1 := by ring
    field_simp
    ring

/-- **C37** is false beyond the upper bound: there the CDF drops back to 0. -/
theorem C37_false : ∃ (G : GammaInc ℚ) (a b x : ℚ), GammaOK G ∧ truncArgcheck a b = true ∧ b < x ∧
    truncCdf G a b b = some 1 ∧ truncCdf G a b x = some 0 :=
  ⟨demoInc, 0, 1, 2, demoInc_ok, by decide +kernel, by norm_num, by decide +kernel, by decide +kernel⟩

example : truncSample demoInc (-1) 2 (1/2) = .ok (truncSample demoInc (-1) 2 (1/2) |>.toOption.getD 0) := by
  decide +kernel

/-! ### C41 -/

/-- **C41**: without NaN trouble `pit()` succeeds; at every position its value is the CDF at the observation, except that
zero observations get a value between 0 and it when randomised; all numbers are in `[0, 1]`. -/
theorem C41_pit (cdf : Thr K → Except Err (NDArr (Fl K))) (o : NDArr (Fl K)) (c : NDArr (Fl K))
    (hc : cdf (.array o) = .ok c) (hunit : InUnit c) (hsh : c.shape = o.shape) (randomize : Bool)
    (u : List Nat → K) (hu : ∀ k, 0 ≤ u k ∧ u k < 1) (r : NDArr (Fl K)) (h : pit cdf randomize u o = .ok r) :
    r.shape = o.shape ∧ InUnit r ∧ ∀ k, InB o.shape k →
      (o.get k ≠ some 0 ∨ randomize = false → r.get k = c.get k) ∧
      (o.get k = some 0 → randomize = true →
        ∃ x v, c.get k = some x ∧ r.get k = some v ∧ 0 ≤ v ∧ v ≤ x) := by
  unfold pit at h
  simp only [probCdf, hc, bind, Except.bind, pure, Except.pure] at h
  by_cases hr : randomize = true
  · rw [if_pos hr, if_pos hsh] at h
    split at h
    · rename_i hnan
      injection h with h
      subst h
      have hval : ∀ k, InB o.shape k →
          (o.get k ≠ some 0 ∨ randomize = false → (ofFn o.shape fun k =>
            if o.get k = some 0 then Fl.mul (c.get k) (some (u k)) else c.get k).get k = c.get k) ∧
          (o.get k = some 0 → randomize = true →
            ∃ x v, c.get k = some x ∧ (ofFn o.shape fun k =>
            if o.get k = some 0 then Fl.mul (c.get k) (some (u k)) else c.get k).get k = some v ∧
              0 ≤ v ∧ v ≤ x) := by
        intro k hk
        rw [get_ofFn _ hk]
        constructor
        · rintro (h' | h')
          · rw [if_neg h']
          · rw [hr] at h'; cases h'
        · intro h0 _
          have hne := hnan k (mem_allIdx.2 hk) h0
          obtain ⟨x, hx⟩ := Option.ne_none_iff_exists'.1 hne
          obtain ⟨hx0, hx1⟩ := hunit k (by rw [hsh]; exact hk) x hx
          obtain ⟨hu0, hu1⟩ := hu k
          refine ⟨x, x * u k, hx, ?_, mul_nonneg hx0 hu0, ?_⟩
          · rw [if_pos h0, hx]; rfl
          · nlinarith
      refine ⟨rfl, ?_, hval⟩
      intro k hk v hv
      replace hk : InB o.shape k := hk
      obtain ⟨h1, h2⟩ := hval k hk
      by_cases h0 : o.get k = some 0
      · obtain ⟨x, v', hx, hv', hv0, hvx⟩ := h2 h0 hr
        rw [hv'] at hv
        injection hv with hv
        subst hv
        obtain ⟨-, hx1⟩ := hunit k (by rw [hsh]; exact hk) x hx
        exact ⟨hv0, le_trans hvx hx1⟩
      · rw [h1 (Or.inl h0)] at hv
        exact hunit k (by rw [hsh]; exact hk) v hv
    · cases h
  · rw [if_neg hr] at h
    injection h with h
    subst h
    refine ⟨hsh, hunit, fun k _ => ⟨fun _ => rfl, fun _ h' => absurd h' hr⟩⟩

/-- **C41** (when it succeeds): `pit()` raises exactly when randomising and the CDF is NaN at a zero observation. -/
theorem C41_raises (cdf : Thr K → Except Err (NDArr (Fl K))) (o : NDArr (Fl K)) (c : NDArr (Fl K))
    (hc : cdf (.array o) = .ok c) (hsh : c.shape = o.shape) (randomize : Bool) (u : List Nat → K) :
    (∃ e, pit cdf randomize u o = .error e) ↔
      randomize = true ∧ ∃ k, InB o.shape k ∧ o.get k = some 0 ∧ c.get k = none := by
  unfold pit
  simp only [probCdf, hc, bind, Except.bind, pure, Except.pure]
  by_cases hr : randomize = true
  · rw [if_pos hr, if_pos hsh]
    split
    · rename_i hnan
      constructor
      · rintro ⟨e, he⟩; cases he
      · rintro ⟨-, k, hk, h0, h1⟩
        exact absurd h1 (hnan k (mem_allIdx.2 hk) h0)
    · rename_i hnan
      push Not at hnan
      obtain ⟨k, hk, h0, h1⟩ := hnan
      exact ⟨fun _ => ⟨hr, k, mem_allIdx.1 hk, h0, h1⟩, fun _ => ⟨_, rfl⟩⟩
  · rw [if_neg hr]
    constructor
    · rintro ⟨e, he⟩; cases he
    · rintro ⟨h', -⟩; exact absurd h' hr

/-- a PIT with a zero and a non-zero observation -/
example : okAnd (pit (fun b => cdfGammaHurdle demoScipy 1 (-1) (full [2] (some (1/2))) (full [2] (some 3))
    (full [2] (some 2)) b) true (fun _ => 1/3) (ofFn [2] fun k => if k = [0] then some 0 else some 1))
    (fun r => r.get [0] = some (1/6) ∧ r.get [1] = some (3/4)) := by decide +kernel

end Props
