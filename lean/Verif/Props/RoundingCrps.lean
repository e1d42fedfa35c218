import Verif.Lemmas.RoundingCrps
import Verif.Props.RoundingError
import Verif.Props.ProperScoring

/-!
# The continuous ranked probability score of an ensemble is accurate in rounded arithmetic: C113
-/

set_option linter.unusedSectionVars false

namespace Props
open Np NDArr Spec Model Lemmas

section
variable {K : Type} [Field K] [LinearOrder K] [IsStrictOrderedRing K] {R : Rounding K} {u : K}

/-- a coarser bound -/
theorem near_mono (hu : 0 ≤ u) {j k : Nat} (hjk : j ≤ k) {a b e x : Fl K} (hab : ∀ v w, a = some v → b = some w → v ≤ w)
    (hn : b = none ↔ a = none) (h : Near u j a e x) : Near u k b e x := by
  rcases h with ⟨h1, h2, h3⟩ | ⟨a', e', x', rfl, rfl, rfl, h4, h5⟩
  · exact .inl ⟨hn.2 h1, h2, h3⟩
  · cases b with
    | none => exact absurd (hn.1 rfl) (by simp)
    | some w =>
      have hvw := hab a' w rfl rfl
      have g1 : (1 + u) ^ j ≤ (1 + u) ^ k := pow_le_pow_right₀ (by linarith) hjk
      have g2 := one_le hu j
      have h0 := (abs_nonneg _).trans h4
      refine .inr ⟨w, e', x', rfl, rfl, rfl, h4.trans hvw, h5.trans ?_⟩
      exact mul_le_mul (by linarith) hvw h0 (by linarith)

/-- **C113**: the mean distance of the members from the observation is at most the score times the number of members. -/
theorem C113_dist (y : Fl K) (ms : List (Fl K)) : (memberDist y ms = none ↔ memberScore y ms = none) ∧
    ∀ d v, memberDist y ms = some d → memberScore y ms = some v → 0 ≤ v ∧ v ≤ d ∧ d ≤ (present ms).length * v := by
  cases y with
  | none => simp [memberDist, memberScore]
  | some y =>
    by_cases h : present ms = []
    · simp [memberDist, memberScore, h]
    · refine ⟨by simp [memberDist, memberScore, h], fun d v hd hv => ?_⟩
      simp only [memberDist, if_neg h, Option.some.injEq] at hd
      have hr := (C109_range (some y) ms).2 v (by rw [(C109_score _ _).1]; exact hv)
      obtain ⟨x, hx, h0, h1⟩ := hr
      cases hx
      rw [hd] at h1
      refine ⟨h0, h1, ?_⟩
      simp only [memberScore, if_neg h, Option.some.injEq] at hv
      rw [score_gap _ h] at hv
      have hn : (0 : K) < (present ms).length := by exact_mod_cast List.length_pos_iff.2 h
      subst hd hv
      have key : ∀ a ∈ present ms, |a - y| ≤ (present ms).length * avg ((present ms).map fun b => gap a b y) := by
        intro a ha
        unfold avg
        rw [List.length_map, mul_div_cancel₀ _ hn.ne']
        have e : gap a a y = |a - y| := by
          unfold gap
          rw [min_self, max_self]
          rcases le_total a y with h | h
          · rw [abs_of_nonpos (by linarith), max_eq_right (a := a - y) (by linarith), max_eq_right (by linarith)]; ring
          · rw [abs_of_nonneg (by linarith), max_eq_left (b := y - a) (by linarith), max_eq_right (by linarith)]
        rw [← e]
        exact List.single_le_sum (fun b hb => by
          obtain ⟨c, -, rfl⟩ := List.mem_map.1 hb
          exact le_max_left _ _) _ (List.mem_map_of_mem (f := fun b => gap a b y) ha)
      unfold avg at key ⊢
      rw [List.length_map, List.length_map, mul_div_assoc', ← List.sum_map_mul_left]
      refine div_le_div_of_nonneg_right (List.sum_le_sum fun a ha => ?_) hn.le
      have := key a ha
      simpa using this

/-- **C113**: the score of one observation, computed in rounded arithmetic by the pass over the sorted members, is the
exact one up to the effect of `2n² + n + 6` roundings, relative to the score itself; computed by the formula on arrays,
up to as many roundings as additions on the longest way plus five, relative to twice the mean distance of the members
from the observation.  Missing scores are missing. -/
theorem C113_point (hR : Accurate R u) (S : SumOrder) (y : Fl K) (ms : List (Fl K)) (hs : (present ms).length ≤ R.size) :
    Near u (2 * ((present ms).length * (present ms).length) + (present ms).length + 6)
      (memberScore y ms) (memberScore y ms) (psOnePassR R y ms) ∧
    Near u (formulaDepth S ms.length + 5) ((memberDist y ms).map (2 * ·)) (memberScore y ms) (psFormulaR R S y ms) := by
  cases y with
  | none =>
    refine ⟨.inl ⟨rfl, rfl, rfl⟩, .inl ⟨rfl, rfl, ?_⟩⟩
    unfold psFormulaR
    dsimp only
    have hn : ∀ a x : Fl K, rop R (· * ·) a (Fl.abs (rop R (· - ·) x none)) = none := by
      intro a x; cases a <;> cases x <;> rfl
    simp only [hn]
    have : ∀ a b : List (Fl K), nanmeanR R S (List.zipWith (fun _ _ => (none : Fl K)) a b) = none := by
      intro a b
      unfold nanmeanR
      rw [if_pos]
      rw [List.countP_eq_zero]
      intro v hv
      rw [← List.map_uncurry_zip_eq_zipWith, List.mem_map] at hv
      obtain ⟨p, -, rfl⟩ := hv
      simp [Function.uncurry]
    rw [this]
    rfl
  | some y =>
    by_cases h : present ms = []
    · have e1 : memberScore (some y) ms = none := by simp [memberScore, h]
      have e2 : memberDist (some y) ms = none := by simp [memberDist, h]
      obtain ⟨P, r, e, -, p⟩ := npSort_shape ms
      rw [h] at p
      obtain rfl := p.eq_nil
      rw [List.map_nil, List.nil_append] at e
      rw [e1, e2]
      refine ⟨.inl ⟨rfl, rfl, ?_⟩, .inl ⟨rfl, rfl, ?_⟩⟩
      · unfold psOnePassR
        simp only [e]
        cases r <;> simp [psLoopR, List.replicate_succ]
      · unfold psFormulaR
        simp only [e]
        have : nanmeanR R S (List.replicate r (none : Fl K)) = none := by
          unfold nanmeanR
          rw [if_pos]
          rw [List.countP_eq_zero]
          intro v hv
          rw [(List.mem_replicate.1 hv).2]
          simp
        simp [this, rop]
    · obtain ⟨v, v', a1, a2, a3⟩ := psOnePassR_close hR y h hs
      obtain ⟨w', b2, b3⟩ := psFormulaR_close hR S y h hs
      rw [(C109_score _ _).1] at a1
      refine ⟨?_, ?_⟩
      · rw [a1, a2]
        exact .inr ⟨v, v, v', rfl, rfl, rfl, a3⟩
      · have e1 : memberScore (some y) ms = _ := if_neg h
        have e2 : memberDist (some y) ms = _ := if_neg h
        have n0 : Near u (formulaDepth S ms.length + 5) (some (avg ((present ms).map fun x => |x - y|) +
            avg ((present ms).map fun x => avg ((present ms).map fun x' => |x - x'|)) / 2)) (memberScore (some y) ms)
            (psFormulaR R S (some y) ms) := by
          rw [e1, b2]
          exact .inr ⟨_, _, _, rfl, rfl, rfl, b3⟩
        refine near_mono hR.1 le_rfl ?_ (by rw [e2]; simp) n0
        intro c d hc hd
        rw [e2, Option.map_some, Option.some.injEq] at hd
        rw [Option.some.injEq] at hc
        have hv := ((C113_dist (some y) ms).2 _ _ e2 e1).1
        subst hc hd
        linarith

end

section
variable {K : Type} [Field K] [LinearOrder K] [IsStrictOrderedRing K] {R : Rounding K} {u : K}

theorem isAvg_scale {ι : Type} {skip : Bool} {L : List ι} {g : ι → Fl K} {v : Fl K} (c : K) (h : IsAvg skip (L.map g) v) :
    IsAvg skip (L.map fun i => (g i).map (c * ·)) (v.map (c * ·)) := by
  have e : L.map (fun i => (g i).map (c * ·)) = (L.map g).map fun x => x.map (c * ·) := by rw [List.map_map]; rfl
  have hm : none ∈ (L.map g).map (fun x => x.map (c * ·)) ↔ none ∈ L.map g := by simp
  unfold IsAvg at h ⊢
  rw [e, present_map_map]
  simp only [hm]
  by_cases hc : (skip = false ∧ none ∈ L.map g) ∨ present (L.map g) = []
  · rw [if_pos hc] at h
    rw [if_pos (by simpa using hc), h]
    rfl
  · rw [if_neg hc] at h
    rw [if_neg (by simpa using hc), h, Option.map_some]
    congr 1
    unfold avg
    rw [List.length_map, List.sum_map_mul_left, List.map_id', mul_div_assoc]

/-- **C113**: the averaged score in rounded arithmetic, with and without numba and split or not, relative to the exact
average. -/
theorem C113_average (hR : Accurate R u) (S : SumOrder) (numba split skip : Bool) {axes : Option (List Int)} {ax : Int}
    {o f : NDArr (Fl K)} (hax : AxisOK f.shape.length ax) (ho : o.shape = posShape f.shape ax) (hpos : 0 < o.shape.headD 0)
    (havg : OptOK o.shape.length axes) (hm : f.shape.getD (axisNum f.shape.length ax) 0 ≤ R.size) :
    ∃ r, ensCrpsR R S numba split skip axes ax o f = .ok r ∧ r.shape = dropAxes (nums o.shape.length axes) o.shape ∧
      ∀ k, InB r.shape k →
        let m := f.shape.getD (axisNum f.shape.length ax) 0
        let d := depth (S.tree (takeAxes (nums o.shape.length axes) o.shape).prod)
        ∀ C, IsAvg skip ((fiberIdx o.shape (nums o.shape.length axes) k).map fun i =>
            memberScore (o.get i) (membersAt f ax i)) C →
          if numba then Near u (2 * (m * m) + m + 6 + d + 1) C C (r.get k)
          else Near u (formulaDepth S m + 5 + d + 1) (C.map (2 * m * ·)) C (r.get k) := by
  obtain ⟨z, z1, z1', z2, z3⟩ := C40_split (if numba then psOnePassR R else psFormulaR R S) hax ho hpos
  have hz : ensembleCrps (if numba then psOnePassR R else psFormulaR R S) split ax o f = .ok z := by cases split <;> assumption
  have hget : ∀ i, InB z.shape i → z.get i = (if numba then psOnePassR R else psFormulaR R S) (o.get i) (membersAt f ax i) ∧
      (membersAt f ax i).length = f.shape.getD (axisNum f.shape.length ax) 0 := by
    intro i hi
    rw [z2] at hi
    refine ⟨?_, ?_⟩
    · rw [z3 i hi, membersAt, fiber_single _ (axisNum_lt hax) (by
        rw [dropAxes_single (axisNum_lt hax)]
        rw [ho] at hi
        exact hi)]
    · exact membersAt_length f hax (by rw [← ho]; exact hi)
  have hlen : ∀ i, InB z.shape i → (present (membersAt f ax i)).length ≤ f.shape.getD (axisNum f.shape.length ax) 0 := by
    intro i hi
    rw [← (hget i hi).2]
    exact List.length_filterMap_le _ _
  rw [← z2] at havg
  cases numba with
  | true =>
    obtain ⟨r, r1, r2, r3⟩ := averageR_near hR S skip (m := z) havg (j := 2 * (f.shape.getD (axisNum f.shape.length ax) 0 *
        f.shape.getD (axisNum f.shape.length ax) 0) + f.shape.getD (axisNum f.shape.length ax) 0 + 6)
      (a := fun i => memberScore (o.get i) (membersAt f ax i)) (e := fun i => memberScore (o.get i) (membersAt f ax i))
      (fun i hi => by
        rw [(hget i hi).1]
        have hl := hlen i hi
        have hl2 := Nat.mul_le_mul hl hl
        exact near_mono hR.1 (by omega) (by intro v w h1 h2; rw [h1] at h2; cases h2; exact le_rfl) Iff.rfl
          (C113_point hR S _ _ (hl.trans hm)).1)
    rw [z2] at r2 r3
    refine ⟨r, by unfold ensCrpsR; rw [hz]; exact r1, r2, fun k hk => ?_⟩
    intro m d C hC
    rw [if_pos rfl]
    exact r3 k hk C C hC hC
  | false =>
    obtain ⟨r, r1, r2, r3⟩ := averageR_near hR S skip (m := z) havg
      (j := formulaDepth S (f.shape.getD (axisNum f.shape.length ax) 0) + 5)
      (a := fun i => (memberScore (o.get i) (membersAt f ax i)).map (2 * (f.shape.getD (axisNum f.shape.length ax) 0 : Nat) * ·))
      (e := fun i => memberScore (o.get i) (membersAt f ax i))
      (fun i hi => by
        rw [(hget i hi).1]
        have hl := hlen i hi
        have hp := (C113_point hR S (o.get i) (membersAt f ax i) (hl.trans hm)).2
        rw [(hget i hi).2] at hp
        have hd := C113_dist (o.get i) (membersAt f ax i)
        refine near_mono hR.1 le_rfl ?_ ?_ hp
        · intro v w h1 h2
          obtain ⟨d, d1, d2⟩ := Option.map_eq_some_iff.1 h1
          obtain ⟨s, s1, s2⟩ := Option.map_eq_some_iff.1 h2
          obtain ⟨h3, -, h4⟩ := hd.2 d s d1 s1
          have h5 : ((present (membersAt f ax i)).length : K) ≤ (f.shape.getD (axisNum f.shape.length ax) 0 : Nat) := by
            exact_mod_cast hl
          have h6 := mul_le_mul_of_nonneg_right h5 h3
          rw [← d2, ← s2]
          linarith
        · rw [Option.map_eq_none_iff, Option.map_eq_none_iff]
          exact hd.1.symm)
    rw [z2] at r2 r3
    refine ⟨r, by unfold ensCrpsR; rw [hz]; exact r1, r2, fun k hk => ?_⟩
    intro m d C hC
    rw [if_neg (by simp)]
    exact r3 k hk _ C (isAvg_scale _ hC) hC

end

section
variable {A : Type} {I : ArgInfo A} {mids : FS (PyVal ℚ) → Path → List (FS (PyVal ℚ))} {c : Cfg ℚ} {emb : A → Arg ℚ}

theorem growth64 {j N : Nat} {b : ℚ} (hj : j ≤ N) (hN : (N : ℚ) / 2 ^ 53 ≤ b / 2) (hb : b ≤ 1) :
    (1 + 1 / 2 ^ 53 : ℚ) ^ j - 1 ≤ b := by
  have h1 : (j : ℚ) * (1 / 2 ^ 53) ≤ b / 2 := by
    rw [mul_one_div]
    exact (div_le_div_of_nonneg_right (by exact_mod_cast hj) (by positivity)).trans hN
  have h0 : (0 : ℚ) ≤ (j : ℚ) * (1 / 2 ^ 53) := by positivity
  refine (growth (u := (1 / 2 ^ 53 : ℚ)) (by positivity) (j := j) (by linarith)).trans ?_
  rw [div_le_iff₀ (by linarith)]
  nlinarith

/-- **C113**: `crps()` of an ensemble of up to a thousand members averaged over up to a million positions, computed with
53 binary digits, has the exact value to nine digits if numba is installed and to six digits if not, whatever the order of
summation, relative to the score itself; it is never negative, and zero only if the exact score is. -/
theorem C113_float64 {oi o : Obj (EnsX ℚ)} {w w' : World (PyVal ℚ)}
    (h : construct (ensPrims c emb) mids oi w = (.ok o, w')) (hb : oi.boot = .none) {split numba : Bool}
    (hc : ∀ o f ax, c.crpsEns o f ax = ensembleCrps (if numba then psOnePass else psFormula) split ax o f)
    (hne : 0 < oi.ext.o.shape.headD 0) (h0 : 0 ∉ oi.ext.f.shape) (hok : OptOK oi.ext.o.shape.length (axesOf oi.avg))
    (hm : ∀ ax, o.ext.axis = some ax → oi.ext.f.shape.getD (axisNum oi.ext.f.shape.length ax) 0 ≤ 1000)
    (hp : (takeAxes (nums oi.ext.o.shape.length (axesOf oi.avg)) oi.ext.o.shape).prod ≤ 1000000) (S : SumOrder)
    (w1 : World (PyVal ℚ)) :
    ∃ ax r r', o.ext.axis = some ax ∧
      result .ensemble I (ensPrims c emb) mids (.slot .crps) (unsaved o) w1 = .ok (some (.num r)) ∧
      ensCrpsR float64 S numba split c.skipNan (axesOf oi.avg) ax oi.ext.o oi.ext.f = .ok r' ∧ r'.shape = r.shape ∧
      ∀ k, InB r.shape k → (r.get k = none ∧ r'.get k = none) ∨
        ∃ v v', r.get k = some v ∧ r'.get k = some v' ∧ |v' - v| ≤ v / 10 ^ (if numba then 9 else 6) ∧ 0 ≤ v' ∧
          (v' = 0 ↔ v = 0) := by
  obtain ⟨ax, r, a1, a2, a3, a4⟩ := C109_crps (I := I) h hb hc hne hok w1
  obtain ⟨ax', fc, h1, -, h3, h4, -⟩ := C75_construct_ens h
  have hax := h1.axisOK
  have hsh := h1.shape
  obtain rfl : ax = ax' := by have := h1.axis; rw [a1] at this; exact Option.some.inj this
  rw [h3] at hax hsh
  rw [h4] at hsh
  have hm := hm ax a1
  have hN : axisNum oi.ext.f.shape.length ax < oi.ext.f.shape.length := axisNum_lt hax
  have hm0 : oi.ext.f.shape.getD (axisNum oi.ext.f.shape.length ax) 0 ≠ 0 := by
    rw [getD_lt hN]
    exact fun e => h0 (e ▸ List.getElem_mem hN)
  have ho0 : 0 ∉ oi.ext.o.shape := by
    rw [hsh]
    exact fun hh => h0 (List.mem_of_mem_eraseIdx hh)
  have hpos : (takeAxes (nums oi.ext.o.shape.length (axesOf oi.avg)) oi.ext.o.shape).prod ≠ 0 := by
    intro hh
    have := prod_take_drop oi.ext.o.shape (nums oi.ext.o.shape.length (axesOf oi.avg))
    rw [hh, mul_zero, List.prod_eq_zero_iff] at this
    exact ho0 this
  obtain ⟨r', b1, b2, b3⟩ := C113_average (R := float64) C89_float64 S numba split c.skipNan hax hsh hne hok
    (hm.trans (by decide))
  refine ⟨ax, r, r', a1, a2, b1, b2.trans a3.symm, fun k hk => ?_⟩
  have hA := a4 k hk
  have hB := b3 k (by rw [b2, ← a3]; exact hk) _ hA
  have hd := depth_lt S hpos
  have hd1 := depth_lt S hm0
  have hd2 := depth_lt S (Nat.mul_ne_zero hm0 hm0)
  generalize oi.ext.f.shape.getD (axisNum oi.ext.f.shape.length ax) 0 = m at *
  generalize depth (S.tree (takeAxes (nums oi.ext.o.shape.length (axesOf oi.avg)) oi.ext.o.shape).prod) = d at *
  have hmm : m * m ≤ 1000 * 1000 := Nat.mul_le_mul hm hm
  have fin : ∀ {a : Fl ℚ} {j : Nat} {b q : ℚ}, (∀ v v', r.get k = some v → a = some v' → v' = q * v) → 0 ≤ q →
      (1 + 1 / 2 ^ 53 : ℚ) ^ j - 1 ≤ b → b * q = 1 / 10 ^ (if numba then 9 else 6) → Near (1 / 2 ^ 53) j a (r.get k) (r'.get k) →
      (r.get k = none ∧ r'.get k = none) ∨
        ∃ v v', r.get k = some v ∧ r'.get k = some v' ∧ |v' - v| ≤ v / 10 ^ (if numba then 9 else 6) ∧ 0 ≤ v' ∧
          (v' = 0 ↔ v = 0) := by
    intro a j b q ha hq hj hbq hn
    rcases hn with ⟨-, e2, e3⟩ | ⟨a', v, v', e1, e2, e3, e4, e5⟩
    · exact .inl ⟨e2, e3⟩
    · obtain rfl := ha v a' e2 e1
      have hv : 0 ≤ v := by
        have h0 := (abs_nonneg _).trans e4
        by_contra hneg
        push Not at hneg
        have : q * v ≤ 0 := mul_nonpos_of_nonneg_of_nonpos hq hneg.le
        rw [abs_of_neg hneg] at e4
        linarith
      have h6 : |v' - v| ≤ v / 10 ^ (if numba then 9 else 6) := by
        refine e5.trans ((mul_le_mul_of_nonneg_right hj ((abs_nonneg _).trans e4)).trans (le_of_eq ?_))
        rw [← mul_assoc, hbq]
        ring
      have h7 : v / 10 ^ (if numba then 9 else 6) ≤ v / 2 := by
        cases numba <;> norm_num <;> linarith
      have h8 := abs_le.1 (h6.trans h7)
      refine .inr ⟨v, v', e2, e3, h6, by linarith [h8.1], fun hz => ?_, fun hz => ?_⟩
      · rw [hz] at h8; linarith [h8.1]
      · rw [hz] at h8; linarith [h8.1, h8.2]
  cases numba with
  | true =>
    rw [if_pos rfl] at hB
    refine fin (q := 1) (b := 1 / 10 ^ 9) (by intro v v' e1 e2; rw [e1] at e2; cases e2; ring) zero_le_one ?_ (by norm_num) hB
    exact growth64 (N := 3001007) (by omega) (by norm_num) (by norm_num)
  | false =>
    rw [if_neg (by simp)] at hB
    have hB' : Near (1 / 2 ^ 53) (formulaDepth S m + 5 + d + 1) ((r.get k).map (2000 * ·)) (r.get k) (r'.get k) := by
      refine near_mono (by positivity) le_rfl ?_ (by simp) hB
      intro v v' e1 e2
      obtain ⟨s, s1, s2⟩ := Option.map_eq_some_iff.1 e1
      rw [s1] at e2
      have hs : 0 ≤ s := by
        rcases hB with ⟨_, e, _⟩ | ⟨a', e', x', g1, g2, g3, g4, g5⟩
        · rw [s1] at e; cases e
        · rw [s1] at g1 g2
          cases g2
          simp only [Option.map_some, Option.some.injEq] at g1
          subst g1
          by_contra hneg
          push Not at hneg
          have : 2 * (m : ℚ) * s ≤ 0 := mul_nonpos_of_nonneg_of_nonpos (by positivity) hneg.le
          rw [abs_of_neg hneg] at g4
          linarith
      simp only [Option.map_some, Option.some.injEq] at e2
      rw [← s2, ← e2]
      have hmq : (m : ℚ) ≤ 1000 := by exact_mod_cast hm
      nlinarith
    refine fin (q := 2000) (b := 1 / 10 ^ 6 / 2000) (by intro v v' e1 e2; rw [e1] at e2; cases e2; rfl) (by norm_num) ?_
      (by norm_num) hB'
    have hf : formulaDepth S m < 1000 * 1000 := by
      unfold formulaDepth
      exact max_lt (by omega) (by omega)
    exact growth64 (N := 2000005) (by omega) (by norm_num) (by norm_num)

end

/-! ### a case -/

/-- settings with the score of properscoring -/
def cfgPsQ (numba : Bool) : Cfg ℚ :=
  { caseCfg with crpsEns := fun o f ax => ensembleCrps (if numba then psOnePass else psFormula) false ax o f }

/-- three members, and two observations: one between the members, one above them -/
def crpsX : Obj (EnsX ℚ) := ⟨.none, .none, .none, some true,
  ⟨⟨[2, 3], [some (1 / 3), some 1, some (2 / 7), some 0, some 1, some 1], rfl⟩, ⟨[2], [some (3 / 5), some (11 / 9)], rfl⟩, some 1,
    fun f ax => reduceAxes mean f (some [ax]), none⟩⟩

example (numba : Bool) : ∃ o w' r r', construct (ensPrims (cfgPsQ numba) embInt) noMids crpsX world0 = (.ok o, w') ∧
    result .ensemble intInfo (ensPrims (cfgPsQ numba) embInt) noMids (.slot .crps) (unsaved o) w' = .ok (some (.num r)) ∧
    ensCrpsR float64 leftToRight numba false false none 1 crpsX.ext.o crpsX.ext.f = .ok r' ∧
    ∃ v v', r.get [] = some v ∧ r'.get [] = some v' ∧ 0 < v ∧ 0 < v' ∧ |v' - v| ≤ v / 10 ^ 6 := by
  obtain ⟨o, w', h, hax⟩ : ∃ o w', construct (ensPrims (cfgPsQ numba) embInt) noMids crpsX world0 = (.ok o, w') ∧
      o.ext.axis = some 1 := ⟨_, _, rfl, rfl⟩
  have hc : ∀ o f ax, (cfgPsQ numba).crpsEns o f ax = ensembleCrps (if numba then psOnePass else psFormula) false ax o f :=
    fun _ _ _ => rfl
  obtain ⟨ax, r, r', a1, a2, a3, a4, a5⟩ := C113_float64 (I := intInfo) h rfl hc (by decide) (by decide) trivial
    (by intro ax hx; rw [hax] at hx; cases hx; decide) (by decide) leftToRight w'
  obtain ⟨ax', r2, b1, b2, b3, b4⟩ := C109_crps (I := intInfo) h rfl hc (by decide) trivial w'
  rw [hax] at a1 b1
  cases a1; cases b1
  rw [a2] at b2
  cases b2
  refine ⟨o, w', r, r', h, a2, a3, ?_⟩
  have hl : (fiberIdx crpsX.ext.o.shape (nums crpsX.ext.o.shape.length (axesOf crpsX.avg)) []).map (fun i =>
      memberScore (crpsX.ext.o.get i) (membersAt crpsX.ext.f 1 i)) = [some (53 / 315), some (1 / 3)] := by decide +kernel
  have g := b4 [] (by rw [b3]; trivial)
  rw [hl] at g
  have hv : r.get [] = some (79 / 315) := by
    refine isAvg_unique g ?_
    unfold IsAvg
    rw [if_neg (by change ¬ ((false = false ∧ _) ∨ _); decide +kernel)]
    decide +kernel
  rcases a5 [] (by rw [b3]; trivial) with ⟨e, -⟩ | ⟨v, v', e1, e2, e3, e4, e5⟩
  · rw [hv] at e; cases e
  · rw [hv] at e1
    cases e1
    refine ⟨_, v', hv, e2, by norm_num, lt_of_le_of_ne e4 fun hz => ?_, e3.trans ?_⟩
    · have := e5.1 hz.symm
      norm_num at this
    · cases numba <;> norm_num

end Props
