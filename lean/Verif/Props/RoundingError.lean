import Verif.Lemmas.RoundingError
import Verif.Props.Rounding
import Verif.Props.Average
import Verif.Spec.EndToEnd

/-!
# The scores are accurate in rounded arithmetic: C89
-/

set_option linter.unusedSectionVars false

namespace Props
open Np NDArr Spec Model Lemmas

variable {K : Type} [Field K] [LinearOrder K] [IsStrictOrderedRing K] {R : Rounding K} {u : K}

/-- averaging an array of accurate numbers -/
theorem averageR_near (hR : Accurate R u) (S : SumOrder) (skip : Bool) {axes : Option (List Int)} {m : NDArr (Fl K)}
    (havg : OptOK m.shape.length axes) {a e : List Nat → Fl K} {j : Nat}
    (h : ∀ i, InB m.shape i → Near u j (a i) (e i) (m.get i)) :
    ∃ r, averageR R S skip axes m = .ok r ∧ r.shape = dropAxes (nums m.shape.length axes) m.shape ∧
      ∀ k, InB r.shape k → ∀ wa we,
        IsAvg skip ((fiberIdx m.shape (nums m.shape.length axes) k).map a) wa →
        IsAvg skip ((fiberIdx m.shape (nums m.shape.length axes) k).map e) we →
        Near u (j + depth (S.tree (takeAxes (nums m.shape.length axes) m.shape).prod) + 1) wa we (r.get k) := by
  obtain ⟨r, r1, r2, r3⟩ := reduceAxes_spec (if skip then nanmeanR R S else meanR R S) m havg
  refine ⟨r, r1, r2, fun k hk wa we ha he => ?_⟩
  rw [r2] at hk
  rw [r3 k hk, ← length_fiberIdx hk]
  exact avgR_near hR S skip (fun i hi => h i (mem_fiberIdx.1 hi).1) ha he

/-- `x - y` of two present values, rounded -/
theorem near_sub (hR : Accurate R u) (x y : Fl K) :
    Near u 1 (both (fun x y => |x - y|) (x, y)) (both (fun x y => x - y) (x, y)) (rop R (· - ·) x y) := by
  cases x with
  | none => exact .inl ⟨rfl, rfl, rfl⟩
  | some x =>
    cases y with
    | none => exact .inl ⟨rfl, rfl, rfl⟩
    | some y => exact .inr ⟨_, _, _, rfl, rfl, rfl, ((Close.exact hR.1 0 (x - y)).rnd hR)⟩

theorem near_abs (hR : Accurate R u) (x y : Fl K) :
    Near u 1 (both (fun x y => |x - y|) (x, y)) (both (fun x y => |x - y|) (x, y)) (Fl.abs (rop R (· - ·) x y)) := by
  cases x with
  | none => exact .inl ⟨rfl, rfl, rfl⟩
  | some x =>
    cases y with
    | none => exact .inl ⟨rfl, rfl, rfl⟩
    | some y => exact .inr ⟨_, _, _, rfl, rfl, rfl, ((Close.exact hR.1 0 (x - y)).rnd hR).abs⟩

theorem near_sq (hR : Accurate R u) (x y : Fl K) :
    Near u 3 (both (fun x y => (x - y) ^ 2) (x, y)) (both (fun x y => (x - y) ^ 2) (x, y))
      (rop R (· * ·) (rop R (· - ·) x y) (rop R (· - ·) x y)) := by
  cases x with
  | none => exact .inl ⟨rfl, rfl, rfl⟩
  | some x =>
    cases y with
    | none => exact .inl ⟨rfl, rfl, rfl⟩
    | some y =>
      have h := (Close.exact hR.1 0 (x - y)).rnd hR
      have h2 := (h.mul hR.1 h).rnd hR
      rw [abs_mul_abs_self, ← pow_two] at h2
      exact .inr ⟨_, _, _, rfl, rfl, rfl, h2⟩

/-- **C89**: the averaged errors computed in rounded arithmetic, in any order of summation, differ from the exact
averages by at most the effect of as many roundings as there are additions on the longest way plus two (plus four for the
squared error), relative to the mean absolute error (to the mean squared error); missing values are missing in both. -/
theorem C89_errors (hR : Accurate R u) (S : SumOrder) (skip : Bool) {axes : Option (List Int)} {f o : NDArr (Fl K)}
    (hfo : f.shape = o.shape) (havg : OptOK o.shape.length axes) :
    ∃ e a q re ra rq, errorR R f o = .ok e ∧ abErrorR R f o = .ok a ∧ sqErrorR R f o = .ok q ∧
      averageR R S skip axes e = .ok re ∧ averageR R S skip axes a = .ok ra ∧ averageR R S skip axes q = .ok rq ∧
      (re.shape = dropAxes (nums o.shape.length axes) o.shape ∧ ra.shape = re.shape ∧ rq.shape = re.shape) ∧
      ∀ k, InB re.shape k →
        let P := pairsAt f o (nums o.shape.length axes) k
        let d := depth (S.tree (takeAxes (nums o.shape.length axes) o.shape).prod)
        ∀ E A Q, IsAvg skip (P.map (both fun x y => x - y)) E → IsAvg skip (P.map (both fun x y => |x - y|)) A →
          IsAvg skip (P.map (both fun x y => (x - y) ^ 2)) Q →
          Near u (d + 2) A E (re.get k) ∧ Near u (d + 2) A A (ra.get k) ∧ Near u (d + 4) Q Q (rq.get k) := by
  obtain ⟨e, e1, e2, e3⟩ := zipWith_spec (rop R (· - ·)) f o hfo
  have es : e.shape = o.shape := e2.trans hfo
  rw [← es] at havg
  obtain ⟨re, re1, re2, re3⟩ := averageR_near hR S skip (m := e) havg
    (a := fun i => both (fun x y => |x - y|) (f.get i, o.get i)) (e := fun i => both (fun x y => x - y) (f.get i, o.get i))
    (j := 1) (fun i hi => by rw [e3 i (by rw [← e2]; exact hi)]; exact near_sub hR _ _)
  obtain ⟨ra, ra1, ra2, ra3⟩ := averageR_near hR S skip (m := e.map Fl.abs) (axes := axes) havg
    (a := fun i => both (fun x y => |x - y|) (f.get i, o.get i)) (e := fun i => both (fun x y => |x - y|) (f.get i, o.get i))
    (j := 1) (fun i hi => by
      rw [get_map Fl.abs e hi, e3 i (by rw [← e2]; exact hi)]; exact near_abs hR _ _)
  obtain ⟨rq, rq1, rq2, rq3⟩ := averageR_near hR S skip (m := e.map fun x => rop R (· * ·) x x) (axes := axes) havg
    (a := fun i => both (fun x y => (x - y) ^ 2) (f.get i, o.get i))
    (e := fun i => both (fun x y => (x - y) ^ 2) (f.get i, o.get i))
    (j := 3) (fun i hi => by
      rw [get_map (fun x => rop R (· * ·) x x) e hi, e3 i (by rw [← e2]; exact hi)]; exact near_sq hR _ _)
  have sa : (e.map Fl.abs).shape = o.shape := es
  have sq : (e.map fun x => rop R (· * ·) x x).shape = o.shape := es
  rw [es] at re2 re3
  rw [sa] at ra2 ra3
  rw [sq] at rq2 rq3
  refine ⟨e, _, _, re, ra, rq, e1, by simp only [abErrorR, e1]; rfl, by simp only [sqErrorR, e1]; rfl, re1, ra1, rq1,
    ⟨re2, ra2.trans re2.symm, rq2.trans re2.symm⟩, ?_⟩
  intro k hk P d E A Q hE hA hQ
  have hP : ∀ g : K → K → K, P.map (both g) =
      (fiberIdx o.shape (nums o.shape.length axes) k).map fun i => both g (f.get i, o.get i) := by
    intro g
    simp only [P, pairsAt, List.map_map, hfo]
    rfl
  rw [hP] at hE hA hQ
  have n1 := re3 k hk _ _ hA hE
  have n2 := ra3 k (by rw [ra2, ← re2]; exact hk) _ _ hA hA
  have n3 := rq3 k (by rw [rq2, ← re2]; exact hk) _ _ hQ hQ
  exact ⟨by convert n1 using 1; omega, by convert n2 using 1; omega, by convert n3 using 1; omega⟩

/-- the root of an accurate number is accurate -/
theorem Close.sqrt {s : K → K} (hs : IsSqrt s) (hu : 0 ≤ u) {j : Nat} {e x : K} (he : 0 ≤ e) (hx : 0 ≤ x)
    (h : Close u j e e x) : Close u j (s e) (s e) (s x) := by
  have e0 := hs.nonneg e he
  have x0 := hs.nonneg x hx
  have e2 := hs.sq e he
  have x2 := hs.sq x hx
  refine ⟨by rw [abs_of_nonneg e0], ?_⟩
  have h1 := one_le hu j
  rcases e0.eq_or_lt with hz | hz
  · -- an exact zero stays zero
    rw [← hz, mul_zero] at e2
    have : x = 0 := by
      have h2 := h.2
      rw [← e2, mul_zero, sub_zero] at h2
      exact abs_nonpos_iff.1 h2
    rw [this, ← e2, isSqrt_zero hs]
    simp
  · have h2 : |s x - s e| * (s x + s e) = |x - e| := by
      rw [← abs_of_nonneg (add_nonneg x0 e0), ← abs_mul]
      congr 1
      linear_combination x2 - e2
    have h3 : |s x - s e| * s e ≤ (((1 + u) ^ j - 1) * s e) * s e := by
      calc |s x - s e| * s e ≤ |s x - s e| * (s x + s e) := by
            apply mul_le_mul_of_nonneg_left _ (abs_nonneg _)
            linarith
        _ = |x - e| := h2
        _ ≤ ((1 + u) ^ j - 1) * e := h.2
        _ = _ := by rw [mul_assoc, e2]
    exact le_of_mul_le_mul_right h3 hz

/-- **C89**: `rmse()` in rounded arithmetic, with a correctly rounded root, has a relative error of at most one rounding
more than the mean squared error. -/
theorem C89_rmse {s : K → K} (hs : IsSqrt s) (hR : Accurate R u) (S : SumOrder) (skip : Bool) {axes : Option (List Int)}
    {f o : NDArr (Fl K)} (hfo : f.shape = o.shape) (havg : OptOK o.shape.length axes) :
    ∃ r, rmseR R S s skip axes f o = .ok r ∧ r.shape = dropAxes (nums o.shape.length axes) o.shape ∧
      ∀ k, InB r.shape k → ∀ Q, IsAvg skip ((pairsAt f o (nums o.shape.length axes) k).map (both fun x y => (x - y) ^ 2)) Q →
        Near u (depth (S.tree (takeAxes (nums o.shape.length axes) o.shape).prod) + 5) (Q.map s) (Q.map s) (r.get k) := by
  obtain ⟨e, a, q, re, ra, rq, h1, h2, h3, h4, h5, h6, ⟨s1, s2, s3⟩, h7⟩ := C89_errors hR S skip hfo havg
  obtain ⟨m', q', am, aq, c1, c2, c3, c4, c5⟩ := C80_errors R S skip hfo havg
  rw [h3] at c2; cases c2
  rw [h6] at c4; cases c4
  refine ⟨rq.map fun x => (Fl.sqrt s x).map R.rnd, by simp only [rmseR, h3, h6, bind, Except.bind, pure, Except.pure],
    s3.trans s1, fun k hk Q hQ => ?_⟩
  have hk' : InB rq.shape k := hk
  rw [get_map (fun x : Fl K => (Fl.sqrt s x).map R.rnd) rq hk']
  have hE := meanOf_isAvg skip ((pairsAt f o (nums o.shape.length axes) k).map (both fun x y : K => x - y))
  have hA := meanOf_isAvg skip ((pairsAt f o (nums o.shape.length axes) k).map (both fun x y : K => |x - y|))
  have hn := (h7 k (by rw [← s3]; exact hk) _ _ _ hE hA hQ).2.2
  have h0 := (c5 k (by rw [← s1, ← s3]; exact hk)).2
  rcases hn with ⟨e1, -, e3⟩ | ⟨a', e', x', e1, e2, e3, e4, e5⟩
  · left
    rw [e1, e3]
    exact ⟨rfl, rfl, rfl⟩
  · right
    rw [e1] at e2
    cases e2
    have hx0 : 0 ≤ x' := h0 x' e3
    have hq0 : 0 ≤ a' := (abs_nonneg _).trans e4
    rw [e1, e3, Fl.sqrt, if_pos hx0]
    exact ⟨_, _, _, rfl, rfl, rfl, (Close.sqrt hs hR.1 hq0 hx0 ⟨e4, e5⟩).rnd hR⟩

theorem fiberIdx_ne' {s : List Nat} {axes k : List Nat} (h0 : 0 ∉ s) (hk : InB (dropAxes axes s) k) : fiberIdx s axes k ≠ [] := by
  intro h
  have h1 := length_fiberIdx hk
  rw [h] at h1
  have h2 := prod_take_drop s axes
  rw [← h1] at h2
  simp only [List.length_nil, mul_zero, List.prod_eq_zero_iff] at h2
  exact h0 h2

theorem isAvg_ones {ι : Type} (skip : Bool) {L : List ι} (hL : L ≠ []) : IsAvg skip (L.map fun _ => some (1 : K)) (some 1) := by
  have hl : (L.length : K) ≠ 0 := by
    have : L.length ≠ 0 := by simpa using hL
    exact_mod_cast this
  have hp : present (L.map fun _ => some (1 : K)) = L.map fun _ => (1 : K) := by
    have : (L.map fun _ => some (1 : K)) = (L.map fun _ => (1 : K)).map some := by rw [List.map_map]; rfl
    rw [this, present, filterMap_id_map_some]
  unfold IsAvg
  rw [hp, if_neg (by simp [hL])]
  simp [avg, hl]

/-- **C89**: the Brier score of an ensemble in rounded arithmetic is within eight roundings plus the additions on the longest
way of the exact one, relative to 1. -/
theorem C89_brier (hR : Accurate R u) (S : SumOrder) (skip over : Bool) (workers : Nat) (f o : NDArr (Fl K)) {ax : Int}
    (t : Thr K) {axes : Option (List Int)} (hax : AxisOK f.shape.length ax) (ho : o.shape = posShape f.shape ax)
    (ht : ThrOK t o.shape) (h0 : 0 ∉ f.shape) (havg : OptOK o.shape.length axes) :
    ∃ r a, ensBrierR R workers f ax o (if over then some t else none) (if over then none else some t) = .ok r ∧
      averageR R S skip axes r = .ok a ∧ a.shape = dropAxes (nums o.shape.length axes) o.shape ∧
      ∀ k, InB a.shape k → ∀ B, IsAvg skip ((fiberIdx o.shape (nums o.shape.length axes) k).map fun i =>
          (fractionLe (membersAt f ax i) (thrAt t i)).map fun p =>
            ((if over then 1 - p else p) - indicator (Event over t o i)) ^ 2) B →
        ∃ b b', B = some b ∧ a.get k = some b' ∧
          |b' - b| ≤ (1 + u) ^ (depth (S.tree (takeAxes (nums o.shape.length axes) o.shape).prod) + 8) - 1 := by
  have hpos : 0 ∉ o.shape := by
    rw [ho, posShape]
    exact fun h => h0 (List.eraseIdx_subset h)
  have hne : o.shape.prod ≠ 0 := by simpa [List.prod_eq_zero_iff] using hpos
  have hmem : f.shape.getD (axisNum f.shape.length ax) 0 ≠ 0 := by
    have hlt := axisNum_lt hax
    rw [getD_lt hlt]
    exact fun h => h0 (h ▸ List.getElem_mem hlt)
  obtain ⟨p, p1, p2, p3⟩ := ensToProbBelow_spec workers .kde (momentsColR R) f t hax (by rw [ho] at ht; exact ht) (by decide)
    (by rw [ho] at hne; exact hne)
  -- the probability that is stored
  obtain ⟨c, c1, c2, c3⟩ : ∃ c, ensCdfR R workers f ax (if over then some t else none) (if over then none else some t) = .ok c ∧
      c.shape = o.shape ∧ ∀ i, InB o.shape i → ∃ v x, fractionLe (membersAt f ax i) (thrAt t i) = some v ∧ c.get i = some x ∧
        Close u 2 1 (if over then 1 - v else v) x ∧ 0 ≤ v ∧ v ≤ 1 := by
    have base : ∀ i, InB o.shape i → ∃ v x, fractionLe (membersAt f ax i) (thrAt t i) = some v ∧ p.get i = some x ∧
        Close u 1 1 v x ∧ 0 ≤ v ∧ v ≤ 1 := by
      intro i hi
      have hi' : InB (posShape f.shape ax) i := by rw [← ho]; exact hi
      have hlen := membersAt_length f hax hi'
      have hl : (membersAt f ax i).length ≠ 0 := by rw [hlen]; exact hmem
      have hM : membersAt f ax i ≠ [] := by intro h; rw [h] at hl; exact hl rfl
      have hlp : (0 : K) < (membersAt f ax i).length := by exact_mod_cast Nat.pos_of_ne_zero hl
      have hle : (((membersAt f ax i).countP fun x => Fl.le x (thrAt t i) : ℕ) : K) ≤ (membersAt f ax i).length := by
        exact_mod_cast List.countP_le_length
      have hv0 : (0 : K) ≤ (((membersAt f ax i).countP fun x => Fl.le x (thrAt t i) : ℕ) : K) / (membersAt f ax i).length := by
        positivity
      have hv1 : (((membersAt f ax i).countP fun x => Fl.le x (thrAt t i) : ℕ) : K) / (membersAt f ax i).length ≤ 1 :=
        (div_le_one hlp).2 hle
      refine ⟨(((membersAt f ax i).countP fun x => Fl.le x (thrAt t i) : ℕ) : K) / (membersAt f ax i).length,
        R.rnd ((((membersAt f ax i).countP fun x => Fl.le x (thrAt t i) : ℕ) : K) / (membersAt f ax i).length), ?_, ?_, ?_,
        hv0, hv1⟩
      · unfold fractionLe
        rw [if_neg hM, ← List.countP_eq_length_filter]
        congr 4
        funext x
        rw [Bool.eq_iff_iff, le_iff_LeP]
        simp
      · rw [p3 i hi']
        change momentsColR R (thrAt t i :: membersAt f ax i) = _
        simp only [momentsColR, List.tail_cons, List.getD_cons_zero, List.length_cons, Nat.add_sub_cancel, if_neg hl]
      · have : Close u 0 1 ((((membersAt f ax i).countP fun x => Fl.le x (thrAt t i) : ℕ) : K) / (membersAt f ax i).length)
            ((((membersAt f ax i).countP fun x => Fl.le x (thrAt t i) : ℕ) : K) / (membersAt f ax i).length) :=
          ⟨by rw [abs_of_nonneg hv0]; exact hv1, by simp⟩
        exact this.rnd hR
    cases over with
    | false =>
      refine ⟨p, ?_, p2.trans ho.symm, fun i hi => ?_⟩
      · simp only [Bool.false_eq_true, if_false, ensCdfR, ensToProbBelowR]; exact p1
      · obtain ⟨v, x, e1, e2, e3, e4⟩ := base i hi
        exact ⟨v, x, e1, e2, e3.mono hR.1 (by omega), e4⟩
    | true =>
      refine ⟨p.map fun x => rop R (· - ·) (some 1) x, ?_, p2.trans ho.symm, fun i hi => ?_⟩
      · simp only [if_true, ensCdfR, ensToProbBelowR, p1]; rfl
      · obtain ⟨v, x, e1, e2, e3, e4, e5⟩ := base i hi
        refine ⟨v, R.rnd (1 - x), e1, ?_, ?_, e4, e5⟩
        · rw [get_map _ p (by rw [ho] at hi; rw [p2]; exact hi), e2]; rfl
        · have : Close u 1 1 (1 - v) (1 - x) := by
            refine ⟨by rw [abs_of_nonneg (by linarith)]; linarith, ?_⟩
            have := e3.2
            rwa [show 1 - x - (1 - v) = -(x - v) by ring, abs_neg]
          exact this.rnd hR
  obtain ⟨b, b1, b2, b3⟩ : ∃ b, binarizeObs o (if over then some t else none) (if over then none else some t) = .ok b ∧
      b.shape = o.shape ∧ ∀ i, InB o.shape i → (b.get i = true ↔ Event over t o i) := by
    cases over with
    | false =>
      obtain ⟨b, b1, b2, b3⟩ := cmpThr_spec Fl.lt o t ht
      refine ⟨b, by simp only [Bool.false_eq_true, if_false, binarizeObs, b1], b2, fun i hi => ?_⟩
      rw [b3 i hi]
      simp only [Event, Bool.false_eq_true, if_false]
      cases o.get i <;> cases thrAt t i <;> simp [Fl.lt, LtP]
    | true =>
      obtain ⟨b, b1, b2, b3⟩ := cmpThr_spec (fun x v => Fl.lt v x) o t ht
      refine ⟨b, by simp only [if_true, binarizeObs, b1], b2, fun i hi => ?_⟩
      rw [b3 i hi]
      simp only [Event, if_true]
      cases o.get i <;> cases thrAt t i <;> simp [Fl.lt, LtP]
  obtain ⟨z, z1, z2, z3⟩ := zipWith_spec (brierElemR R) c b (by rw [c2, b2])
  have zs : z.shape = o.shape := z2.trans c2
  have hel : ∀ i, InB z.shape i → Near u 7 (some 1) ((fractionLe (membersAt f ax i) (thrAt t i)).map fun p =>
      ((if over then 1 - p else p) - indicator (Event over t o i)) ^ 2) (z.get i) := by
    intro i hi
    rw [zs] at hi
    obtain ⟨v, x, e1, e2, e3, e4, e5⟩ := c3 i hi
    have hb : (if b.get i then (1 : K) else 0) = indicator (Event over t o i) := by
      have := b3 i hi
      unfold indicator
      by_cases hE : Event over t o i
      · rw [if_pos hE, if_pos (this.2 hE)]
      · rw [if_neg hE, if_neg (fun h => hE (this.1 h))]
    rw [z3 i (by rw [c2]; exact hi), e1, e2]
    right
    have hw : 0 ≤ (if over then 1 - v else v) ∧ (if over then 1 - v else v) ≤ 1 := by
      cases over
      · exact ⟨e4, e5⟩
      · exact ⟨by simpa using e5, by simpa using e4⟩
    set w := if over then 1 - v else v with hwdef
    have hi01 : (indicator (Event over t o i) : K) = 0 ∨ (indicator (Event over t o i) : K) = 1 := by
      unfold indicator
      split
      · exact .inr rfl
      · exact .inl rfl
    have hd : Close u 2 1 (w - indicator (Event over t o i)) (x - indicator (Event over t o i)) := by
      refine ⟨?_, ?_⟩
      · rcases hi01 with h | h <;> rw [h, abs_le] <;> constructor <;> linarith [hw.1, hw.2]
      · rw [sub_sub_sub_cancel_right]
        exact e3.2
    have h3 := hd.rnd hR
    have h4 := (h3.mul hR.1 h3).rnd hR
    rw [mul_one, ← pow_two] at h4
    refine ⟨1, _, _, rfl, rfl, ?_, h4⟩
    simp only [brierElemR, rop, hb]
  obtain ⟨r, r1, r2, r3⟩ := averageR_near hR S skip (m := z) (axes := axes) (by rw [zs]; exact havg) hel
  rw [zs] at r2 r3
  refine ⟨z, r, by simp only [ensBrierR, c1, b1, bind, Except.bind]; exact z1, r1, r2, fun k hk B hB => ?_⟩
  have hL := fiberIdx_ne' hpos (r2 ▸ hk)
  have hn := r3 k hk (some 1) B (isAvg_ones skip hL) hB
  rcases hn with ⟨h, -⟩ | ⟨a', e', x', e1, e2, e3, -, e5⟩
  · cases h
  · cases e1
    refine ⟨e', x', e2, e3, ?_⟩
    rw [mul_one] at e5
    convert e5 using 3
    omega

/-- **C89**: rounding to the nearest number of 53 binary digits has the relative error 2⁻⁵³. -/
theorem C89_float64 : Accurate float64 (1 / 2 ^ 53) := by
  refine ⟨by positivity, fun x => ?_⟩
  exact binary_accurate (p := 52) (r := fun x : ℚ => round x) (fun x => by rw [abs_sub_comm]; exact abs_sub_round x) x

/-- **C89**: with 53 binary digits, `ab_error()` and `sq_error()` of up to a million pooled values are right to nine digits, whatever the order of summation, and `error()` to nine digits of the mean absolute error. -/
theorem C89_million (S : SumOrder) (skip : Bool) {axes : Option (List Int)} {f o : NDArr (Fl ℚ)} (hfo : f.shape = o.shape)
    (havg : OptOK o.shape.length axes) (hn0 : 0 ∉ o.shape)
    (hn : (takeAxes (nums o.shape.length axes) o.shape).prod ≤ 1000000) :
    ∃ e a q re ra rq, errorR float64 f o = .ok e ∧ abErrorR float64 f o = .ok a ∧ sqErrorR float64 f o = .ok q ∧
      averageR float64 S skip axes e = .ok re ∧ averageR float64 S skip axes a = .ok ra ∧
      averageR float64 S skip axes q = .ok rq ∧
      ∀ k, InB re.shape k →
        let P := pairsAt f o (nums o.shape.length axes) k
        ∀ E A Q, IsAvg skip (P.map (both fun x y => x - y)) (some E) → IsAvg skip (P.map (both fun x y => |x - y|)) (some A) →
          IsAvg skip (P.map (both fun x y => (x - y) ^ 2)) (some Q) →
          ∃ e' a' q', re.get k = some e' ∧ ra.get k = some a' ∧ rq.get k = some q' ∧
            |e' - E| ≤ A / 10 ^ 9 ∧ |a' - A| ≤ A / 10 ^ 9 ∧ |q' - Q| ≤ Q / 10 ^ 9 := by
  obtain ⟨e, a, q, re, ra, rq, h1, h2, h3, h4, h5, h6, ⟨s1, s2, s3⟩, h7⟩ := C89_errors C89_float64 S skip hfo havg
  refine ⟨e, a, q, re, ra, rq, h1, h2, h3, h4, h5, h6, ?_⟩
  intro k hk P E A Q hE hA hQ
  have hpos : (takeAxes (nums o.shape.length axes) o.shape).prod ≠ 0 := by
    intro h
    have := prod_take_drop o.shape (nums o.shape.length axes)
    rw [h, mul_zero, List.prod_eq_zero_iff] at this
    exact hn0 this
  have hd := depth_lt S hpos
  have hsmall : ∀ j, j ≤ 4 → (1 + 1 / 2 ^ 53 : ℚ) ^ (depth (S.tree (takeAxes (nums o.shape.length axes) o.shape).prod) + j) - 1 ≤
      1 / 10 ^ 9 := by
    intro j hj
    obtain ⟨N, hN⟩ : ∃ N, N = depth (S.tree (takeAxes (nums o.shape.length axes) o.shape).prod) + j := ⟨_, rfl⟩
    rw [← hN]
    have hb : (N : ℚ) ≤ 1000003 := by
      have : N ≤ 1000003 := by omega
      exact_mod_cast this
    have hj : (N : ℚ) * (1 / 2 ^ 53) ≤ 1000003 / 2 ^ 53 := by
      rw [mul_one_div]
      exact div_le_div_of_nonneg_right hb (by positivity)
    have hc : (1000003 / 2 ^ 53 : ℚ) ≤ 1 / 2 / 10 ^ 9 := by norm_num
    have hg := growth (u := (1 / 2 ^ 53 : ℚ)) (by positivity) (j := N) (by linarith)
    refine hg.trans ?_
    rw [div_le_iff₀ (by linarith)]
    linarith
  obtain ⟨n1, n2, n3⟩ := h7 k hk _ _ _ hE hA hQ
  have fin : ∀ {j : Nat} {A E : ℚ} {x : Fl ℚ}, j ≤ 4 →
      Near (1 / 2 ^ 53) (depth (S.tree (takeAxes (nums o.shape.length axes) o.shape).prod) + j) (some A) (some E) x →
      ∃ v, x = some v ∧ |v - E| ≤ A / 10 ^ 9 := by
    intro j A E x hj h
    rcases h with ⟨h, -⟩ | ⟨a', e', x', e1, e2, e3, e4, e5⟩
    · cases h
    · cases e1; cases e2
      refine ⟨x', e3, e5.trans ?_⟩
      have h0 := (abs_nonneg _).trans e4
      have := mul_le_mul_of_nonneg_right (hsmall j hj) h0
      linarith
  obtain ⟨e', x1, x2⟩ := fin (by omega) n1
  obtain ⟨a', y1, y2⟩ := fin (by omega) n2
  obtain ⟨q', z1, z2⟩ := fin (by omega) n3
  exact ⟨e', a', q', x1, y1, z1, x2, y2, z2⟩

/-- The mean of one third, a missing value and nine sevenths. -/
example : ∃ e re, errorR float64 (⟨[3], [some (1 / 3), none, some 2], rfl⟩ : NDArr (Fl ℚ)) ⟨[3], [some 0, some 1, some (5 / 7)], rfl⟩ =
      .ok e ∧ averageR float64 leftToRight true none e = .ok re ∧
      ∃ v, re.get [] = some v ∧ |v - 17 / 21| ≤ 17 / 21 / 10 ^ 9 := by
  obtain ⟨e, a, q, re, ra, rq, h1, -, -, h4, -, -, h7⟩ := C89_million leftToRight true (axes := none)
    (f := ⟨[3], [some (1 / 3), none, some 2], rfl⟩) (o := ⟨[3], [some 0, some 1, some (5 / 7)], rfl⟩) rfl trivial (by decide)
    (by decide)
  refine ⟨e, re, h1, h4, ?_⟩
  have hs : re.shape = [] := by
    obtain ⟨r, r1, r2, -⟩ := reduceAxes_spec (nanmeanR float64 leftToRight) e (axes := none) trivial
    have : averageR float64 leftToRight true none e = .ok r := r1
    rw [h4] at this
    cases this
    obtain ⟨z, z1, z2, -⟩ := zipWith_spec (rop float64 (· - ·)) (⟨[3], [some (1 / 3), none, some 2], rfl⟩ : NDArr (Fl ℚ))
      ⟨[3], [some 0, some 1, some (5 / 7)], rfl⟩ rfl
    rw [errorR, z1] at h1
    cases h1
    rw [r2, z2]
    decide
  have v : ∀ g c, meanOf true ((pairsAt (⟨[3], [some (1 / 3), none, some 2], rfl⟩ : NDArr (Fl ℚ))
      ⟨[3], [some 0, some 1, some (5 / 7)], rfl⟩ [0] []).map (both g)) = some c →
      IsAvg true ((pairsAt (⟨[3], [some (1 / 3), none, some 2], rfl⟩ : NDArr (Fl ℚ))
        ⟨[3], [some 0, some 1, some (5 / 7)], rfl⟩ [0] []).map (both g)) (some c) := by
    intro g c h
    rw [← h]
    exact meanOf_isAvg _ _
  obtain ⟨e', a', q', x1, -, -, x4, -, -⟩ := h7 [] (by rw [hs]; trivial) (17 / 21) (17 / 21) (389 / 441)
    (v _ _ (by decide +kernel)) (v _ _ (by decide +kernel)) (v _ _ (by simp only [pow_two]; decide +kernel))
  exact ⟨e', x1, x4⟩

/-- The Brier score of the ensemble of C80 is 2/9; computed with 53 digits it is within `(1 + 2⁻⁵³) ^ 9 - 1` of that. -/
example : ∃ r a, ensBrierR float64 1 roundF (-1) roundO (some (.scalar (some 1))) none = .ok r ∧
    averageR float64 leftToRight false none r = .ok a ∧ ∃ b : ℚ, a.get [] = some b ∧ |b - 2 / 9| ≤ (1 + 1 / 2 ^ 53) ^ 9 - 1 := by
  obtain ⟨r, a, h1, h2, h3, h4⟩ := C89_brier C89_float64 leftToRight false true 1 roundF roundO (ax := -1)
    (.scalar (some 1)) (axes := none) (by constructor <;> decide) (by decide) trivial (by decide) trivial
  refine ⟨r, a, h1, h2, ?_⟩
  have hs : a.shape = [] := by rw [h3]; decide
  have m0 : membersAt roundF (-1) [0] = [some 0, some 1, some 2] := by decide +kernel
  have m1 : membersAt roundF (-1) [1] = [some 0, some 0, some (1 / 3)] := by decide +kernel
  have o0 : roundO.get [0] = some 3 := by decide +kernel
  have o1 : roundO.get [1] = some (1 / 2) := by decide +kernel
  have hL : fiberIdx roundO.shape (nums roundO.shape.length none) [] = [[0], [1]] := by decide
  obtain ⟨b, b', e1, e2, e3⟩ := h4 [] (by rw [hs]; trivial) (some (2 / 9)) (by
    rw [hL]
    have f0 : fractionLe (membersAt roundF (-1) [0]) (thrAt (.scalar (some (1 : ℚ))) [0]) = some (2 / 3) := by
      rw [m0, fractionLe, if_neg (by exact List.cons_ne_nil _ _)]
      norm_num [fractionLe, thrAt, LeP, List.filter_cons]
    have f1 : fractionLe (membersAt roundF (-1) [1]) (thrAt (.scalar (some (1 : ℚ))) [1]) = some 1 := by
      rw [m1, fractionLe, if_neg (by exact List.cons_ne_nil _ _)]
      norm_num [fractionLe, thrAt, LeP, List.filter_cons]
    have g0 : (indicator (Event true (.scalar (some (1 : ℚ))) roundO [0]) : ℚ) = 1 := by
      rw [indicator, if_pos]
      simp only [Event, if_true, thrAt, o0]
      exact ⟨1, 3, rfl, rfl, by norm_num⟩
    have g1 : (indicator (Event true (.scalar (some (1 : ℚ))) roundO [1]) : ℚ) = 0 := by
      rw [indicator, if_neg]
      simp only [Event, if_true, thrAt, o1]
      rintro ⟨x, y, hx, hy, hxy⟩
      cases hx
      cases hy
      norm_num at hxy
    simp only [List.map_cons, List.map_nil, f0, f1, g0, g1, Option.map_some, if_true]
    unfold IsAvg
    have hp : present [some (((1 : ℚ) - 2 / 3 - 1) ^ 2), some ((1 - 1 - 0) ^ 2)] = [(1 - 2 / 3 - 1) ^ 2, (1 - 1 - 0) ^ 2] := rfl
    rw [hp, if_neg (by simp)]
    norm_num [avg])
  cases e1
  exact ⟨b', e2, e3⟩

end Props
