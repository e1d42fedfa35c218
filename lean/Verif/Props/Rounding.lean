import Verif.Lemmas.Rounding
import Verif.Props.Ensemble

/-!
# Probabilities, Brier scores and errors in rounded arithmetic: C80
-/

set_option linter.unusedSectionVars false

namespace Props
open Np NDArr Spec Model Lemmas

variable {K : Type} [Field K] [LinearOrder K] [IsStrictOrderedRing K] (R : Rounding K)

/-- the rounded fraction of a column -/
theorem momentsColR_cases {t : Fl K} {M : List (Fl K)} (hM : M ≠ []) (hs : M.length ≤ R.size) :
    ∃ v, momentsColR R (t :: M) = some v ∧ 0 ≤ v ∧ v ≤ 1 ∧ (v = 1 ↔ ∀ x ∈ M, LeP x t) ∧ (v = 0 ↔ ∀ x ∈ M, ¬ LeP x t) := by
  have hl : M.length ≠ 0 := by simpa using hM
  have hpos : (0 : K) < M.length := by exact_mod_cast Nat.pos_of_ne_zero hl
  have hsz : 0 < R.size := by omega
  set c := M.countP fun x => Fl.le x t with hc
  have hcl : c ≤ M.length := List.countP_le_length
  have hcK : (c : K) ≤ M.length := by exact_mod_cast hcl
  have hr : momentsColR R (t :: M) = some (R.rnd ((c : K) / M.length)) := by
    unfold momentsColR
    simp only [List.tail_cons, List.getD_cons_zero, List.length_cons, Nat.add_sub_cancel, if_neg hl]
    rfl
  refine ⟨_, hr, (rnd_unit R hsz (by positivity) ((div_le_one hpos).2 hcK)).1,
    (rnd_unit R hsz (by positivity) ((div_le_one hpos).2 hcK)).2, ?_, ?_⟩
  · constructor
    · intro h1 x hx
      by_contra hlt
      have hlt' : c < M.length := by
        refine lt_of_le_of_ne hcl fun he => hlt ?_
        exact (le_iff_LeP _ _).1 (List.countP_eq_length.1 he x hx)
      have : (c : K) / M.length ≤ ((M.length : K) - 1) / M.length := by
        apply div_le_div_of_nonneg_right _ hpos.le
        have : ((c + 1 : ℕ) : K) ≤ M.length := by exact_mod_cast hlt'
        push_cast at this
        linarith
      have h2 := R.mono this
      have h3 := R.part_lt M.length (Nat.pos_of_ne_zero hl) hs
      rw [h1] at h2
      exact absurd h3 (not_lt.2 h2)
    · intro h
      have : c = M.length := List.countP_eq_length.2 fun x hx => (le_iff_LeP _ _).2 (h x hx)
      rw [this, div_self hpos.ne', rnd_one R hsz]
  · constructor
    · intro h0 x hx hle
      have hc0 : 0 < c := List.countP_pos_iff.2 ⟨x, hx, (le_iff_LeP _ _).2 hle⟩
      have : (1 : K) / M.length ≤ (c : K) / M.length := by
        apply div_le_div_of_nonneg_right _ hpos.le
        exact_mod_cast hc0
      have h2 := R.mono this
      rw [h0] at h2
      exact absurd (R.part_pos M.length (Nat.pos_of_ne_zero hl) hs) (not_lt.2 h2)
    · intro h
      have : c = 0 := List.countP_eq_zero.2 fun x hx he => h x hx ((le_iff_LeP _ _).1 he)
      rw [this]
      simp [rnd_zero]

/-- Ensemble probabilities, computed with rounding: in `[0,1]`; exactly one if and only if all members are at or below
the threshold, exactly zero if and only if none is; and exact complements in these cases. -/
theorem C80_probability (workers : Nat) (f : NDArr (Fl K)) {ax : Int} (t : Thr K) (hax : AxisOK f.shape.length ax)
    (ht : ThrOK t (posShape f.shape ax)) (hne : (posShape f.shape ax).prod ≠ 0)
    (hmem : f.shape.getD (axisNum f.shape.length ax) 0 ≠ 0)
    (hsize : f.shape.getD (axisNum f.shape.length ax) 0 ≤ R.size) :
    ∃ r r', ensCdfR R workers f ax none (some t) = .ok r ∧ ensCdfR R workers f ax (some t) none = .ok r' ∧
      r.shape = posShape f.shape ax ∧ r'.shape = posShape f.shape ax ∧
      ∀ k, InB (posShape f.shape ax) k → ∃ v v', r.get k = some v ∧ r'.get k = some v' ∧
        0 ≤ v ∧ v ≤ 1 ∧ 0 ≤ v' ∧ v' ≤ 1 ∧
        (v = 1 ↔ ∀ x ∈ membersAt f ax k, LeP x (thrAt t k)) ∧
        (v = 0 ↔ ∀ x ∈ membersAt f ax k, ¬ LeP x (thrAt t k)) ∧
        (v = 1 → v' = 0) ∧ (v = 0 → v' = 1) ∧ v' = R.rnd (1 - v) := by
  obtain ⟨r, h1, h2, h3⟩ := ensToProbBelow_spec workers .kde (momentsColR R) f t hax ht (by decide) hne
  refine ⟨r, r.map fun x => rop R (· - ·) (some 1) x, h1, ?_, h2, h2, ?_⟩
  · simp only [ensCdfR, ensToProbBelowR, h1]; rfl
  · intro k hk
    have hlen := membersAt_length f hax hk
    have hM : membersAt f ax k ≠ [] := by
      intro h; rw [h] at hlen; exact hmem hlen.symm
    have hsz : 0 < R.size := by omega
    obtain ⟨v, hv, h0, h1', hone, hzero⟩ := momentsColR_cases R (t := thrAt t k) hM (by rw [hlen]; exact hsize)
    have hrk : r.get k = some v := by rw [h3 k hk]; exact hv
    have hu := rnd_unit R hsz (x := 1 - v) (by linarith) (by linarith)
    refine ⟨v, R.rnd (1 - v), hrk, ?_, h0, h1', hu.1, hu.2, hone, hzero, ?_, ?_, rfl⟩
    · rw [get_map _ _ (by rw [h2]; exact hk), hrk]; rfl
    · rintro rfl; rw [sub_self, rnd_zero]
    · rintro rfl; rw [sub_zero, rnd_one R hsz]

/-- A larger threshold never lowers a rounded probability of being below it, nor raises that of being above. -/
theorem C80_monotone (workers : Nat) (f : NDArr (Fl K)) {ax : Int} (t t' : Thr K) (hax : AxisOK f.shape.length ax)
    (ht : ThrOK t (posShape f.shape ax)) (ht' : ThrOK t' (posShape f.shape ax)) (hne : (posShape f.shape ax).prod ≠ 0)
    (hmem : f.shape.getD (axisNum f.shape.length ax) 0 ≠ 0) :
    ∃ r r' q q', ensCdfR R workers f ax none (some t) = .ok r ∧ ensCdfR R workers f ax (some t) none = .ok r' ∧
      ensCdfR R workers f ax none (some t') = .ok q ∧ ensCdfR R workers f ax (some t') none = .ok q' ∧
      ∀ k, InB (posShape f.shape ax) k → LeP (thrAt t k) (thrAt t' k) →
        LeP (r.get k) (q.get k) ∧ LeP (q'.get k) (r'.get k) := by
  obtain ⟨r, h1, h2, h3⟩ := ensToProbBelow_spec workers .kde (momentsColR R) f t hax ht (by decide) hne
  obtain ⟨q, g1, g2, g3⟩ := ensToProbBelow_spec workers .kde (momentsColR R) f t' hax ht' (by decide) hne
  refine ⟨r, r.map fun x => rop R (· - ·) (some 1) x, q, q.map fun x => rop R (· - ·) (some 1) x, h1, ?_, g1, ?_, ?_⟩
  · simp only [ensCdfR, ensToProbBelowR, h1]; rfl
  · simp only [ensCdfR, ensToProbBelowR, g1]; rfl
  · rintro k hk ⟨a, b, ha, hb, hab⟩
    have hlen := membersAt_length f hax hk
    set M := membersAt f ax k with hMdef
    have hl : M.length ≠ 0 := by rw [hlen]; exact hmem
    have hpos : (0 : K) < M.length := by exact_mod_cast Nat.pos_of_ne_zero hl
    have val : ∀ s : Fl K, momentsColR R (s :: M) = some (R.rnd (((M.countP fun x => Fl.le x s) : ℕ) / (M.length : K))) := by
      intro s
      unfold momentsColR
      simp only [List.tail_cons, List.getD_cons_zero, List.length_cons, Nat.add_sub_cancel, if_neg hl]
    have hr : r.get k = _ := (h3 k hk).trans (val _)
    have hq : q.get k = _ := (g3 k hk).trans (val _)
    have hcount : (M.countP fun x => Fl.le x (thrAt t k)) ≤ M.countP fun x => Fl.le x (thrAt t' k) := by
      apply List.countP_mono_left
      intro x _ hx
      rw [ha] at hx
      rw [hb]
      cases x with
      | none => simp [Fl.le] at hx
      | some x =>
        simp only [Fl.le, decide_eq_true_eq] at hx ⊢
        exact hx.trans hab
    have hle := R.mono (div_le_div_of_nonneg_right (Nat.cast_le (α := K).2 hcount) hpos.le)
    rw [get_map _ q (by rw [g2]; exact hk), get_map _ r (by rw [h2]; exact hk), hr, hq]
    exact ⟨⟨_, _, rfl, rfl, hle⟩, ⟨_, _, rfl, rfl, R.mono (by linarith)⟩⟩

theorem brierElemR_unit (hs : 0 < R.size) {p : K} (h0 : 0 ≤ p) (h1 : p ≤ 1) (b : Bool) :
    ∃ v, brierElemR R (some p) b = some v ∧ 0 ≤ v ∧ v ≤ 1 := by
  have hd : ∀ d : K, 0 ≤ d → d ≤ 1 → 0 ≤ R.rnd d ∧ R.rnd d ≤ 1 := fun d => rnd_unit R hs
  have hneg : R.rnd (-1) = -1 := by
    have := R.exact_int (-1) (by simp only [Int.reduceNeg, abs_neg, abs_one]; omega)
    simpa using this
  cases b with
  | false =>
    obtain ⟨a1, a2⟩ := hd (p - 0) (by linarith) (by linarith)
    obtain ⟨b1, b2⟩ := hd (R.rnd (p - 0) * R.rnd (p - 0)) (mul_nonneg a1 a1) (by nlinarith)
    exact ⟨_, rfl, b1, b2⟩
  | true =>
    have a1 : -1 ≤ R.rnd (p - 1) := by
      rw [← hneg]; exact R.mono (by linarith)
    have a2 : R.rnd (p - 1) ≤ 0 := by
      have := R.mono (show p - 1 ≤ 0 by linarith)
      rwa [rnd_zero] at this
    obtain ⟨b1, b2⟩ := hd (R.rnd (p - 1) * R.rnd (p - 1)) (mul_nonneg_of_nonpos_of_nonpos a2 a2) (by nlinarith)
    exact ⟨_, rfl, b1, b2⟩

/-- the average of an array of numbers in `[0,1]` -/
theorem averageR_unit (S : SumOrder) (skipNan : Bool) {avg : Option (List Int)} {r : NDArr (Fl K)}
    (havg : OptOK r.shape.length avg) (hne : r.shape.prod ≠ 0) (hs : r.shape.prod ≤ R.size)
    (h : ∀ k, InB r.shape k → ∃ v, r.get k = some v ∧ 0 ≤ v ∧ v ≤ 1) :
    ∃ a, averageR R S skipNan avg r = .ok a ∧ a.shape = dropAxes (nums r.shape.length avg) r.shape ∧
      ∀ k, InB a.shape k → ∃ v, a.get k = some v ∧ 0 ≤ v ∧ v ≤ 1 := by
  obtain ⟨a, h1, h2, h3⟩ := reduceAxes_spec (if skipNan then nanmeanR R S else meanR R S) r havg
  refine ⟨a, h1, h2, ?_⟩
  intro k hk
  rw [h2] at hk
  rw [h3 k hk]
  have hlen : (fiber r (nums r.shape.length avg) k).length = (takeAxes (nums r.shape.length avg) r.shape).prod := by
    unfold fiber
    rw [List.length_map, length_fiberIdx hk]
  have hpd := prod_take_drop r.shape (nums r.shape.length avg)
  have hl0 : (fiber r (nums r.shape.length avg) k).length ≠ 0 := by
    rw [hlen]; intro h0; rw [h0, mul_zero] at hpd; exact hne hpd
  have hle : (fiber r (nums r.shape.length avg) k).length ≤ R.size := by
    refine le_trans ?_ hs
    rw [hlen, hpd]
    refine Nat.le_mul_of_pos_left _ (Nat.pos_of_ne_zero fun h0 => hne ?_)
    rw [hpd, h0, zero_mul]
  have hmem : ∀ x ∈ fiber r (nums r.shape.length avg) k, ∃ v, x = some v ∧ 0 ≤ v ∧ v ≤ 1 := by
    intro x hx
    obtain ⟨i, hi, rfl⟩ := List.mem_map.1 hx
    exact h i (mem_fiberIdx.1 hi).1
  have hne' : fiber r (nums r.shape.length avg) k ≠ [] := by
    intro h0; rw [h0] at hl0; exact hl0 rfl
  cases skipNan with
  | false => exact meanR_unit R S hne' hle hmem
  | true =>
    refine nanmeanR_unit R S ?_ hle ?_
    · obtain ⟨x, hx⟩ := List.exists_mem_of_ne_nil _ hne'
      obtain ⟨v, rfl, -⟩ := hmem x hx
      exact ⟨_, hx, rfl⟩
    · intro v hv
      obtain ⟨w, hw, h0, h1⟩ := hmem _ hv
      cases hw
      exact ⟨h0, h1⟩

theorem ensBrierR_ok (workers : Nat) (f o : NDArr (Fl K)) {ax : Int} (t : Thr K) (over : Bool)
    (hax : AxisOK f.shape.length ax) (ho : o.shape = posShape f.shape ax) (ht : ThrOK t o.shape)
    (hne : o.shape.prod ≠ 0) (hmem : f.shape.getD (axisNum f.shape.length ax) 0 ≠ 0)
    (hsize : f.shape.getD (axisNum f.shape.length ax) 0 ≤ R.size) :
    ∃ r, ensBrierR R workers f ax o (if over then some t else none) (if over then none else some t) = .ok r ∧
      r.shape = o.shape ∧ ∀ k, InB o.shape k → ∃ p, 0 ≤ p ∧ p ≤ 1 ∧
        (if over then ((∀ x ∈ membersAt f ax k, ¬ LeP x (thrAt t k)) → p = 1) ∧ ((∀ x ∈ membersAt f ax k, LeP x (thrAt t k)) → p = 0)
          else ((∀ x ∈ membersAt f ax k, LeP x (thrAt t k)) → p = 1) ∧ ((∀ x ∈ membersAt f ax k, ¬ LeP x (thrAt t k)) → p = 0)) ∧
        r.get k = brierElemR R (some p) (if over then Fl.lt (thrAt t k) (o.get k) else Fl.lt (o.get k) (thrAt t k)) := by
  obtain ⟨r, r', h1, h2, h3, h4, h5⟩ := C80_probability R workers f t hax (by rw [← ho]; exact ht)
    (by rw [← ho]; exact hne) hmem hsize
  cases over with
  | false =>
    obtain ⟨b, b1, b2, b3⟩ := cmpThr_spec Fl.lt o t ht
    obtain ⟨z, z1, z2, z3⟩ := zipWith_spec (brierElemR R) r b (by rw [h3, b2, ho])
    refine ⟨z, ?_, by rw [z2, h3, ho], ?_⟩
    · simp only [ensBrierR, Bool.false_eq_true, if_false, h1, binarizeObs, b1]
      exact z1
    · intro k hk
      have hk' : InB (posShape f.shape ax) k := by rw [← ho]; exact hk
      obtain ⟨v, v', e1, e2, e3, e4, e5, e6, e7, e8, e9, e10, e11⟩ := h5 k hk'
      refine ⟨v, e3, e4, ?_, ?_⟩
      · simp only [Bool.false_eq_true, if_false]
        exact ⟨e7.2, e8.2⟩
      · rw [z3 k (by rw [h3]; exact hk'), e1, b3 k hk]
        rfl
  | true =>
    obtain ⟨b, b1, b2, b3⟩ := cmpThr_spec (fun x v => Fl.lt v x) o t ht
    obtain ⟨z, z1, z2, z3⟩ := zipWith_spec (brierElemR R) r' b (by rw [h4, b2, ho])
    refine ⟨z, ?_, by rw [z2, h4, ho], ?_⟩
    · simp only [ensBrierR, if_true, h2, binarizeObs, b1]
      exact z1
    · intro k hk
      have hk' : InB (posShape f.shape ax) k := by rw [← ho]; exact hk
      obtain ⟨v, v', e1, e2, e3, e4, e5, e6, e7, e8, e9, e10, e11⟩ := h5 k hk'
      refine ⟨v', e5, e6, ?_, ?_⟩
      · simp only [if_true]
        exact ⟨fun h => e10 (e8.2 h), fun h => e9 (e7.2 h)⟩
      · rw [z3 k (by rw [h4]; exact hk'), e2, b3 k hk]
        rfl

/-- Brier scores of an ensemble, computed with rounding and averaged in any order over any axes, are in `[0,1]`, for
up to as many values as there are exact integers (2⁵³ for `float64`). -/
theorem C80_brier (S : SumOrder) (skipNan over : Bool) (workers : Nat) (f o : NDArr (Fl K)) {ax : Int} (t : Thr K)
    {avg : Option (List Int)} (hax : AxisOK f.shape.length ax) (ho : o.shape = posShape f.shape ax)
    (ht : ThrOK t o.shape) (hne : o.shape.prod ≠ 0) (hmem : f.shape.getD (axisNum f.shape.length ax) 0 ≠ 0)
    (hsize : f.shape.getD (axisNum f.shape.length ax) 0 ≤ R.size) (havg : OptOK o.shape.length avg)
    (hs : o.shape.prod ≤ R.size) :
    ∃ r a, ensBrierR R workers f ax o (if over then some t else none) (if over then none else some t) = .ok r ∧
      averageR R S skipNan avg r = .ok a ∧ a.shape = dropAxes (nums o.shape.length avg) o.shape ∧
      (∀ k, InB o.shape k → ∃ v, r.get k = some v ∧ 0 ≤ v ∧ v ≤ 1) ∧
      ∀ k, InB a.shape k → ∃ v, a.get k = some v ∧ 0 ≤ v ∧ v ≤ 1 := by
  obtain ⟨r, h1, h2, h3⟩ := ensBrierR_ok R workers f o t over hax ho ht hne hmem hsize
  have hs0 : 0 < R.size := by omega
  have hr : ∀ k, InB r.shape k → ∃ v, r.get k = some v ∧ 0 ≤ v ∧ v ≤ 1 := by
    intro k hk
    rw [h2] at hk
    obtain ⟨p, p0, p1, -, hp⟩ := h3 k hk
    rw [hp]
    exact brierElemR_unit R hs0 p0 p1 _
  rw [← h2] at havg hs hne
  obtain ⟨a, a1, a2, a3⟩ := averageR_unit R S skipNan havg hne hs hr
  refine ⟨r, a, h1, a1, by rw [a2, h2], ?_, a3⟩
  intro k hk
  exact hr k (by rw [h2]; exact hk)

/-- A sharp and right ensemble scores exactly zero in rounded arithmetic: all members on the observation's side of the
threshold at every position (`over`: strictly above or not; `below`: the observation strictly below and all members at
or below, or no member at or below and the observation not below). -/
theorem C80_brier_zero (S : SumOrder) (skipNan over : Bool) (workers : Nat) (f o : NDArr (Fl K)) {ax : Int} (t : Thr K)
    {avg : Option (List Int)} (hax : AxisOK f.shape.length ax) (ho : o.shape = posShape f.shape ax)
    (ht : ThrOK t o.shape) (hne : o.shape.prod ≠ 0) (hmem : f.shape.getD (axisNum f.shape.length ax) 0 ≠ 0)
    (hsize : f.shape.getD (axisNum f.shape.length ax) 0 ≤ R.size) (havg : OptOK o.shape.length avg)
    (hsharp : ∀ k, InB o.shape k →
      if over then
        (LtP (thrAt t k) (o.get k) ∧ ∀ x ∈ membersAt f ax k, ¬ LeP x (thrAt t k)) ∨
        (¬ LtP (thrAt t k) (o.get k) ∧ ∀ x ∈ membersAt f ax k, LeP x (thrAt t k))
      else
        (LtP (o.get k) (thrAt t k) ∧ ∀ x ∈ membersAt f ax k, LeP x (thrAt t k)) ∨
        (¬ LtP (o.get k) (thrAt t k) ∧ ∀ x ∈ membersAt f ax k, ¬ LeP x (thrAt t k))) :
    ∃ r a, ensBrierR R workers f ax o (if over then some t else none) (if over then none else some t) = .ok r ∧
      averageR R S skipNan avg r = .ok a ∧ ∀ k, InB a.shape k → a.get k = some 0 := by
  obtain ⟨r, h1, h2, h3⟩ := ensBrierR_ok R workers f o t over hax ho ht hne hmem hsize
  have lt_iff : ∀ x y : Fl K, Fl.lt x y = true ↔ LtP x y := by
    intro x y
    cases x <;> cases y <;> simp [Fl.lt, LtP]
  have e1 : brierElemR R (some 1) true = some 0 := by simp [brierElemR, rop, rnd_zero]
  have e0 : brierElemR R (some 0) false = some 0 := by simp [brierElemR, rop, rnd_zero]
  have hz : ∀ k, InB o.shape k → r.get k = some 0 := by
    intro k hk
    obtain ⟨p, -, -, hp, hr⟩ := h3 k hk
    have hk' := hsharp k hk
    rw [hr]
    cases over with
    | false =>
      simp only [Bool.false_eq_true, if_false] at hp hk' ⊢
      rcases hk' with ⟨ha, hb⟩ | ⟨ha, hb⟩
      · rw [hp.1 hb, (lt_iff _ _).2 ha, e1]
      · rw [hp.2 hb, Bool.eq_false_iff.2 fun h => ha ((lt_iff _ _).1 h), e0]
    | true =>
      simp only [if_true] at hp hk' ⊢
      rcases hk' with ⟨ha, hb⟩ | ⟨ha, hb⟩
      · rw [hp.1 hb, (lt_iff _ _).2 ha, e1]
      · rw [hp.2 hb, Bool.eq_false_iff.2 fun h => ha ((lt_iff _ _).1 h), e0]
  rw [← h2] at havg
  obtain ⟨a, a1, a2, a3⟩ := reduceAxes_spec (if skipNan then nanmeanR R S else meanR R S) r havg
  refine ⟨r, a, h1, a1, ?_⟩
  intro k hk
  rw [a2] at hk
  rw [a3 k hk]
  have hpd := prod_take_drop r.shape (nums r.shape.length avg)
  have hne' : fiber r (nums r.shape.length avg) k ≠ [] := by
    intro h0
    have hlen : (fiber r (nums r.shape.length avg) k).length = (takeAxes (nums r.shape.length avg) r.shape).prod := by
      unfold fiber
      rw [List.length_map, length_fiberIdx hk]
    rw [h0, List.length_nil] at hlen
    rw [← hlen, mul_zero, h2] at hpd
    exact hne hpd
  have hmem' : ∀ x ∈ fiber r (nums r.shape.length avg) k, x = some 0 := by
    intro x hx
    obtain ⟨i, hi, rfl⟩ := List.mem_map.1 hx
    exact hz i (by rw [← h2]; exact (mem_fiberIdx.1 hi).1)
  cases skipNan with
  | false => exact meanR_zero R S hne' hmem'
  | true =>
    refine nanmeanR_zero R S ?_ ?_
    · obtain ⟨x, hx⟩ := List.exists_mem_of_ne_nil _ hne'
      exact ⟨x, hx, by rw [hmem' x hx]; rfl⟩
    · intro v hv
      have := hmem' _ hv
      cases this
      rfl

/-- Mean absolute and mean squared errors in rounded arithmetic are never negative. -/
theorem C80_errors (S : SumOrder) (skipNan : Bool) {f o : NDArr (Fl K)} (hfo : f.shape = o.shape)
    {avg : Option (List Int)} (havg : OptOK o.shape.length avg) :
    ∃ m q am aq, abErrorR R f o = .ok m ∧ sqErrorR R f o = .ok q ∧ averageR R S skipNan avg m = .ok am ∧
      averageR R S skipNan avg q = .ok aq ∧
      ∀ k, InB (dropAxes (nums o.shape.length avg) o.shape) k →
        (∀ v, am.get k = some v → 0 ≤ v) ∧ ∀ v, aq.get k = some v → 0 ≤ v := by
  obtain ⟨d, d1, d2, d3⟩ := zipWith_spec (rop R (· - ·)) f o hfo
  have hav : ∀ r : NDArr (Fl K), r.shape = o.shape → (∀ k, InB r.shape k → ∀ v, r.get k = some v → 0 ≤ v) →
      ∃ a, averageR R S skipNan avg r = .ok a ∧
        ∀ k, InB (dropAxes (nums o.shape.length avg) o.shape) k → ∀ v, a.get k = some v → 0 ≤ v := by
    intro r hr h
    rw [← hr] at havg ⊢
    obtain ⟨a, a1, a2, a3⟩ := reduceAxes_spec (if skipNan then nanmeanR R S else meanR R S) r havg
    refine ⟨a, a1, ?_⟩
    intro k hk v hv
    rw [a3 k hk] at hv
    have hm : ∀ v, some v ∈ fiber r (nums r.shape.length avg) k → 0 ≤ v := by
      intro v hv
      obtain ⟨i, hi, hi'⟩ := List.mem_map.1 hv
      exact h i (mem_fiberIdx.1 hi).1 v hi'
    cases skipNan with
    | false => exact meanR_nonneg R S hv hm
    | true => exact nanmeanR_nonneg R S hv hm
  have hd : d.shape = o.shape := by rw [d2, hfo]
  obtain ⟨am, m1, m2⟩ := hav (d.map Fl.abs) hd (by
    intro k hk v hv
    rw [get_map _ d hk] at hv
    unfold Fl.abs at hv
    rw [Option.map_eq_some_iff] at hv
    obtain ⟨x, -, rfl⟩ := hv
    exact abs_nonneg x)
  obtain ⟨aq, q1, q2⟩ := hav (d.map fun x => rop R (· * ·) x x) hd (by
    intro k hk v hv
    rw [get_map _ d hk] at hv
    cases hx : d.get k with
    | none => rw [hx] at hv; simp [rop] at hv
    | some x =>
      rw [hx] at hv
      simp only [rop, Option.some.injEq] at hv
      subst hv
      exact rnd_nonneg R (mul_self_nonneg x))
  refine ⟨d.map Fl.abs, d.map fun x => rop R (· * ·) x x, am, aq, ?_, ?_, m1, q1, fun k hk => ⟨m2 k hk, q2 k hk⟩⟩
  · simp only [abErrorR, d1]; rfl
  · simp only [sqErrorR, d1]; rfl

/-! The hypotheses are met by rounding to 53 binary digits, to the nearest number (numpy's `float64` apart from its
limited exponent), and by adding from left to right. -/

/-- round half up is a rounding to the integers -/
noncomputable def float64 : Rounding ℚ :=
  binaryRounding (r := fun x : ℚ => round x) (fun _ _ h => by
    simp only [round_eq]
    exact Int.floor_le_floor (by linarith)) (fun z => round_intCast z) 52

example : float64.size = 2 ^ 53 := rfl

/-- from left to right -/
def leftTree : Nat → Order
  | 0 => .leaf 0
  | n + 1 => .node (leftTree n) (.leaf (n + 1))

theorem leftTree_leaves (n : Nat) : (leftTree n).leaves = List.range (n + 1) := by
  induction n with
  | zero => rfl
  | succ n ih => simp only [leftTree, Order.leaves, ih]; rw [List.range_succ (n := n + 1)]

def leftToRight : SumOrder where
  tree n := leftTree (n - 1)
  all n := by rw [Nat.add_sub_cancel, leftTree_leaves]

/-- two positions, three members, threshold 1 -/
def roundF : NDArr (Fl ℚ) := ⟨[2, 3], [some 0, some 1, some 2, some 0, some 0, some (1 / 3)], rfl⟩
def roundO : NDArr (Fl ℚ) := ⟨[2], [some 3, some (1 / 2)], rfl⟩

example : ∃ r a, ensBrierR float64 1 roundF (-1) roundO (some (.scalar (some 1))) none = .ok r ∧
    averageR float64 leftToRight false none r = .ok a ∧ ∀ k, InB a.shape k → ∃ v, a.get k = some v ∧ 0 ≤ v ∧ v ≤ 1 := by
  have hsz : float64.size = 2 ^ 53 := rfl
  obtain ⟨r, a, h1, h2, -, -, h3⟩ := C80_brier float64 leftToRight false true 1 roundF roundO (ax := -1)
    (.scalar (some 1)) (avg := none) (by constructor <;> decide) (by decide) trivial (by decide) (by decide)
    (by rw [hsz]; decide) trivial (by rw [hsz]; decide)
  exact ⟨r, a, h1, h2, h3⟩

/-- all members above the threshold where the observation is, none where it is not -/
def sharpF : NDArr (Fl ℚ) := ⟨[2, 3], [some 4, some (7 / 3), some 2, some 0, some 1, some (1 / 3)], rfl⟩

example : ∃ r a, ensBrierR float64 1 sharpF (-1) roundO (some (.scalar (some 1))) none = .ok r ∧
    averageR float64 leftToRight false none r = .ok a ∧ ∀ k, InB a.shape k → a.get k = some 0 := by
  have hsz : float64.size = 2 ^ 53 := rfl
  have m0 : membersAt sharpF (-1) [0] = [some 4, some (7 / 3), some 2] := by decide +kernel
  have m1 : membersAt sharpF (-1) [1] = [some 0, some 1, some (1 / 3)] := by decide +kernel
  have o0 : roundO.get [0] = some 3 := by decide +kernel
  have o1 : roundO.get [1] = some (1 / 2) := by decide +kernel
  refine C80_brier_zero float64 leftToRight false true 1 sharpF roundO (ax := -1)
    (.scalar (some 1)) (avg := none) (by constructor <;> decide) (by decide) trivial (by decide) (by decide)
    (by rw [hsz]; decide) trivial ?_
  intro k hk
  have hk' : k = [0] ∨ k = [1] := by
    have := mem_allIdx.2 hk
    rw [show allIdx roundO.shape = [[0], [1]] by decide +kernel] at this
    simpa using this
  simp only [if_true, thrAt]
  rcases hk' with rfl | rfl
  · left
    rw [m0, o0]
    refine ⟨⟨1, 3, rfl, rfl, by norm_num⟩, ?_⟩
    rintro x hx ⟨a, b, rfl, hb, hab⟩
    cases hb
    simp only [List.mem_cons, Option.some.injEq, List.not_mem_nil, or_false] at hx
    rcases hx with rfl | rfl | rfl <;> norm_num at hab
  · right
    rw [m1, o1]
    refine ⟨?_, ?_⟩
    · rintro ⟨a, b, ha, hb, hab⟩
      cases ha; cases hb
      norm_num at hab
    · intro x hx
      simp only [List.mem_cons, List.not_mem_nil, or_false] at hx
      rcases hx with rfl | rfl | rfl
      · exact ⟨_, _, rfl, rfl, by norm_num⟩
      · exact ⟨_, _, rfl, rfl, by norm_num⟩
      · exact ⟨_, _, rfl, rfl, by norm_num⟩

/-- rounding does happen: a third is not a binary fraction -/
example : float64.rnd (1 / 3) ≠ 1 / 3 := by
  intro h
  have hpos : (0 : ℚ) < 1 / 3 := by norm_num
  have hlog : Int.log 2 (1 / 3 : ℚ) = -2 := by
    have h1 := Int.zpow_log_le_self (R := ℚ) (b := 2) (by norm_num) hpos
    have h2 := Int.lt_zpow_succ_log_self (R := ℚ) (b := 2) (by norm_num) (1 / 3)
    push_cast at h1 h2
    have a1 : Int.log 2 (1 / 3 : ℚ) < -1 := by
      by_contra hc
      have : (2 : ℚ) ^ (-1 : ℤ) ≤ 2 ^ Int.log 2 (1 / 3 : ℚ) := zpow_le_zpow_right₀ (by norm_num) (by omega)
      norm_num at this h1
      linarith
    have a2 : -3 < Int.log 2 (1 / 3 : ℚ) := by
      by_contra hc
      have : (2 : ℚ) ^ (Int.log 2 (1 / 3 : ℚ) + 1) ≤ 2 ^ (-2 : ℤ) := zpow_le_zpow_right₀ (by norm_num) (by omega)
      norm_num at this h2
      linarith
    omega
  have hr : float64.rnd (1 / 3) = (round ((1 / 3 : ℚ) / 2 ^ (-2 - 52 : ℤ)) : ℚ) * 2 ^ (-2 - 52 : ℤ) := by
    change binary 52 _ _ = _
    unfold binary
    rw [if_neg hpos.ne', if_pos hpos]
    unfold binaryPos
    rw [hlog]
    rfl
  rw [hr] at h
  set z := round ((1 / 3 : ℚ) / 2 ^ (-2 - 52 : ℤ)) with hz
  have h3 : (3 * z : ℤ) = 2 ^ 54 := by
    have : (3 * z : ℚ) = 2 ^ 54 := by
      have e : (2 : ℚ) ^ (-2 - 52 : ℤ) = 1 / 2 ^ 54 := by norm_num
      rw [e] at h
      field_simp at h
      linarith
    exact_mod_cast this
  omega

end Props
