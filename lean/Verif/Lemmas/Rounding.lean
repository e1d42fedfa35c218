import Verif.Model.Rounding
import Verif.Lemmas.Reduce
import Mathlib.Algebra.Order.Round

/-! Rounded sums and means; rounding to binary digits is a rounding. -/

set_option linter.unusedSectionVars false

namespace Lemmas
open Np NDArr Model

variable {K : Type} [Field K] [LinearOrder K] [IsStrictOrderedRing K]

/-! ### binary rounding -/

section Binary
variable [FloorSemiring K] {p : ℕ} {r : K → ℤ} (hm : Monotone r) (hz : ∀ z : ℤ, r (z : K) = z)

theorem two_zpow_pos (e : ℤ) : (0 : K) < 2 ^ e := zpow_pos (by norm_num) e

theorem log_bounds {x : K} (hx : 0 < x) : (2 : K) ^ Int.log 2 x ≤ x ∧ x < 2 ^ (Int.log 2 x + 1) := by
  have h1 := Int.zpow_log_le_self (R := K) (b := 2) (by norm_num) hx
  have h2 := Int.lt_zpow_succ_log_self (R := K) (b := 2) (by norm_num) x
  exact ⟨by simpa using h1, by simpa using h2⟩

include hm hz

theorem binaryPos_bounds {x : K} (hx : 0 < x) :
    (2 : K) ^ Int.log 2 x ≤ binaryPos p r x ∧ binaryPos p r x ≤ 2 ^ (Int.log 2 x + 1) := by
  obtain ⟨h1, h2⟩ := log_bounds hx
  have hp := two_zpow_pos (K := K) (Int.log 2 x - p)
  have ha : (2 : K) ^ Int.log 2 x = ((2 ^ p : ℤ) : K) * 2 ^ (Int.log 2 x - p) := by
    push_cast
    rw [← zpow_natCast, ← zpow_add₀ (by norm_num)]
    congr 1
    ring
  have hb : (2 : K) ^ (Int.log 2 x + 1) = ((2 ^ (p + 1) : ℤ) : K) * 2 ^ (Int.log 2 x - p) := by
    push_cast
    rw [← zpow_natCast, ← zpow_add₀ (by norm_num)]
    congr 1
    push_cast
    ring
  unfold binaryPos
  constructor
  · rw [ha]
    apply mul_le_mul_of_nonneg_right _ hp.le
    have : ((2 ^ p : ℤ) : K) ≤ x / 2 ^ (Int.log 2 x - p) := by
      rw [le_div_iff₀ hp, ← ha]; exact h1
    have := hm this
    rw [hz] at this
    exact_mod_cast this
  · rw [hb]
    apply mul_le_mul_of_nonneg_right _ hp.le
    have : x / 2 ^ (Int.log 2 x - p) ≤ ((2 ^ (p + 1) : ℤ) : K) := by
      rw [div_le_iff₀ hp, ← hb]; exact h2.le
    have := hm this
    rw [hz] at this
    exact_mod_cast this

theorem binaryPos_pos {x : K} (hx : 0 < x) : 0 < binaryPos p r x :=
  lt_of_lt_of_le (two_zpow_pos _) (binaryPos_bounds hm hz hx).1

theorem binaryPos_mono {x y : K} (hx : 0 < x) (h : x ≤ y) : binaryPos p r x ≤ binaryPos p r y := by
  have hy := lt_of_lt_of_le hx h
  have hl : Int.log 2 x ≤ Int.log 2 y := Int.log_mono_right hx h
  rcases hl.eq_or_lt with he | hlt
  · unfold binaryPos
    rw [he]
    have hp := two_zpow_pos (K := K) (Int.log 2 y - p)
    apply mul_le_mul_of_nonneg_right _ hp.le
    exact_mod_cast hm (div_le_div_of_nonneg_right h hp.le)
  · refine (binaryPos_bounds hm hz hx).2.trans (le_trans ?_ (binaryPos_bounds hm hz hy).1)
    exact zpow_le_zpow_right₀ (by norm_num) (by omega)

omit hm in
/-- numbers with at most `p + 1` binary digits are not changed -/
theorem binaryPos_exact {m : ℕ} (h0 : 0 < m) (h1 : m ≤ 2 ^ (p + 1)) (e : ℤ) :
    binaryPos p r ((m : K) * 2 ^ e) = (m : K) * 2 ^ e := by
  have key : ∀ (m : ℕ) (e : ℤ), 0 < m → m < 2 ^ (p + 1) → binaryPos p r ((m : K) * 2 ^ e) = (m : K) * 2 ^ e := by
    intro m e h0 h1
    have hx : (0 : K) < (m : K) * 2 ^ e := mul_pos (by exact_mod_cast h0) (two_zpow_pos e)
    obtain ⟨hl, -⟩ := log_bounds hx
    set L := Int.log 2 ((m : K) * 2 ^ e) with hL
    have hle : L < p + 1 + e := by
      have : (2 : K) ^ L < 2 ^ ((p : ℤ) + 1 + e) := by
        refine lt_of_le_of_lt hl ?_
        rw [zpow_add₀ (by norm_num)]
        apply mul_lt_mul_of_pos_right _ (two_zpow_pos e)
        have : (m : K) < (2 ^ (p + 1) : ℕ) := by exact_mod_cast h1
        refine lt_of_lt_of_eq this ?_
        push_cast
        rw [← zpow_natCast]
        congr 1
      exact (zpow_lt_zpow_iff_right₀ (by norm_num)).1 this
    obtain ⟨d, hd⟩ : ∃ d : ℕ, e = L - p + d := ⟨(e - (L - p)).toNat, by omega⟩
    unfold binaryPos
    rw [← hL]
    have hp := two_zpow_pos (K := K) (L - p)
    have hq : (m : K) * 2 ^ e / 2 ^ (L - p) = ((m * 2 ^ d : ℤ) : K) := by
      rw [div_eq_iff hp.ne', hd, zpow_add₀ (by norm_num), zpow_natCast]
      push_cast
      ring
    rw [hq, hz]
    rw [← hq, div_mul_cancel₀ _ hp.ne']
  rcases h1.eq_or_lt with rfl | h1
  · have := key 1 (p + 1 + e) one_pos (by
      have := Nat.one_lt_two_pow (n := p + 1) (by omega)
      omega)
    have he : ((2 ^ (p + 1) : ℕ) : K) * 2 ^ e = ((1 : ℕ) : K) * 2 ^ ((p : ℤ) + 1 + e) := by
      push_cast
      rw [zpow_add₀ (by norm_num : (2 : K) ≠ 0) ((p : ℤ) + 1), one_mul, ← zpow_natCast]
      congr 1
    rw [he]
    exact this
  · exact key m e h0 h1

theorem binary_mono : Monotone (binary p r) := by
  intro x y h
  unfold binary
  have pos := fun {x : K} (hx : 0 < x) => (binaryPos_pos (p := p) hm hz hx).le
  by_cases hx : x = 0
  · rw [if_pos hx]
    subst hx
    by_cases hy : y = 0
    · rw [if_pos hy]
    · have hy' : 0 < y := lt_of_le_of_ne h (Ne.symm hy)
      rw [if_neg hy, if_pos hy']
      exact pos hy'
  · rw [if_neg hx]
    by_cases hx' : 0 < x
    · have hy' := lt_of_lt_of_le hx' h
      rw [if_pos hx', if_neg hy'.ne', if_pos hy']
      exact binaryPos_mono hm hz hx' h
    · have hx'' : 0 < -x := by
        have := lt_of_le_of_ne (not_lt.1 hx') hx
        linarith
      rw [if_neg hx']
      by_cases hy : y = 0
      · rw [if_pos hy]
        have := pos hx''
        linarith
      · rw [if_neg hy]
        by_cases hy' : 0 < y
        · rw [if_pos hy']
          have := pos hx''
          have := pos hy'
          linarith
        · rw [if_neg hy']
          have hy'' : 0 < -y := by
            have := lt_of_le_of_ne (not_lt.1 hy') hy
            linarith
          have := binaryPos_mono (p := p) hm hz hy'' (neg_le_neg h)
          linarith

omit hm in
theorem binary_exact {m : ℕ} (h1 : m ≤ 2 ^ (p + 1)) (e : ℤ) :
    binary p r ((m : K) * 2 ^ e) = (m : K) * 2 ^ e := by
  rcases Nat.eq_zero_or_pos m with rfl | h0
  · simp [binary]
  · have hx : (0 : K) < (m : K) * 2 ^ e := mul_pos (by exact_mod_cast h0) (two_zpow_pos e)
    unfold binary
    rw [if_neg hx.ne', if_pos hx]
    exact binaryPos_exact hz h0 h1 e

omit hm hz in
theorem binary_neg (x : K) : binary p r (-x) = -binary p r x := by
  unfold binary
  rcases lt_trichotomy x 0 with h | rfl | h
  · rw [if_neg (by linarith [h] : ¬ -x = 0), if_pos (by linarith), if_neg h.ne, if_neg (not_lt.2 h.le), neg_neg]
  · simp
  · rw [if_neg (by linarith [h] : ¬ -x = 0), if_neg (by linarith : ¬ 0 < -x), if_neg h.ne', if_pos h, neg_neg]

/-- rounding to `p + 1` binary digits -/
noncomputable def binaryRounding (p : ℕ) : Rounding K where
  rnd := binary p r
  mono := binary_mono hm hz
  size := 2 ^ (p + 1)
  exact_int := by
    have key : ∀ n : ℕ, n ≤ 2 ^ (p + 1) → binary p r (n : K) = n := by
      intro n hn
      have := binary_exact (p := p) hz hn 0
      simpa using this
    intro z hzz
    have hn : z.natAbs ≤ 2 ^ (p + 1) := by
      have : ((z.natAbs : ℕ) : ℤ) ≤ ((2 ^ (p + 1) : ℕ) : ℤ) := by rw [Int.natCast_natAbs]; exact hzz
      exact_mod_cast this
    rcases Int.natAbs_eq z with h | h
    · have hc : (z : K) = (z.natAbs : ℕ) := by
        conv_lhs => rw [h]
        exact Int.cast_natCast _
      rw [hc]
      exact key _ hn
    · have hc : (z : K) = -(z.natAbs : ℕ) := by
        conv_lhs => rw [h]
        rw [Int.cast_neg, Int.cast_natCast]
      rw [hc, binary_neg, key _ hn]
  part_pos := by
    intro n h0 _
    have : (0 : K) < 1 / n := by
      have : (0 : K) < n := by exact_mod_cast h0
      positivity
    unfold binary
    rw [if_neg this.ne', if_pos this]
    exact binaryPos_pos hm hz this
  part_lt := by
    intro n h0 hn
    have hn' : (0 : K) < n := by exact_mod_cast h0
    have hb : (n : K) ≤ 2 ^ (p + 1) := by exact_mod_cast hn
    have hrep := binary_exact (p := p) (r := r) hz (m := 2 ^ (p + 1) - 1) (by omega) (-(p + 1 : ℤ))
    have hval : ((2 ^ (p + 1) - 1 : ℕ) : K) * 2 ^ (-(p + 1 : ℤ)) = 1 - 1 / 2 ^ (p + 1) := by
      rw [Nat.cast_sub Nat.one_le_two_pow, zpow_neg]
      have : (2 : K) ^ ((p : ℤ) + 1) = 2 ^ (p + 1) := by
        rw [← zpow_natCast]; congr 1
      rw [this]
      have h2 : (2 : K) ^ (p + 1) ≠ 0 := by positivity
      push_cast
      field_simp
    rw [hval] at hrep
    have hle : ((n : K) - 1) / n ≤ 1 - 1 / 2 ^ (p + 1) := by
      have h1 : ((n : K) - 1) / n = 1 - 1 / n := by field_simp
      rw [h1]
      have := one_div_le_one_div_of_le hn' hb
      linarith
    have h3 := binary_mono (p := p) hm hz hle
    rw [hrep] at h3
    have : (0 : K) < 1 / 2 ^ (p + 1) := by positivity
    linarith

end Binary

/-! ### rounded sums -/

variable (R : Rounding K)

theorem rnd_nat {n : ℕ} (h : n ≤ R.size) : R.rnd (n : K) = n := by
  have := R.exact_int (n : ℤ) (by simpa using h)
  simpa using this

theorem rnd_zero : R.rnd 0 = 0 := by
  have := rnd_nat R (Nat.zero_le _)
  simpa using this

theorem rnd_one (h : 0 < R.size) : R.rnd 1 = 1 := by
  have := rnd_nat R (n := 1) h
  simpa using this

theorem rnd_nonneg {x : K} (h : 0 ≤ x) : 0 ≤ R.rnd x := by
  have := R.mono h
  rwa [rnd_zero] at this

/-- rounding keeps the unit interval -/
theorem rnd_unit (hs : 0 < R.size) {x : K} (h0 : 0 ≤ x) (h1 : x ≤ 1) : 0 ≤ R.rnd x ∧ R.rnd x ≤ 1 := by
  refine ⟨rnd_nonneg R h0, ?_⟩
  have := R.mono h1
  rwa [rnd_one R hs] at this

/-- a rounded sum of numbers between whole bounds is between the sums of the bounds, in any order -/
theorem sumR_bounds (l : List (Fl K)) (d c : Nat → Nat) (t : Order)
    (h : ∀ i ∈ t.leaves, ∃ v, l.getD i none = some v ∧ (d i : K) ≤ v ∧ v ≤ (c i : K))
    (hs : (t.leaves.map c).sum ≤ R.size) :
    ∃ s, sumR R l t = some s ∧ ((t.leaves.map d).sum : ℕ) ≤ s ∧ s ≤ ((t.leaves.map c).sum : ℕ) := by
  induction t with
  | leaf i =>
    obtain ⟨v, h1, h2, h3⟩ := h i (by simp [Order.leaves])
    exact ⟨v, h1, by simpa [Order.leaves] using h2, by simpa [Order.leaves] using h3⟩
  | node a b iha ihb =>
    simp only [Order.leaves, List.map_append, List.sum_append] at hs ⊢
    obtain ⟨x, hx, hx1, hx2⟩ := iha (fun i hi => h i (by simp [Order.leaves, hi])) (by omega)
    obtain ⟨y, hy, hy1, hy2⟩ := ihb (fun i hi => h i (by simp [Order.leaves, hi])) (by omega)
    have hdc : ∀ t : List Nat, (∀ i ∈ t, d i ≤ c i) → (t.map d).sum ≤ (t.map c).sum := fun t ht =>
      List.sum_le_sum ht
    have hdc' : ((a.leaves ++ b.leaves).map d).sum ≤ ((a.leaves ++ b.leaves).map c).sum := hdc _ fun i hi => by
      obtain ⟨v, -, h2, h3⟩ := h i (by simpa [Order.leaves] using hi)
      exact_mod_cast h2.trans h3
    simp only [List.map_append, List.sum_append] at hdc'
    refine ⟨R.rnd (x + y), by simp [sumR, hx, hy, rop], ?_, ?_⟩
    · rw [← rnd_nat R (n := (a.leaves.map d).sum + (b.leaves.map d).sum) (by omega)]
      apply R.mono
      push_cast
      linarith
    · rw [← rnd_nat R (n := (a.leaves.map c).sum + (b.leaves.map c).sum) hs]
      apply R.mono
      push_cast
      linarith

theorem sumR_nonneg (l : List (Fl K)) (t : Order) {s : K} (hs : sumR R l t = some s)
    (h : ∀ i ∈ t.leaves, ∀ v, l.getD i none = some v → 0 ≤ v) : 0 ≤ s := by
  induction t generalizing s with
  | leaf i => exact h i (by simp [Order.leaves]) s hs
  | node a b iha ihb =>
    simp only [sumR] at hs
    cases hx : sumR R l a with
    | none => rw [hx] at hs; simp [rop] at hs
    | some x =>
      cases hy : sumR R l b with
      | none => rw [hx, hy] at hs; simp [rop] at hs
      | some y =>
        rw [hx, hy] at hs
        simp only [rop, Option.some.injEq] at hs
        subst hs
        have h1 := iha hx fun i hi => h i (by simp [Order.leaves, hi])
        have h2 := ihb hy fun i hi => h i (by simp [Order.leaves, hi])
        exact rnd_nonneg R (by linarith)

theorem getD_lt {α : Type} {l : List α} {d : α} {i : Nat} (h : i < l.length) : l.getD i d = l[i] := by
  simp [List.getD_eq_getElem?_getD, h]

/-- the leaves of an order of summation for `n` entries -/
theorem leaves_sum (S : SumOrder) {n : Nat} (hn : n ≠ 0) (g : Nat → Nat) :
    ((S.tree n).leaves.map g).sum = ((List.range n).map g).sum := by
  obtain ⟨m, rfl⟩ := Nat.exists_eq_succ_of_ne_zero hn
  exact ((S.all m).map g).sum_eq

theorem mem_leaves (S : SumOrder) {n : Nat} (hn : n ≠ 0) {i : Nat} : i ∈ (S.tree n).leaves ↔ i < n := by
  obtain ⟨m, rfl⟩ := Nat.exists_eq_succ_of_ne_zero hn
  rw [(S.all m).mem_iff, List.mem_range]

theorem sum_range_one (n : Nat) : ((List.range n).map fun _ => 1).sum = n := by simp

/-- a rounded mean of numbers in the unit interval stays there -/
theorem meanR_unit (S : SumOrder) {l : List (Fl K)} (hne : l ≠ []) (hs : l.length ≤ R.size)
    (h : ∀ x ∈ l, ∃ v, x = some v ∧ 0 ≤ v ∧ v ≤ 1) : ∃ m, meanR R S l = some m ∧ 0 ≤ m ∧ m ≤ 1 := by
  have hn : l.length ≠ 0 := by simpa using hne
  have hl : ∀ i < l.length, l.getD i none ∈ l := fun i hi => by
    rw [getD_lt hi]; exact List.getElem_mem hi
  obtain ⟨s, h1, h2, h3⟩ := sumR_bounds R l (fun _ => 0) (fun _ => 1) (S.tree l.length)
    (fun i hi => by
      obtain ⟨v, hv, h0, h1⟩ := h _ (hl i ((mem_leaves S hn).1 hi))
      exact ⟨v, hv, by simpa using h0, by simpa using h1⟩)
    (by rw [leaves_sum S hn, sum_range_one]; exact hs)
  rw [leaves_sum S hn] at h2 h3
  rw [sum_range_one] at h3
  simp only [List.map_const', List.sum_replicate, nsmul_eq_mul, mul_zero, Nat.cast_zero] at h2
  have hpos : (0 : K) < l.length := by exact_mod_cast Nat.pos_of_ne_zero hn
  refine ⟨_, by unfold meanR; rw [if_neg hne, h1]; rfl, ?_⟩
  exact rnd_unit R (by omega) (div_nonneg h2 hpos.le) ((div_le_one hpos).2 h3)

theorem countP_range (l : List (Fl K)) :
    ((List.range l.length).map fun i => if (l.getD i none).isSome then 1 else 0).sum = l.countP Option.isSome := by
  induction l with
  | nil => rfl
  | cons x l ih =>
    rw [List.length_cons, List.range_succ_eq_map, List.map_cons, List.sum_cons, List.map_map, List.countP_cons]
    have : ((fun i => if ((x :: l).getD i none).isSome then 1 else 0) ∘ Nat.succ) =
        fun i => if (l.getD i none).isSome then 1 else 0 := by
      funext i; simp
    rw [this, ih]
    simp [add_comm]

/-- the same for `np.nanmean` -/
theorem nanmeanR_unit (S : SumOrder) {l : List (Fl K)} (hne : ∃ x ∈ l, x.isSome) (hs : l.length ≤ R.size)
    (h : ∀ v, some v ∈ l → 0 ≤ v ∧ v ≤ 1) : ∃ m, nanmeanR R S l = some m ∧ 0 ≤ m ∧ m ≤ 1 := by
  have hc : l.countP Option.isSome ≠ 0 := by
    rw [← Nat.pos_iff_ne_zero, List.countP_pos_iff]
    exact hne
  have hn : l.length ≠ 0 := by
    obtain ⟨x, hx, -⟩ := hne
    exact (List.length_pos_of_mem hx).ne'
  have hg : ∀ i < l.length, (l.map fun x => some (x.getD 0)).getD i none = some ((l.getD i none).getD 0) := by
    intro i hi
    rw [getD_lt (by simpa using hi), getD_lt hi, List.getElem_map]
  obtain ⟨s, h1, h2, h3⟩ := sumR_bounds R (l.map fun x => some (x.getD 0)) (fun _ => 0)
    (fun i => if (l.getD i none).isSome then 1 else 0) (S.tree l.length)
    (fun i hi => by
      have hi' := (mem_leaves S hn).1 hi
      refine ⟨_, hg i hi', ?_⟩
      have hm : l.getD i none ∈ l := by
        rw [getD_lt hi']; exact List.getElem_mem hi'
      cases hx : l.getD i none with
      | none => simp
      | some v =>
        rw [hx] at hm
        simpa using h v hm)
    (by rw [leaves_sum S hn, countP_range]; exact (List.countP_le_length).trans hs)
  rw [leaves_sum S hn] at h2 h3
  rw [countP_range] at h3
  simp only [List.map_const', List.sum_replicate, nsmul_eq_mul, mul_zero, Nat.cast_zero] at h2
  have hpos : (0 : K) < l.countP Option.isSome := by exact_mod_cast Nat.pos_of_ne_zero hc
  refine ⟨_, by unfold nanmeanR; simp only [if_neg hc, h1]; rfl, ?_⟩
  exact rnd_unit R (by have := List.countP_le_length (p := Option.isSome) (l := l); omega)
    (div_nonneg h2 hpos.le) ((div_le_one hpos).2 h3)

/-- rounded means of non-negative numbers are not negative -/
theorem meanR_nonneg (S : SumOrder) {l : List (Fl K)} {m : K} (hm : meanR R S l = some m)
    (h : ∀ v, some v ∈ l → 0 ≤ v) : 0 ≤ m := by
  unfold meanR at hm
  split_ifs at hm with hne
  rw [Option.map_eq_some_iff] at hm
  obtain ⟨s, h1, rfl⟩ := hm
  have hn : l.length ≠ 0 := by simpa using hne
  refine rnd_nonneg R (div_nonneg (sumR_nonneg R l _ h1 fun i hi v hv => ?_) (Nat.cast_nonneg _))
  have hi' := (mem_leaves S hn).1 hi
  rw [getD_lt hi'] at hv
  exact h v (hv ▸ List.getElem_mem hi')

theorem nanmeanR_nonneg (S : SumOrder) {l : List (Fl K)} {m : K} (hm : nanmeanR R S l = some m)
    (h : ∀ v, some v ∈ l → 0 ≤ v) : 0 ≤ m := by
  unfold nanmeanR at hm
  simp only at hm
  split_ifs at hm with hc
  rw [Option.map_eq_some_iff] at hm
  obtain ⟨s, h1, rfl⟩ := hm
  have hn : l.length ≠ 0 := by
    rintro h0
    apply hc
    rw [List.length_eq_zero_iff.1 h0]; rfl
  refine rnd_nonneg R (div_nonneg (sumR_nonneg R _ _ h1 fun i hi v hv => ?_) (Nat.cast_nonneg _))
  have hi' := (mem_leaves S hn).1 hi
  rw [getD_lt (by simpa using hi'), List.getElem_map] at hv
  simp only [Option.some.injEq] at hv
  subst hv
  have hmem := List.getElem_mem hi'
  cases hx : l[i] with
  | none => simp
  | some v => rw [hx] at hmem; simpa using h v hmem

/-- sums of zeros are zero -/
theorem sumR_zero (l : List (Fl K)) (t : Order) (h : ∀ i ∈ t.leaves, l.getD i none = some 0) :
    sumR R l t = some 0 := by
  induction t with
  | leaf i => exact h i (by simp [Order.leaves])
  | node a b iha ihb =>
    rw [sumR, iha fun i hi => h i (by simp [Order.leaves, hi]), ihb fun i hi => h i (by simp [Order.leaves, hi])]
    simp [rop, rnd_zero]

theorem meanR_zero (S : SumOrder) {l : List (Fl K)} (hne : l ≠ []) (h : ∀ x ∈ l, x = some 0) :
    meanR R S l = some 0 := by
  have hn : l.length ≠ 0 := by simpa using hne
  unfold meanR
  rw [if_neg hne, sumR_zero R l _ fun i hi => ?_]
  · simp [rnd_zero]
  · have hi' := (mem_leaves S hn).1 hi
    rw [getD_lt hi']
    exact h _ (List.getElem_mem hi')

theorem nanmeanR_zero (S : SumOrder) {l : List (Fl K)} (hne : ∃ x ∈ l, x.isSome)
    (h : ∀ v, some v ∈ l → v = 0) : nanmeanR R S l = some 0 := by
  have hc : l.countP Option.isSome ≠ 0 := by
    rw [← Nat.pos_iff_ne_zero, List.countP_pos_iff]
    exact hne
  have hn : l.length ≠ 0 := by
    obtain ⟨x, hx, -⟩ := hne
    exact (List.length_pos_of_mem hx).ne'
  unfold nanmeanR
  simp only [if_neg hc]
  rw [sumR_zero R _ _ fun i hi => ?_]
  · simp [rnd_zero]
  · have hi' := (mem_leaves S hn).1 hi
    rw [getD_lt (by simpa using hi'), List.getElem_map]
    have hmem := List.getElem_mem hi'
    cases hx : l[i] with
    | none => rfl
    | some v => rw [hx] at hmem; rw [h v hmem]; rfl

end Lemmas
