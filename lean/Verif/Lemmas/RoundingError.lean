import Verif.Spec.RoundingError
import Verif.Lemmas.Rounding
import Verif.Lemmas.Average

/-! Accumulation of rounding errors. -/

set_option linter.unusedSectionVars false

namespace Lemmas
open Np NDArr Spec Model

variable {K : Type} [Field K] [LinearOrder K] [IsStrictOrderedRing K] {R : Rounding K} {u : K}

/-- closeness of numbers -/
def Close (u : K) (j : Nat) (a e x : K) : Prop := |e| ≤ a ∧ |x - e| ≤ ((1 + u) ^ j - 1) * a

theorem one_le (hu : 0 ≤ u) (j : Nat) : 1 ≤ (1 + u) ^ j := one_le_pow₀ (by linarith)

theorem Close.size {j : Nat} {a e x : K} (h : Close u j a e x) : |x| ≤ (1 + u) ^ j * a := by
  have := abs_sub_abs_le_abs_sub x e
  nlinarith [h.1, h.2]

theorem Close.rnd (hR : Accurate R u) {j : Nat} {a e x : K} (h : Close u j a e x) : Close u (j + 1) a e (R.rnd x) := by
  refine ⟨h.1, ?_⟩
  have h1 := hR.2 x
  have h2 := abs_sub_le (R.rnd x) x e
  have h3 := mul_le_mul_of_nonneg_left h.size hR.1
  have h4 := h.2
  rw [pow_succ]
  nlinarith

theorem Close.mono (hu : 0 ≤ u) {j k : Nat} (hjk : j ≤ k) {a e x : K} (h : Close u j a e x) : Close u k a e x := by
  refine ⟨h.1, h.2.trans ?_⟩
  have h1 : (1 + u) ^ j ≤ (1 + u) ^ k := pow_le_pow_right₀ (by linarith) hjk
  have h0 := (abs_nonneg e).trans h.1
  nlinarith

theorem Close.add {j : Nat} {a b e f x y : K} (h : Close u j a e x) (h' : Close u j b f y) :
    Close u j (a + b) (e + f) (x + y) := by
  refine ⟨(abs_add_le e f).trans (add_le_add h.1 h'.1), ?_⟩
  have := abs_add_le (x - e) (y - f)
  rw [show x + y - (e + f) = (x - e) + (y - f) by ring]
  nlinarith [h.2, h'.2]

theorem Close.mul (hu : 0 ≤ u) {j k : Nat} {a b e f x y : K} (h : Close u j a e x) (h' : Close u k b f y) :
    Close u (j + k) (a * b) (e * f) (x * y) := by
  have ha := (abs_nonneg e).trans h.1
  have hb := (abs_nonneg f).trans h'.1
  refine ⟨by rw [abs_mul]; exact mul_le_mul h.1 h'.1 (abs_nonneg _) ha, ?_⟩
  rw [show x * y - e * f = (x - e) * y + e * (y - f) by ring]
  refine (abs_add_le _ _).trans ?_
  rw [abs_mul, abs_mul]
  have h1 : |x - e| * |y| ≤ (((1 + u) ^ j - 1) * a) * ((1 + u) ^ k * b) :=
    mul_le_mul h.2 h'.size (abs_nonneg _) (mul_nonneg (by linarith [one_le hu j]) ha)
  have h2 : |e| * |y - f| ≤ a * (((1 + u) ^ k - 1) * b) := mul_le_mul h.1 h'.2 (abs_nonneg _) ha
  rw [pow_add]
  nlinarith

theorem Close.abs {j : Nat} {a e x : K} (h : Close u j a e x) : Close u j a |e| |x| :=
  ⟨by rw [abs_abs]; exact h.1, (abs_abs_sub_abs_le x e).trans h.2⟩

theorem Close.div {j : Nat} {a e x c : K} (hc : 0 < c) (h : Close u j a e x) : Close u j (a / c) (e / c) (x / c) := by
  refine ⟨by rw [abs_div, abs_of_pos hc]; exact div_le_div_of_nonneg_right h.1 hc.le, ?_⟩
  rw [← sub_div, abs_div, abs_of_pos hc, mul_div_assoc']
  exact div_le_div_of_nonneg_right h.2 hc.le

theorem Close.exact (hu : 0 ≤ u) (j : Nat) (e : K) : Close u j |e| e e := by
  refine ⟨le_rfl, ?_⟩
  rw [sub_self, abs_zero]
  exact mul_nonneg (by linarith [one_le hu j]) (abs_nonneg e)

/-! ### sums -/

theorem sumR_close (hR : Accurate R u) (l : List (Fl K)) (j : Nat) (A E : Nat → K) (t : Order)
    (h : ∀ i ∈ t.leaves, ∃ x, l.getD i none = some x ∧ Close u j (A i) (E i) x) :
    ∃ s, sumR R l t = some s ∧ Close u (j + depth t) (t.leaves.map A).sum (t.leaves.map E).sum s := by
  induction t with
  | leaf i =>
    obtain ⟨x, h1, h2⟩ := h i (by simp [Order.leaves])
    exact ⟨x, h1, by simpa [Order.leaves, depth] using h2⟩
  | node a b iha ihb =>
    obtain ⟨s, s1, s2⟩ := iha fun i hi => h i (by simp [Order.leaves, hi])
    obtain ⟨s', s1', s2'⟩ := ihb fun i hi => h i (by simp [Order.leaves, hi])
    refine ⟨R.rnd (s + s'), by simp only [sumR, s1, s1', rop], ?_⟩
    simp only [Order.leaves, List.map_append, List.sum_append, depth]
    rw [← add_assoc]
    exact ((s2.mono hR.1 (by omega)).add (s2'.mono hR.1 (by omega))).rnd hR

theorem sumR_none (l : List (Fl K)) (t : Order) (h : ∃ i ∈ t.leaves, l.getD i none = none) : sumR R l t = none := by
  induction t with
  | leaf i => obtain ⟨j, hj, h⟩ := h; simp only [Order.leaves, List.mem_singleton] at hj; subst hj; exact h
  | node a b iha ihb =>
    obtain ⟨i, hi, h⟩ := h
    simp only [Order.leaves, List.mem_append] at hi
    simp only [sumR]
    rcases hi with hi | hi
    · rw [iha ⟨i, hi, h⟩]; rfl
    · rw [ihb ⟨i, hi, h⟩]; cases sumR R l a <;> rfl

theorem leaves_sumK (S : SumOrder) {n : Nat} (hn : n ≠ 0) (g : Nat → K) :
    ((S.tree n).leaves.map g).sum = ((List.range n).map g).sum := by
  obtain ⟨m, rfl⟩ := Nat.exists_eq_succ_of_ne_zero hn
  exact ((S.all m).map g).sum_eq

theorem sum_range_getD (l : List (Fl K)) : ((List.range l.length).map fun i => (l.getD i none).getD 0).sum = (present l).sum := by
  induction l with
  | nil => rfl
  | cons x l ih =>
    rw [List.length_cons, List.range_succ_eq_map, List.map_cons, List.sum_cons, List.map_map]
    have : ((fun i => ((x :: l).getD i none).getD 0) ∘ Nat.succ) = fun i => (l.getD i none).getD 0 := by
      funext i; simp
    rw [this, ih]
    cases x <;> simp [present]

/-- the average in rounded arithmetic -/
def avgR (R : Rounding K) (S : SumOrder) (skip : Bool) : List (Fl K) → Fl K := if skip then nanmeanR R S else meanR R S

variable {ι : Type}

theorem near_none {j : Nat} {a e x : Fl K} (h : Near u j a e x) : (a = none ↔ x = none) ∧ (e = none ↔ x = none) := by
  rcases h with ⟨rfl, rfl, rfl⟩ | ⟨a', e', x', rfl, rfl, rfl, -, -⟩ <;> simp

/-- averaging: one more rounding than additions on the longest way -/
theorem avgR_near (hR : Accurate R u) (S : SumOrder) (skip : Bool) {L : List ι} {a e x : ι → Fl K} {j : Nat}
    (h : ∀ i ∈ L, Near u j (a i) (e i) (x i)) {wa we : Fl K} (ha : IsAvg skip (L.map a) wa) (he : IsAvg skip (L.map e) we) :
    Near u (j + depth (S.tree L.length) + 1) wa we (avgR R S skip (L.map x)) := by
  have hu := hR.1
  by_cases hL : L = []
  · subst hL
    left
    unfold IsAvg at ha he
    rw [if_pos (Or.inr (by rfl))] at ha he
    refine ⟨ha, he, ?_⟩
    cases skip <;> rfl
  have hn : L.length ≠ 0 := by simpa using hL
  -- the same entries are missing
  have hmiss : ∀ g : ι → Fl K, (∀ i ∈ L, (g i = none ↔ x i = none)) → (none ∈ L.map g ↔ none ∈ L.map x) := by
    intro g hg
    simp only [List.mem_map]
    constructor
    · rintro ⟨i, hi, h⟩; exact ⟨i, hi, (hg i hi).1 h⟩
    · rintro ⟨i, hi, h⟩; exact ⟨i, hi, (hg i hi).2 h⟩
  have hcnt : ∀ g : ι → Fl K, (∀ i ∈ L, (g i = none ↔ x i = none)) → (present (L.map g)).length = (L.map x).countP Option.isSome := by
    intro g hg
    clear ha he hL hn h hmiss
    induction L with
    | nil => rfl
    | cons i L ih =>
      have h1 := hg i (by simp)
      have h2 := ih fun k hk => hg k (by simp [hk])
      simp only [present] at h2 ⊢
      simp only [List.map_cons, List.countP_cons, ← h2]
      cases hgi : g i <;> cases hxi : x i <;> simp [hgi, hxi] at h1 ⊢
  have ca := hcnt a fun i hi => (near_none (h i hi)).1
  have ce := hcnt e fun i hi => (near_none (h i hi)).2
  have na := hmiss a fun i hi => (near_none (h i hi)).1
  have ne := hmiss e fun i hi => (near_none (h i hi)).2
  have pos : ∀ {g : ι → Fl K}, (present (L.map g)).length = (L.map x).countP Option.isSome →
      (present (L.map g) = [] ↔ (L.map x).countP Option.isSome = 0) := by
    intro g hg
    rw [← hg, List.length_eq_zero_iff]
  have get : ∀ (g : ι → Fl K) i, i < L.length → ∃ p ∈ L, (L.map g).getD i none = g p ∧ L[i]? = some p := by
    intro g i hi
    refine ⟨L[i], List.getElem_mem hi, ?_, by simp [hi]⟩
    rw [getD_lt (by simpa using hi), List.getElem_map]
  unfold IsAvg at ha he
  by_cases hc : (skip = false ∧ none ∈ L.map x) ∨ (L.map x).countP Option.isSome = 0
  · left
    rw [if_pos (by rw [na, pos ca]; exact hc)] at ha
    rw [if_pos (by rw [ne, pos ce]; exact hc)] at he
    refine ⟨ha, he, ?_⟩
    cases skip with
    | true =>
      have : (L.map x).countP Option.isSome = 0 := by simpa using hc
      simp [avgR, nanmeanR, this]
    | false =>
      have hmem : none ∈ L.map x := by
        rcases hc with hc | hc
        · exact hc.2
        · obtain ⟨i, hi⟩ := List.exists_mem_of_ne_nil _ hL
          have := (List.countP_eq_zero.1 hc) (x i) (List.mem_map_of_mem hi)
          cases hx : x i with
          | none => exact hx ▸ List.mem_map_of_mem hi
          | some v => rw [hx] at this; simp at this
      simp only [avgR, meanR, Bool.false_eq_true, if_false]
      rw [if_neg (by simpa using hL), sumR_none]
      · rfl
      · obtain ⟨i, hi, hi'⟩ := List.getElem_of_mem hmem
        refine ⟨i, (mem_leaves S (by simpa using hn)).2 hi, ?_⟩
        rw [getD_lt hi, hi']
  · rw [if_neg (by rw [na, pos ca]; exact hc)] at ha
    rw [if_neg (by rw [ne, pos ce]; exact hc)] at he
    rw [not_or] at hc
    right
    have hcp : (0 : K) < ((L.map x).countP Option.isSome : ℕ) := by exact_mod_cast Nat.pos_of_ne_zero hc.2
    have hl : (L.map x).length = L.length := by simp
    -- the sum with missing values replaced by zero
    obtain ⟨s, s1, s2⟩ := sumR_close hR ((L.map x).map fun v => some (v.getD 0)) j
      (fun i => ((L.map a).getD i none).getD 0) (fun i => ((L.map e).getD i none).getD 0) (S.tree L.length) (by
        intro i hi
        have hi' := (mem_leaves S hn).1 hi
        obtain ⟨p, hp, g1, g4⟩ := get a i hi'
        obtain ⟨p', -, g2, g5⟩ := get e i hi'
        obtain ⟨p'', -, g3, g6⟩ := get x i hi'
        rw [g4] at g5 g6; cases g5; cases g6
        refine ⟨(x p).getD 0, ?_, ?_⟩
        · rw [getD_lt (by simpa using hi'), List.getElem_map, List.getElem_map]
          rw [getD_lt (by simpa using hi'), List.getElem_map] at g3
          rw [g3]
        · rw [g1, g2]
          rcases h p hp with ⟨e1, e2, e3⟩ | ⟨a', e', x', e1, e2, e3, e4, e5⟩
          · rw [e1, e2, e3]
            exact ⟨by simp, by simp⟩
          · rw [e1, e2, e3]
            exact ⟨e4, e5⟩)
    rw [leaves_sumK S hn, leaves_sumK S hn] at s2
    have sa := sum_range_getD (L.map a)
    have se := sum_range_getD (L.map e)
    rw [List.length_map] at sa se
    rw [sa, se] at s2
    have key := (s2.div hcp).rnd hR
    refine ⟨_, _, R.rnd (s / ((L.map x).countP Option.isSome : ℕ)), ha, he, ?_, ?_⟩
    · cases skip with
      | true =>
        simp only [avgR, nanmeanR, if_true]
        rw [if_neg hc.2, hl, s1]
        rfl
      | false =>
        have hno : none ∉ L.map x := fun hm => hc.1 ⟨rfl, hm⟩
        obtain ⟨v, hv⟩ := exists_map_some hno
        have e1 : ((L.map x).map fun v => some (v.getD 0)) = L.map x := by
          rw [hv, List.map_map]
          exact List.map_congr_left fun y _ => rfl
        have e2 : (L.map x).countP Option.isSome = L.length := by
          rw [← hl, hv, List.countP_eq_length]
          intro y hy
          obtain ⟨z, -, rfl⟩ := List.mem_map.1 hy
          rfl
        rw [e1] at s1
        simp only [avgR, meanR, Bool.false_eq_true, if_false]
        rw [if_neg (by simpa using hL), hl, s1, e2]
        rfl
    · rw [avg, avg, ca, ce]
      exact key

end Lemmas

namespace Lemmas
open Np Spec Model

variable {K : Type} [Field K] [LinearOrder K] [IsStrictOrderedRing K]

/-- rounding to the nearest number of `p + 1` binary digits -/
theorem binary_accurate [FloorSemiring K] {p : ℕ} {r : K → ℤ} (hr : ∀ x, |(r x : K) - x| ≤ 1 / 2) (x : K) :
    |binary p r x - x| ≤ 1 / 2 ^ (p + 1) * |x| := by
  have pos : ∀ x : K, 0 < x → |binaryPos p r x - x| ≤ 1 / 2 ^ (p + 1) * x := by
    intro x hx
    obtain ⟨h1, -⟩ := log_bounds hx
    have hs := two_zpow_pos (K := K) (Int.log 2 x - p)
    have e : binaryPos p r x - x = ((r (x / 2 ^ (Int.log 2 x - p)) : K) - x / 2 ^ (Int.log 2 x - p)) * 2 ^ (Int.log 2 x - p) := by
      unfold binaryPos
      rw [sub_mul, div_mul_cancel₀ _ hs.ne']
    rw [e, abs_mul, abs_of_pos hs]
    have h2 : (2 : K) ^ (Int.log 2 x - p) = 2 ^ Int.log 2 x / 2 ^ p := by
      rw [zpow_sub₀ (by norm_num), zpow_natCast]
    calc _ ≤ 1 / 2 * (2 : K) ^ (Int.log 2 x - p) := mul_le_mul_of_nonneg_right (hr _) hs.le
      _ = 1 / 2 ^ (p + 1) * 2 ^ Int.log 2 x := by
        rw [h2, pow_succ]
        field_simp
      _ ≤ _ := mul_le_mul_of_nonneg_left h1 (by positivity)
  unfold binary
  rcases lt_trichotomy x 0 with h | h | h
  · rw [if_neg h.ne, if_neg (not_lt.2 h.le), abs_of_neg h]
    have := pos (-x) (by linarith)
    rwa [← abs_neg, show -(-binaryPos p r (-x) - x) = binaryPos p r (-x) - -x by ring]
  · rw [if_pos h, h]; simp
  · rw [if_neg h.ne', if_pos h, abs_of_pos h]
    exact pos x h

theorem depth_lt_leaves (t : Order) : depth t < t.leaves.length := by
  induction t with
  | leaf i => simp [depth, Order.leaves]
  | node a b iha ihb =>
    simp only [depth, Order.leaves, List.length_append]
    omega

theorem depth_lt (S : SumOrder) {n : Nat} (hn : n ≠ 0) : depth (S.tree n) < n := by
  obtain ⟨m, rfl⟩ := Nat.exists_eq_succ_of_ne_zero hn
  have := depth_lt_leaves (S.tree (m + 1))
  rwa [(S.all m).length_eq, List.length_range] at this

/-- `j` roundings in a row -/
theorem growth {u : K} (hu : 0 ≤ u) {j : Nat} (hj : j * u < 1) : (1 + u) ^ j - 1 ≤ j * u / (1 - j * u) := by
  have h1 : (1 + u) ^ j * (1 - j * u) ≤ 1 := by
    clear hj
    induction j with
    | zero => simp
    | succ j ih =>
      have hp : 0 ≤ (1 + u) ^ j := by positivity
      have : (1 + u) ^ (j + 1) * (1 - ((j + 1 : ℕ) : K) * u) ≤ (1 + u) ^ j * (1 - j * u) := by
        rw [pow_succ, mul_assoc]
        apply mul_le_mul_of_nonneg_left _ hp
        push_cast
        nlinarith [mul_nonneg (mul_nonneg (Nat.cast_nonneg (α := K) j) hu) hu, mul_nonneg hu hu]
      exact this.trans ih
  have hp : 0 < 1 - j * u := by linarith
  rw [le_div_iff₀ hp]
  nlinarith

end Lemmas
