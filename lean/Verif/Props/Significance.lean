import Verif.Model.Significance
import Mathlib.Algebra.Order.Ring.Rat
import Mathlib.Tactic.LinearCombination
import Mathlib.Algebra.BigOperators.Ring.List

/-!
# Diebold-Mariano test: C22, C23
-/

set_option linter.unusedSectionVars false

namespace Props
open Np Model

variable {K : Type} [Field K] [LinearOrder K] [IsStrictOrderedRing K]

/-- multiplication of a float by a number -/
def scale (c : K) (x : Fl K) : Fl K := x.map fun v => c * v

theorem fsum_scale (c : K) (l : List (Fl K)) : fsum (l.map (scale c)) = scale c (fsum l) := by
  induction l with
  | nil => simp [fsum, scale]
  | cons a l ih =>
    have h1 : fsum ((a :: l).map (scale c)) = Fl.add (scale c a) (fsum (l.map (scale c))) := rfl
    have h2 : fsum (a :: l) = Fl.add a (fsum l) := rfl
    rw [h1, h2, ih]
    cases a <;> cases fsum l <;> simp [scale, Fl.add, Fl.lift2, mul_add]

theorem mean_scale (c : K) (l : List (Fl K)) : mean (l.map (scale c)) = scale c (mean l) := by
  unfold mean
  by_cases h : l = []
  · subst h; rfl
  · rw [if_neg (by simpa using h), if_neg h, fsum_scale, List.length_map]
    cases fsum l <;> simp [scale, mul_div_assoc]

theorem autocov_scale (c : K) (d : List (Fl K)) (k : Nat) :
    autocov (d.map (scale c)) k = scale (c * c) (autocov d k) := by
  unfold autocov
  rw [← mean_scale, mean_scale, List.length_map, ← List.map_drop, ← List.map_take, List.map_map,
    List.map_map, List.zipWith_map, List.map_zipWith, List.zipWith_map]
  congr 2
  funext x y
  cases x <;> cases y <;> cases mean d <;>
    simp [scale, Fl.sub, Fl.mul, Fl.lift2] <;> ring

theorem dmVariance_scale (c : K) (d : List (Fl K)) (n h : Nat) :
    dmVariance (d.map (scale c)) n h = scale (c * c) (dmVariance d n h) := by
  unfold dmVariance
  have hg : (List.range h).map (autocov (d.map (scale c))) =
      ((List.range h).map (autocov d)).map (scale (c * c)) := by
    rw [List.map_map]
    apply List.map_congr_left
    intro k _
    exact autocov_scale c d k
  rw [hg]
  generalize (List.range h).map (autocov d) = g
  simp only [← List.map_tail]
  rw [fsum_scale]
  have h0 : (g.map (scale (c * c))).getD 0 none = scale (c * c) (g.getD 0 none) := by
    cases g <;> rfl
  rw [h0]
  cases g.getD 0 none with
  | none => rfl
  | some a =>
    cases fsum g.tail with
    | none => rfl
    | some b =>
      simp only [scale, Fl.add, Fl.mul, Fl.lift2, Option.map_some, Fl.div]
      by_cases hn : (n : K) = 0
      · simp [hn]
      · simp only [if_neg hn, Option.map_some, Option.some_inj]
        ring

theorem sqrt_scale {s : K → K} (hs : IsSqrt s) {c : K} (hc : 0 < c) (x : Fl K) :
    Fl.sqrt s (scale (c * c) x) = scale c (Fl.sqrt s x) := by
  cases x with
  | none => rfl
  | some x =>
    simp only [scale, Option.map_some, Fl.sqrt]
    have hcc : 0 < c * c := mul_pos hc hc
    by_cases hx : 0 ≤ x
    · have h1 : 0 ≤ c * c * x := mul_nonneg hcc.le hx
      rw [if_pos hx, if_pos h1]
      simp only [Option.map_some, Option.some_inj]
      have e1 := hs.sq _ h1
      have e2 := hs.sq _ hx
      have n1 := hs.nonneg _ h1
      have n2 := mul_nonneg hc.le (hs.nonneg _ hx)
      have : (s (c * c * x)) * (s (c * c * x)) = (c * s x) * (c * s x) := by
        rw [e1]; linear_combination (-c * c) * e2
      exact (mul_self_inj n1 n2).1 this
    · rw [if_neg hx, if_neg]
      · rfl
      · intro h
        exact hx (nonneg_of_mul_nonneg_right h hcc)

theorem divFl_scale {c : K} (hc : 0 < c) (x y : Fl K) :
    Ext.divFl (scale c x) (scale c y) = Ext.divFl x y := by
  cases x with
  | none => rfl
  | some x =>
    cases y with
    | none => rfl
    | some y =>
      simp only [scale, Option.map_some, Ext.divFl, mul_eq_zero, hc.ne', false_or]
      by_cases hy : y = 0
      · have h1 : c * x < 0 ↔ x < 0 := by
          rw [mul_neg_iff]; constructor
          · rintro (h | h)
            · exact h.2
            · exact absurd h.1 (not_lt.2 hc.le)
          · exact fun h => Or.inl ⟨hc, h⟩
        simp [hy, hc, h1]
      · simp only [hy, if_false]
        congr 1
        rw [mul_div_mul_left _ _ hc.ne']

theorem divFl_neg (x y : Fl K) : Ext.divFl (scale (-1) x) y = Ext.neg (Ext.divFl x y) := by
  cases x with
  | none => rfl
  | some x =>
    cases y with
    | none => rfl
    | some y =>
      simp only [scale, Option.map_some, Ext.divFl]
      by_cases hy : y = 0
      · simp only [hy, if_true]
        rcases lt_trichotomy x 0 with h | h | h
        · rw [if_pos (by linarith), if_neg (by linarith), if_pos h]; rfl
        · simp [h, Ext.neg]
        · rw [if_neg (by linarith), if_pos (by linarith), if_pos h]; rfl
      · simp only [if_neg hy, Ext.neg]
        congr 1
        ring

theorem mulFl_neg (a : Fl K) (x : Ext K) : Ext.mulFl a (Ext.neg x) = Ext.neg (Ext.mulFl a x) := by
  cases a with
  | none => rfl
  | some a =>
    cases x with
    | num v => simp [Ext.mulFl, Ext.neg]
    | nan => rfl
    | pinf =>
      simp only [Ext.mulFl, Ext.neg]
      split
      · rfl
      · split <;> rfl
    | ninf =>
      simp only [Ext.mulFl, Ext.neg]
      split
      · rfl
      · split <;> rfl

theorem abs_neg_ext (x : Ext K) : Ext.abs (Ext.neg x) = Ext.abs x := by
  cases x <;> simp [Ext.abs, Ext.neg]

theorem scale_one (x : Fl K) : scale 1 x = x := by cases x <;> simp [scale]

/-- scaling the loss differences by a positive number changes nothing -/
theorem dmStat_scale {s : K → K} (hs : IsSqrt s) {c : K} (hc : 0 < c) (d : List (Fl K)) (n h : Nat) :
    dmStat s (d.map (scale c)) n h = dmStat s d n h := by
  unfold dmStat dmRaw
  rw [mean_scale, dmVariance_scale, sqrt_scale hs hc, divFl_scale hc]

/-- negating the loss differences negates the statistic -/
theorem dmStat_neg (s : K → K) (d : List (Fl K)) (n h : Nat) :
    dmStat s (d.map (scale (-1))) n h = Ext.neg (dmStat s d n h) := by
  unfold dmStat dmRaw
  rw [mean_scale, dmVariance_scale, show (-1 : K) * -1 = 1 by ring, scale_one, divFl_neg, mulFl_neg]

theorem lossDiff_swap (crit : Crit) (pw : K → Fl K) (a p q : List (Fl K)) :
    lossDiff crit pw a q p = (lossDiff crit pw a p q).map (scale (-1)) := by
  unfold lossDiff
  rw [List.map_zipWith, List.zipWith_comm]
  congr 1
  funext x y
  cases x <;> cases y <;> simp [scale, Fl.sub, Fl.lift2]

/-- **C22**: swapping the two forecasts negates the statistic and keeps the p-value, for every
criterion, horizon and data (also infinite or NaN results and errors). -/
theorem C22_antisymmetric (s : K → K) (tcdf : Nat → K → K) (crit : Crit) (pw : K → Fl K) (h : Int)
    (a p q : List (Fl K)) (hlen : p.length = q.length) :
    dieboldMariano s tcdf crit pw h a q p =
      (dieboldMariano s tcdf crit pw h a p q).map fun r => (Ext.neg r.1, r.2) := by
  unfold dieboldMariano
  simp only [hlen, and_true]
  split_ifs <;> try rfl
  simp only [Except.map, lossDiff_swap crit pw a p q, dmStat_neg, abs_neg_ext]

theorem zipWith_map_both {α : Type} (g : α → α → α) (u : α → α) (hg : ∀ x y, g (u x) (u y) = g x y)
    (l m : List α) : List.zipWith g (l.map u) (m.map u) = List.zipWith g l m := by
  rw [List.zipWith_map]; congr 1; funext x y; exact hg x y

/-- **C22**: for MSE and MAD, adding a constant to all three series changes nothing. -/
theorem C22_shift (s : K → K) (tcdf : Nat → K → K) (crit : Crit) (hcrit : crit = .mse ∨ crit = .mad)
    (pw : K → Fl K) (h : Int) (a p q : List (Fl K)) (c : K) :
    let sh : List (Fl K) → List (Fl K) := fun l => l.map fun x => Fl.add x (some c)
    dieboldMariano s tcdf crit pw h (sh a) (sh p) (sh q) = dieboldMariano s tcdf crit pw h a p q := by
  intro sh
  have key : ∀ l : List (Fl K), List.zipWith (loss crit pw) (sh a) (sh l) =
      List.zipWith (loss crit pw) a l := by
    intro l
    apply zipWith_map_both
    intro x y
    have hsub : Fl.sub (Fl.add x (some c)) (Fl.add y (some c)) = Fl.sub x y := by
      cases x <;> cases y <;> simp [Fl.add, Fl.sub, Fl.lift2]
    rcases hcrit with rfl | rfl <;> simp only [loss, hsub]
  unfold dieboldMariano
  simp only [sh, List.length_map]
  have : lossDiff crit pw (sh a) (sh p) (sh q) = lossDiff crit pw a p q := by
    unfold lossDiff; rw [key, key]
  rw [this]

/-- **C22**: for MSE and MAD, multiplying all three series by a positive constant changes nothing. -/
theorem C22_scale {s : K → K} (hs : IsSqrt s) (tcdf : Nat → K → K) (crit : Crit)
    (hcrit : crit = .mse ∨ crit = .mad) (pw : K → Fl K) (h : Int) (a p q : List (Fl K)) {c : K}
    (hc : 0 < c) :
    let sc : List (Fl K) → List (Fl K) := fun l => l.map fun x => Fl.mul (some c) x
    dieboldMariano s tcdf crit pw h (sc a) (sc p) (sc q) = dieboldMariano s tcdf crit pw h a p q := by
  intro sc
  have hex : ∃ e : K, 0 < e ∧ ∀ x y : Fl K, loss crit pw (Fl.mul (some c) x) (Fl.mul (some c) y) =
      scale e (loss crit pw x y) := by
    rcases hcrit with rfl | rfl
    · refine ⟨c * c, mul_pos hc hc, ?_⟩
      intro x y
      cases x <;> cases y <;> simp [loss, Fl.mul, Fl.sub, Fl.lift2, Fl.sq, scale] <;> ring
    · refine ⟨c, hc, ?_⟩
      intro x y
      cases x <;> cases y <;> simp [loss, Fl.mul, Fl.sub, Fl.lift2, Fl.abs, scale]
      rw [← mul_sub, abs_mul, abs_of_pos hc]
  obtain ⟨e, he, hl⟩ := hex
  have key : lossDiff crit pw (sc a) (sc p) (sc q) = (lossDiff crit pw a p q).map (scale e) := by
    have h1 : ∀ l : List (Fl K), List.zipWith (loss crit pw) (sc a) (sc l) =
        (List.zipWith (loss crit pw) a l).map (scale e) := by
      intro l
      simp only [sc]
      rw [List.zipWith_map, List.map_zipWith]
      congr 1
      funext x y
      exact hl x y
    unfold lossDiff
    rw [h1, h1, List.zipWith_map, List.map_zipWith]
    congr 1
    funext x y
    cases x <;> cases y <;> simp [scale, Fl.sub, Fl.lift2, mul_sub]
  unfold dieboldMariano
  simp only [sc, List.length_map]
  rw [key, dmStat_scale hs he]

/-! ### C23 -/

/-- **C23**: for every accepted horizon the quantity under the square root of the small-sample
adjustment is strictly between 0 and 1. -/
theorem C23_harvey (n h : Nat) (h1 : 1 ≤ h) (hn : h < n) :
    (0 : K) < harveyTerm n h ∧ harveyTerm (K := K) n h < 1 := by
  have hnK : (0 : K) < n := by exact_mod_cast (by omega : 0 < n)
  have hlt : (h : K) < n := by exact_mod_cast hn
  have h1K : (1 : K) ≤ h := by exact_mod_cast h1
  have e : harveyTerm (K := K) n h = (((n : K) - h) * (n - h + 1)) / (n * n) := by
    unfold harveyTerm
    field_simp
    ring
  rw [e]
  constructor
  · apply div_pos
    · nlinarith
    · positivity
  · rw [div_lt_one (by positivity)]
    nlinarith

/-- **C23**: the adjustment only shrinks the statistic: a finite raw statistic `v` becomes `a * v` with
`0 < a < 1`, infinities and NaN are kept. -/
theorem C23_shrinks {s : K → K} (hs : IsSqrt s) (d : List (Fl K)) (n h : Nat) (h1 : 1 ≤ h)
    (hn : h < n) :
    ∃ a : K, 0 < a ∧ a < 1 ∧ a * a = harveyTerm n h ∧
      dmStat s d n h = match dmRaw s d n h with
        | .num v => .num (a * v)
        | e => e := by
  obtain ⟨p, q⟩ := C23_harvey (K := K) n h h1 hn
  have hsq := hs.sq _ p.le
  have hnn := hs.nonneg _ p.le
  have hpos : 0 < s (harveyTerm n h) := by
    rcases hnn.eq_or_lt with h0 | h0
    · rw [← h0] at hsq; simp at hsq; exact absurd hsq p.ne
    · exact h0
  refine ⟨s (harveyTerm n h), hpos, ?_, hsq, ?_⟩
  · by_contra hge
    have : 1 ≤ s (harveyTerm n h) := not_lt.1 hge
    nlinarith
  · unfold dmStat
    simp only [Fl.sqrt, if_pos p.le]
    cases dmRaw s d n h <;> simp [Ext.mulFl, hpos]

/-- **C23**: with `h = 1` and complete data the variance estimate is a non-negative number, so its square
root is defined. -/
theorem C23_variance_nonneg (d : List K) (hd : d ≠ []) (n : Nat) (hn : 0 < n) :
    ∃ v, dmVariance (d.map some) n 1 = some v ∧ 0 ≤ v := by
  have hnK : (0 : K) < n := by exact_mod_cast hn
  set m := d.sum / (d.length : K) with hm
  have hcov : autocov (d.map some) 0 = some ((d.map fun x => (x - m) * (x - m)).sum /
      ((d.map fun x => (x - m) * (x - m)).length : K)) := by
    unfold autocov
    rw [mean_some d hd, ← hm]
    have : List.zipWith Fl.mul (((d.map some).drop 0).map fun x => Fl.sub x (some m))
        (((d.map some).take ((d.map some).length - 0)).map fun x => Fl.sub x (some m)) =
        (d.map fun x => (x - m) * (x - m)).map some := by
      rw [List.drop_zero, Nat.sub_zero, List.take_length, List.map_map, List.zipWith_map,
        List.zipWith_self, List.map_map]
      apply List.map_congr_left
      intro x _
      simp [Fl.sub, Fl.mul, Fl.lift2]
    rw [this, mean_some _ (by simpa using hd)]
  have hnn : 0 ≤ (d.map fun x => (x - m) * (x - m)).sum := by
    apply List.sum_nonneg
    intro x hx
    obtain ⟨y, _, rfl⟩ := List.mem_map.1 hx
    exact mul_self_nonneg _
  refine ⟨(d.map fun x => (x - m) * (x - m)).sum /
      ((d.map fun x => (x - m) * (x - m)).length : K) / n, ?_, ?_⟩
  · unfold dmVariance
    simp [hcov, fsum, Fl.add, Fl.mul, Fl.div, Fl.lift2, hnK.ne']
  · apply div_nonneg _ hnK.le
    exact div_nonneg hnn (by positivity)

/-- **C23**: the p-value is in `[0,1]` whenever the statistic is not NaN, for any distribution function
with values in `[0, 1/2]` on non-positive arguments (the Student distribution is symmetric). -/
theorem C23_pvalue (s : K → K) (tcdf : Nat → K → K)
    (ht : ∀ df x, x ≤ 0 → 0 ≤ tcdf df x ∧ tcdf df x ≤ 1 / 2) (crit : Crit) (pw : K → Fl K) (h : Int)
    (a p q : List (Fl K)) {stat pv : Ext K}
    (hr : dieboldMariano s tcdf crit pw h a p q = .ok (stat, pv)) :
    (stat = .nan ∧ pv = .nan) ∨ ∃ v, pv = .num v ∧ 0 ≤ v ∧ v ≤ 1 := by
  unfold dieboldMariano at hr
  simp only at hr
  split_ifs at hr
  injection hr with hr
  simp only [Prod.mk.injEq] at hr
  obtain ⟨h1, h2⟩ := hr
  rw [h1] at h2
  subst h2
  cases stat with
  | nan => exact Or.inl ⟨rfl, rfl⟩
  | num v =>
    right
    obtain ⟨p1, p2⟩ := ht (a.length - 1) (-|v|) (by simp)
    exact ⟨_, rfl, by linarith, by linarith⟩
  | pinf => exact Or.inr ⟨0, rfl, le_rfl, zero_le_one⟩
  | ninf => exact Or.inr ⟨0, rfl, le_rfl, zero_le_one⟩

/-- **C23**: exactly the documented argument conditions are accepted. -/
theorem C23_accepted (s : K → K) (tcdf : Nat → K → K) (crit : Crit) (pw : K → Fl K) (h : Int)
    (a p q : List (Fl K)) :
    (∃ r, dieboldMariano s tcdf crit pw h a p q = .ok r) ↔
      (a.length = p.length ∧ p.length = q.length ∧ 1 ≤ h ∧ h < a.length ∧ crit ≠ .unsupported) := by
  unfold dieboldMariano
  simp only
  split_ifs with h1 h2 h3 h4
  · simp [h4]
  · simp [h1, h4]; exact ⟨h2, by omega⟩
  · simp; omega
  · simp; omega
  · simp only [exists_false, false_iff, not_and]; tauto

/-- the `k`-th empirical autocovariance of the first `n` terms of a sequence around `m` -/
def autocovSpec (d : ℕ → K) (n : ℕ) (m : K) (k : ℕ) : K :=
  (∑ t ∈ Finset.range (n - k), (d (t + k) - m) * (d t - m)) / ((n - k : ℕ) : K)

theorem list_sum_range (f : ℕ → K) (n : ℕ) : ((List.range n).map f).sum = ∑ t ∈ Finset.range n, f t := by
  induction n with
  | zero => simp
  | succ n ih => rw [List.range_succ, Finset.sum_range_succ, ← ih]; simp

theorem autocov_formula (d : ℕ → K) (n k : ℕ) (hk : k < n) :
    autocov ((List.range n).map fun t => some (d t)) k =
      some (autocovSpec d n ((∑ t ∈ Finset.range n, d t) / n) k) := by
  have hne : (List.range n).map d ≠ [] := by simp; omega
  have hm : mean ((List.range n).map fun t => some (d t)) =
      some ((∑ t ∈ Finset.range n, d t) / n) := by
    have := mean_some _ hne
    rw [List.map_map, List.length_map, List.length_range, list_sum_range] at this
    exact this
  unfold autocov autocovSpec
  rw [hm]
  generalize (∑ t ∈ Finset.range n, d t) / (n : K) = m
  have hl : List.zipWith Fl.mul
      ((((List.range n).map fun t => some (d t)).drop k).map fun x => Fl.sub x (some m))
      ((((List.range n).map fun t => some (d t)).take
        (((List.range n).map fun t => some (d t)).length - k)).map fun x => Fl.sub x (some m)) =
      ((List.range (n - k)).map fun t => (d (t + k) - m) * (d t - m)).map some := by
    apply List.ext_getElem
    · simp
    · intro i h1 h2
      simp [Fl.sub, Fl.mul, Fl.lift2, Nat.add_comm k i]
  rw [hl, mean_some _ (by simp; omega), list_sum_range]
  simp

/-- **C23** (what the statistic is): on complete series the variance estimate is the textbook
`(γ₀ + 2 ∑_{0<k<h} γ_k) / n`, each autocovariance being averaged over its own `n - k` products. -/
theorem C23_variance_formula (d : ℕ → K) (n h : ℕ) (h1 : 1 ≤ h) (hn : h < n) :
    dmVariance ((List.range n).map fun t => some (d t)) n h =
      some ((autocovSpec d n ((∑ t ∈ Finset.range n, d t) / n) 0 +
        2 * ∑ k ∈ Finset.range (h - 1), autocovSpec d n ((∑ t ∈ Finset.range n, d t) / n) (k + 1)) / n) := by
  obtain ⟨h, rfl⟩ : ∃ h', h = h' + 1 := ⟨h - 1, by omega⟩
  have hnK : (n : K) ≠ 0 := by exact_mod_cast (by omega : n ≠ 0)
  unfold dmVariance
  rw [List.range_succ_eq_map]
  simp only [List.map_cons, List.getD_cons_zero, List.tail_cons, List.map_map]
  have ht : (List.range h).map (autocov ((List.range n).map fun t => some (d t)) ∘ Nat.succ) =
      ((List.range h).map fun k =>
        autocovSpec d n ((∑ t ∈ Finset.range n, d t) / n) (k + 1)).map some := by
    rw [List.map_map]
    apply List.map_congr_left
    intro k hk
    have := List.mem_range.1 hk
    exact autocov_formula d n (k + 1) (by omega)
  rw [ht, fsum_some, autocov_formula d n 0 (by omega), list_sum_range]
  simp [Fl.add, Fl.mul, Fl.div, Fl.lift2, hnK]

/-- **C23** (what the statistic is): on complete series with a positive variance estimate the result is
finite, it is the adjusted mean over the root of the variance, and a zero mean is the only way to get 0. -/
theorem C23_statistic {s : K → K} (hs : IsSqrt s) (d : ℕ → K) (n h : ℕ) (h1 : 1 ≤ h) (hn : h < n)
    {v : K} (hv : dmVariance ((List.range n).map fun t => some (d t)) n h = some v) (hpos : 0 < v) :
    ∃ x : K, dmStat s ((List.range n).map fun t => some (d t)) n h = .num x ∧
      x * x * v = harveyTerm n h * (((∑ t ∈ Finset.range n, d t) / n) * ((∑ t ∈ Finset.range n, d t) / n)) ∧
      (0 < x ↔ 0 < ∑ t ∈ Finset.range n, d t) ∧ (x < 0 ↔ ∑ t ∈ Finset.range n, d t < 0) := by
  obtain ⟨a, a0, _, ha, hst⟩ := C23_shrinks hs ((List.range n).map fun t => some (d t)) n h h1 hn
  have hnK : (0 : K) < n := by exact_mod_cast (by omega : 0 < n)
  have hne : (List.range n).map d ≠ [] := by simp; omega
  have hm : mean ((List.range n).map fun t => some (d t)) =
      some ((∑ t ∈ Finset.range n, d t) / n) := by
    have := mean_some _ hne
    rw [List.map_map, List.length_map, List.length_range, list_sum_range] at this
    exact this
  have sv0 : 0 < s v := by
    rcases (hs.nonneg v hpos.le).eq_or_lt with h0 | h0
    · have := hs.sq v hpos.le
      rw [← h0] at this; simp at this; exact absurd this hpos.ne
    · exact h0
  set m := ∑ t ∈ Finset.range n, d t with hmd
  have hraw : dmRaw s ((List.range n).map fun t => some (d t)) n h = .num (m / n / s v) := by
    unfold dmRaw
    rw [hm, hv]
    simp [Fl.sqrt, hpos.le, Ext.divFl, sv0.ne']
  rw [hraw] at hst
  have key : a * (m / n / s v) = m * (a / (n * s v)) := by
    field_simp
  have hq : 0 < a / (n * s v) := div_pos a0 (mul_pos hnK sv0)
  refine ⟨a * (m / n / s v), hst, ?_, ?_, ?_⟩
  · have e := hs.sq v hpos.le
    rw [← ha]
    have : a * (m / n / s v) * (a * (m / n / s v)) * (s v * s v) = a * a * (m / n * (m / n)) := by
      field_simp
    rw [e] at this
    exact this
  · rw [key]; exact mul_pos_iff_of_pos_right hq
  · rw [key]
    constructor
    · intro h
      by_contra hc
      exact absurd h (not_lt.2 (mul_nonneg (not_lt.1 hc) hq.le))
    · intro h; exact mul_neg_of_neg_of_pos h hq

/-! ### examples -/

example : ∃ v, dmVariance (K := ℚ) ((List.range 4).map fun t => some ((t : ℚ) * t)) 4 2 = some v ∧ 0 < v :=
  ⟨_, C23_variance_formula (K := ℚ) (fun t => (t : ℚ) * t) 4 2 (by decide) (by decide), by
    simp [autocovSpec, Finset.sum_range_succ]; norm_num⟩

/-- an integer-valued "square root" is enough to see the functions compute -/
example : dmVariance (K := ℚ) [some 1, some 3] 2 1 = some (1/2) := by decide +kernel

example : harveyTerm (K := ℚ) 4 2 = 6 / 16 := by decide +kernel

example : ∃ r, dieboldMariano (K := ℚ) (fun x => x) (fun _ _ => 1/4) .mad (fun _ => none) 1
    [some 1, some 2, some 5] [some 1, some 3, some 4] [some 2, some 2, some 2] = .ok r :=
  (C23_accepted _ _ _ _ _ _ _ _).2 ⟨rfl, rfl, by decide, by decide, by decide⟩

end Props
