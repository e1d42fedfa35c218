import Verif.Props.Significance
import Verif.Spec.DmSign

/-!
# C124: the sign of the Diebold-Mariano statistic
-/

set_option linter.unusedSectionVars false

namespace Props
open Np Model Spec

variable {K : Type} [Field K] [LinearOrder K] [IsStrictOrderedRing K]

/-- the loss of complete data is the textbook loss -/
theorem loss_some (f : K → K) {crit : Crit} (hc : crit ≠ .unsupported) {a p : K} (ha : crit = .mape → a ≠ 0) :
    loss crit (fun x => some (f x)) (some a) (some p) = some (lossVal f crit a p) := by
  cases crit with
  | mse => simp [loss, lossVal, Fl.sub, Fl.lift2, Fl.sq, sq]
  | mad => simp [loss, lossVal, Fl.sub, Fl.lift2, Fl.abs]
  | mape => simp [loss, lossVal, Fl.sub, Fl.lift2, Fl.abs, Fl.div, ha rfl]
  | poly => simp [loss, lossVal, Fl.sub, Fl.lift2]
  | unsupported => exact absurd rfl hc

theorem losses_some (f : K → K) {crit : Crit} (hc : crit ≠ .unsupported) (a p : List K)
    (ha : crit = .mape → ∀ x ∈ a, x ≠ 0) :
    List.zipWith (loss crit fun x => some (f x)) (a.map some) (p.map some) =
      (List.zipWith (lossVal f crit) a p).map some := by
  induction a generalizing p with
  | nil => simp
  | cons x a ih =>
    cases p with
    | nil => simp
    | cons y p =>
      simp only [List.map_cons, List.zipWith_cons_cons]
      rw [loss_some f hc (fun h => ha h x (by simp)), ih p (fun h z hz => ha h z (by simp [hz]))]

theorem lossDiff_some (f : K → K) {crit : Crit} (hc : crit ≠ .unsupported) (a p q : List K)
    (ha : crit = .mape → ∀ x ∈ a, x ≠ 0) :
    lossDiff crit (fun x => some (f x)) (a.map some) (p.map some) (q.map some) =
      (lossGaps f crit a p q).map some := by
  unfold lossDiff lossGaps
  rw [losses_some f hc a p ha, losses_some f hc a q ha, List.zipWith_map, List.map_zipWith]
  rfl

theorem sum_zipWith_sub (l m : List K) (h : l.length = m.length) :
    (List.zipWith (· - ·) l m).sum = l.sum - m.sum := by
  induction l generalizing m with
  | nil => cases m with
    | nil => simp
    | cons => simp at h
  | cons x l ih =>
    cases m with
    | nil => simp at h
    | cons y m =>
      simp only [List.zipWith_cons_cons, List.sum_cons, ih m (by simpa using h)]
      ring

theorem lossGaps_length (f : K → K) (crit : Crit) {a p q : List K} (h1 : a.length = p.length)
    (h2 : p.length = q.length) : (lossGaps f crit a p q).length = a.length := by
  simp [lossGaps, ← h2, ← h1]

theorem lossGaps_sum (f : K → K) (crit : Crit) {a p q : List K} (h2 : p.length = q.length) :
    (lossGaps f crit a p q).sum = totalLoss f crit a p - totalLoss f crit a q := by
  unfold lossGaps totalLoss
  exact sum_zipWith_sub _ _ (by simp [h2])

/-- the textbook variance estimate of the mean of the numbers `d`: `(γ₀ + 2 ∑_{0<k<h} γ_k) / n` -/
def varEstimate (d : List K) (h : ℕ) : K :=
  (autocovSpec (fun t => d.getD t 0) d.length (d.sum / d.length) 0 +
    2 * ∑ k ∈ Finset.range (h - 1), autocovSpec (fun t => d.getD t 0) d.length (d.sum / d.length) (k + 1)) /
      d.length

theorem range_getD (d : List K) : ((List.range d.length).map fun t => d.getD t 0) = d := by
  apply List.ext_getElem
  · simp
  · intro i h1 h2
    simp [h2]

theorem dmVariance_estimate (d : List K) (h : ℕ) (h1 : 1 ≤ h) (hn : h < d.length) :
    dmVariance (d.map some) d.length h = some (varEstimate d h) := by
  have e := C23_variance_formula (fun t => d.getD t 0) d.length h h1 hn
  have hd : ((List.range d.length).map fun t => some (d.getD t 0)) = d.map some := by
    have := congrArg (List.map some) (range_getD d)
    rw [List.map_map] at this
    exact this
  have hs : ∑ t ∈ Finset.range d.length, d.getD t 0 = d.sum := by
    rw [← list_sum_range (fun t => d.getD t 0), range_getD]
  rw [hd, hs] at e
  exact e

/-- every case of the statistic of complete data -/
theorem dmStat_cases {s : K → K} (hs : IsSqrt s) (d : List K) (h : ℕ) (h1 : 1 ≤ h) (hn : h < d.length) :
    (varEstimate d h < 0 ∧ dmStat s (d.map some) d.length h = .nan) ∨
    (varEstimate d h = 0 ∧ ((0 < d.sum ∧ dmStat s (d.map some) d.length h = .pinf) ∨
      (d.sum < 0 ∧ dmStat s (d.map some) d.length h = .ninf) ∨
      (d.sum = 0 ∧ dmStat s (d.map some) d.length h = .nan))) ∨
    (0 < varEstimate d h ∧ ∃ c : K, 0 < c ∧ dmStat s (d.map some) d.length h = .num (c * d.sum)) := by
  obtain ⟨a, a0, _, _, hst⟩ := C23_shrinks hs (d.map some) d.length h h1 hn
  have hne : d ≠ [] := by rintro rfl; simp at hn
  have hm := mean_some d hne
  have hnK : (0 : K) < d.length := by exact_mod_cast (by omega : 0 < d.length)
  have hraw : dmRaw s (d.map some) d.length h =
      Ext.divFl (some (d.sum / d.length)) (Fl.sqrt s (some (varEstimate d h))) := by
    unfold dmRaw
    rw [hm, dmVariance_estimate d h h1 hn]
  rcases lt_trichotomy (varEstimate d h) 0 with hv | hv | hv
  · refine Or.inl ⟨hv, ?_⟩
    rw [hst, hraw]
    simp [Fl.sqrt, not_le.2 hv, Ext.divFl]
  · refine Or.inr (Or.inl ⟨hv, ?_⟩)
    have s0 : s 0 = 0 := by
      have := hs.sq 0 le_rfl
      simpa using this
    rcases lt_trichotomy d.sum 0 with hd | hd | hd
    · refine Or.inr (Or.inl ⟨hd, ?_⟩)
      have hq : d.sum / d.length < 0 := div_neg_of_neg_of_pos hd hnK
      rw [hst, hraw, hv]
      simp [Fl.sqrt, s0, Ext.divFl, hq, not_lt.2 hq.le]
    · refine Or.inr (Or.inr ⟨hd, ?_⟩)
      rw [hst, hraw, hv, hd]
      simp [Fl.sqrt, s0, Ext.divFl]
    · refine Or.inl ⟨hd, ?_⟩
      have hq : 0 < d.sum / d.length := div_pos hd hnK
      rw [hst, hraw, hv]
      simp [Fl.sqrt, s0, Ext.divFl, hq]
  · refine Or.inr (Or.inr ⟨hv, a / (d.length * s (varEstimate d h)), ?_, ?_⟩)
    all_goals
      have sv0 : 0 < s (varEstimate d h) := by
        rcases (hs.nonneg _ hv.le).eq_or_lt with h0 | h0
        · have := hs.sq _ hv.le
          rw [← h0] at this; simp at this; exact absurd this hv.ne
        · exact h0
    · exact div_pos a0 (mul_pos hnK sv0)
    · rw [hst, hraw]
      simp only [Fl.sqrt, hv.le, if_true, Ext.divFl, sv0.ne', if_false]
      congr 1
      field_simp

/-- with `h = 1` the estimate is non-negative, and zero exactly for equal numbers -/
theorem varEstimate_one (d : List K) (hn : 1 < d.length) :
    0 ≤ varEstimate d 1 ∧ (varEstimate d 1 = 0 ↔ ∀ x ∈ d, ∀ y ∈ d, x = y) := by
  have hnK : (0 : K) < d.length := by exact_mod_cast (by omega : 0 < d.length)
  have e : varEstimate d 1 = (∑ t ∈ Finset.range d.length,
      (d.getD t 0 - d.sum / d.length) * (d.getD t 0 - d.sum / d.length)) / d.length / d.length := by
    simp [varEstimate, autocovSpec]
  have hnn : 0 ≤ ∑ t ∈ Finset.range d.length,
      (d.getD t 0 - d.sum / d.length) * (d.getD t 0 - d.sum / d.length) :=
    Finset.sum_nonneg fun t _ => mul_self_nonneg _
  refine ⟨by rw [e]; positivity, ?_⟩
  rw [e, div_eq_zero_iff, div_eq_zero_iff]
  simp only [hnK.ne', or_false]
  rw [Finset.sum_eq_zero_iff_of_nonneg fun t _ => mul_self_nonneg _]
  constructor
  · intro h0
    have hx : ∀ x ∈ d, x = d.sum / d.length := by
      intro x hx
      obtain ⟨i, hi, rfl⟩ := List.mem_iff_getElem.1 hx
      have := h0 i (Finset.mem_range.2 hi)
      rw [mul_self_eq_zero, sub_eq_zero] at this
      simpa [hi] using this
    intro x hx' y hy'
    rw [hx x hx', hx y hy']
  · intro heq t ht
    have ht' := Finset.mem_range.1 ht
    have hall : ∀ x ∈ d, x = d[t] := fun x hx => heq x hx _ (List.getElem_mem ht')
    have hs : d.sum = d.length * d[t] := by
      have := List.sum_eq_card_nsmul d d[t] hall
      simpa using this
    rw [mul_self_eq_zero, sub_eq_zero, hs, mul_div_cancel_left₀ _ hnK.ne']
    simp [ht']

section
variable {s : K → K} (hs : IsSqrt s) (tcdf : Nat → K → K) (f : K → K) {crit : Crit} {h : Int} {a p q : List K}
  {stat pv : Ext K}
include hs

/-- the accepted call computes the statistic of the differences of the losses -/
theorem dm_result (ha : crit = .mape → ∀ x ∈ a, x ≠ 0)
    (hr : dieboldMariano s tcdf crit (fun x => some (f x)) h (a.map some) (p.map some) (q.map some) =
      .ok (stat, pv)) :
    ∃ k : ℕ, h = k ∧ 1 ≤ k ∧ k < (lossGaps f crit a p q).length ∧
      (lossGaps f crit a p q).length = a.length ∧ p.length = q.length ∧
      stat = dmStat s ((lossGaps f crit a p q).map some) (lossGaps f crit a p q).length k ∧
      pv = twiceCdf tcdf (a.length - 1) (Ext.neg (Ext.abs stat)) := by
  obtain ⟨e1, e2, g1, g2, hc⟩ := (C23_accepted s tcdf crit _ h _ _ _).1 ⟨_, hr⟩
  simp only [List.length_map] at e1 e2 g2
  unfold dieboldMariano at hr
  simp only [List.length_map] at hr
  rw [if_pos ⟨e1, e2⟩, if_pos g1, if_pos g2, if_neg hc, lossDiff_some f hc a p q ha] at hr
  have hl := lossGaps_length f crit e1 e2
  injection hr with hr
  simp only [Prod.mk.injEq] at hr
  refine ⟨h.toNat, by omega, by omega, by omega, hl, e2, ?_, ?_⟩
  · rw [hl]; exact hr.1.symm
  · rw [← hr.1]; exact hr.2.symm

/-- **C124** (sign): on complete data, for every criterion and accepted horizon, a result that is not NaN has the
sign of the difference of the total losses: positive exactly if the first forecast loses more, negative exactly if it
loses less, zero exactly if both lose the same. -/
theorem C124_sign (ha : crit = .mape → ∀ x ∈ a, x ≠ 0)
    (hr : dieboldMariano s tcdf crit (fun x => some (f x)) h (a.map some) (p.map some) (q.map some) =
      .ok (stat, pv)) (hnan : stat ≠ .nan) :
    (Positive stat ↔ totalLoss f crit a q < totalLoss f crit a p) ∧
    (Negative stat ↔ totalLoss f crit a p < totalLoss f crit a q) ∧
    (stat = .num 0 ↔ totalLoss f crit a p = totalLoss f crit a q) := by
  obtain ⟨k, -, k1, k2, -, e2, hst, -⟩ := dm_result hs tcdf f ha hr
  have hsum := lossGaps_sum f crit (a := a) e2
  rw [← sub_pos, ← hsum, ← sub_neg (a := totalLoss f crit a p), ← hsum, ← sub_eq_zero (a := totalLoss f crit a p), ← hsum]
  rcases dmStat_cases hs (lossGaps f crit a p q) k k1 k2 with ⟨-, e⟩ | ⟨-, ⟨g, e⟩ | ⟨g, e⟩ | ⟨g, e⟩⟩ | ⟨-, c, c0, e⟩
  · exact absurd (hst.trans e) hnan
  · rw [hst, e]
    exact ⟨by simp [Positive, g], by simp [Negative, g.le], by simp [g.ne']⟩
  · rw [hst, e]
    exact ⟨by simp [Positive, g.le], by simp [Negative, g], by simp [g.ne]⟩
  · exact absurd (hst.trans e) hnan
  · rw [hst, e]
    refine ⟨mul_pos_iff_of_pos_left c0, ?_, ?_⟩
    · simp only [Negative]
      exact ⟨fun g => by by_contra hc; exact absurd g (not_lt.2 (mul_nonneg c0.le (not_lt.1 hc))),
        fun g => mul_neg_of_pos_of_neg c0 g⟩
    · simp [c0.ne']

/-- **C124** (NaN and infinities): the result is NaN exactly if the variance estimate is negative, or zero while the
total losses agree; it is infinite exactly if the estimate is zero and the total losses differ, and then the p-value
is 0. -/
theorem C124_special (ha : crit = .mape → ∀ x ∈ a, x ≠ 0)
    (hr : dieboldMariano s tcdf crit (fun x => some (f x)) h (a.map some) (p.map some) (q.map some) =
      .ok (stat, pv)) :
    (stat = .nan ↔ varEstimate (lossGaps f crit a p q) h.toNat < 0 ∨
      (varEstimate (lossGaps f crit a p q) h.toNat = 0 ∧ totalLoss f crit a p = totalLoss f crit a q)) ∧
    (IsInfinite stat ↔ varEstimate (lossGaps f crit a p q) h.toNat = 0 ∧
      totalLoss f crit a p ≠ totalLoss f crit a q) ∧
    (IsInfinite stat → pv = .num 0) := by
  obtain ⟨k, rfl, k1, k2, -, e2, hst, hpv⟩ := dm_result hs tcdf f ha hr
  have hsum := lossGaps_sum f crit (a := a) e2
  rw [Int.toNat_natCast, ne_eq, ← sub_eq_zero (a := totalLoss f crit a p), ← hsum]
  refine ⟨?_, ?_, fun hi => ?_⟩
  · rcases dmStat_cases hs (lossGaps f crit a p q) k k1 k2 with
      ⟨v, e⟩ | ⟨v, ⟨g, e⟩ | ⟨g, e⟩ | ⟨g, e⟩⟩ | ⟨v, c, c0, e⟩
    · simp [hst, e, v]
    · simp [hst, e, v, g.ne']
    · simp [hst, e, v, g.ne]
    · simp [hst, e, v, g]
    · simp [hst, e, v.ne', v.le]
  · rcases dmStat_cases hs (lossGaps f crit a p q) k k1 k2 with
      ⟨v, e⟩ | ⟨v, ⟨g, e⟩ | ⟨g, e⟩ | ⟨g, e⟩⟩ | ⟨v, c, c0, e⟩
    · simp [hst, e, v.ne, IsInfinite]
    · simp [hst, e, v, g.ne', IsInfinite]
    · simp [hst, e, v, g.ne, IsInfinite]
    · simp [hst, e, v, g, IsInfinite]
    · simp [hst, e, v.ne', IsInfinite]
  · cases stat with
    | num v => exact hi.elim
    | nan => exact hi.elim
    | pinf => exact hpv
    | ninf => exact hpv

/-- **C124** (`h = 1`): one step ahead the result is NaN exactly if the two forecasts have the same loss at every
position, infinite exactly if the first loses the same non-zero amount more (or less) than the second at every
position, and a number in every other case. -/
theorem C124_one (ha : crit = .mape → ∀ x ∈ a, x ≠ 0)
    (hr : dieboldMariano s tcdf crit (fun x => some (f x)) 1 (a.map some) (p.map some) (q.map some) =
      .ok (stat, pv)) :
    (stat = .nan ↔ ∀ g ∈ lossGaps f crit a p q, g = 0) ∧
    (IsInfinite stat ↔ ∃ c, c ≠ 0 ∧ ∀ g ∈ lossGaps f crit a p q, g = c) := by
  obtain ⟨hn, hi, -⟩ := C124_special hs tcdf f ha hr
  obtain ⟨k, hk, k1, k2, -, e2, -, -⟩ := dm_result hs tcdf f ha hr
  obtain rfl : k = 1 := by omega
  have hsum := lossGaps_sum f crit (a := a) e2
  rw [← sub_eq_zero (a := totalLoss f crit a p), ← hsum] at hn
  rw [ne_eq, ← sub_eq_zero (a := totalLoss f crit a p), ← hsum] at hi
  rw [hn, hi]
  obtain ⟨v0, v1⟩ := varEstimate_one (lossGaps f crit a p q) k2
  rw [show (1 : Int).toNat = 1 from rfl, v1]
  generalize lossGaps f crit a p q = d at *
  have hnK : (d.length : K) ≠ 0 := by exact_mod_cast (by omega : d.length ≠ 0)
  have hconst : ∀ c, (∀ g ∈ d, g = c) → d.sum = d.length * c := by
    intro c hc
    have := List.sum_eq_card_nsmul d c hc
    simpa using this
  obtain ⟨x0, hx0⟩ : ∃ x, x ∈ d := ⟨d[0], List.getElem_mem _⟩
  constructor
  · constructor
    · rintro (h | ⟨h, hz⟩)
      · exact absurd h (not_lt.2 v0)
      · intro g hg
        have := hconst g fun x hx => h x hx g hg
        rw [hz] at this
        exact ((mul_eq_zero.1 this.symm).resolve_left hnK)
    · intro h
      exact Or.inr ⟨fun x hx y hy => by rw [h x hx, h y hy], by rw [hconst 0 h, mul_zero]⟩
  · constructor
    · rintro ⟨h, hz⟩
      refine ⟨x0, ?_, fun g hg => h g hg x0 hx0⟩
      rintro rfl
      exact hz (by rw [hconst 0 fun g hg => h g hg 0 hx0, mul_zero])
    · rintro ⟨c, c0, h⟩
      exact ⟨fun x hx y hy => by rw [h x hx, h y hy], by rw [hconst c h]; exact mul_ne_zero hnK c0⟩

end

/-! ### cases -/

/-- Two steps ahead a forecast that is worse on every second day has a negative variance estimate: although the
arguments are accepted, whatever root is taken, the result is NaN. -/
theorem C124_two (s : ℚ → ℚ) (tcdf : Nat → ℚ → ℚ) :
    dieboldMariano s tcdf .mad (fun x => some x) 2 ([0, 0, 0, 0].map some) ([3, 1, 3, 1].map some)
      ([1, 2, 1, 2].map some) = .ok (.nan, .nan) := by
  have e : lossDiff (K := ℚ) .mad (fun x => some x) ([0, 0, 0, 0].map some) ([3, 1, 3, 1].map some)
      ([1, 2, 1, 2].map some) = [some 2, some (-1), some 2, some (-1)] := by decide +kernel
  have v : dmVariance (K := ℚ) [some 2, some (-1), some 2, some (-1)] 4 2 = some (-9 / 16) := by decide +kernel
  have d : dmStat s [some 2, some (-1), some 2, some (-1)] 4 2 = .nan := by
    unfold dmStat dmRaw
    rw [v]
    have hm : mean (K := ℚ) [some 2, some (-1), some 2, some (-1)] = some (1 / 2) := by decide +kernel
    rw [hm]
    have h0 : (0 : ℚ) ≤ harveyTerm 4 2 := by decide +kernel
    have h1 : ¬ (0 : ℚ) ≤ -9 / 16 := by decide +kernel
    simp only [Fl.sqrt, h0, h1, if_true, if_false, Ext.divFl, Ext.mulFl]
  unfold dieboldMariano
  simp only [List.length_map, e]
  simp [d, Ext.abs, Ext.neg, twiceCdf]

/-- The hypotheses of the theorems are met with a finite positive, an infinite and a NaN result. -/
example (s : ℚ → ℚ) (tcdf : Nat → ℚ → ℚ) :
    (∃ r, dieboldMariano s tcdf .mad (fun x => some x) 1 ([0, 0, 0].map some) ([3, 1, 3].map some)
      ([1, 2, 1].map some) = .ok r) ∧
    totalLoss (K := ℚ) id .mad [0, 0, 0] [1, 2, 1] < totalLoss id .mad [0, 0, 0] [3, 1, 3] ∧
    lossGaps (K := ℚ) id .mad [0, 0, 0] [3, 1, 3] [2, 0, 2] = [1, 1, 1] ∧
    lossGaps (K := ℚ) id .mse [0, 0, 0] [3, 1, 3] [-3, -1, 3] = [0, 0, 0] := by
  refine ⟨(C23_accepted s tcdf .mad _ 1 _ _ _).2 ⟨by simp, by simp, by norm_num, by simp, by simp⟩, ?_, ?_, ?_⟩ <;>
    decide +kernel

end Props
