import Verif.Props.DmSign
import Verif.Lemmas.Student
import Mathlib.Analysis.SpecialFunctions.Pow.NNReal

/-!
# C125: the p-value of the Diebold-Mariano test
-/

namespace Props
open Np Model Spec Lemmas MeasureTheory Filter Topology

section
variable {s : ℝ → ℝ} {crit : Crit} {pw : ℝ → Fl ℝ} {h : Int} {a p q : List (Fl ℝ)} {stat pv : Ext ℝ}

/-- the p-value in terms of the statistic -/
theorem dm_pvalue (hr : dieboldMariano s studentCdf crit pw h a p q = .ok (stat, pv)) :
    1 ≤ a.length - 1 ∧ pv = twiceCdf studentCdf (a.length - 1) (Ext.neg (Ext.abs stat)) := by
  obtain ⟨-, -, g1, g2, -⟩ := (C23_accepted s studentCdf crit pw h a p q).1 ⟨_, hr⟩
  refine ⟨by omega, ?_⟩
  unfold dieboldMariano at hr
  simp only at hr
  split_ifs at hr
  injection hr with hr
  simp only [Prod.mk.injEq] at hr
  rw [← hr.1]; exact hr.2.symm

/-- **C125** (what the p-value is): the p-value of a finite statistic `x` of `n` positions is the probability that a
number drawn from Student's distribution with `n - 1` degrees of freedom is at least as far from 0 as `x`.  It is
positive and at most 1. -/
theorem C125_tails {x : ℝ} (hr : dieboldMariano s studentCdf crit pw h a p q = .ok (.num x, pv)) :
    pv = .num (studentTails (a.length - 1) x) ∧ 0 < studentTails (a.length - 1) x ∧
      studentTails (a.length - 1) x ≤ 1 := by
  obtain ⟨hν, hpv⟩ := dm_pvalue hr
  have e := studentTails_eq hν x
  refine ⟨by rw [hpv, e]; rfl, by rw [e]; linarith [studentCdf_pos hν (-|x|)], ?_⟩
  have := (studentCdf_strictMono hν).monotone (show -|x| ≤ 0 by simp)
  rw [studentCdf_zero hν] at this
  rw [e]; linarith

/-- **C125** (special values): a NaN statistic has a NaN p-value; an infinite one has the p-value 0, which is the limit
of the p-values of statistics that grow without bound. -/
theorem C125_special (hr : dieboldMariano s studentCdf crit pw h a p q = .ok (stat, pv)) :
    (stat = .nan ↔ pv = .nan) ∧ (IsInfinite stat ↔ pv = .num 0) ∧
      Tendsto (studentTails (a.length - 1)) atTop (𝓝 0) := by
  obtain ⟨hν, hpv⟩ := dm_pvalue hr
  refine ⟨?_, ?_, ?_⟩
  · rw [hpv]; cases stat <;> simp [twiceCdf, Ext.neg, Ext.abs]
  · rw [hpv]
    cases stat with
    | num x =>
      simp only [IsInfinite, twiceCdf, Ext.neg, Ext.abs, Ext.num.injEq, false_iff]
      have := studentCdf_pos hν (-|x|)
      exact (by linarith : (0 : ℝ) < 2 * studentCdf (a.length - 1) (-|x|)).ne'
    | nan => simp [twiceCdf, Ext.neg, Ext.abs, IsInfinite]
    | pinf => simp [twiceCdf, Ext.neg, Ext.abs, IsInfinite]
    | ninf => simp [twiceCdf, Ext.neg, Ext.abs, IsInfinite]
  · have h1 : Tendsto (fun x : ℝ => 2 * studentCdf (a.length - 1) (-|x|)) atTop (𝓝 (2 * 0)) :=
      ((studentCdf_atBot hν).comp (tendsto_neg_atTop_atBot.comp tendsto_abs_atTop_atTop)).const_mul 2
    rw [mul_zero] at h1
    exact h1.congr fun x => (studentTails_eq hν x).symm

/-- **C125** (order): of two tests of the same length the one with the statistic farther from 0 has the smaller
p-value, whatever the series, criteria and horizons. -/
theorem C125_order {crit' : Crit} {pw' : ℝ → Fl ℝ} {h' : Int} {a' p' q' : List (Fl ℝ)} {x x' v v' : ℝ}
    (hr : dieboldMariano s studentCdf crit pw h a p q = .ok (.num x, .num v))
    (hr' : dieboldMariano s studentCdf crit' pw' h' a' p' q' = .ok (.num x', .num v'))
    (hl : a.length = a'.length) : |x| < |x'| ↔ v' < v := by
  obtain ⟨hν, -⟩ := dm_pvalue hr
  obtain ⟨e, -⟩ := C125_tails hr
  obtain ⟨e', -⟩ := C125_tails hr'
  rw [← hl] at e'
  injection e with e
  injection e' with e'
  rw [e, e', studentTails_eq hν, studentTails_eq hν, mul_lt_mul_iff_right₀ (by norm_num : (0 : ℝ) < 2),
    (studentCdf_strictMono hν).lt_iff_lt, neg_lt_neg_iff]

end

/-- **C125** (p-value 1): on complete data the p-value is 1 exactly if the statistic is the number 0, which for a
statistic that is not NaN means equal total losses. -/
theorem C125_one {s : ℝ → ℝ} (hs : IsSqrt s) (f : ℝ → ℝ) {crit : Crit} {h : Int} {a p q : List ℝ} {stat pv : Ext ℝ}
    (ha : crit = .mape → ∀ x ∈ a, x ≠ 0)
    (hr : dieboldMariano s studentCdf crit (fun x => some (f x)) h (a.map some) (p.map some) (q.map some) =
      .ok (stat, pv)) :
    (pv = .num 1 ↔ stat = .num 0) ∧
    (stat ≠ .nan → (pv = .num 1 ↔ totalLoss f crit a p = totalLoss f crit a q)) := by
  obtain ⟨hν, hpv⟩ := dm_pvalue hr
  have key : pv = .num 1 ↔ stat = .num 0 := by
    rw [hpv]
    cases stat with
    | num x =>
      simp only [twiceCdf, Ext.neg, Ext.abs, Ext.num.injEq]
      have h0 := studentCdf_zero hν
      constructor
      · intro e
        have : studentCdf ((a.map some).length - 1) (-|x|) = studentCdf ((a.map some).length - 1) 0 := by
          rw [h0]; linarith
        have := (studentCdf_strictMono hν).injective this
        simpa using this
      · rintro rfl
        rw [abs_zero, neg_zero, h0]; norm_num
    | nan => simp [twiceCdf, Ext.neg, Ext.abs]
    | pinf => simp [twiceCdf, Ext.neg, Ext.abs]
    | ninf => simp [twiceCdf, Ext.neg, Ext.abs]
  exact ⟨key, fun hn => key.trans (C124_sign hs studentCdf f ha hr hn).2.2⟩

/-! ### cases -/

/-- the real square root -/
theorem sqrt_isSqrt : IsSqrt Real.sqrt := ⟨fun _ _ => Real.sqrt_nonneg _, fun _ hx => Real.mul_self_sqrt hx⟩

/-- Three days on which the first forecast misses by 3, 1, 3 and the second by 1, 2, 1: the test is accepted and its
statistic is a positive number, so the p-value is strictly between 0 and 1. -/
example : ∃ x v : ℝ, dieboldMariano Real.sqrt studentCdf .mad (fun x => some x) 1 ([0, 0, 0].map some)
    ([3, 1, 3].map some) ([1, 2, 1].map some) = .ok (.num x, .num v) ∧ 0 < x ∧ 0 < v ∧ v < 1 := by
  obtain ⟨⟨stat, pv⟩, hr⟩ := (C23_accepted Real.sqrt studentCdf .mad (fun x => some x) 1 ([0, 0, 0].map some)
    ([3, 1, 3].map some) ([1, 2, 1].map some)).2 ⟨by simp, by simp, by norm_num, by simp, by simp⟩
  have hg : lossGaps (id : ℝ → ℝ) .mad [0, 0, 0] [3, 1, 3] [1, 2, 1] = [2, -1, 2] := by
    norm_num [lossGaps, lossVal]
  have ho := C124_one sqrt_isSqrt studentCdf id (by simp) hr
  rw [hg] at ho
  have hnan : stat ≠ .nan := by
    intro e
    have := (ho.1.1 e) 2 (by simp)
    norm_num at this
  have hinf : ¬ IsInfinite stat := by
    intro e
    obtain ⟨c, -, hc⟩ := ho.2.1 e
    have h1 := hc 2 (by simp)
    have h2 := hc (-1) (by simp)
    rw [← h1] at h2
    norm_num at h2
  have hpos : Positive stat := (C124_sign sqrt_isSqrt studentCdf id (by simp) hr hnan).1.2 (by
    norm_num [totalLoss, lossVal])
  cases stat with
  | num x =>
    obtain ⟨hpv, v0, v1⟩ := C125_tails hr
    refine ⟨x, _, by rw [hr, hpv], hpos, v0, lt_of_le_of_ne v1 fun e => ?_⟩
    rw [e] at hpv
    have := (C125_one sqrt_isSqrt id (by simp) hr).1.1 hpv
    injection this with this
    exact absurd this (ne_of_gt hpos)
  | nan => exact absurd rfl hnan
  | pinf => exact absurd trivial hinf
  | ninf => exact absurd trivial hinf

end Props
