import Verif.Props.DmStudent
import Verif.Spec.DmLimit
import Verif.Lemmas.StudentLimit
import Verif.Lemmas.LagProducts

/-! The statistic of the Diebold-Mariano test as a function of the days. -/

namespace Lemmas
open Np Model Spec Props MeasureTheory ProbabilityTheory Filter Topology

/-- the long-run variance estimate before the division by the number of days -/
noncomputable def longVar (d : ℕ → ℝ) (h n : ℕ) : ℝ :=
  autocovSpec d n ((∑ t ∈ Finset.range n, d t) / n) 0 +
    2 * ∑ k ∈ Finset.range (h - 1), autocovSpec d n ((∑ t ∈ Finset.range n, d t) / n) (k + 1)

/-- the statistic when the variance estimate is positive -/
noncomputable def dmValue (d : ℕ → ℝ) (h n : ℕ) : ℝ :=
  √(harveyTerm (K := ℝ) n h) * (((∑ t ∈ Finset.range n, d t) / n) / √(longVar d h n / n))

theorem dmStat_value (d : ℕ → ℝ) {n h : ℕ} (h1 : 1 ≤ h) (hn : h < n) (hv : 0 < longVar d h n) :
    dmStat Real.sqrt ((List.range n).map fun t => some (d t)) n h = .num (dmValue d h n) := by
  have hnR : (0 : ℝ) < n := by exact_mod_cast (by omega : 0 < n)
  have hne : (List.range n).map d ≠ [] := by simp; omega
  have hm : mean ((List.range n).map fun t => some (d t)) = some ((∑ t ∈ Finset.range n, d t) / n) := by
    have := mean_some _ hne
    rw [List.map_map, List.length_map, List.length_range, list_sum_range] at this
    exact this
  have hh := (C23_harvey (K := ℝ) n h h1 hn).1
  have hp : 0 < longVar d h n / n := div_pos hv hnR
  have hv' := C23_variance_formula d n h h1 hn
  rw [← longVar] at hv'
  unfold dmStat dmRaw dmValue
  rw [hm, hv']
  simp only [Fl.sqrt, hh.le, hp.le, if_true, Ext.divFl, (Real.sqrt_pos.2 hp).ne', if_false, Ext.mulFl]

theorem dmStat_const {m : ℝ} (hm0 : 0 < m) {n h : ℕ} (h1 : 1 ≤ h) (hn : h < n) :
    dmStat Real.sqrt ((List.range n).map fun _ => some m) n h = .pinf := by
  have hnR : (0 : ℝ) < n := by exact_mod_cast (by omega : 0 < n)
  have hne : (List.range n).map (fun _ => m) ≠ [] := by simp; omega
  have hs : (∑ _t ∈ Finset.range n, m) / n = m := by
    rw [Finset.sum_const, Finset.card_range, nsmul_eq_mul]; field_simp
  have hm : mean ((List.range n).map fun _ => some m) = some m := by
    have := mean_some _ hne
    rw [List.map_map, List.length_map, List.length_range, list_sum_range, hs] at this
    exact this
  have hh := (C23_harvey (K := ℝ) n h h1 hn).1
  have hv' := C23_variance_formula (fun _ => m) n h h1 hn
  rw [hs] at hv'
  simp only [autocovSpec, sub_self, mul_zero, Finset.sum_const_zero, zero_div, add_zero] at hv'
  unfold dmStat dmRaw
  rw [hm, hv']
  simp [Fl.sqrt, hh.le, Ext.divFl, Ext.mulFl, hm0, Real.sqrt_pos.2 hh]

/-- the call on the first `n` days -/
theorem dm_days {Ω : Type} (f : ℝ → ℝ) {crit : Crit} (hc : crit ≠ .unsupported) {a p q : ℕ → Ω → ℝ} {ω : Ω}
    (ha : crit = .mape → ∀ t, a t ω ≠ 0) {h n : ℕ} (h1 : 1 ≤ h) (hn : h < n) :
    dieboldMariano Real.sqrt studentCdf crit (fun x => some (f x)) h (firstDays a n ω) (firstDays p n ω)
      (firstDays q n ω) =
    .ok (dmStat Real.sqrt ((List.range n).map fun t => some (dayGap f crit a p q t ω)) n h,
      twiceCdf studentCdf (n - 1)
        (Ext.neg (Ext.abs (dmStat Real.sqrt ((List.range n).map fun t => some (dayGap f crit a p q t ω)) n h)))) := by
  have hd : lossDiff crit (fun x => some (f x)) (firstDays a n ω) (firstDays p n ω) (firstDays q n ω) =
      (List.range n).map fun t => some (dayGap f crit a p q t ω) := by
    unfold lossDiff firstDays
    apply List.ext_getElem
    · simp
    · intro i i1 i2
      simp only [List.getElem_zipWith, List.getElem_map, List.getElem_range]
      rw [loss_some f hc (fun e => ha e i), loss_some f hc (fun e => ha e i)]
      rfl
  unfold dieboldMariano
  rw [hd]
  simp only [firstDays, List.length_map, List.length_range, and_self, if_true, Int.toNat_natCast]
  rw [if_pos (by exact_mod_cast h1), if_pos (by exact_mod_cast hn), if_neg hc]

/-! ### limits -/

/-- a limit of autocovariances from limits of averages -/
theorem autocov_limit {d : ℕ → ℝ} {k : ℕ} {c m : ℝ}
    (h1 : Tendsto (fun n : ℕ => (∑ t ∈ Finset.range n, d (t + k) * d t) / n) atTop (𝓝 c))
    (h2 : Tendsto (fun n : ℕ => (∑ t ∈ Finset.range n, d (t + k)) / n) atTop (𝓝 m))
    (h3 : Tendsto (fun n : ℕ => (∑ t ∈ Finset.range n, d t) / n) atTop (𝓝 m)) :
    Tendsto (fun n => autocovSpec d n ((∑ t ∈ Finset.range n, d t) / n) k) atTop (𝓝 (c - m ^ 2)) := by
  have hs := tendsto_sub_atTop_nat k
  have h := ((h1.comp hs).sub (h3.mul ((h2.comp hs).add (h3.comp hs)))).add (h3.mul h3)
  have e : c - m * (m + m) + m * m = c - m ^ 2 := by ring
  rw [e] at h
  refine h.congr' ?_
  filter_upwards [eventually_gt_atTop k] with n hn
  have hN : (0 : ℝ) < ((n - k : ℕ) : ℝ) := by exact_mod_cast (by omega : 0 < n - k)
  unfold autocovSpec
  simp only [Function.comp_apply]
  generalize (∑ t ∈ Finset.range n, d t) / (n : ℝ) = m'
  have : ∑ t ∈ Finset.range (n - k), (d (t + k) - m') * (d t - m') =
      ∑ t ∈ Finset.range (n - k), d (t + k) * d t - m' * (∑ t ∈ Finset.range (n - k), d (t + k) +
        ∑ t ∈ Finset.range (n - k), d t) + ((n - k : ℕ) : ℝ) * (m' * m') := by
    have e : ∀ t, (d (t + k) - m') * (d t - m') = d (t + k) * d t - m' * (d (t + k) + d t) + m' * m' := by
      intro t; ring
    simp only [e, Finset.sum_add_distrib, Finset.sum_sub_distrib, ← Finset.mul_sum, Finset.sum_const, Finset.card_range,
      nsmul_eq_mul]
    ring
  rw [this]
  field_simp

section
variable {Ω : Type} [MeasurableSpace Ω] {P : Measure Ω} [IsProbabilityMeasure P] {D : ℕ → Ω → ℝ}

/-- the variance estimate settles at the variance -/
theorem longVar_limit (hi : iIndepFun D P) (hs : ∀ t, IdentDistrib (D t) (D 0) P P) (h2 : MemLp (D 0) 2 P) (h : ℕ) :
    ∀ᵐ ω ∂P, Tendsto (fun n => longVar (fun t => D t ω) h n) atTop (𝓝 (Var[D 0; P])) := by
  have hv : Var[D 0; P] = ∫ ω, D 0 ω * D 0 ω ∂P - (∫ ω, D 0 ω ∂P) ^ 2 := by
    rw [variance_eq_sub h2]
    congr 1
    exact integral_congr_ae (Eventually.of_forall fun ω => by simp [sq])
  have h0 := lag_average hi hs h2 0
  have hsq := square_average hi hs h2
  have hk : ∀ᵐ ω ∂P, ∀ k, Tendsto (fun n : ℕ => (∑ t ∈ Finset.range n, D (t + (k + 1)) ω * D t ω) / n) atTop
      (𝓝 ((∫ ω, D 0 ω ∂P) ^ 2)) := ae_all_iff.2 fun k => lag_products hi hs h2 (by omega)
  have hl : ∀ᵐ ω ∂P, ∀ k, Tendsto (fun n : ℕ => (∑ t ∈ Finset.range n, D (t + (k + 1)) ω) / n) atTop
      (𝓝 (∫ ω, D 0 ω ∂P)) := ae_all_iff.2 fun k => lag_average hi hs h2 _
  filter_upwards [h0, hsq, hk, hl] with ω w0 w1 w2 w3
  have a0 := autocov_limit (d := fun t => D t ω) (k := 0) w1 w0 w0
  have ak := fun k => autocov_limit (d := fun t => D t ω) (k := k + 1) (w2 k) (w3 k) w0
  have := a0.add ((tendsto_finsetSum (Finset.range (h - 1)) fun k _ => ak k).const_mul 2)
  simp only [sub_self, Finset.sum_const_zero, mul_zero, add_zero] at this
  rw [hv]
  exact this

end

theorem harvey_limit (h : ℕ) : Tendsto (fun n : ℕ => harveyTerm (K := ℝ) n h) atTop (𝓝 1) := by
  have i := tendsto_inv_atTop_nhds_zero_nat (𝕜 := ℝ)
  have := ((tendsto_const_nhds (x := (1 : ℝ))).add (i.const_mul (1 - 2 * (h : ℝ)))).add
    ((i.mul i).const_mul ((h : ℝ) * ((h : ℝ) - 1)))
  simp only [mul_zero, add_zero] at this
  refine this.congr' ?_
  filter_upwards [eventually_gt_atTop 0] with n hn
  have hnR : (n : ℝ) ≠ 0 := by exact_mod_cast hn.ne'
  unfold harveyTerm
  field_simp
  ring

/-- the statistic is a random number close to one times the normalised sum -/
theorem dmValue_split (d : ℕ → ℝ) (h n : ℕ) :
    dmValue d h n = (√n)⁻¹ * (∑ t ∈ Finset.range n, d t) * (√(harveyTerm (K := ℝ) n h) * (√(longVar d h n))⁻¹) := by
  unfold dmValue
  rcases Nat.eq_zero_or_pos n with rfl | hn
  · simp
  have hnR : (0 : ℝ) < n := by exact_mod_cast hn
  have hs : √(n : ℝ) * √(n : ℝ) = n := Real.mul_self_sqrt hnR.le
  have hsp : 0 < √(n : ℝ) := Real.sqrt_pos.2 hnR
  rw [Real.sqrt_div' _ hnR.le, div_div_eq_mul_div]
  have e : (∑ t ∈ Finset.range n, d t) / n * √(n : ℝ) = (√(n : ℝ))⁻¹ * ∑ t ∈ Finset.range n, d t := by
    rw [eq_comm, inv_mul_eq_div, div_mul_eq_mul_div, div_eq_div_iff hsp.ne' hnR.ne', mul_assoc, hs]
  rw [e]
  ring

end Lemmas
