import Mathlib.Analysis.Complex.Exponential
import Mathlib.Analysis.SpecialFunctions.Complex.LogBounds
import Mathlib.Analysis.SpecialFunctions.Exp
import Mathlib.Analysis.Asymptotics.SpecificAsymptotics
import Mathlib.Analysis.Real.Sqrt

/-! Characteristic functions of resampled means: the numbers of a growing table, drawn at random. -/

namespace Lemmas
open Filter Topology Complex

/-- the third order remainder of the exponential on the imaginary axis -/
theorem exp_I_third {y : ℝ} (hy : |y| ≤ 1) :
    ‖Complex.exp (y * I) - (1 + y * I - (y : ℂ) ^ 2 / 2)‖ ≤ |y| ^ 3 := by
  have hn : ‖(y * I : ℂ)‖ = |y| := by simp
  have h := Complex.exp_bound (x := (y * I : ℂ)) (by rw [hn]; exact hy) (n := 3) (by norm_num)
  rw [hn] at h
  have e : ∑ m ∈ Finset.range 3, (y * I : ℂ) ^ m / m.factorial = 1 + y * I - (y : ℂ) ^ 2 / 2 := by
    simp only [Finset.sum_range_succ, Finset.sum_range_zero, Nat.factorial]
    have : (y * I : ℂ) ^ 2 = -(y : ℂ) ^ 2 := by rw [mul_pow, I_sq]; ring
    rw [this]
    push_cast
    ring
  rw [e] at h
  refine h.trans ?_
  have h0 : 0 ≤ |y| ^ 3 := by positivity
  have : ((3 : ℕ).succ : ℝ) * ((((3 : ℕ).factorial : ℕ) : ℝ) * ((3 : ℕ) : ℝ))⁻¹ ≤ 1 := by norm_num [Nat.factorial]
  calc |y| ^ 3 * (((3 : ℕ).succ : ℝ) * ((((3 : ℕ).factorial : ℕ) : ℝ) * ((3 : ℕ) : ℝ))⁻¹) ≤ |y| ^ 3 * 1 :=
        mul_le_mul_of_nonneg_left this h0
    _ = |y| ^ 3 := mul_one _

/-- powers of numbers of the unit disc -/
theorem pow_sub_pow_le {a b : ℂ} (ha : ‖a‖ ≤ 1) (hb : ‖b‖ ≤ 1) (n : ℕ) : ‖a ^ n - b ^ n‖ ≤ n * ‖a - b‖ := by
  induction n with
  | zero => simp
  | succ n ih =>
    have e : a ^ (n + 1) - b ^ (n + 1) = a * (a ^ n - b ^ n) + (a - b) * b ^ n := by ring
    rw [e]
    have h1 : ‖a * (a ^ n - b ^ n)‖ ≤ n * ‖a - b‖ := by
      rw [norm_mul]
      calc ‖a‖ * ‖a ^ n - b ^ n‖ ≤ 1 * (n * ‖a - b‖) :=
            mul_le_mul ha ih (norm_nonneg _) zero_le_one
        _ = _ := one_mul _
    have h2 : ‖(a - b) * b ^ n‖ ≤ ‖a - b‖ := by
      rw [norm_mul, norm_pow]
      exact mul_le_of_le_one_right (norm_nonneg _) (pow_le_one₀ (norm_nonneg _) hb)
    calc _ ≤ ‖a * (a ^ n - b ^ n)‖ + ‖(a - b) * b ^ n‖ := norm_add_le _ _
      _ ≤ n * ‖a - b‖ + ‖a - b‖ := add_le_add h1 h2
      _ = ((n + 1 : ℕ) : ℝ) * ‖a - b‖ := by push_cast; ring

/-- the average of `exp (i s y)` over the numbers `y 0, …, y (N - 1)` -/
noncomputable def ecf (y : ℕ → ℝ) (N : ℕ) (s : ℝ) : ℂ :=
  (∑ i ∈ Finset.range N, Complex.exp ((s * y i : ℝ) * I)) / N

theorem ecf_norm (y : ℕ → ℝ) (N : ℕ) (s : ℝ) : ‖ecf y N s‖ ≤ 1 := by
  unfold ecf
  rw [norm_div, Complex.norm_natCast]
  have h : ‖∑ i ∈ Finset.range N, Complex.exp ((s * y i : ℝ) * I)‖ ≤ N := by
    refine (norm_sum_le _ _).trans ?_
    simp only [Complex.norm_exp_ofReal_mul_I]
    simp
  exact div_le_one_of_le₀ h (Nat.cast_nonneg _)

/-- centred numbers: the average deviates from the parabola by the third order only -/
theorem ecf_near {y : ℕ → ℝ} {N : ℕ} (hN : 0 < N) (h0 : ∑ i ∈ Finset.range N, y i = 0) {s b : ℝ}
    (hb : ∀ i < N, |s * y i| ≤ b) (hb1 : b ≤ 1) :
    ‖ecf y N s - (1 - ((s ^ 2 * ((∑ i ∈ Finset.range N, y i ^ 2) / N) / 2 : ℝ) : ℂ))‖ ≤
      b * (s ^ 2 * ((∑ i ∈ Finset.range N, y i ^ 2) / N)) := by
  have hNc : (N : ℂ) ≠ 0 := by exact_mod_cast hN.ne'
  have hNr : (0 : ℝ) < N := by exact_mod_cast hN
  have e : ecf y N s - (1 - ((s ^ 2 * ((∑ i ∈ Finset.range N, y i ^ 2) / N) / 2 : ℝ) : ℂ)) =
      (∑ i ∈ Finset.range N, (Complex.exp ((s * y i : ℝ) * I) -
        (1 + (s * y i : ℝ) * I - ((s * y i : ℝ) : ℂ) ^ 2 / 2))) / N := by
    unfold ecf
    rw [Finset.sum_sub_distrib, Finset.sum_sub_distrib, Finset.sum_add_distrib]
    have h1 : ∑ i ∈ Finset.range N, ((s * y i : ℝ) : ℂ) * I = 0 := by
      rw [← Finset.sum_mul, ← Complex.ofReal_sum, ← Finset.mul_sum, h0]
      simp
    have h2 : ∑ i ∈ Finset.range N, ((s * y i : ℝ) : ℂ) ^ 2 / 2 =
        ((s ^ 2 * (∑ i ∈ Finset.range N, y i ^ 2) / 2 : ℝ) : ℂ) := by
      push_cast
      rw [Finset.mul_sum, Finset.sum_div]
      exact Finset.sum_congr rfl fun i _ => by ring
    rw [h1, h2]
    generalize ∑ i ∈ Finset.range N, Complex.exp ((s * y i : ℝ) * I) = E
    simp only [Finset.sum_const, Finset.card_range, nsmul_eq_mul, mul_one]
    push_cast
    field_simp
    ring
  rw [e, norm_div, Complex.norm_natCast]
  have h3 : ‖∑ i ∈ Finset.range N, (Complex.exp ((s * y i : ℝ) * I) -
        (1 + (s * y i : ℝ) * I - ((s * y i : ℝ) : ℂ) ^ 2 / 2))‖ ≤
      ∑ i ∈ Finset.range N, b * (s ^ 2 * y i ^ 2) := by
    refine (norm_sum_le _ _).trans (Finset.sum_le_sum fun i hi => ?_)
    have hi' := hb i (Finset.mem_range.1 hi)
    refine (exp_I_third (hi'.trans hb1)).trans ?_
    have : |s * y i| ^ 3 = |s * y i| * (s ^ 2 * y i ^ 2) := by
      rw [pow_succ, sq_abs]; ring
    rw [this]
    exact mul_le_mul_of_nonneg_right hi' (by positivity)
  rw [← Finset.mul_sum, ← Finset.mul_sum] at h3
  calc _ ≤ b * (s ^ 2 * ∑ i ∈ Finset.range N, y i ^ 2) / N := div_le_div_of_nonneg_right h3 hNr.le
    _ = _ := by ring

/-- The central limit theorem for resampled means: `n N` draws of a table of `N` centred numbers whose mean square settles
and none of which sticks out. -/
theorem ecf_clt {y : ℕ → ℕ → ℝ} {n : ℕ → ℕ} {v : ℝ} (hn : Tendsto n atTop atTop)
    (h0 : ∀ N, ∑ i ∈ Finset.range N, y N i = 0)
    (h2 : Tendsto (fun N => (∑ i ∈ Finset.range N, y N i ^ 2) / (N : ℝ)) atTop (𝓝 v))
    (hm : ∀ ε > 0, ∀ᶠ N in atTop, ∀ i < N, |y N i| ≤ ε * √(n N : ℝ)) (hv : 0 ≤ v) (t : ℝ) :
    Tendsto (fun N => ecf (y N) N (t / √(n N : ℝ)) ^ n N) atTop (𝓝 (Complex.exp (-((v * t ^ 2 / 2 : ℝ) : ℂ)))) := by
  have hnr : Tendsto (fun N => (n N : ℝ)) atTop atTop := tendsto_natCast_atTop_atTop.comp hn
  -- the power of a number close to one
  have hE : Tendsto (fun N => (Complex.exp (-((v * t ^ 2 / 2 : ℝ) : ℂ) / n N)) ^ n N) atTop
      (𝓝 (Complex.exp (-((v * t ^ 2 / 2 : ℝ) : ℂ)))) := by
    refine tendsto_const_nhds.congr' ?_
    filter_upwards [hn.eventually_gt_atTop 0] with N hN
    rw [← Complex.exp_nat_mul]
    congr 1
    have : (n N : ℂ) ≠ 0 := by exact_mod_cast hN.ne'
    field_simp
  have hd : Tendsto (fun N => (n N : ℝ) * ‖ecf (y N) N (t / √(n N : ℝ)) -
      Complex.exp (-((v * t ^ 2 / 2 : ℝ) : ℂ) / n N)‖) atTop (𝓝 0) := by
    -- first difference: the average against the parabola
    have hA : Tendsto (fun N => (n N : ℝ) * ‖ecf (y N) N (t / √(n N : ℝ)) -
        (1 - (((t / √(n N : ℝ)) ^ 2 * ((∑ i ∈ Finset.range N, y N i ^ 2) / N) / 2 : ℝ) : ℂ))‖) atTop (𝓝 0) := by
      rw [Metric.tendsto_atTop]
      intro ε hε
      set V := v + 1 with hV
      have hVp : 0 < V := by linarith
      have ht : 0 < t ^ 2 * V + 1 := by positivity
      set b := min 1 (ε / (2 * (t ^ 2 * V + 1))) with hbdef
      have hbp : 0 < b := lt_min one_pos (by positivity)
      have hev : ∀ᶠ N in atTop, (n N : ℝ) * ‖ecf (y N) N (t / √(n N : ℝ)) -
          (1 - (((t / √(n N : ℝ)) ^ 2 * ((∑ i ∈ Finset.range N, y N i ^ 2) / N) / 2 : ℝ) : ℂ))‖ < ε := by
        filter_upwards [hm (b / (|t| + 1)) (by positivity), h2.eventually_le_const (show v < V by linarith),
          hn.eventually_gt_atTop 0, eventually_gt_atTop 0] with N hmN h2N hnN hN
        have hnp : (0 : ℝ) < n N := by exact_mod_cast hnN
        have hs : 0 < √(n N : ℝ) := Real.sqrt_pos.2 hnp
        have hb : ∀ i < N, |t / √(n N : ℝ) * y N i| ≤ b := by
          intro i hi
          rw [abs_mul, abs_div, abs_of_pos hs]
          calc |t| / √(n N : ℝ) * |y N i| ≤ |t| / √(n N : ℝ) * (b / (|t| + 1) * √(n N : ℝ)) :=
                mul_le_mul_of_nonneg_left (hmN i hi) (by positivity)
            _ = |t| / (|t| + 1) * b := by field_simp
            _ ≤ 1 * b := mul_le_mul_of_nonneg_right
                (div_le_one_of_le₀ (by linarith) (by positivity)) hbp.le
            _ = b := one_mul b
        have h := ecf_near hN (h0 N) hb (min_le_left _ _)
        have hsq : (t / √(n N : ℝ)) ^ 2 = t ^ 2 / n N := by rw [div_pow, Real.sq_sqrt hnp.le]
        calc _ ≤ (n N : ℝ) * (b * ((t / √(n N : ℝ)) ^ 2 * ((∑ i ∈ Finset.range N, y N i ^ 2) / N))) :=
              mul_le_mul_of_nonneg_left h hnp.le
          _ = b * (t ^ 2 * ((∑ i ∈ Finset.range N, y N i ^ 2) / N)) := by rw [hsq]; field_simp
          _ ≤ b * (t ^ 2 * V) :=
              mul_le_mul_of_nonneg_left (mul_le_mul_of_nonneg_left h2N (sq_nonneg t)) hbp.le
          _ ≤ ε / (2 * (t ^ 2 * V + 1)) * (t ^ 2 * V) :=
              mul_le_mul_of_nonneg_right (min_le_right _ _) (by positivity)
          _ < ε := by
              rw [div_mul_eq_mul_div, div_lt_iff₀ (by positivity)]
              have : 0 ≤ t ^ 2 * V := by positivity
              nlinarith
      obtain ⟨N0, hN0⟩ := eventually_atTop.1 hev
      refine ⟨N0, fun N hN => ?_⟩
      rw [Real.dist_eq, sub_zero, abs_of_nonneg (by positivity)]
      exact hN0 N hN
    -- second difference: the parabola against the exponential
    have hB : Tendsto (fun N => (n N : ℂ) * (1 - (((t / √(n N : ℝ)) ^ 2 *
        ((∑ i ∈ Finset.range N, y N i ^ 2) / N) / 2 : ℝ) : ℂ) - 1)) atTop (𝓝 (-((v * t ^ 2 / 2 : ℝ) : ℂ))) := by
      have : Tendsto (fun N => ((-(t ^ 2 * ((∑ i ∈ Finset.range N, y N i ^ 2) / N) / 2) : ℝ) : ℂ)) atTop
          (𝓝 ((-(t ^ 2 * v / 2) : ℝ) : ℂ)) :=
        (Complex.continuous_ofReal.tendsto _).comp (((h2.const_mul (t ^ 2)).div_const 2).neg)
      have e : -((v * t ^ 2 / 2 : ℝ) : ℂ) = ((-(t ^ 2 * v / 2) : ℝ) : ℂ) := by push_cast; ring
      rw [e]
      refine this.congr' ?_
      filter_upwards [hn.eventually_gt_atTop 0] with N hnN
      have hnp : (0 : ℝ) < n N := by exact_mod_cast hnN
      have hsq : (t / √(n N : ℝ)) ^ 2 = t ^ 2 / n N := by rw [div_pow, Real.sq_sqrt hnp.le]
      rw [hsq]
      have hnc : (n N : ℂ) ≠ 0 := by exact_mod_cast hnN.ne'
      push_cast
      field_simp
      ring
    have hC : Tendsto (fun N => (n N : ℂ) * (Complex.exp (-((v * t ^ 2 / 2 : ℝ) : ℂ) / n N) - 1)) atTop
        (𝓝 (-((v * t ^ 2 / 2 : ℝ) : ℂ))) := by
      set w : ℂ := -((v * t ^ 2 / 2 : ℝ) : ℂ) with hw
      have hd : HasDerivAt (fun z : ℂ => Complex.exp (w * z)) w 0 := by
        have := ((hasDerivAt_id (0 : ℂ)).const_mul w).cexp
        simpa using this
      have hz : Tendsto (fun N => ((n N : ℂ))⁻¹) atTop (𝓝[≠] 0) := by
        rw [tendsto_nhdsWithin_iff]
        refine ⟨?_, ?_⟩
        · have : Tendsto (fun N => (((n N : ℝ)⁻¹ : ℝ) : ℂ)) atTop (𝓝 ((0 : ℝ) : ℂ)) :=
            (Complex.continuous_ofReal.tendsto _).comp hnr.inv_tendsto_atTop
          simpa using this
        · filter_upwards [hn.eventually_gt_atTop 0] with N hnN
          have hnc : (n N : ℂ) ≠ 0 := by exact_mod_cast hnN.ne'
          simpa using hnN.ne'
      have := (hasDerivAt_iff_tendsto_slope.1 hd).comp hz
      refine this.congr' ?_
      filter_upwards [hn.eventually_gt_atTop 0] with N hnN
      simp [slope, div_eq_mul_inv]
    have hBC := ((hB.sub hC).norm)
    rw [sub_self, norm_zero] at hBC
    have hsum := hA.add hBC
    rw [zero_add] at hsum
    refine squeeze_zero (fun N => by positivity) (fun N => ?_) hsum
    rw [← mul_sub]
    have e1 : ‖(n N : ℂ) * (1 - (((t / √(n N : ℝ)) ^ 2 * ((∑ i ∈ Finset.range N, y N i ^ 2) / N) / 2 : ℝ) : ℂ) - 1 -
        (Complex.exp (-((v * t ^ 2 / 2 : ℝ) : ℂ) / n N) - 1))‖ = (n N : ℝ) *
        ‖(1 - (((t / √(n N : ℝ)) ^ 2 * ((∑ i ∈ Finset.range N, y N i ^ 2) / N) / 2 : ℝ) : ℂ)) -
          Complex.exp (-((v * t ^ 2 / 2 : ℝ) : ℂ) / n N)‖ := by
      rw [norm_mul, Complex.norm_natCast]
      congr 2
      ring
    rw [e1, ← mul_add]
    refine mul_le_mul_of_nonneg_left ?_ (Nat.cast_nonneg _)
    exact norm_sub_le_norm_sub_add_norm_sub _ _ _
  have hb : ∀ N, ‖Complex.exp (-((v * t ^ 2 / 2 : ℝ) : ℂ) / n N)‖ ≤ 1 := by
    intro N
    rw [Complex.norm_exp]
    have : (-((v * t ^ 2 / 2 : ℝ) : ℂ) / n N).re = -(v * t ^ 2 / 2) / n N := by
      rw [← Complex.ofReal_natCast, ← Complex.ofReal_neg, ← Complex.ofReal_div, Complex.ofReal_re]
    rw [this, Real.exp_le_one_iff]
    refine div_nonpos_of_nonpos_of_nonneg ?_ (Nat.cast_nonneg _)
    have : 0 ≤ v * t ^ 2 / 2 := by positivity
    linarith
  have hdiff : Tendsto (fun N => ecf (y N) N (t / √(n N : ℝ)) ^ n N -
      (Complex.exp (-((v * t ^ 2 / 2 : ℝ) : ℂ) / n N)) ^ n N) atTop (𝓝 0) := by
    rw [tendsto_zero_iff_norm_tendsto_zero]
    exact squeeze_zero (fun N => norm_nonneg _) (fun N => pow_sub_pow_le (ecf_norm _ _ _) (hb N) _) hd
  have := hdiff.add hE
  simpa using this

/-- in a sequence whose mean squares settle, no member of a long initial piece sticks out -/
theorem no_peak {x : ℕ → ℝ} {w : ℝ} (h : Tendsto (fun N => (∑ i ∈ Finset.range N, x i ^ 2) / (N : ℝ)) atTop (𝓝 w))
    {ε : ℝ} (hε : 0 < ε) : ∀ᶠ N in atTop, ∀ i < N, |x i| ≤ ε * √(N : ℝ) := by
  have h1 : Tendsto (fun N : ℕ => x N ^ 2 / ((N + 1 : ℕ) : ℝ)) atTop (𝓝 0) := by
    have ha := (tendsto_add_atTop_iff_nat 1).2 h
    have hb : Tendsto (fun N : ℕ => (∑ i ∈ Finset.range N, x i ^ 2) / (N : ℝ) * ((N : ℝ) / ((N : ℝ) + 1))) atTop
        (𝓝 (w * 1)) := h.mul (tendsto_natCast_div_add_atTop (1 : ℝ))
    have hc := ha.sub hb
    rw [mul_one, sub_self] at hc
    refine hc.congr' ?_
    filter_upwards [eventually_gt_atTop 0] with N hN
    have hNr : (0 : ℝ) < N := by exact_mod_cast hN
    rw [Finset.sum_range_succ]
    push_cast
    field_simp
    ring
  obtain ⟨N0, hN0⟩ := eventually_atTop.1 (h1.eventually_le_const (show (0 : ℝ) < ε ^ 2 by positivity))
  have hC : ∃ C : ℝ, ∀ i < N0, x i ^ 2 ≤ C := by
    refine ⟨∑ i ∈ Finset.range N0, x i ^ 2, fun i hi => ?_⟩
    exact Finset.single_le_sum (f := fun i => x i ^ 2) (fun j _ => sq_nonneg _) (Finset.mem_range.2 hi)
  obtain ⟨C, hC⟩ := hC
  have hlarge : ∀ᶠ N : ℕ in atTop, C ≤ ε ^ 2 * (N : ℝ) :=
    (tendsto_natCast_atTop_atTop.const_mul_atTop (by positivity)).eventually_ge_atTop C
  filter_upwards [hlarge] with N hN i hi
  have hsq : x i ^ 2 ≤ ε ^ 2 * (N : ℝ) := by
    by_cases hi0 : i < N0
    · exact (hC i hi0).trans hN
    · have := hN0 i (not_lt.1 hi0)
      rw [div_le_iff₀ (by positivity)] at this
      refine this.trans (mul_le_mul_of_nonneg_left ?_ (by positivity))
      exact_mod_cast hi
  refine abs_le_of_sq_le_sq ?_ (by positivity)
  rw [mul_pow, Real.sq_sqrt (Nat.cast_nonneg _)]
  exact hsq

end Lemmas
