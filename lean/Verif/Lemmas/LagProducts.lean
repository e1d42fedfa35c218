import Mathlib.Probability.StrongLaw
import Mathlib.Probability.IdentDistribIndep
import Mathlib.Probability.Moments.Variance

/-! Averages of products of random numbers that lie a fixed number of days apart. -/

namespace Lemmas
open MeasureTheory ProbabilityTheory Filter Topology Finset

/-- a sum over the first numbers, arranged by remainders -/
theorem sum_by_remainder {q : ℕ} (hq : 0 < q) (x : ℕ → ℝ) (n : ℕ) :
    ∑ t ∈ range n, x t = ∑ r ∈ range q, ∑ j ∈ range ((n + (q - 1 - r)) / q), x (q * j + r) := by
  induction n with
  | zero =>
    rw [sum_range_zero, eq_comm]
    refine sum_eq_zero fun r hr => ?_
    rw [Nat.div_eq_of_lt (by omega), sum_range_zero]
  | succ n ih =>
    have hlt := Nat.mod_lt n hq
    have hstep : ∀ r ∈ range q, ∑ j ∈ range ((n + 1 + (q - 1 - r)) / q), x (q * j + r) =
        ∑ j ∈ range ((n + (q - 1 - r)) / q), x (q * j + r) + if r = n % q then x n else 0 := by
      intro r hr
      have hr := mem_range.1 hr
      have hmd := Nat.div_add_mod n q
      by_cases h : r = n % q
      · rw [if_pos h]
        have e0 : (n + (q - 1 - r)) / q = n / q := by
          have : n + (q - 1 - r) = (q - 1) + q * (n / q) := by omega
          rw [this, Nat.add_mul_div_left _ _ hq, Nat.div_eq_of_lt (by omega), zero_add]
        have e1 : (n + 1 + (q - 1 - r)) / q = n / q + 1 := by
          have : n + 1 + (q - 1 - r) = 0 + q * (n / q + 1) := by rw [Nat.mul_add]; omega
          rw [this, Nat.add_mul_div_left _ _ hq, Nat.zero_div, zero_add]
        rw [e0, e1, sum_range_succ]
        congr 2
        omega
      · rw [if_neg h, add_zero]
        have : (n + 1 + (q - 1 - r)) / q = (n + (q - 1 - r)) / q := by
          rw [show n + 1 + (q - 1 - r) = (n + (q - 1 - r)) + 1 by omega, Nat.succ_div, if_neg, add_zero]
          rintro ⟨c, hc⟩
          apply h
          have : n = r + q * (c - 1) := by
            have : 1 ≤ c := by
              rcases Nat.eq_zero_or_pos c with rfl | h0
              · omega
              · exact h0
            obtain ⟨c, rfl⟩ : ∃ d, c = d + 1 := ⟨c - 1, by omega⟩
            rw [Nat.mul_add] at hc
            simp only [Nat.add_sub_cancel]
            omega
          rw [this, Nat.add_mul_mod_self_left, Nat.mod_eq_of_lt hr]
        rw [this]
    rw [sum_congr rfl hstep, sum_add_distrib, ← ih, sum_range_succ]
    congr 1
    rw [sum_ite_eq' (range q) (n % q) (fun _ => x n), if_pos (mem_range.2 hlt)]

/-- if the averages over every class of remainders settle at the same number, so do all averages -/
theorem average_by_remainder {q : ℕ} (hq : 0 < q) (x : ℕ → ℝ) (l : ℝ)
    (h : ∀ r < q, Tendsto (fun m : ℕ => (∑ j ∈ range m, x (q * j + r)) / m) atTop (𝓝 l)) :
    Tendsto (fun n : ℕ => (∑ t ∈ range n, x t) / n) atTop (𝓝 l) := by
  have hqR : (0 : ℝ) < q := by exact_mod_cast hq
  have hm : ∀ r < q, Tendsto (fun n : ℕ => (n + (q - 1 - r)) / q) atTop atTop := by
    intro r hr
    refine tendsto_atTop_atTop.2 fun b => ⟨q * b, fun n hn => ?_⟩
    exact (Nat.le_div_iff_mul_le hq).2 (by rw [Nat.mul_comm]; omega)
  have hw : ∀ r < q, Tendsto (fun n : ℕ => (((n + (q - 1 - r)) / q : ℕ) : ℝ) / n) atTop (𝓝 (1 / q)) := by
    intro r hr
    have h1 : Tendsto (fun n : ℕ => 1 / (q : ℝ) - 1 / n) atTop (𝓝 (1 / q)) := by
      simpa using tendsto_const_nhds.sub (tendsto_one_div_atTop_nhds_zero_nat (𝕜 := ℝ))
    have h2 : Tendsto (fun n : ℕ => 1 / (q : ℝ) + 1 / n) atTop (𝓝 (1 / q)) := by
      simpa using tendsto_const_nhds.add (tendsto_one_div_atTop_nhds_zero_nat (𝕜 := ℝ))
    refine tendsto_of_tendsto_of_tendsto_of_le_of_le' h1 h2 ?_ ?_
    · filter_upwards [eventually_gt_atTop 0] with n hn
      have hnR : (0 : ℝ) < n := by exact_mod_cast hn
      have : (n : ℝ) ≤ q * (((n + (q - 1 - r)) / q : ℕ) : ℝ) + q := by
        have := Nat.div_add_mod (n + (q - 1 - r)) q
        have := Nat.mod_lt (n + (q - 1 - r)) hq
        exact_mod_cast (by omega : n ≤ q * ((n + (q - 1 - r)) / q) + q)
      rw [div_sub_div _ _ hqR.ne' hnR.ne', div_le_div_iff₀ (by positivity) hnR]
      nlinarith
    · filter_upwards [eventually_gt_atTop 0] with n hn
      have hnR : (0 : ℝ) < n := by exact_mod_cast hn
      have : q * (((n + (q - 1 - r)) / q : ℕ) : ℝ) ≤ n + q := by
        have := Nat.div_add_mod (n + (q - 1 - r)) q
        exact_mod_cast (by omega : q * ((n + (q - 1 - r)) / q) ≤ n + q)
      rw [div_add_div _ _ hqR.ne' hnR.ne', div_le_div_iff₀ hnR (by positivity)]
      nlinarith
  have hs : Tendsto (fun n : ℕ => ∑ r ∈ range q, (∑ j ∈ range ((n + (q - 1 - r)) / q), x (q * j + r)) /
      (((n + (q - 1 - r)) / q : ℕ) : ℝ) * ((((n + (q - 1 - r)) / q : ℕ) : ℝ) / n)) atTop
      (𝓝 (∑ _r ∈ range q, l * (1 / q))) := by
    refine tendsto_finsetSum _ fun r hr => ?_
    have hr := mem_range.1 hr
    exact ((h r hr).comp (hm r hr)).mul (hw r hr)
  have e : ∑ _r ∈ range q, l * (1 / (q : ℝ)) = l := by
    rw [sum_const, card_range, nsmul_eq_mul]; field_simp
  rw [e] at hs
  refine hs.congr' ?_
  filter_upwards [eventually_ge_atTop q] with n hn
  rw [sum_by_remainder hq x n, sum_div]
  refine sum_congr rfl fun r hr => ?_
  have hr := mem_range.1 hr
  have : 0 < (n + (q - 1 - r)) / q := Nat.div_pos (by omega) hq
  have : (0 : ℝ) < (((n + (q - 1 - r)) / q : ℕ) : ℝ) := by exact_mod_cast this
  field_simp

variable {Ω : Type} [MeasurableSpace Ω] {P : Measure Ω} [IsProbabilityMeasure P] {D : ℕ → Ω → ℝ}

/-- averages of products of numbers `k` days apart -/
theorem lag_products (hi : iIndepFun D P) (hs : ∀ t, IdentDistrib (D t) (D 0) P P) (h2 : MemLp (D 0) 2 P) {k : ℕ}
    (hk : 1 ≤ k) :
    ∀ᵐ ω ∂P, Tendsto (fun n : ℕ => (∑ t ∈ range n, D (t + k) ω * D t ω) / n) atTop (𝓝 ((∫ ω, D 0 ω ∂P) ^ 2)) := by
  have hm : ∀ t, AEMeasurable (D t) P := fun t => (hs t).aemeasurable_fst
  have hL : ∀ t, MemLp (D t) 2 P := fun t => (hs t).memLp_iff.2 h2
  have hpair : ∀ t u : ℕ, IdentDistrib (fun ω => (D (t + k) ω, D t ω)) (fun ω => (D (u + k) ω, D u ω)) P P :=
    fun t u => IdentDistrib.prodMk ((hs _).trans (hs _).symm) ((hs _).trans (hs _).symm)
      (hi.indepFun (by omega)) (hi.indepFun (by omega))
  have hmul : Measurable fun p : ℝ × ℝ => p.1 * p.2 := measurable_fst.mul measurable_snd
  have key : ∀ r : ℕ, ∀ᵐ ω ∂P, Tendsto (fun m : ℕ => (∑ j ∈ range m,
      D ((k + 1) * j + r + k) ω * D ((k + 1) * j + r) ω) / m) atTop (𝓝 ((∫ ω, D 0 ω ∂P) ^ 2)) := by
    intro r
    have hlaw := strong_law_ae_real (μ := P) (fun j ω => D ((k + 1) * j + r + k) ω * D ((k + 1) * j + r) ω)
      ((hL _).integrable_mul (hL _)) ?_ ?_
    · have e : ∫ ω, D ((k + 1) * 0 + r + k) ω * D ((k + 1) * 0 + r) ω ∂P = (∫ ω, D 0 ω ∂P) ^ 2 := by
        rw [IndepFun.integral_fun_mul_eq_mul_integral (hi.indepFun (by omega)) (hm _).aestronglyMeasurable
          (hm _).aestronglyMeasurable, (hs _).integral_eq, (hs ((k + 1) * 0 + r)).integral_eq, sq]
      rw [e] at hlaw
      exact hlaw
    · intro i j hij
      have hne : ∀ a b : ℕ, a ≤ k → b ≤ k → (k + 1) * i + r + a ≠ (k + 1) * j + r + b := by
        intro a b ha hb he
        apply hij
        have h1 : ((k + 1) * i + a) / (k + 1) = i := by
          rw [Nat.mul_add_div (by omega), Nat.div_eq_of_lt (by omega), add_zero]
        have h2 : ((k + 1) * j + b) / (k + 1) = j := by
          rw [Nat.mul_add_div (by omega), Nat.div_eq_of_lt (by omega), add_zero]
        rw [← h1, ← h2]
        congr 1
        omega
      exact (hi.indepFun_prodMk_prodMk₀ hm ((k + 1) * i + r + k) ((k + 1) * i + r) ((k + 1) * j + r + k)
        ((k + 1) * j + r) (hne k k le_rfl le_rfl) (hne k 0 le_rfl (by omega)) (hne 0 k (by omega) le_rfl)
        (hne 0 0 (by omega) (by omega))).comp hmul hmul
    · intro j
      exact (hpair _ _).comp hmul
  have hall : ∀ᵐ ω ∂P, ∀ r, Tendsto (fun m : ℕ => (∑ j ∈ range m,
      D ((k + 1) * j + r + k) ω * D ((k + 1) * j + r) ω) / m) atTop (𝓝 ((∫ ω, D 0 ω ∂P) ^ 2)) := ae_all_iff.2 key
  filter_upwards [hall] with ω hω
  exact average_by_remainder (Nat.succ_pos k) (fun t => D (t + k) ω * D t ω) _ fun r _ => hω r

/-- averages that begin `k` days later -/
theorem lag_average (hi : iIndepFun D P) (hs : ∀ t, IdentDistrib (D t) (D 0) P P) (h2 : MemLp (D 0) 2 P) (k : ℕ) :
    ∀ᵐ ω ∂P, Tendsto (fun n : ℕ => (∑ t ∈ range n, D (t + k) ω) / n) atTop (𝓝 (∫ ω, D 0 ω ∂P)) := by
  have hL : MemLp (D (0 + k)) 2 P := (hs _).memLp_iff.2 h2
  have := strong_law_ae_real (μ := P) (fun t => D (t + k)) (hL.integrable (by norm_num))
    (fun i j hij => hi.indepFun (by omega)) fun t => (hs _).trans (hs _).symm
  rwa [(hs _).integral_eq] at this

omit [IsProbabilityMeasure P] in
/-- averages of squares -/
theorem square_average (hi : iIndepFun D P) (hs : ∀ t, IdentDistrib (D t) (D 0) P P) (h2 : MemLp (D 0) 2 P) :
    ∀ᵐ ω ∂P, Tendsto (fun n : ℕ => (∑ t ∈ range n, D t ω * D t ω) / n) atTop (𝓝 (∫ ω, D 0 ω * D 0 ω ∂P)) := by
  have hm : Measurable fun x : ℝ => x * x := measurable_id.mul measurable_id
  exact strong_law_ae_real (μ := P) (fun t ω => D t ω * D t ω) (h2.integrable_mul h2)
    (fun i j hij => (hi.indepFun hij).comp hm hm) fun t => (hs t).comp hm

end Lemmas
