import Verif.Props.Integration
import Verif.Lemmas.Accuracy
import Verif.Spec.Normal
import Mathlib.MeasureTheory.Function.SpecialFunctions.Basic
import Mathlib.MeasureTheory.Measure.Dirac

/-! C72: how far the numerically integrated CRPS, mean and variance are from the quantities they stand for. -/

open MeasureTheory Np NDArr Model Spec Lemmas

namespace Props

/-- distance between neighbouring points of the grid -/
noncomputable def binWidth (lo hi : ℝ) (n : ℕ) : ℝ := (hi - lo) / ((n - 1 : ℕ) : ℝ)

theorem linspace_getD (lo hi : ℝ) {n : ℕ} (hn : 2 ≤ n) {i : ℕ} (hi' : i < n) :
    (linspace lo hi n).getD i 0 = lo + i * binWidth lo hi n := by
  unfold linspace binWidth
  rw [if_neg (by omega), List.getD_eq_getElem?_getD]
  simp only [List.getElem?_map, List.getElem?_range hi', Option.map_some, Option.getD_some]
  split
  · rename_i h
    have hn1 : (((n - 1 : ℕ) : ℝ)) ≠ 0 := by
      have : n - 1 ≠ 0 := by omega
      exact_mod_cast this
    rw [h, mul_div_cancel₀ _ hn1]
    ring
  · rfl

theorem binWidth_nonneg {lo hi : ℝ} (h : lo ≤ hi) (n : ℕ) : 0 ≤ binWidth lo hi n :=
  div_nonneg (sub_nonneg.2 h) (Nat.cast_nonneg _)

/-- the tasks of a CRPS integration compute the squared difference of probability and outcome -/
theorem brier_rowsAt {K : Type} [Field K] [LinearOrder K] [IsStrictOrderedRing K] (I : Integ K) (k : List Nat)
    (hk : InB I.shape k) (cdf : K → Except Err (NDArr (Fl K)))
    (o : NDArr (Fl K)) (hrow : I.row = brierRow cdf o) (hos : o.shape = I.shape) (F : K → K) (y : K)
    (hy : o.get k = some y)
    (hP : ∀ x ∈ I.seq, ∃ a, cdf x = .ok a ∧ a.shape = I.shape ∧ a.get k = some (F x)) :
    RowsAt I k fun i => (F (I.seq.getD i 0) - if y < I.seq.getD i 0 then 1 else 0) *
      (F (I.seq.getD i 0) - if y < I.seq.getD i 0 then 1 else 0) := by
  intro i hi
  obtain ⟨a, ha, hsh, hak⟩ := hP _ (List.getElem_mem hi)
  have hgd : I.seq.getD i 0 = I.seq[i] := by
    rw [List.getD_eq_getElem?_getD, List.getElem?_eq_getElem hi]; rfl
  rw [hrow]
  unfold brierRow
  simp only [ha, bind, Except.bind, binarizeObs, cmpThr, brierArr]
  rw [zipWith_ok _ _ _ (by rw [hsh, ← hos]; rfl)]
  refine ⟨_, rfl, ?_⟩
  rw [get_ofFn _ (by rw [hsh]; exact hk), hak, get_map _ _ (by rw [hos]; exact hk), hgd, hy]
  simp only [Fl.lt]
  by_cases h : y < I.seq[i] <;> simp [h] <;> rfl

/-- the integrand the code samples: the observation counts as exceeded strictly above it -/
noncomputable def sampled (F : ℝ → ℝ) (y t : ℝ) : ℝ := (F t - if y < t then 1 else 0) * (F t - if y < t then 1 else 0)

theorem sampled_ae (F : ℝ → ℝ) (y : ℝ) : sampled F y =ᵐ[volume] crpsIntegrand F y := by
  have : ∀ᵐ t ∂(volume : Measure ℝ), t ≠ y := by
    rw [ae_iff]; simp
  filter_upwards [this] with t ht
  unfold sampled crpsIntegrand
  have h : (y < t) = (y ≤ t) := propext ⟨le_of_lt, fun h => lt_of_le_of_ne h ht.symm⟩
  simp only [h]
  ring

theorem sampled_measurable {F : ℝ → ℝ} (hF : Monotone F) (y : ℝ) : Measurable (sampled F y) := by
  unfold sampled
  have h1 : Measurable fun t : ℝ => if y < t then (1 : ℝ) else 0 :=
    Measurable.ite measurableSet_Ioi measurable_const measurable_const
  exact (hF.measurable.sub h1).mul (hF.measurable.sub h1)

theorem sampled_bounds {F : ℝ → ℝ} (h01 : ∀ t, 0 ≤ F t ∧ F t ≤ 1) (y t : ℝ) : 0 ≤ sampled F y t ∧ sampled F y t ≤ 1 := by
  unfold sampled
  obtain ⟨h0, h1⟩ := h01 t
  refine ⟨mul_self_nonneg _, ?_⟩
  split <;> nlinarith

theorem sampled_integrable {F : ℝ → ℝ} (hF : Monotone F) (h01 : ∀ t, 0 ≤ F t ∧ F t ≤ 1) (y a b : ℝ) :
    IntervalIntegrable (sampled F y) volume a b := by
  rw [intervalIntegrable_iff]
  refine Measure.integrableOn_of_bounded (M := 1) (by simp) (sampled_measurable hF y).aestronglyMeasurable ?_
  refine Filter.Eventually.of_forall fun t => ?_
  rw [Real.norm_eq_abs, abs_of_nonneg (sampled_bounds h01 y t).1]
  exact (sampled_bounds h01 y t).2

theorem sampled_variation {F : ℝ → ℝ} (hF : Monotone F) (h01 : ∀ t, 0 ≤ F t ∧ F t ≤ 1) (y s t : ℝ) (hst : s ≤ t) :
    |sampled F y t - sampled F y s| ≤
      2 * (F t + if y < t then 1 else 0) - 2 * (F s + if y < s then 1 else 0) := by
  have h1 := hF hst
  obtain ⟨a0, a1⟩ := h01 s
  obtain ⟨b0, b1⟩ := h01 t
  unfold sampled
  rw [abs_le]
  by_cases hs : y < s
  · rw [if_pos hs, if_pos (hs.trans_le hst)]
    constructor <;> nlinarith
  · rw [if_neg hs]
    by_cases ht : y < t
    · rw [if_pos ht]
      constructor <;> nlinarith
    · rw [if_neg ht]
      constructor <;> nlinarith

/-- **C72** (CRPS): the integrated CRPS differs from the exact integral of the squared difference between the
forecast's distribution function and the step at the observation, over the integration range, by at most twice the
width of a bin. -/
theorem C72_crps (I : Integ ℝ) (ho : OrderOK I) (w w' : IWorld ℝ) (r : NDArr (Fl ℝ))
    (h : integrate I .crps w = (.ok r, w')) (lo hi : ℝ) (hlh : lo ≤ hi) (n : ℕ) (hn : 2 ≤ n)
    (hseq : I.seq = linspace lo hi n) (k : List Nat) (hk : InB I.shape k)
    (cdf : ℝ → Except Err (NDArr (Fl ℝ))) (o : NDArr (Fl ℝ)) (hrow : I.row = brierRow cdf o)
    (hos : o.shape = I.shape) (F : ℝ → ℝ) (hF : Monotone F) (h01 : ∀ t, 0 ≤ F t ∧ F t ≤ 1) (y : ℝ)
    (hy : o.get k = some y)
    (hP : ∀ x ∈ I.seq, ∃ a, cdf x = .ok a ∧ a.shape = I.shape ∧ a.get k = some (F x)) :
    ∃ v, r.get k = some v ∧
      |v - ∫ t in lo..hi, crpsIntegrand F y t| ≤ 2 * binWidth lo hi n := by
  obtain ⟨-, hv⟩ := C28_value I ho .crps w w' r h k hk _ (brier_rowsAt I k hk cdf o hrow hos F y hy hP)
  refine ⟨_, hv, ?_⟩
  obtain ⟨hmono, hlen, hg0, hg1⟩ := C31_grid hlh n hn
  have hx : ∀ i, i + 1 < n → I.seq.getD i 0 ≤ I.seq.getD (i + 1) 0 := by
    intro i hi'
    rw [hseq]
    exact getD_mono hmono (Nat.le_succ i) (by omega)
  have hmesh : ∀ i, i + 1 < n → I.seq.getD (i + 1) 0 - I.seq.getD i 0 ≤ binWidth lo hi n := by
    intro i hi'
    rw [hseq, linspace_getD lo hi hn hi', linspace_getD lo hi hn (by omega)]
    push_cast
    linarith
  have := trapezoid_error (fun i => I.seq.getD i 0) n (by omega) hx (binWidth lo hi n) hmesh (sampled F y)
    (fun t => 2 * (F t + if y < t then 1 else 0)) (sampled_integrable hF h01 y _ _)
    (sampled_variation hF h01 y)
  have hl : I.seq.length = n := by rw [hseq, hlen]
  rw [hl]
  simp only [integral]
  simp only [hseq, hg0, hg1] at this ⊢
  rw [intervalIntegral.integral_congr_ae_restrict (ae_restrict_of_ae (sampled_ae F y))] at this
  refine le_trans this ?_
  have hb := binWidth_nonneg hlh n
  obtain ⟨a0, a1⟩ := h01 lo
  obtain ⟨b0, b1⟩ := h01 hi
  have : (2 * (F hi + if y < hi then 1 else 0) - 2 * (F lo + if y < lo then 1 else 0) : ℝ) ≤ 4 := by
    split <;> split <;> linarith
  nlinarith

/-- **C72** (CRPS, whole line): with the observation inside the integration range, the integrated CRPS differs from
the exact CRPS by at most twice the width of a bin plus the two tails outside the range. -/
theorem C72_crps_exact (I : Integ ℝ) (ho : OrderOK I) (w w' : IWorld ℝ) (r : NDArr (Fl ℝ))
    (h : integrate I .crps w = (.ok r, w')) (lo hi : ℝ) (hlh : lo ≤ hi) (n : ℕ) (hn : 2 ≤ n)
    (hseq : I.seq = linspace lo hi n) (k : List Nat) (hk : InB I.shape k)
    (cdf : ℝ → Except Err (NDArr (Fl ℝ))) (o : NDArr (Fl ℝ)) (hrow : I.row = brierRow cdf o)
    (hos : o.shape = I.shape) (F : ℝ → ℝ) (hF : Monotone F) (h01 : ∀ t, 0 ≤ F t ∧ F t ≤ 1) (y : ℝ)
    (hy : o.get k = some y) (hin : lo ≤ y ∧ y ≤ hi) (hint : Integrable (crpsIntegrand F y))
    (hP : ∀ x ∈ I.seq, ∃ a, cdf x = .ok a ∧ a.shape = I.shape ∧ a.get k = some (F x)) :
    ∃ v, r.get k = some v ∧
      |v - crpsOf F y| ≤ 2 * binWidth lo hi n +
        ((∫ t in Set.Iic lo, F t ^ 2) + ∫ t in Set.Ioi hi, (1 - F t) ^ 2) := by
  obtain ⟨v, hv, hb⟩ := C72_crps I ho w w' r h lo hi hlh n hn hseq k hk cdf o hrow hos F hF h01 y hy hP
  refine ⟨v, hv, ?_⟩
  have e1 : crpsOf F y = (∫ t in Set.Iic lo, crpsIntegrand F y t) + ∫ t in Set.Ioi lo, crpsIntegrand F y t := by
    rw [crpsOf, ← integral_add_compl measurableSet_Iic hint, Set.compl_Iic]
  have e2 : ∫ t in Set.Ioi lo, crpsIntegrand F y t =
      (∫ t in lo..hi, crpsIntegrand F y t) + ∫ t in Set.Ioi hi, crpsIntegrand F y t := by
    rw [intervalIntegral.integral_of_le hlh, ← Set.Ioc_union_Ioi_eq_Ioi hlh,
      setIntegral_union (Set.Ioc_disjoint_Ioi le_rfl) measurableSet_Ioi hint.integrableOn hint.integrableOn]
  have e3 : ∫ t in Set.Iic lo, crpsIntegrand F y t = ∫ t in Set.Iic lo, F t ^ 2 := by
    have h1 : ∀ᵐ t ∂(volume.restrict (Set.Iic lo)), sampled F y t = crpsIntegrand F y t :=
      ae_restrict_of_ae (sampled_ae F y)
    rw [← integral_congr_ae h1]
    refine setIntegral_congr_fun measurableSet_Iic fun t ht => ?_
    have ht' : ¬ y < t := not_lt.2 ((Set.mem_Iic.1 ht).trans hin.1)
    simp only [sampled, if_neg ht']
    ring
  have e4 : ∫ t in Set.Ioi hi, crpsIntegrand F y t = ∫ t in Set.Ioi hi, (1 - F t) ^ 2 := by
    refine setIntegral_congr_fun measurableSet_Ioi fun t ht => ?_
    have ht' : y ≤ t := hin.2.trans (Set.mem_Ioi.1 ht).le
    simp only [crpsIntegrand, if_pos ht']
    ring
  have p3 : 0 ≤ ∫ t in Set.Iic lo, F t ^ 2 := integral_nonneg fun t => sq_nonneg _
  have p4 : 0 ≤ ∫ t in Set.Ioi hi, (1 - F t) ^ 2 := integral_nonneg fun t => sq_nonneg _
  rw [e1, e2, e3, e4]
  rw [abs_le] at hb ⊢
  constructor <;> linarith [hb.1, hb.2]

/-! ### moments -/

theorem cdf_grid (I : Integ ℝ) (lo hi : ℝ) (hlh : lo ≤ hi) (n : ℕ) (hn : 2 ≤ n) (hseq : I.seq = linspace lo hi n) :
    I.seq.length = n ∧ I.seq.getD 0 0 = lo ∧ I.seq.getD (n - 1) 0 = hi ∧
      (∀ i, i + 1 < n → I.seq.getD i 0 ≤ I.seq.getD (i + 1) 0) ∧
      (∀ i, i + 1 < n → I.seq.getD (i + 1) 0 - I.seq.getD i 0 = binWidth lo hi n) ∧
      (∀ i, i < n → lo ≤ I.seq.getD i 0 ∧ I.seq.getD i 0 ≤ hi) := by
  obtain ⟨hmono, hlen, hg0, hg1⟩ := C31_grid hlh n hn
  rw [hseq]
  refine ⟨hlen, hg0, hg1, fun i hi' => getD_mono hmono (Nat.le_succ i) (by omega), fun i hi' => ?_, fun i hi' => ?_⟩
  · rw [linspace_getD lo hi hn hi', linspace_getD lo hi hn (by omega)]
    push_cast
    ring
  · constructor
    · conv_lhs => rw [← hg0]
      exact getD_mono hmono (Nat.zero_le i) (by omega)
    · conv_rhs => rw [← hg1]
      exact getD_mono hmono (by omega) (by omega)

/-- rows of an integration that are the distribution function of `μ` -/
def CdfRows (I : Integ ℝ) (k : List Nat) (μ : Measure ℝ) : Prop :=
  ∀ x ∈ I.seq, ∃ a, I.row x = .ok a ∧ a.get k = some (μ.real (Set.Iic x))

theorem CdfRows.rowsAt {I : Integ ℝ} {k : List Nat} {μ : Measure ℝ} (h : CdfRows I k μ) :
    RowsAt I k fun i => μ.real (Set.Iic (I.seq.getD i 0)) := by
  intro i hi
  obtain ⟨a, ha, hak⟩ := h _ (List.getElem_mem hi)
  have hgd : I.seq.getD i 0 = I.seq[i] := by
    rw [List.getD_eq_getElem?_getD, List.getElem?_eq_getElem hi]; rfl
  exact ⟨a, ha, by rw [hak]; simp only [hgd]⟩

theorem integrableOn_pow (μ : Measure ℝ) [IsFiniteMeasure μ] (lo hi : ℝ) :
    IntegrableOn (fun t => t) (Set.Ioc lo hi) μ ∧ IntegrableOn (fun t => t * t) (Set.Ioc lo hi) μ := by
  have hb : ∀ t ∈ Set.Ioc lo hi, |t| ≤ max |lo| |hi| := fun t ht => abs_le_max_abs_abs ht.1.le ht.2
  constructor
  · refine Measure.integrableOn_of_bounded (M := max |lo| |hi|) (measure_ne_top _ _)
      measurable_id.aestronglyMeasurable ?_
    filter_upwards [ae_restrict_mem measurableSet_Ioc] with t ht
    exact hb t ht
  · refine Measure.integrableOn_of_bounded (M := max |lo| |hi| * max |lo| |hi|) (measure_ne_top _ _)
      (measurable_id.mul measurable_id).aestronglyMeasurable ?_
    filter_upwards [ae_restrict_mem measurableSet_Ioc] with t ht
    rw [norm_mul]
    exact mul_le_mul (hb t ht) (hb t ht) (abs_nonneg _) ((abs_nonneg _).trans (hb t ht))

theorem mean_error (μ : Measure ℝ) [IsFiniteMeasure μ] (I : Integ ℝ) (lo hi : ℝ) (hlh : lo ≤ hi) (n : ℕ) (hn : 2 ≤ n)
    (hseq : I.seq = linspace lo hi n) :
    |stieltjes (fun t => t) (fun i => I.seq.getD i 0) (fun i => μ.real (Set.Iic (I.seq.getD i 0))) n -
      ∫ t in Set.Ioc lo hi, t ∂μ| ≤ binWidth lo hi n / 2 * μ.real (Set.Ioc lo hi) := by
  obtain ⟨hl, h0, h1, hx, hw, hb⟩ := cdf_grid I lo hi hlh n hn hseq
  have := stieltjes_error μ (fun t => t) (fun i => I.seq.getD i 0) n (by omega) hx (binWidth lo hi n / 2)
    (by rw [h0, h1]; exact (integrableOn_pow μ lo hi).1) (fun i hi' t ht => by
      have := hw i hi'
      have := ht.1
      have := ht.2
      rw [abs_le]
      constructor <;> linarith)
  rwa [h0, h1] at this

theorem sq_error (μ : Measure ℝ) [IsFiniteMeasure μ] (I : Integ ℝ) (lo hi : ℝ) (hlh : lo ≤ hi) (n : ℕ) (hn : 2 ≤ n)
    (hseq : I.seq = linspace lo hi n) :
    |stieltjes (fun t => t * t) (fun i => I.seq.getD i 0) (fun i => μ.real (Set.Iic (I.seq.getD i 0))) n -
      ∫ t in Set.Ioc lo hi, t * t ∂μ| ≤ binWidth lo hi n * max |lo| |hi| * μ.real (Set.Ioc lo hi) := by
  obtain ⟨hl, h0, h1, hx, hw, hb⟩ := cdf_grid I lo hi hlh n hn hseq
  have := stieltjes_error μ (fun t => t * t) (fun i => I.seq.getD i 0) n (by omega) hx
    (binWidth lo hi n * max |lo| |hi|)
    (by rw [h0, h1]; exact (integrableOn_pow μ lo hi).2) (fun i hi' t ht => by
      have e := hw i hi'
      obtain ⟨t0, t1⟩ := ht
      have hM : ∀ s, lo ≤ s → s ≤ hi → |s| ≤ max |lo| |hi| := fun s h2 h3 => abs_le_max_abs_abs h2 h3
      have hA := abs_le.1 (hM _ (hb i (by omega)).1 (hb i (by omega)).2)
      have hB := abs_le.1 (hM _ (hb (i + 1) hi').1 (hb (i + 1) hi').2)
      have hT := abs_le.1 (hM t ((hb i (by omega)).1.trans t0.le) (t1.trans (hb (i + 1) hi').2))
      rw [← e]
      generalize I.seq.getD i 0 = a at *
      generalize I.seq.getD (i + 1) 0 = b at *
      generalize max |lo| |hi| = M at *
      rw [abs_le]
      constructor
      · nlinarith [mul_nonneg (sub_nonneg.2 t0.le) (by linarith : (0 : ℝ) ≤ 2 * M - (t + a)),
          mul_nonneg (sub_nonneg.2 t1) (by linarith : (0 : ℝ) ≤ 2 * M + (t + b))]
      · nlinarith [mul_nonneg (sub_nonneg.2 t0.le) (by linarith : (0 : ℝ) ≤ 2 * M + (t + a)),
          mul_nonneg (sub_nonneg.2 t1) (by linarith : (0 : ℝ) ≤ 2 * M - (t + b))])
  rwa [h0, h1] at this

/-- **C72** (mean): the integrated mean differs from the exact first moment over the integration range by at most half
a bin. -/
theorem C72_mean (I : Integ ℝ) (ho : OrderOK I) (w w' : IWorld ℝ) (r : NDArr (Fl ℝ))
    (h : integrate I .mean w = (.ok r, w')) (lo hi : ℝ) (hlh : lo ≤ hi) (n : ℕ) (hn : 2 ≤ n)
    (hseq : I.seq = linspace lo hi n) (k : List Nat) (hk : InB I.shape k)
    (μ : Measure ℝ) [IsProbabilityMeasure μ] (hrows : CdfRows I k μ) :
    ∃ v, r.get k = some v ∧ |v - ∫ t in Set.Ioc lo hi, t ∂μ| ≤ binWidth lo hi n / 2 := by
  obtain ⟨-, hv⟩ := C28_value I ho .mean w w' r h k hk _ hrows.rowsAt
  refine ⟨_, hv, ?_⟩
  have hl := (cdf_grid I lo hi hlh n hn hseq).1
  rw [hl]
  refine (mean_error μ I lo hi hlh n hn hseq).trans ?_
  have h1 : μ.real (Set.Ioc lo hi) ≤ 1 := measureReal_le_one
  have h2 : 0 ≤ μ.real (Set.Ioc lo hi) := measureReal_nonneg
  have h3 := binWidth_nonneg hlh n
  nlinarith

/-- **C72** (mean, whole line): the integrated mean differs from the forecast's mean by at most half a bin plus the
moment outside the integration range. -/
theorem C72_mean_exact (I : Integ ℝ) (ho : OrderOK I) (w w' : IWorld ℝ) (r : NDArr (Fl ℝ))
    (h : integrate I .mean w = (.ok r, w')) (lo hi : ℝ) (hlh : lo ≤ hi) (n : ℕ) (hn : 2 ≤ n)
    (hseq : I.seq = linspace lo hi n) (k : List Nat) (hk : InB I.shape k)
    (μ : Measure ℝ) [IsProbabilityMeasure μ] (hrows : CdfRows I k μ) (hint : Integrable (fun t => t) μ) :
    ∃ v, r.get k = some v ∧
      |v - ∫ t, t ∂μ| ≤ binWidth lo hi n / 2 + ∫ t in (Set.Ioc lo hi)ᶜ, |t| ∂μ := by
  obtain ⟨v, hv, hb⟩ := C72_mean I ho w w' r h lo hi hlh n hn hseq k hk μ hrows
  refine ⟨v, hv, ?_⟩
  have h1 := integral_add_compl (μ := μ) (measurableSet_Ioc (a := lo) (b := hi)) hint
  have h2 : |∫ t in (Set.Ioc lo hi)ᶜ, t ∂μ| ≤ ∫ t in (Set.Ioc lo hi)ᶜ, |t| ∂μ := by
    simpa [Real.norm_eq_abs] using
      norm_integral_le_integral_norm (μ := μ.restrict (Set.Ioc lo hi)ᶜ) (fun t : ℝ => t)
  rw [← h1]
  rw [abs_le] at hb h2 ⊢
  constructor <;> linarith [hb.1, hb.2, h2.1, h2.2]

/-- **C72** (variance): the integrated variance differs from the exact second moment minus the squared first moment
over the integration range by at most two bins times the largest magnitude in the range. -/
theorem C72_variance (I : Integ ℝ) (ho : OrderOK I) (w w' : IWorld ℝ) (r : NDArr (Fl ℝ))
    (h : integrate I .variance w = (.ok r, w')) (lo hi : ℝ) (hlh : lo ≤ hi) (n : ℕ) (hn : 2 ≤ n)
    (hseq : I.seq = linspace lo hi n) (k : List Nat) (hk : InB I.shape k)
    (μ : Measure ℝ) [IsProbabilityMeasure μ] (hrows : CdfRows I k μ) :
    ∃ v, r.get k = some v ∧
      |v - ((∫ t in Set.Ioc lo hi, t * t ∂μ) - (∫ t in Set.Ioc lo hi, t ∂μ) ^ 2)| ≤
        2 * binWidth lo hi n * max |lo| |hi| := by
  obtain ⟨-, hv⟩ := C28_value I ho .variance w w' r h k hk _ hrows.rowsAt
  refine ⟨_, hv, ?_⟩
  obtain ⟨hl, h0, h1, hx, hw, hb⟩ := cdf_grid I lo hi hlh n hn hseq
  rw [hl]
  have hm := mean_error μ I lo hi hlh n hn hseq
  have hs := sq_error μ I lo hi hlh n hn hseq
  have hq1 : μ.real (Set.Ioc lo hi) ≤ 1 := measureReal_le_one
  have hq0 : 0 ≤ μ.real (Set.Ioc lo hi) := measureReal_nonneg
  have hB := binWidth_nonneg hlh n
  -- both first moments are at most the largest magnitude
  have hM : ∀ s, lo ≤ s → s ≤ hi → |s| ≤ max |lo| |hi| := fun s h2 h3 => abs_le_max_abs_abs h2 h3
  have hM0 : 0 ≤ max |lo| |hi| := (abs_nonneg _).trans (le_max_left _ _)
  have hE : |∫ t in Set.Ioc lo hi, t ∂μ| ≤ max |lo| |hi| := by
    have := norm_setIntegral_le_of_norm_le_const (μ := μ) (s := Set.Ioc lo hi) (C := max |lo| |hi|)
      (f := fun t : ℝ => t) (measure_lt_top _ _) (fun t ht => hM t ht.1.le ht.2)
    rw [Real.norm_eq_abs] at this
    refine this.trans ?_
    nlinarith
  have hinc : ∀ i, i + 1 < n → 0 ≤ μ.real (Set.Iic (I.seq.getD (i + 1) 0)) - μ.real (Set.Iic (I.seq.getD i 0)) :=
    fun i hi' => sub_nonneg.2 (measureReal_mono (Set.Iic_subset_Iic.2 (hx i hi')))
  have hS : |stieltjes (fun t => t) (fun i => I.seq.getD i 0) (fun i => μ.real (Set.Iic (I.seq.getD i 0))) n| ≤
      max |lo| |hi| := by
    unfold stieltjes
    refine (Finset.abs_sum_le_sum_abs _ _).trans ?_
    have : ∀ i ∈ Finset.range (n - 1), |(I.seq.getD (i + 1) 0 + I.seq.getD i 0) / 2 *
        (μ.real (Set.Iic (I.seq.getD (i + 1) 0)) - μ.real (Set.Iic (I.seq.getD i 0)))| ≤
        max |lo| |hi| * (μ.real (Set.Iic (I.seq.getD (i + 1) 0)) - μ.real (Set.Iic (I.seq.getD i 0))) := by
      intro i hi'
      have hi' := Finset.mem_range.1 hi'
      rw [abs_mul, abs_of_nonneg (hinc i (by omega))]
      refine mul_le_mul_of_nonneg_right ?_ (hinc i (by omega))
      have a1 := abs_le.1 (hM _ (hb i (by omega)).1 (hb i (by omega)).2)
      have a2 := abs_le.1 (hM _ (hb (i + 1) (by omega)).1 (hb (i + 1) (by omega)).2)
      rw [abs_le]
      constructor <;> linarith [a1.1, a1.2, a2.1, a2.2]
    refine (Finset.sum_le_sum this).trans ?_
    rw [← Finset.mul_sum, Finset.sum_range_sub (fun i => μ.real (Set.Iic (I.seq.getD i 0)))]
    have b1 : μ.real (Set.Iic (I.seq.getD (n - 1) 0)) ≤ 1 := measureReal_le_one
    have b2 : 0 ≤ μ.real (Set.Iic (I.seq.getD 0 0)) := measureReal_nonneg
    nlinarith
  simp only [integral]
  generalize stieltjes (fun t => t) (fun i => I.seq.getD i 0) (fun i => μ.real (Set.Iic (I.seq.getD i 0))) n = S at *
  generalize stieltjes (fun t => t * t) (fun i => I.seq.getD i 0) (fun i => μ.real (Set.Iic (I.seq.getD i 0))) n = Q at *
  generalize (∫ t in Set.Ioc lo hi, t ∂μ) = E at *
  generalize (∫ t in Set.Ioc lo hi, t * t ∂μ) = E2 at *
  have hm' : |S - E| ≤ binWidth lo hi n / 2 := hm.trans (by nlinarith)
  have hs' : |Q - E2| ≤ binWidth lo hi n * max |lo| |hi| := hs.trans (by
    have := mul_nonneg hB hM0
    nlinarith)
  have e : Q - S * S - (E2 - E ^ 2) = (Q - E2) - (S - E) * (S + E) := by ring
  rw [e]
  refine (abs_sub _ _).trans ?_
  rw [abs_mul]
  have h5 : |S + E| ≤ 2 * max |lo| |hi| := (abs_add_le S E).trans (by linarith)
  have h6 : |S - E| * |S + E| ≤ binWidth lo hi n / 2 * (2 * max |lo| |hi|) :=
    mul_le_mul hm' h5 (abs_nonneg _) (by linarith)
  nlinarith

/-! ### examples -/

/-- the forecast "certainly 2" -/
noncomputable def stepAt2 (x : ℝ) : ℝ := if 2 ≤ x then 1 else 0

noncomputable def exCdf (x : ℝ) : Except Err (NDArr (Fl ℝ)) := .ok ⟨[1], [some (stepAt2 x)], rfl⟩

def exObs : NDArr (Fl ℝ) := ⟨[1], [some 1], rfl⟩

noncomputable def exRealInteg (row : ℝ → Except Err (NDArr (Fl ℝ))) : Integ ℝ :=
  { cores := 2, lessMemory := false, seq := linspace 0 4 9, shape := [1], scratch := "s", row := row,
    pick := fun n => n + 1, order := List.reverse }

def exRealWorld : IWorld ℝ := ⟨fun k => if k = "pyanen_tqdm_disable" then some "False".toList
    else if k = "pyanen_tqdm_workers" then some " 4".toList else none, fun _ => none⟩

theorem exReal_ok (row : ℝ → Except Err (NDArr (Fl ℝ))) (hrow : ∀ x, ∃ a, row x = .ok a ∧ a.shape = [1]) (kind : Kind) :
    ∃ r, integrate (exRealInteg row) kind exRealWorld = (.ok r, (integrate (exRealInteg row) kind exRealWorld).2) := by
  choose f hf hs using hrow
  have hm : mapE row (linspace (0 : ℝ) 4 9) = .ok ((linspace (0 : ℝ) 4 9).map f) := by
    rw [mapE_ok, List.forall₂_map_right_iff, List.forall₂_same]
    exact fun x _ => hf x
  refine ⟨_, Prod.ext ((integrate_iff (exRealInteg row) (fun l => List.reverse_perm l) kind exRealWorld _).2
    ⟨⟨_, rfl⟩, fun h => by simp [exRealInteg] at h, (linspace (0 : ℝ) 4 9).map f, hm, ?_, ?_, rfl⟩) rfl⟩
  · simp [linspace]
  · intro q hq
    obtain ⟨x, -, rfl⟩ := List.mem_map.1 hq
    exact hs x

/-- the hypotheses of the CRPS theorem are met by a step forecast on a grid of nine points -/
example : ∃ r v, (integrate (exRealInteg (brierRow exCdf exObs)) .crps exRealWorld).1 = .ok r ∧ r.get [0] = some v ∧
    |v - ∫ t in (0 : ℝ)..4, crpsIntegrand stepAt2 1 t| ≤ 2 * binWidth 0 4 9 := by
  obtain ⟨r, hr⟩ := exReal_ok (brierRow exCdf exObs) (fun x => ⟨_, rfl, rfl⟩) .crps
  obtain ⟨v, hv, hb⟩ := C72_crps (exRealInteg (brierRow exCdf exObs)) (fun l => List.reverse_perm l) _ _ r hr 0 4
    (by norm_num) 9 (by norm_num) rfl [0] (by decide) exCdf exObs rfl rfl stepAt2
    (fun a b hab => by
      unfold stepAt2
      split
      · rw [if_pos (by linarith)]
      · split <;> norm_num)
    (fun t => by unfold stepAt2; split <;> norm_num) 1 rfl (fun x _ => ⟨_, rfl, rfl, rfl⟩)
  exact ⟨r, v, by rw [hr], hv, hb⟩

/-- and those of the mean and variance theorems by the distribution concentrated at 2 -/
example : ∃ r v, (integrate (exRealInteg exCdf) .mean exRealWorld).1 = .ok r ∧ r.get [0] = some v ∧
    |v - ∫ t in Set.Ioc (0 : ℝ) 4, t ∂(Measure.dirac 2)| ≤ binWidth 0 4 9 / 2 := by
  obtain ⟨r, hr⟩ := exReal_ok exCdf (fun x => ⟨_, rfl, rfl⟩) .mean
  obtain ⟨v, hv, hb⟩ := C72_mean (exRealInteg exCdf) (fun l => List.reverse_perm l) _ _ r hr 0 4
    (by norm_num) 9 (by norm_num) rfl [0] (by decide) (Measure.dirac 2) (fun x _ => ⟨_, rfl, by
      have : (Measure.dirac (2 : ℝ)).real (Set.Iic x) = stepAt2 x := by
        unfold stepAt2
        rw [measureReal_def, Measure.dirac_apply' _ measurableSet_Iic]
        by_cases h : 2 ≤ x <;> simp [h]
      rw [this]
      rfl⟩)
  exact ⟨r, v, by rw [hr], hv, hb⟩

end Props
