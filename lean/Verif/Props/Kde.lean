import Verif.Lemmas.Kde
import Verif.Lemmas.Normal
import Verif.Props.Accuracy

/-! C73: probabilities computed from a kernel density estimate. -/

set_option linter.unusedSectionVars false
set_option linter.unusedSimpArgs false

open MeasureTheory Np Model Spec Lemmas

namespace Props

section
variable {K : Type} [Field K] [LinearOrder K] [IsStrictOrderedRing K]

/-- first sampled point of `ens_to_prob_kde`: the smallest member minus a multiple of the spread -/
def kdeLo (P : KdePar K) (m : K) (rest : List K) : K :=
  rest.foldl min m - (rest.foldl max m - rest.foldl min m) * (P.multiplier : K)

/-- what `ens_to_prob_kde` returns for numbers -/
theorem kdeCol_eq (P : KdePar K) (b m : K) (rest : List K) (hh : 0 < P.bandwidth) (hs : 2 ≤ P.samples) :
    kdeCol P (some b :: some m :: rest.map some) =
      .ok (((linspace (kdeLo P m rest) b P.samples.toNat).map (kdeDensity P (m :: rest))).sum *
        ((linspace (kdeLo P m rest) b P.samples.toNat).getD 1 0 -
          (linspace (kdeLo P m rest) b P.samples.toNat).getD 0 0)) := by
  have hm : mapE numOrNan (some m :: rest.map some) = .ok (m :: rest) := by
    rw [← List.map_cons, mapE_map]
    simp only [numOrNan]
    rw [mapE_pure]
    simp
  unfold kdeCol
  simp only [not_le.2 hh, if_false, hm, bind, Except.bind, pure, Except.pure]
  rw [if_neg (by omega), if_neg (by omega)]
  rfl

theorem linspace_step (lo hi : K) {n : ℕ} (hn : 2 ≤ n) :
    (linspace lo hi n).getD 1 0 - (linspace lo hi n).getD 0 0 = (hi - lo) / ((n - 1 : ℕ) : K) := by
  unfold linspace
  rw [if_neg (by omega), List.getD_eq_getElem?_getD, List.getD_eq_getElem?_getD]
  simp only [List.getElem?_map, List.getElem?_range (show 1 < n by omega), List.getElem?_range (show 0 < n by omega),
    Option.map_some, Option.getD_some]
  rw [if_neg (show ¬ (0 = n - 1) by omega)]
  split
  · rename_i h
    rw [← h]; push_cast; ring
  · push_cast; ring

theorem kdeDensity_pos (P : KdePar K) (m : K) (rest : List K) (hh : 0 < P.bandwidth) (hk : ∀ u, 0 < P.kernel u) (x : K) :
    0 < kdeDensity P (m :: rest) x := by
  unfold kdeDensity
  refine div_pos ?_ (by simp only [List.length_cons]; exact_mod_cast Nat.succ_pos _)
  rw [List.map_cons, List.sum_cons]
  refine add_pos_of_pos_of_nonneg (div_pos (hk _) hh) (List.sum_nonneg ?_)
  intro y hy
  obtain ⟨e, -, rfl⟩ := List.mem_map.1 hy
  exact (div_pos (hk _) hh).le

theorem kdeDensity_nonneg (P : KdePar K) (ms : List K) (hh : 0 < P.bandwidth) (hk : ∀ u, 0 ≤ P.kernel u) (x : K) :
    0 ≤ kdeDensity P ms x := by
  unfold kdeDensity
  refine div_nonneg (List.sum_nonneg ?_) (Nat.cast_nonneg _)
  intro y hy
  obtain ⟨e, -, rfl⟩ := List.mem_map.1 hy
  exact div_nonneg (hk _) hh.le

/-- **C73**, when there is a value at all: the bandwidth is positive, there is at least one member, neither a member nor the
threshold is NaN and at least two points are sampled.  With valid data, one point or none is an `IndexError` and
everything else a `ValueError`. -/
theorem C73_errors (P : KdePar K) (below : Fl K) (ens : List (Fl K)) :
    ((∃ v, kdeCol P (below :: ens) = .ok v) ↔
      0 < P.bandwidth ∧ ens ≠ [] ∧ none ∉ ens ∧ below ≠ none ∧ 2 ≤ P.samples) ∧
    (kdeCol P (below :: ens) = .error .index ↔
      0 < P.bandwidth ∧ ens ≠ [] ∧ none ∉ ens ∧ 0 ≤ P.samples ∧ P.samples < 2) := by
  by_cases hh : P.bandwidth ≤ 0
  · have : kdeCol P (below :: ens) = .error .value := by simp only [kdeCol, if_pos hh, bind, Except.bind]
    rw [this]
    simp [not_lt.2 hh]
  · have hh' := not_le.1 hh
    by_cases hn : none ∈ ens
    · have hm : mapE numOrNan ens = .error .value := by
        clear hh hh'
        induction ens with
        | nil => cases hn
        | cons a l ih =>
          cases a with
          | none => rfl
          | some v =>
            have : none ∈ l := by simpa using hn
            simp only [mapE, numOrNan, ih this, bind, Except.bind]
      have : kdeCol P (below :: ens) = .error .value := by
        simp only [kdeCol, if_neg hh, hm, bind, Except.bind, pure, Except.pure]
      rw [this]
      simp [hn]
    · obtain ⟨ms, rfl⟩ : ∃ ms : List K, ens = ms.map some := by
        clear hh hh'
        induction ens with
        | nil => exact ⟨[], rfl⟩
        | cons a l ih =>
          simp only [List.mem_cons, not_or] at hn
          obtain ⟨ms, rfl⟩ := ih hn.2
          obtain ⟨v, hv⟩ := Option.ne_none_iff_exists'.1 (Ne.symm hn.1)
          exact ⟨v :: ms, by rw [hv]; rfl⟩
      have hm : mapE numOrNan (ms.map some) = .ok ms := by
        rw [mapE_map]
        simp only [numOrNan]
        rw [mapE_pure]
        simp
      cases ms with
      | nil =>
        have : kdeCol P (below :: ([] : List K).map some) = .error .value := by
          simp only [kdeCol, if_neg hh, hm, bind, Except.bind, pure, Except.pure]
        rw [this]
        simp
      | cons m rest =>
        by_cases h0 : P.samples < 0
        · have : kdeCol P (below :: (m :: rest).map some) = .error .value := by
            simp only [kdeCol, if_neg hh, hm, bind, Except.bind, pure, Except.pure, if_pos h0]
          rw [this]
          simp
          omega
        · by_cases h2 : P.samples < 2
          · have : kdeCol P (below :: (m :: rest).map some) = .error .index := by
              simp only [kdeCol, if_neg hh, hm, bind, Except.bind, pure, Except.pure, if_neg h0, if_pos h2]
            rw [this]
            simp [hh']
            omega
          · cases below with
            | none =>
              have : kdeCol P (none :: (m :: rest).map some) = .error .value := by
                simp only [kdeCol, if_neg hh, hm, bind, Except.bind, pure, Except.pure, if_neg h0, if_neg h2]
              rw [this]
              simp [h2]
            | some b =>
              have h3 : 2 ≤ P.samples := not_lt.1 h2
              have := kdeCol_eq P b m rest hh' h3
              rw [List.map_cons, this]
              simp [hh', h3]
              omega

/-- **C73** fails for every threshold below the sampled range: the points are laid out backwards and the reported
"probability" is negative. -/
theorem C73_negative_false (P : KdePar K) (b m : K) (rest : List K) (hh : 0 < P.bandwidth) (hs : 2 ≤ P.samples)
    (hk : ∀ u, 0 < P.kernel u) (hb : b < kdeLo P m rest) :
    ∃ v, kdeCol P (some b :: some m :: rest.map some) = .ok v ∧ v < 0 := by
  refine ⟨_, kdeCol_eq P b m rest hh hs, ?_⟩
  rw [linspace_step _ _ (by omega)]
  refine mul_neg_of_pos_of_neg ?_ (div_neg_of_neg_of_pos (sub_neg.2 hb) ?_)
  · have hne : ((linspace (kdeLo P m rest) b P.samples.toNat).map (kdeDensity P (m :: rest))) ≠ [] := by
      unfold linspace
      rw [if_neg (by omega)]
      simp only [List.map_map, ne_eq, List.map_eq_nil_iff, List.range_eq_nil]
      omega
    refine List.sum_pos _ ?_ hne
    intro y hy
    obtain ⟨x, -, rfl⟩ := List.mem_map.1 hy
    exact kdeDensity_pos P m rest hh hk x
  · have : 0 < P.samples.toNat - 1 := by omega
    exact_mod_cast this

/-- **C73** (part): at or above the sampled range the result is not negative. -/
theorem C73_nonneg_partial (P : KdePar K) (b m : K) (rest : List K) (hh : 0 < P.bandwidth) (hs : 2 ≤ P.samples)
    (hk : ∀ u, 0 ≤ P.kernel u) (hb : kdeLo P m rest ≤ b) :
    ∃ v, kdeCol P (some b :: some m :: rest.map some) = .ok v ∧ 0 ≤ v := by
  refine ⟨_, kdeCol_eq P b m rest hh hs, ?_⟩
  rw [linspace_step _ _ (by omega)]
  refine mul_nonneg (List.sum_nonneg ?_) (div_nonneg (sub_nonneg.2 hb) (Nat.cast_nonneg _))
  intro y hy
  obtain ⟨x, -, rfl⟩ := List.mem_map.1 hy
  exact kdeDensity_nonneg P _ hh hk x

/-- all members equal: the first sampled point is that common value -/
theorem kdeLo_const (P : KdePar K) (c : K) (n : ℕ) : kdeLo P c (List.replicate n c) = c := by
  have h1 : ∀ n, (List.replicate n c).foldl min c = c := by
    intro n
    induction n with
    | zero => rfl
    | succ n ih => simp [List.replicate_succ, ih]
  have h2 : ∀ n, (List.replicate n c).foldl max c = c := by
    intro n
    induction n with
    | zero => rfl
    | succ n ih => simp [List.replicate_succ, ih]
  unfold kdeLo
  rw [h1, h2]
  ring

theorem sum_map_linspace_head (lo hi : K) {n : ℕ} (hn : 2 ≤ n) (f : K → K) (hf : ∀ x, 0 ≤ f x) :
    f lo ≤ ((linspace lo hi n).map f).sum := by
  unfold linspace
  rw [if_neg (by omega)]
  obtain ⟨p, rfl⟩ : ∃ p, n = p + 1 := ⟨n - 1, by omega⟩
  rw [List.range_succ_eq_map]
  simp only [List.map_cons, List.sum_cons]
  rw [if_neg (by omega)]
  have : 0 ≤ (((List.map Nat.succ (List.range p)).map fun i =>
      if i = p + 1 - 1 then hi else lo + (i : K) * ((hi - lo) / ((p + 1 - 1 : ℕ) : K))).map f).sum := by
    refine List.sum_nonneg ?_
    intro y hy
    obtain ⟨x, -, rfl⟩ := List.mem_map.1 hy
    exact hf x
  have e : lo + ((0 : ℕ) : K) * ((hi - lo) / ((p + 1 - 1 : ℕ) : K)) = lo := by push_cast; ring
  rw [e]
  linarith

/-- **C73** fails for ensembles without spread: with all members at `c` the reported "probability" exceeds one as soon
as the threshold is far enough above `c`. -/
theorem C73_above_one_false (P : KdePar K) (b c : K) (n : ℕ) (hh : 0 < P.bandwidth) (hs : 2 ≤ P.samples)
    (hk : ∀ u, 0 ≤ P.kernel u) (hk0 : 0 < P.kernel 0)
    (hb : P.bandwidth * ((P.samples.toNat - 1 : ℕ) : K) / P.kernel 0 < b - c) :
    ∃ v, kdeCol P (some b :: some c :: (List.replicate n c).map some) = .ok v ∧ 1 < v := by
  refine ⟨_, kdeCol_eq P b c _ hh hs, ?_⟩
  rw [linspace_step _ _ (by omega), kdeLo_const]
  have hn1 : (0 : K) < ((P.samples.toNat - 1 : ℕ) : K) := by
    have : 0 < P.samples.toNat - 1 := by omega
    exact_mod_cast this
  have hbc : 0 < b - c := lt_of_le_of_lt (by positivity) hb
  have hd : kdeDensity P (c :: List.replicate n c) c = P.kernel 0 / P.bandwidth := by
    unfold kdeDensity
    rw [← List.replicate_succ, List.map_replicate, List.sum_replicate, sub_self, zero_div, List.length_replicate,
      nsmul_eq_mul]
    rw [mul_div_cancel_left₀]
    exact_mod_cast Nat.succ_ne_zero n
  have h1 := sum_map_linspace_head c b (n := P.samples.toNat) (by omega) (kdeDensity P (c :: List.replicate n c))
    (kdeDensity_nonneg P _ hh hk)
  rw [hd] at h1
  rw [div_lt_iff₀ hk0] at hb
  calc (1 : K) < P.kernel 0 / P.bandwidth * ((b - c) / ((P.samples.toNat - 1 : ℕ) : K)) := by
        rw [div_mul_div_comm, lt_div_iff₀ (by positivity)]
        linarith
    _ ≤ _ := mul_le_mul_of_nonneg_right h1 (by positivity)

end

/-! ### accuracy -/

theorem sum_map_getD (l : List ℝ) (f : ℝ → ℝ) :
    (l.map f).sum = ∑ i ∈ Finset.range l.length, f (l.getD i 0) := by
  induction l with
  | nil => simp
  | cons a l ih =>
    rw [List.map_cons, List.sum_cons, List.length_cons, Finset.sum_range_succ', ih]
    simp [add_comm]

/-- a sum over all points is the trapezoidal rule plus half of each end -/
theorem sum_eq_trapezoid (d : ℕ → ℝ) (x : ℕ → ℝ) (w : ℝ) (n : ℕ) (hw : ∀ i, i + 1 < n + 2 → x (i + 1) - x i = w) :
    (∑ i ∈ Finset.range (n + 2), d i) * w = trapezoid x d (n + 2) + w * (d 0 + d (n + 1)) / 2 := by
  have h1 : trapezoid x d (n + 2) = (∑ i ∈ Finset.range (n + 1), (d (i + 1) + d i) / 2) * w := by
    unfold trapezoid
    rw [Finset.sum_mul]
    refine Finset.sum_congr rfl fun i hi => ?_
    have := Finset.mem_range.1 hi
    rw [hw i (by omega)]
  have h2 : ∑ i ∈ Finset.range (n + 1), (d (i + 1) + d i) / 2 =
      ((∑ i ∈ Finset.range (n + 1), d (i + 1)) + ∑ i ∈ Finset.range (n + 1), d i) / 2 := by
    rw [← Finset.sum_div, Finset.sum_add_distrib]
  have h3 : ∑ i ∈ Finset.range (n + 2), d i = (∑ i ∈ Finset.range (n + 1), d (i + 1)) + d 0 :=
    Finset.sum_range_succ' _ _
  have h4 : ∑ i ∈ Finset.range (n + 2), d i = (∑ i ∈ Finset.range (n + 1), d i) + d (n + 1) :=
    Finset.sum_range_succ _ _
  rw [h1, h2]
  have h5 : (∑ i ∈ Finset.range (n + 1), d (i + 1)) = (∑ i ∈ Finset.range (n + 2), d i) - d 0 := by linarith
  have h6 : (∑ i ∈ Finset.range (n + 1), d i) = (∑ i ∈ Finset.range (n + 2), d i) - d (n + 1) := by linarith
  rw [h5, h6]
  ring

theorem kdeDensity_le (P : KdePar ℝ) (hk : IsKernel P.kernel) (hh : 0 < P.bandwidth) (ms : List ℝ) (hne : ms ≠ [])
    (x : ℝ) : kdeDensity P ms x ≤ P.kernel 0 / P.bandwidth := by
  have hl : (0 : ℝ) < ms.length := by exact_mod_cast List.length_pos_iff.2 hne
  unfold kdeDensity
  rw [div_le_iff₀ hl, mul_comm, ← sum_map_const]
  exact sum_map_le _ _ _ fun e _ => div_le_div_of_nonneg_right (IsKernel.le_zero hk _) hh.le

/-- variation of the density -/
noncomputable def dvar (P : KdePar ℝ) (ms : List ℝ) (x : ℝ) : ℝ :=
  (ms.map fun e => kvar P.kernel ((x - e) / P.bandwidth) / P.bandwidth).sum / ms.length

theorem dvar_bounds (P : KdePar ℝ) (hk : IsKernel P.kernel) (hh : 0 < P.bandwidth) (ms : List ℝ) (hne : ms ≠ [])
    (x : ℝ) : 0 ≤ dvar P ms x ∧ dvar P ms x ≤ 2 * P.kernel 0 / P.bandwidth := by
  have hl : (0 : ℝ) < ms.length := by exact_mod_cast List.length_pos_iff.2 hne
  unfold dvar
  constructor
  · refine div_nonneg (List.sum_nonneg ?_) hl.le
    intro y hy
    obtain ⟨e, -, rfl⟩ := List.mem_map.1 hy
    exact div_nonneg (kvar_bounds hk _).1 hh.le
  · rw [div_le_iff₀ hl, mul_comm, ← sum_map_const]
    exact sum_map_le _ _ _ fun e _ => div_le_div_of_nonneg_right (kvar_bounds hk _).2 hh.le

theorem dvar_variation (P : KdePar ℝ) (hk : IsKernel P.kernel) (hh : 0 < P.bandwidth) (ms : List ℝ) (s t : ℝ)
    (hst : s ≤ t) : |kdeDensity P ms t - kdeDensity P ms s| ≤ dvar P ms t - dvar P ms s := by
  unfold kdeDensity dvar
  rw [← sub_div, ← sub_div, sum_map_sub, sum_map_sub, abs_div, abs_of_nonneg (Nat.cast_nonneg (α := ℝ) ms.length)]
  refine div_le_div_of_nonneg_right ((abs_sum_map_le _ _).trans (sum_map_le _ _ _ fun e _ => ?_)) (Nat.cast_nonneg _)
  rw [← sub_div, ← sub_div, abs_div, abs_of_pos hh]
  exact div_le_div_of_nonneg_right (kvar_variation hk _ _ (div_le_div_of_nonneg_right (by linarith) hh.le)) hh.le

theorem kdeDensity_integral (P : KdePar ℝ) (hk : IsKernel P.kernel) (hh : 0 < P.bandwidth) (ms : List ℝ) (a b : ℝ) :
    IntervalIntegrable (kdeDensity P ms) volume a b ∧
      ∫ x in a..b, kdeDensity P ms x =
        smoothCdf P.kernel P.bandwidth ms b - smoothCdf P.kernel P.bandwidth ms a := by
  obtain ⟨h1, h2⟩ := sum_map_intervalIntegrable ms (fun e x => P.kernel ((x - e) / P.bandwidth) / P.bandwidth) a b
    (fun e _ => (density_integral hk hh e a b).2)
  refine ⟨h1.div_const _, ?_⟩
  unfold kdeDensity smoothCdf
  rw [intervalIntegral.integral_div, h2, ← sub_div, sum_map_sub]
  congr 3
  funext e
  exact (density_integral hk hh e a b).1

/-- **C73** (part): for a threshold inside or above the sampled range, the result is within two sampling intervals
times the peak of a kernel of the probability that the smoothed ensemble puts between the first sampled point and the
threshold. -/
theorem C73_accuracy_partial (P : KdePar ℝ) (hk : IsKernel P.kernel) (b m : ℝ) (rest : List ℝ) (hh : 0 < P.bandwidth)
    (hs : 2 ≤ P.samples) (hb : kdeLo P m rest ≤ b) :
    ∃ v, kdeCol P (some b :: some m :: rest.map some) = .ok v ∧
      |v - (smoothCdf P.kernel P.bandwidth (m :: rest) b -
          smoothCdf P.kernel P.bandwidth (m :: rest) (kdeLo P m rest))| ≤
        2 * ((b - kdeLo P m rest) / ((P.samples.toNat - 1 : ℕ) : ℝ)) * (P.kernel 0 / P.bandwidth) := by
  refine ⟨_, kdeCol_eq P b m rest hh hs, ?_⟩
  obtain ⟨n, hn⟩ : ∃ n, P.samples.toNat = n + 2 := ⟨P.samples.toNat - 2, by omega⟩
  rw [linspace_step _ _ (by omega), hn]
  obtain ⟨hmono, hlen, hg0, hg1⟩ := C31_grid hb (n + 2) (by omega)
  obtain ⟨hint, hval⟩ := kdeDensity_integral P hk hh (m :: rest) (kdeLo P m rest) b
  have hw : ∀ i, i + 1 < n + 2 → (linspace (kdeLo P m rest) b (n + 2)).getD (i + 1) 0 -
      (linspace (kdeLo P m rest) b (n + 2)).getD i 0 = binWidth (kdeLo P m rest) b (n + 2) := by
    intro i hi
    rw [linspace_getD _ _ (by omega) hi, linspace_getD _ _ (by omega) (by omega)]
    push_cast
    ring
  have hx : ∀ i, i + 1 < n + 2 → (linspace (kdeLo P m rest) b (n + 2)).getD i 0 ≤
      (linspace (kdeLo P m rest) b (n + 2)).getD (i + 1) 0 :=
    fun i hi => getD_mono hmono (Nat.le_succ i) (by omega)
  have htr := trapezoid_error (fun i => (linspace (kdeLo P m rest) b (n + 2)).getD i 0) (n + 2) (by omega) hx
    (binWidth (kdeLo P m rest) b (n + 2)) (fun i hi => (hw i hi).le) (kdeDensity P (m :: rest)) (dvar P (m :: rest))
    (by rw [hg0, hg1]; exact hint) (dvar_variation P hk hh (m :: rest))
  rw [hg0, hg1, hval] at htr
  rw [sum_map_getD, hlen]
  change |_ * binWidth (kdeLo P m rest) b (n + 2) - _| ≤ 2 * binWidth (kdeLo P m rest) b (n + 2) * _
  rw [sum_eq_trapezoid _ (fun i => (linspace (kdeLo P m rest) b (n + 2)).getD i 0) _ n hw]
  have hW := binWidth_nonneg hb (n + 2)
  have hv1 := dvar_bounds P hk hh (m :: rest) (by simp) b
  have hv0 := dvar_bounds P hk hh (m :: rest) (by simp) (kdeLo P m rest)
  have hd : ∀ x, 0 ≤ kdeDensity P (m :: rest) x ∧ kdeDensity P (m :: rest) x ≤ P.kernel 0 / P.bandwidth :=
    fun x => ⟨kdeDensity_nonneg P _ hh hk.nonneg x, kdeDensity_le P hk hh _ (by simp) x⟩
  have hd0 := hd ((linspace (kdeLo P m rest) b (n + 2)).getD 0 0)
  have hd1 := hd ((linspace (kdeLo P m rest) b (n + 2)).getD (n + 1) 0)
  have e : 2 * P.kernel 0 / P.bandwidth = 2 * (P.kernel 0 / P.bandwidth) := by ring
  rw [e] at hv1 hv0
  generalize P.kernel 0 / P.bandwidth = p at *
  generalize binWidth (kdeLo P m rest) b (n + 2) = W at *
  generalize trapezoid (K := ℝ) _ _ _ = T at *
  generalize kdeDensity P (m :: rest) _ = d0 at *
  generalize kdeDensity P (m :: rest) _ = d1 at *
  have h1 : W / 2 * (dvar P (m :: rest) b - dvar P (m :: rest) (kdeLo P m rest)) ≤ W * p := by nlinarith
  have h2 : 0 ≤ W * (d0 + d1) / 2 := by
    have := mul_nonneg hW (add_nonneg hd0.1 hd1.1)
    linarith
  have h3 : W * (d0 + d1) / 2 ≤ W * p := by nlinarith
  rw [abs_le] at htr ⊢
  constructor <;> linarith [htr.1, htr.2]

theorem smoothCdf_bounds (k : ℝ → ℝ) (hk : IsKernel k) (h : ℝ) (ms : List ℝ) (t : ℝ) :
    0 ≤ smoothCdf k h ms t ∧ smoothCdf k h ms t ≤ 1 := by
  unfold smoothCdf
  constructor
  · refine div_nonneg (List.sum_nonneg ?_) (Nat.cast_nonneg _)
    intro y hy
    obtain ⟨e, -, rfl⟩ := List.mem_map.1 hy
    exact (kernelCdf_bounds hk _).1
  · refine div_le_one_of_le₀ ?_ (Nat.cast_nonneg _)
    have := sum_map_le ms _ _ fun e _ => (kernelCdf_bounds hk ((t - e) / h)).2
    rwa [sum_map_const, mul_one] at this

/-- **C73** (part): hence, within the same error, the result is below one whenever the threshold is in range, and
misses the smoothed probability by at most that error plus the mass below the first sampled point. -/
theorem C73_bounds_partial (P : KdePar ℝ) (hk : IsKernel P.kernel) (b m : ℝ) (rest : List ℝ) (hh : 0 < P.bandwidth)
    (hs : 2 ≤ P.samples) (hb : kdeLo P m rest ≤ b) :
    ∃ v, kdeCol P (some b :: some m :: rest.map some) = .ok v ∧ 0 ≤ v ∧
      v ≤ 1 + 2 * ((b - kdeLo P m rest) / ((P.samples.toNat - 1 : ℕ) : ℝ)) * (P.kernel 0 / P.bandwidth) ∧
      |v - smoothCdf P.kernel P.bandwidth (m :: rest) b| ≤
        2 * ((b - kdeLo P m rest) / ((P.samples.toNat - 1 : ℕ) : ℝ)) * (P.kernel 0 / P.bandwidth) +
          smoothCdf P.kernel P.bandwidth (m :: rest) (kdeLo P m rest) := by
  obtain ⟨v, hv, hacc⟩ := C73_accuracy_partial P hk b m rest hh hs hb
  obtain ⟨v', hv', h0⟩ := C73_nonneg_partial P b m rest hh hs hk.nonneg hb
  have : v = v' := by rw [hv] at hv'; injection hv'
  subst this
  have h1 := smoothCdf_bounds P.kernel hk P.bandwidth (m :: rest) b
  have h2 := smoothCdf_bounds P.kernel hk P.bandwidth (m :: rest) (kdeLo P m rest)
  have h3 := abs_le.1 hacc
  refine ⟨v, hv, h0, by linarith [h3.2], ?_⟩
  rw [abs_le]
  constructor <;> linarith [h3.1, h3.2]

/-- **C73** fails for ensembles without spread also well inside the range: all members lie at `c`, below the
threshold, yet only the upper half of their smoothed mass is counted. -/
theorem C73_half_false (P : KdePar ℝ) (hk : IsKernel P.kernel) (b c : ℝ) (n : ℕ) (hh : 0 < P.bandwidth)
    (hs : 2 ≤ P.samples) (hb : c ≤ b) :
    ∃ v, kdeCol P (some b :: some c :: (List.replicate n c).map some) = .ok v ∧
      v ≤ 1 / 2 + 2 * ((b - c) / ((P.samples.toNat - 1 : ℕ) : ℝ)) * (P.kernel 0 / P.bandwidth) := by
  have hlo := kdeLo_const P c n
  obtain ⟨v, hv, hacc⟩ := C73_accuracy_partial P hk b c (List.replicate n c) hh hs (by rw [hlo]; exact hb)
  rw [hlo] at hacc
  refine ⟨v, hv, ?_⟩
  have h1 := smoothCdf_bounds P.kernel hk P.bandwidth (c :: List.replicate n c) b
  have h2 : smoothCdf P.kernel P.bandwidth (c :: List.replicate n c) c = 1 / 2 := by
    unfold smoothCdf
    rw [← List.replicate_succ, List.map_replicate, List.sum_replicate, sub_self, zero_div, kernelCdf_zero hk,
      List.length_replicate, nsmul_eq_mul, mul_div_cancel_left₀]
    exact_mod_cast Nat.succ_ne_zero n
  rw [h2] at hacc
  have := (abs_le.1 hacc).2
  linarith

/-! ### the default settings -/

theorem phi_kernel : IsKernel phi where
  nonneg u := (phi_pos u).le
  even u := by unfold phi; rw [neg_sq]
  anti u v hu huv := by
    unfold phi
    refine div_le_div_of_nonneg_right (Real.exp_le_exp.2 ?_) (Real.sqrt_nonneg _)
    nlinarith
  integrable := integrable_phi
  total := integral_phi

/-- `PyAnEn/__init__.py`: bandwidth 0.01, Gaussian kernel, 1000 samples, five spreads -/
noncomputable def kdeDefault : KdePar ℝ := ⟨1 / 100, phi, 1000, 5⟩

theorem phi_zero_bounds : 39 / 100 < phi 0 ∧ phi 0 < 2 / 5 := by
  have h1 : phi 0 = 1 / √(2 * Real.pi) := by unfold phi; norm_num
  have hp := Real.pi_gt_d2
  have hp' := Real.pi_lt_d2
  have hs : 0 < √(2 * Real.pi) := Real.sqrt_pos.2 (by linarith)
  have hlt : √(2 * Real.pi) < 100 / 39 := by
    rw [Real.sqrt_lt' (by norm_num)]
    norm_num
    linarith
  have hgt : 5 / 2 < √(2 * Real.pi) := by
    refine Real.lt_sqrt_of_sq_lt ?_
    norm_num
    linarith
  rw [h1]
  constructor
  · rw [lt_div_iff₀ hs]; linarith
  · rw [div_lt_iff₀ hs]; linarith

/-- with the default settings, five dry members and the threshold 1 give less than 0.6 -/
example : ∃ v, kdeCol kdeDefault [some 1, some 0, some 0, some 0, some 0, some 0] = .ok v ∧ v < 3 / 5 := by
  obtain ⟨v, hv, hle⟩ := C73_half_false kdeDefault phi_kernel 1 0 4 (by norm_num [kdeDefault]) (by norm_num [kdeDefault])
    (by norm_num)
  refine ⟨v, hv, lt_of_le_of_lt hle ?_⟩
  have := phi_zero_bounds.2
  have e : ((kdeDefault.samples.toNat - 1 : ℕ) : ℝ) = 999 := by
    have : kdeDefault.samples.toNat - 1 = 999 := rfl
    rw [this]; norm_num
  rw [e]
  simp only [kdeDefault]
  norm_num
  linarith

/-- and the threshold 30 gives more than one -/
example : ∃ v, kdeCol kdeDefault [some 30, some 0, some 0, some 0, some 0, some 0] = .ok v ∧ 1 < v := by
  refine C73_above_one_false kdeDefault 30 0 4 (by norm_num [kdeDefault]) (by norm_num [kdeDefault])
    (fun u => (phi_pos u).le) (phi_pos 0) ?_
  have h := phi_zero_bounds.1
  have : kdeDefault.kernel 0 = phi 0 := rfl
  have e : ((kdeDefault.samples.toNat - 1 : ℕ) : ℝ) = 999 := by
    have : kdeDefault.samples.toNat - 1 = 999 := rfl
    rw [this]; norm_num
  rw [this, e, div_lt_iff₀ (phi_pos 0)]
  simp only [kdeDefault]
  norm_num
  linarith

/-- members 10 and 11, threshold 0.1: a negative "probability" -/
example : ∃ v, kdeCol kdeDefault [some (1 / 10), some 10, some 11] = .ok v ∧ v < 0 := by
  refine C73_negative_false kdeDefault (1 / 10) 10 [11] (by norm_num [kdeDefault]) (by norm_num [kdeDefault])
    phi_pos ?_
  simp only [kdeLo, kdeDefault, List.foldl]
  norm_num

/-- and a case inside the range, as the accuracy theorem needs -/
example : kdeLo kdeDefault 10 [11] ≤ 21 / 2 := by
  simp only [kdeLo, kdeDefault, List.foldl]
  norm_num

end Props
