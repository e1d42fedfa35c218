import Verif.Spec.Proper
import Verif.Lemmas.EnsCrps

/-! Averages of squared differences split into a distance and a spread; the same under an integral. -/

set_option linter.unusedSectionVars false

open MeasureTheory Np Spec

namespace Lemmas

/-- the average squared distance of `c` from some values: the squared distance from their average plus their variance -/
theorem avg_sq_split {K α : Type} [Field K] [LinearOrder K] [IsStrictOrderedRing K] {l : List α} (hl : l ≠ []) (h : α → K)
    (c : K) : avg (l.map fun x => (c - h x) ^ 2) =
      (c - avg (l.map h)) ^ 2 + avg (l.map fun x => (avg (l.map h) - h x) ^ 2) := by
  have hn : (l.length : K) ≠ 0 := by
    have := List.length_pos_iff.2 hl
    exact_mod_cast this.ne'
  have e : ∀ d : K, (l.map fun x => (d - h x) ^ 2).sum =
      (l.map fun x => h x ^ 2).sum - 2 * d * (l.map h).sum + l.length * d ^ 2 := by
    intro d
    clear hn hl
    induction l with
    | nil => simp
    | cons a l ih =>
      simp only [List.map_cons, List.sum_cons, ih, List.length_cons]
      push_cast
      ring
  simp only [avg, List.length_map, e]
  field_simp
  ring

theorem avg_nonneg' {K α : Type} [Field K] [LinearOrder K] [IsStrictOrderedRing K] (l : List α) {h : α → K}
    (hh : ∀ x ∈ l, 0 ≤ h x) : 0 ≤ avg (l.map h) := by
  unfold avg
  refine div_nonneg (List.sum_nonneg ?_) (Nat.cast_nonneg _)
  intro v hv
  obtain ⟨x, hx, rfl⟩ := List.mem_map.1 hv
  exact hh x hx

/-- the average over observations splits pointwise -/
theorem integrand_split {ys : List ℝ} (hy : ys ≠ []) (F : ℝ → ℝ) (t : ℝ) :
    avg (ys.map fun y => crpsIntegrand F y t) =
      (F t - ecdf ys t) ^ 2 + avg (ys.map fun y => crpsIntegrand (ecdf ys) y t) := by
  have := avg_sq_split hy (fun y => stepAt y t) (F t)
  rw [← ecdf_eq] at this
  exact this

/-- the mean score of one distribution function over the observations: its distance from their empirical distribution
function, plus the mean score of the latter -/
theorem crps_split {ys : List ℝ} (hy : ys ≠ []) {F : ℝ → ℝ} (hF : ∀ y ∈ ys, Integrable (crpsIntegrand F y)) :
    Integrable (fun t => (F t - ecdf ys t) ^ 2) ∧
      avg (ys.map (crpsOf F)) = (∫ t, (F t - ecdf ys t) ^ 2) + avg (ys.map (crpsOf (ecdf ys))) := by
  obtain ⟨a1, a2⟩ := integral_avg ys (fun y t => crpsIntegrand F y t) hF
  obtain ⟨b1, b2⟩ := integral_avg ys (fun y t => crpsIntegrand (ecdf ys) y t) fun y _ => (crps_ecdf hy y).1
  have e : (fun t => (F t - ecdf ys t) ^ 2) = fun t =>
      avg (ys.map fun y => crpsIntegrand F y t) - avg (ys.map fun y => crpsIntegrand (ecdf ys) y t) := by
    funext t
    rw [integrand_split hy F t]
    ring
  rw [e]
  refine ⟨a1.sub b1, ?_⟩
  rw [integral_sub a1 b1, a2, b2]
  unfold crpsOf
  ring

/-- the mean score of the empirical distribution function of the observations: half their mean absolute difference -/
theorem crps_self {ys : List ℝ} (hy : ys ≠ []) :
    avg (ys.map (crpsOf (ecdf ys))) = avg (ys.map fun y => avg (ys.map fun y' => |y - y'|)) / 2 := by
  have e : ∀ y, crpsOf (ecdf ys) y = energyScore ys y := fun y => (crps_ecdf hy y).2
  have hn : (ys.length : ℝ) ≠ 0 := by
    have := List.length_pos_iff.2 hy
    exact_mod_cast this.ne'
  have key : ∀ (l : List ℝ) (g : ℝ → ℝ) (c : ℝ), (l.map fun y => g y - c).sum = (l.map g).sum - l.length * c := by
    intro l g c
    induction l with
    | nil => simp
    | cons a l ih =>
      simp only [List.map_cons, List.sum_cons, ih, List.length_cons]
      push_cast
      ring
  have e2 : avg (ys.map (crpsOf (ecdf ys))) = avg (ys.map fun y => avg (ys.map fun x => |x - y|)) -
      avg (ys.map fun x => avg (ys.map fun x' => |x - x'|)) / 2 := by
    rw [List.map_congr_left fun y _ => e y]
    unfold energyScore
    rw [avg, List.length_map, key, sub_div, mul_div_cancel_left₀ _ hn]
    simp only [avg, List.length_map]
  rw [e2]
  have e3 : (fun y => avg (ys.map fun x => |x - y|)) = fun y => avg (ys.map fun x => |y - x|) := by
    funext y
    congr 2
    funext x
    exact abs_sub_comm _ _
  rw [e3]
  ring

/-- constant to the right of every point -/
theorem ecdf_const_right (ms : List ℝ) (t : ℝ) : ∃ u, t < u ∧ ∀ x, t ≤ x → x < u → ecdf ms x = ecdf ms t := by
  have key : ∀ l : List ℝ, ∃ u, t < u ∧ ∀ x, t ≤ x → x < u → (l.map fun z => if z ≤ x then (1 : ℝ) else 0) =
      l.map fun z => if z ≤ t then (1 : ℝ) else 0 := by
    intro l
    induction l with
    | nil => exact ⟨t + 1, by linarith, fun _ _ _ => rfl⟩
    | cons a l ih =>
      obtain ⟨u, hu, h⟩ := ih
      by_cases ha : a ≤ t
      · refine ⟨u, hu, fun x h1 h2 => ?_⟩
        simp only [List.map_cons, h x h1 h2, if_pos ha, if_pos (ha.trans h1)]
      · refine ⟨min u a, lt_min hu (not_le.1 ha), fun x h1 h2 => ?_⟩
        have hx := lt_min_iff.1 h2
        simp only [List.map_cons, h x h1 hx.1, if_neg ha, if_neg (not_le.2 hx.2)]
  obtain ⟨u, hu, h⟩ := key ms
  refine ⟨u, hu, fun x h1 h2 => ?_⟩
  unfold ecdf
  rw [h x h1 h2]

/-- two empirical distribution functions at distance zero agree everywhere -/
theorem ecdf_eq_of_integral {ms ys : List ℝ} (hi : Integrable fun t => (ecdf ms t - ecdf ys t) ^ 2)
    (h0 : ∫ t, (ecdf ms t - ecdf ys t) ^ 2 = 0) : ecdf ms = ecdf ys := by
  rw [integral_eq_zero_iff_of_nonneg (fun t => sq_nonneg _) hi] at h0
  funext t
  by_contra hne
  obtain ⟨u, hu, h1⟩ := ecdf_const_right ms t
  obtain ⟨v, hv, h2⟩ := ecdf_const_right ys t
  have hsub : Set.Ico t (min u v) ⊆ {x | ¬((ecdf ms x - ecdf ys x) ^ 2 = (0 : ℝ → ℝ) x)} := by
    rintro x ⟨hx, hx'⟩
    have hx2 := lt_min_iff.1 hx'
    simp only [Set.mem_ofPred_eq, Pi.zero_apply, h1 x hx hx2.1, h2 x hx hx2.2]
    exact pow_ne_zero _ (sub_ne_zero.2 hne)
  have hz : volume (Set.Ico t (min u v)) = 0 := measure_mono_null hsub (by simpa [Filter.EventuallyEq, ae_iff] using h0)
  rw [Real.volume_Ico, ENNReal.ofReal_eq_zero] at hz
  have := lt_min hu hv
  linarith

section groups
variable {K α β : Type} [Field K] [LinearOrder K] [IsStrictOrderedRing K]

theorem sum_swap (l m : List α) (g : α → α → K) :
    (l.map fun i => (m.map fun j => g i j).sum).sum = (m.map fun j => (l.map fun i => g i j).sum).sum := by
  induction l with
  | nil => simp
  | cons a l ih =>
    simp only [List.map_cons, List.sum_cons, ih]
    rw [← List.sum_map_add]

theorem sum_filter_ite (l : List α) (p : α → Bool) (g : α → K) :
    ((l.filter p).map g).sum = (l.map fun i => if p i then g i else 0).sum := by
  induction l with
  | nil => simp
  | cons a l ih =>
    by_cases h : p a <;> simp [h, ih]

theorem alike_ne {F : α → β} {L : List α} {i : α} (hi : i ∈ L) : alike F L i ≠ [] := by
  have : i ∈ alike F L i := by simp [alike, hi]
  exact List.ne_nil_of_mem this

theorem mem_alike {F : α → β} {L : List α} {i j : α} : j ∈ alike F L i ↔ j ∈ L ∧ F j = F i := by
  simp [alike]

theorem alike_congr {F : α → β} {L : List α} {i j : α} (h : F i = F j) : alike F L i = alike F L j := by
  unfold alike
  rw [h]

theorem sum_sub (l : List α) (g h : α → K) : (l.map fun i => g i - h i).sum = (l.map g).sum - (l.map h).sum := by
  induction l with
  | nil => simp
  | cons a l ih =>
    simp only [List.map_cons, List.sum_cons, ih]
    ring

theorem mul_sum_div (l : List α) (g : α → K) (c d : K) : c * ((l.map g).sum / d) = (l.map fun i => c * g i / d).sum := by
  induction l with
  | nil => simp
  | cons a l ih =>
    simp only [List.map_cons, List.sum_cons, ← ih]
    ring

/-- the deviations from the group averages cancel within every group -/
theorem group_cross (L : List α) (F : α → β) (s : α → K) (phi : α → K) (hphi : ∀ i j, F i = F j → phi i = phi j) :
    (L.map fun i => phi i * (avg ((alike F L i).map s) - s i)).sum = 0 := by
  classical
  -- number of positions with the same forecast
  have hn : ∀ i ∈ L, ((alike F L i).length : K) ≠ 0 := fun i hi => by
    have := List.length_pos_iff.2 (alike_ne (F := F) hi)
    exact_mod_cast this.ne'
  have e1 : (L.map fun i => phi i * avg ((alike F L i).map s)).sum =
      (L.map fun i => (L.map fun j => if F j = F i then phi i * s j / (alike F L i).length else 0).sum).sum := by
    congr 1
    apply List.map_congr_left
    intro i _
    rw [avg, List.length_map, alike, sum_filter_ite, mul_sum_div]
    congr 1
    apply List.map_congr_left
    intro j _
    by_cases h : F j = F i <;> simp [h]
  have e2 : (L.map fun i => phi i * avg ((alike F L i).map s)).sum = (L.map fun i => phi i * s i).sum := by
    rw [e1, sum_swap]
    congr 1
    apply List.map_congr_left
    intro j hj
    have : (L.map fun i => if F j = F i then phi i * s j / (alike F L i).length else 0) =
        L.map fun i => if F i = F j then phi j * s j / (alike F L j).length else 0 := by
      apply List.map_congr_left
      intro i _
      by_cases h : F j = F i
      · rw [if_pos h, if_pos h.symm, hphi i j h.symm, alike_congr h.symm]
      · rw [if_neg h, if_neg fun h' => h h'.symm]
    rw [this]
    have e3 := sum_filter_ite L (fun i => decide (F i = F j)) fun _ => phi j * s j / (alike F L j).length
    simp only [decide_eq_true_eq] at e3
    rw [← e3]
    simp only [List.map_const', List.sum_replicate, nsmul_eq_mul]
    have e4 : (L.filter fun i => decide (F i = F j)).length = (alike F L j).length := by simp [alike]
    rw [e4, mul_div_cancel₀ _ (hn j hj)]
  simp only [mul_sub]
  rw [sum_sub, e2, sub_self]

/-- squared differences split at the group averages -/
theorem group_split (L : List α) (F : α → β) (s q : α → K) (hq : ∀ i j, F i = F j → q i = q j) :
    avg (L.map fun i => (q i - s i) ^ 2) = avg (L.map fun i => (q i - avg ((alike F L i).map s)) ^ 2) +
      avg (L.map fun i => (avg ((alike F L i).map s) - s i) ^ 2) := by
  have hc := group_cross L F s (fun i => 2 * (q i - avg ((alike F L i).map s))) fun i j h => by
    rw [hq i j h, alike_congr h]
  have : (L.map fun i => (q i - s i) ^ 2).sum = (L.map fun i => (q i - avg ((alike F L i).map s)) ^ 2).sum +
      (L.map fun i => (avg ((alike F L i).map s) - s i) ^ 2).sum +
      (L.map fun i => 2 * (q i - avg ((alike F L i).map s)) * (avg ((alike F L i).map s) - s i)).sum := by
    rw [← List.sum_map_add, ← List.sum_map_add]
    congr 1
    apply List.map_congr_left
    intro i _
    ring
  simp only [avg, List.length_map] at this hc ⊢
  rw [this, hc, add_zero, add_div]

/-- ... and once more at the overall average -/
theorem group_split3 (L : List α) (F : α → β) (s q : α → K) (hq : ∀ i j, F i = F j → q i = q j) :
    avg (L.map fun i => (q i - s i) ^ 2) = avg (L.map fun i => (q i - avg ((alike F L i).map s)) ^ 2) -
      avg (L.map fun i => (avg ((alike F L i).map s) - avg (L.map s)) ^ 2) +
      avg (L.map fun i => (avg (L.map s) - s i) ^ 2) := by
  have h1 := group_split L F s q hq
  have h2 := group_split L F s (fun _ => avg (L.map s)) fun _ _ _ => rfl
  have e : (L.map fun i => (avg (L.map s) - avg ((alike F L i).map s)) ^ 2) =
      L.map fun i => (avg ((alike F L i).map s) - avg (L.map s)) ^ 2 := by
    apply List.map_congr_left
    intro i _
    ring
  rw [e] at h2
  rw [h1, h2]
  ring

/-- variance of a zero-one variable -/
theorem zero_one_variance {L : List α} (hL : L ≠ []) {e : α → K} (he : ∀ i ∈ L, e i ^ 2 = e i) :
    avg (L.map fun i => (avg (L.map e) - e i) ^ 2) = brierUncertainty (avg (L.map e)) := by
  have h := avg_sq_split hL e 0
  have e0 : (L.map fun x => ((0 : K) - e x) ^ 2) = L.map e := by
    apply List.map_congr_left
    intro i hi
    rw [zero_sub, neg_sq, he i hi]
  rw [e0] at h
  unfold brierUncertainty
  linear_combination -h

theorem brier_decomp_groups {L : List α} (hL : L ≠ []) (p : α → K) {e : α → K} (he : ∀ i ∈ L, e i ^ 2 = e i) :
    avg (L.map fun i => (p i - e i) ^ 2) =
      brierReliability L p e - brierResolution L p e + brierUncertainty (avg (L.map e)) := by
  rw [group_split3 L p e p fun _ _ h => h, zero_one_variance hL he]
  rfl

end groups

/-- reliability, resolution and uncertainty of the mean score -/
theorem crps_decomp {α : Type} {L : List α} (hL : L ≠ []) (F : α → ℝ → ℝ) (Y : α → ℝ)
    (hF : ∀ i ∈ L, ∀ j ∈ L, F i = F j → Integrable (crpsIntegrand (F i) (Y j))) :
    (∀ i ∈ L, Integrable fun t => (F i t - ecdf ((alike F L i).map Y) t) ^ 2) ∧
    (∀ i ∈ L, Integrable fun t => (ecdf ((alike F L i).map Y) t - ecdf (L.map Y) t) ^ 2) ∧
    avg (L.map fun i => crpsOf (F i) (Y i)) = crpsReliability L F Y - crpsResolution L F Y + crpsUncertainty L Y := by
  have hYne : L.map Y ≠ [] := by simpa using hL
  have hGne : ∀ i ∈ L, (alike F L i).map Y ≠ [] := fun i hi => by simpa using alike_ne hi
  have h1 : ∀ i ∈ L, Integrable fun t => (F i t - ecdf ((alike F L i).map Y) t) ^ 2 := fun i hi =>
    (crps_split (hGne i hi) fun y hy => by
      obtain ⟨j, hj, rfl⟩ := List.mem_map.1 hy
      obtain ⟨hj1, hj2⟩ := mem_alike.1 hj
      exact hF i hi j hj1 hj2.symm).1
  have h2 : ∀ i ∈ L, Integrable fun t => (ecdf ((alike F L i).map Y) t - ecdf (L.map Y) t) ^ 2 := fun i hi =>
    (crps_split hYne fun y _ => (crps_ecdf (hGne i hi) y).1).1
  refine ⟨h1, h2, ?_⟩
  obtain ⟨i1, j1⟩ := integral_avg L (fun i t => crpsIntegrand (F i) (Y i) t) fun i hi => hF i hi i hi rfl
  obtain ⟨i2, j2⟩ := integral_avg L (fun i t => (F i t - ecdf ((alike F L i).map Y) t) ^ 2) h1
  obtain ⟨i3, j3⟩ := integral_avg L (fun i t => (ecdf ((alike F L i).map Y) t - ecdf (L.map Y) t) ^ 2) h2
  obtain ⟨i4, j4⟩ := integral_avg L (fun i t => crpsIntegrand (ecdf (L.map Y)) (Y i) t) fun i _ => (crps_ecdf hYne _).1
  have key : (fun t => avg (L.map fun i => crpsIntegrand (F i) (Y i) t)) = fun t =>
      avg (L.map fun i => (F i t - ecdf ((alike F L i).map Y) t) ^ 2) -
        avg (L.map fun i => (ecdf ((alike F L i).map Y) t - ecdf (L.map Y) t) ^ 2) +
        avg (L.map fun i => crpsIntegrand (ecdf (L.map Y)) (Y i) t) := by
    funext t
    have h := group_split3 L F (fun i => stepAt (Y i) t) (fun i => F i t) fun i j h => by rw [h]
    have e : ∀ M : List α, avg (M.map fun i => stepAt (Y i) t) = ecdf (M.map Y) t := by
      intro M
      rw [ecdf_eq, List.map_map]
      rfl
    simp only [e] at h
    exact h
  have hint : ∫ t, avg (L.map fun i => crpsIntegrand (F i) (Y i) t) =
      ((∫ t, avg (L.map fun i => (F i t - ecdf ((alike F L i).map Y) t) ^ 2)) -
        ∫ t, avg (L.map fun i => (ecdf ((alike F L i).map Y) t - ecdf (L.map Y) t) ^ 2)) +
        ∫ t, avg (L.map fun i => crpsIntegrand (ecdf (L.map Y)) (Y i) t) := by
    rw [key, integral_add (f := fun t => _ - _) (i2.sub i3) i4, integral_sub i2 i3]
  have hu := crps_self hYne
  rw [List.map_map, List.map_map] at hu
  have e5 : (fun y => avg ((L.map Y).map fun y' => |y - y'|)) ∘ Y = fun i => avg (L.map fun j => |Y i - Y j|) := by
    funext i
    simp only [Function.comp, List.map_map]
    rfl
  rw [e5] at hu
  unfold crpsReliability crpsResolution crpsUncertainty
  rw [← hu]
  rw [j1, j2, j3, j4] at hint
  exact hint

end Lemmas
