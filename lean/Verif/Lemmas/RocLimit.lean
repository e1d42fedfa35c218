import Verif.Lemmas.BinLimits
import Verif.Spec.RocLimit
import Mathlib.MeasureTheory.Measure.Regular
import Mathlib.MeasureTheory.Integral.Prod
import Mathlib.MeasureTheory.Constructions.BorelSpace.Order

/-! Averages over pairs of days: C140. -/

namespace Lemmas
open Np Spec MeasureTheory ProbabilityTheory Filter Topology

/-! ### cutting the line into cells that hold little but one point -/

theorem lower_small (ν : Measure ℝ) [IsProbabilityMeasure ν] {u : ℝ} (hu : 0 ≤ u) :
    ν.real {y | ν.real (Set.Iic y) < u} ≤ u := by
  have hm : Monotone fun y => ν.real (Set.Iic y) := fun a b h => measureReal_mono (Set.Iic_subset_Iic.2 h)
  have hS : MeasurableSet {y | ν.real (Set.Iic y) < u} := hm.measurable measurableSet_Iio
  refine le_of_forall_pos_lt_add fun ε hε => ?_
  obtain ⟨K, hK, hc, hlt⟩ := hS.exists_isCompact_sdiff_lt (measure_ne_top ν _) (ε := ENNReal.ofReal ε) (by simpa using hε)
  have h1 : ν.real ({y | ν.real (Set.Iic y) < u} \ K) < ε := by
    rw [measureReal_def]
    exact (ENNReal.toReal_lt_of_lt_ofReal hlt)
  have h2 : ν.real K ≤ u := by
    rcases K.eq_empty_or_nonempty with rfl | hne
    · simpa using hu
    · obtain ⟨x, hx, hmax⟩ := hc.exists_isGreatest hne
      exact (measureReal_mono fun y hy => hmax hy).trans (le_of_lt (hK hx))
  have h3 := measureReal_sdiff (μ := ν) hK hc.measurableSet
  linarith

theorem cell_point (ν : Measure ℝ) [IsProbabilityMeasure ν] (m c : ℕ) {q : ℝ → ℕ}
    (hq : ∀ x, q x = ⌊(m + 1 : ℝ) * ν.real (Set.Iic x)⌋₊) (hm : Measurable q) :
    ∃ a, ν.real ({x | q x = c} \ {a}) ≤ 2 / (m + 1) := by
  have hpos : (0 : ℝ) < m + 1 := by positivity
  have hJ : MeasurableSet {x | q x = c} := hm (measurableSet_singleton c)
  have hcell : ∀ x, q x = c → (c : ℝ) / (m + 1) ≤ ν.real (Set.Iic x) ∧ ν.real (Set.Iic x) < (c + 1 : ℝ) / (m + 1) := by
    intro x hx
    rw [hq] at hx
    rw [div_le_iff₀ hpos, lt_div_iff₀ hpos, mul_comm]
    have h0 : 0 ≤ (m + 1 : ℝ) * ν.real (Set.Iic x) := by positivity
    exact ⟨hx ▸ Nat.floor_le h0, hx ▸ Nat.lt_floor_add_one _⟩
  obtain ⟨K, hK, hc, hlt⟩ := hJ.exists_isCompact_sdiff_lt (measure_ne_top ν _) (ε := ENNReal.ofReal (1 / (m + 1)))
    (by simpa using hpos)
  have h1 : ν.real ({x | q x = c} \ K) ≤ 1 / (m + 1) := by
    rw [measureReal_def]
    exact (ENNReal.toReal_lt_of_lt_ofReal hlt).le
  have h2 : 1 / (m + 1 : ℝ) ≤ 2 / (m + 1) := by gcongr; norm_num
  rcases K.eq_empty_or_nonempty with rfl | hne
  · refine ⟨0, le_trans (measureReal_mono ?_) (h1.trans h2)⟩
    rw [Set.sdiff_empty]
    exact Set.sdiff_subset
  · obtain ⟨a, ha, hmin⟩ := hc.exists_isLeast hne
    refine ⟨a, ?_⟩
    have hcov : {x | q x = c} \ {a} ⊆
        ({x | q x = c} \ K) ∪ ({y | ν.real (Set.Iic y) < (c + 1 : ℝ) / (m + 1)} \ Set.Iic a) := by
      rintro x ⟨hx, hxa⟩
      by_cases hxK : x ∈ K
      · refine Or.inr ⟨(hcell x hx).2, fun h => hxa ?_⟩
        exact le_antisymm h (hmin hxK)
      · exact Or.inl ⟨hx, hxK⟩
    have hsub : Set.Iic a ⊆ {y | ν.real (Set.Iic y) < (c + 1 : ℝ) / (m + 1)} := fun y hy =>
      lt_of_le_of_lt (measureReal_mono (Set.Iic_subset_Iic.2 hy)) (hcell a (hK ha)).2
    have h3 := measureReal_sdiff (μ := ν) hsub measurableSet_Iic
    have h4 := lower_small ν (u := (c + 1 : ℝ) / (m + 1)) (by positivity)
    have h5 := (hcell a (hK ha)).1
    have h6 := (measureReal_mono (μ := ν) hcov).trans (measureReal_union_le _ _)
    have e1 : (c + 1 : ℝ) / (m + 1) - c / (m + 1) = 1 / (m + 1) := by ring
    have e2 : (2 : ℝ) / (m + 1) = 1 / (m + 1) + 1 / (m + 1) := by ring
    linarith

theorem exists_grid (ν : Measure ℝ) [IsProbabilityMeasure ν] (m : ℕ) :
    ∃ (q : ℝ → ℕ) (a : ℕ → ℝ), Monotone q ∧ (∀ x, q x < m + 2) ∧
      ∑ c ∈ Finset.range (m + 2), (ν.real {x | q x = c} ^ 2 - ν.real {x | q x = c ∧ x = a c} ^ 2) ≤ 4 / (m + 1) := by
  have hpos : (0 : ℝ) < m + 1 := by positivity
  let q : ℝ → ℕ := fun x => ⌊(m + 1 : ℝ) * ν.real (Set.Iic x)⌋₊
  have hmono : Monotone q := fun x y h => Nat.floor_mono (mul_le_mul_of_nonneg_left
    (measureReal_mono (Set.Iic_subset_Iic.2 h)) hpos.le)
  have hlt : ∀ x, q x < m + 2 := by
    intro x
    have h1 : (m + 1 : ℝ) * ν.real (Set.Iic x) ≤ m + 1 := by
      have := measureReal_le_one (μ := ν) (s := Set.Iic x)
      nlinarith
    have h2 : q x ≤ ⌊((m + 1 : ℕ) : ℝ)⌋₊ := Nat.floor_mono (by push_cast; exact h1)
    rw [Nat.floor_natCast] at h2
    omega
  choose a ha using fun c => cell_point ν m c (q := q) (fun _ => rfl) hmono.measurable
  refine ⟨q, a, hmono, hlt, ?_⟩
  have hJ : ∀ c, MeasurableSet {x | q x = c} := fun c => hmono.measurable (measurableSet_singleton c)
  have hsum : ∑ c ∈ Finset.range (m + 2), ν.real {x | q x = c} = 1 := by
    have hd : Set.PairwiseDisjoint ↑(Finset.range (m + 2)) fun c => {x | q x = c} := fun i _ j _ hij =>
      Set.disjoint_left.2 fun x (h1 : q x = i) (h2 : q x = j) => hij (h1.symm.trans h2)
    rw [← measureReal_biUnion_finset hd fun c _ => hJ c]
    have : ⋃ c ∈ Finset.range (m + 2), {x | q x = c} = Set.univ := by
      ext x
      simp only [Set.mem_iUnion, Finset.mem_range, Set.mem_univ, iff_true]
      exact ⟨q x, hlt x, rfl⟩
    rw [this]
    simp
  calc ∑ c ∈ Finset.range (m + 2), (ν.real {x | q x = c} ^ 2 - ν.real {x | q x = c ∧ x = a c} ^ 2)
      ≤ ∑ c ∈ Finset.range (m + 2), 4 / (m + 1) * ν.real {x | q x = c} := by
        refine Finset.sum_le_sum fun c _ => ?_
        have hsub : {x | q x = c ∧ x = a c} ⊆ {x | q x = c} := fun x hx => hx.1
        have hme : MeasurableSet {x | q x = c ∧ x = a c} := (hJ c).inter (measurableSet_singleton (a c))
        have h1 := measureReal_sdiff (μ := ν) hsub hme
        have h2 : {x | q x = c} \ {x | q x = c ∧ x = a c} = {x | q x = c} \ {a c} := by
          ext x
          simp only [Set.mem_sdiff, Set.mem_ofPred_eq, Set.mem_singleton_iff]
          tauto
        rw [h2] at h1
        have h3 := ha c
        have h4 := measureReal_mono (μ := ν) hsub
        have h5 : 0 ≤ ν.real {x | q x = c ∧ x = a c} := measureReal_nonneg
        have h6 : 0 ≤ ν.real ({x | q x = c} \ {a c}) := measureReal_nonneg
        have e : (4 : ℝ) / (m + 1) = 2 * (2 / (m + 1)) := by ring
        rw [e]
        nlinarith
    _ = 4 / (m + 1) := by rw [← Finset.mul_sum, hsum, mul_one]

/-! ### averages over pairs -/

/-- what a pair of days counts: an event and a non-event -/
noncomputable def pairScore (z : (ℝ × Bool) × (ℝ × Bool)) : ℝ :=
  if z.1.2 = true ∧ z.2.2 = false then wins z.1.1 z.2.1 else 0

theorem measurable_pairScore : Measurable pairScore := by
  have m1 : Measurable fun z : (ℝ × Bool) × (ℝ × Bool) => z.1.1 := measurable_fst.comp measurable_fst
  have m2 : Measurable fun z : (ℝ × Bool) × (ℝ × Bool) => z.2.1 := measurable_fst.comp measurable_snd
  refine Measurable.ite ?_ ?_ measurable_const
  · exact ((measurable_snd.comp measurable_fst) (measurableSet_singleton true)).inter
      ((measurable_snd.comp measurable_snd) (measurableSet_singleton false))
  · exact Measurable.ite (measurableSet_lt m2 m1) measurable_const
      (Measurable.ite (measurableSet_eq_fun m2 m1) measurable_const measurable_const)

theorem wins_unit (x y : ℝ) : 0 ≤ wins x y ∧ wins x y ≤ 1 := by
  unfold wins
  split_ifs <;> norm_num

theorem pairScore_unit (z : (ℝ × Bool) × (ℝ × Bool)) : 0 ≤ pairScore z ∧ pairScore z ≤ 1 := by
  unfold pairScore
  split_ifs
  · exact wins_unit _ _
  · norm_num

section
variable (q : ℝ → ℕ) (a : ℕ → ℝ) (N : ℕ)

/-- one on the days of `B` -/
noncomputable def one (B : Set (ℝ × Bool)) : ℝ × Bool → ℝ := B.indicator fun _ => 1

def evSet (c : ℕ) : Set (ℝ × Bool) := {x | x.2 = true ∧ q x.1 = c}
def otSet (c : ℕ) : Set (ℝ × Bool) := {x | x.2 = false ∧ q x.1 = c}
def ceSet (c : ℕ) : Set (ℝ × Bool) := {x | q x.1 = c}
def ptSet (c : ℕ) : Set (ℝ × Bool) := {x | q x.1 = c ∧ x.1 = a c}

noncomputable def coarse (z : (ℝ × Bool) × (ℝ × Bool)) : ℝ :=
  ∑ c ∈ Finset.range N, ∑ d ∈ Finset.range N, wins (c : ℝ) d * (one (evSet q c) z.1 * one (otSet q d) z.2)

noncomputable def pairGap (z : (ℝ × Bool) × (ℝ × Bool)) : ℝ :=
  ∑ c ∈ Finset.range N, (one (ceSet q c) z.1 * one (ceSet q c) z.2 - one (ptSet q a c) z.1 * one (ptSet q a c) z.2)

variable {q a N}

theorem coarse_eq (hN : ∀ x, q x < N) (z : (ℝ × Bool) × (ℝ × Bool)) :
    coarse q N z = if z.1.2 = true ∧ z.2.2 = false then wins (q z.1.1 : ℝ) (q z.2.1) else 0 := by
  unfold coarse
  rw [Finset.sum_eq_single_of_mem (q z.1.1) (Finset.mem_range.2 (hN _)), Finset.sum_eq_single_of_mem (q z.2.1)
    (Finset.mem_range.2 (hN _))]
  · by_cases h1 : z.1.2 = true <;> by_cases h2 : z.2.2 = false <;> simp [one, evSet, otSet, h1, h2]
  · intro d _ hd
    have : one (otSet q d) z.2 = 0 := Set.indicator_of_notMem (fun h => hd h.2.symm) _
    rw [this, mul_zero, mul_zero]
  · intro c _ hc
    have : one (evSet q c) z.1 = 0 := Set.indicator_of_notMem (fun h => hc h.2.symm) _
    simp [this]

theorem pairGap_eq (hN : ∀ x, q x < N) (z : (ℝ × Bool) × (ℝ × Bool)) :
    pairGap q a N z = if q z.1.1 = q z.2.1 ∧ ¬ (z.1.1 = a (q z.1.1) ∧ z.2.1 = a (q z.1.1)) then 1 else 0 := by
  classical
  unfold pairGap
  rw [Finset.sum_eq_single_of_mem (q z.1.1) (Finset.mem_range.2 (hN _))]
  · have e : ∀ (B : Set (ℝ × Bool)) (x : ℝ × Bool) (p : Prop) [Decidable p], (x ∈ B ↔ p) → one B x = if p then 1 else 0 := by
      intro B x p _ h
      by_cases hp : p
      · rw [if_pos hp]; exact Set.indicator_of_mem (h.2 hp) _
      · rw [if_neg hp]; exact Set.indicator_of_notMem (fun hx => hp (h.1 hx)) _
    rw [e (ceSet q (q z.1.1)) z.1 True (by simp [ceSet]), e (ceSet q (q z.1.1)) z.2 (q z.1.1 = q z.2.1) (by simp [ceSet, eq_comm]),
      e (ptSet q a (q z.1.1)) z.1 (z.1.1 = a (q z.1.1)) (by simp [ptSet]),
      e (ptSet q a (q z.1.1)) z.2 (q z.1.1 = q z.2.1 ∧ z.2.1 = a (q z.1.1)) (by simp [ptSet, eq_comm])]
    have aux : ∀ (A B C : Prop) [Decidable A] [Decidable B] [Decidable C], ((if True then (1 : ℝ) else 0) * (if A then 1 else 0) -
        (if B then 1 else 0) * (if A ∧ C then 1 else 0)) = if A ∧ ¬ (B ∧ C) then 1 else 0 := by
      intro A B C _ _ _
      by_cases h1 : A <;> by_cases h2 : B <;> by_cases h3 : C <;> simp [h1, h2, h3]
    convert aux (q z.1.1 = q z.2.1) (z.1.1 = a (q z.1.1)) (z.2.1 = a (q z.1.1))
  · intro c _ hc
    have h1 : one (ceSet q c) z.1 = 0 := Set.indicator_of_notMem (fun h : z.1 ∈ ceSet q c => hc (Eq.symm h)) _
    have h2 : one (ptSet q a c) z.1 = 0 := Set.indicator_of_notMem (fun h => hc h.1.symm) _
    rw [h1, h2]
    ring

theorem close_point (hq : Monotone q) (hN : ∀ x, q x < N) (z : (ℝ × Bool) × (ℝ × Bool)) :
    |pairScore z - coarse q N z| ≤ pairGap q a N z := by
  rw [coarse_eq hN, pairGap_eq hN, pairScore]
  obtain ⟨⟨x, e⟩, ⟨y, f⟩⟩ := z
  dsimp only
  by_cases hb : e = true ∧ f = false
  · rw [if_pos hb, if_pos hb]
    rcases lt_trichotomy (q x) (q y) with h | h | h
    · have h1 : x < y := hq.reflect_lt h
      have h2 : (q x : ℝ) < q y := by exact_mod_cast h
      rw [if_neg (fun hh => h.ne hh.1)]
      simp [wins, h1.not_gt, h1.ne', h2.not_gt, h2.ne']
    · by_cases hxy : x = y
      · subst hxy
        simp only [wins, lt_irrefl, if_false, if_true, sub_self, abs_zero]
        split_ifs <;> norm_num
      · rw [if_pos ⟨h, fun hh => hxy (hh.1.trans hh.2.symm)⟩]
        have h1 := wins_unit x y
        have h2 := wins_unit (q x) (q y)
        rw [abs_le]
        constructor <;> linarith
    · have h1 : y < x := hq.reflect_lt h
      have h2 : (q y : ℝ) < q x := by exact_mod_cast h
      rw [if_neg (fun hh => h.ne' hh.1)]
      simp [wins, h1, h2]
  · rw [if_neg hb, if_neg hb, sub_self, abs_zero]
    split_ifs <;> norm_num

theorem measurableSet_parts (hq : Monotone q) (c : ℕ) :
    MeasurableSet (evSet q c) ∧ MeasurableSet (otSet q c) ∧ MeasurableSet (ceSet q c) ∧ MeasurableSet (ptSet q a c) := by
  have h1 : MeasurableSet (ceSet q c) := (hq.measurable.comp measurable_fst) (measurableSet_singleton c)
  exact ⟨(measurable_snd (measurableSet_singleton true)).inter h1, (measurable_snd (measurableSet_singleton false)).inter h1,
    h1, h1.inter (measurable_fst (measurableSet_singleton (a c)))⟩

variable (ρ : Measure (ℝ × Bool)) [IsProbabilityMeasure ρ]

theorem integral_one {B : Set (ℝ × Bool)} (hB : MeasurableSet B) : ∫ x, one B x ∂ρ = ρ.real B := by
  unfold one
  rw [integral_indicator hB]
  simp

theorem integrable_one {B : Set (ℝ × Bool)} (hB : MeasurableSet B) : Integrable (one B) ρ :=
  (integrable_const 1).indicator hB

theorem integral_coarse (hq : Monotone q) : Integrable (coarse q N) (ρ.prod ρ) ∧ ∫ z, coarse q N z ∂(ρ.prod ρ) =
    ∑ c ∈ Finset.range N, ∑ d ∈ Finset.range N, wins (c : ℝ) d * (ρ.real (evSet q c) * ρ.real (otSet q d)) := by
  have hi : ∀ c d : ℕ, Integrable (fun z : (ℝ × Bool) × (ℝ × Bool) => wins (c : ℝ) d * (one (evSet q c) z.1 * one (otSet q d) z.2))
      (ρ.prod ρ) := fun c d => ((integrable_one ρ (measurableSet_parts (a := 0) hq c).1).mul_prod
        (integrable_one ρ (measurableSet_parts (a := 0) hq d).2.1)).const_mul _
  refine ⟨integrable_finsetSum _ fun c _ => integrable_finsetSum _ fun d _ => hi c d, ?_⟩
  unfold coarse
  rw [integral_finsetSum _ fun c _ => integrable_finsetSum _ fun d _ => hi c d]
  refine Finset.sum_congr rfl fun c _ => ?_
  rw [integral_finsetSum _ fun d _ => hi c d]
  refine Finset.sum_congr rfl fun d _ => ?_
  rw [integral_const_mul, integral_prod_mul, integral_one ρ (measurableSet_parts (a := 0) hq c).1,
    integral_one ρ (measurableSet_parts (a := 0) hq d).2.1]

theorem integral_pairGap (hq : Monotone q) : Integrable (pairGap q a N) (ρ.prod ρ) ∧ ∫ z, pairGap q a N z ∂(ρ.prod ρ) =
    ∑ c ∈ Finset.range N, (ρ.real (ceSet q c) ^ 2 - ρ.real (ptSet q a c) ^ 2) := by
  have h1 : ∀ c, Integrable (fun z : (ℝ × Bool) × (ℝ × Bool) => one (ceSet q c) z.1 * one (ceSet q c) z.2) (ρ.prod ρ) :=
    fun c => (integrable_one ρ (measurableSet_parts (a := a) hq c).2.2.1).mul_prod
      (integrable_one ρ (measurableSet_parts (a := a) hq c).2.2.1)
  have h2 : ∀ c, Integrable (fun z : (ℝ × Bool) × (ℝ × Bool) => one (ptSet q a c) z.1 * one (ptSet q a c) z.2) (ρ.prod ρ) :=
    fun c => (integrable_one ρ (measurableSet_parts hq c).2.2.2).mul_prod (integrable_one ρ (measurableSet_parts hq c).2.2.2)
  have h3 : ∀ c, Integrable (fun z : (ℝ × Bool) × (ℝ × Bool) => one (ceSet q c) z.1 * one (ceSet q c) z.2 -
      one (ptSet q a c) z.1 * one (ptSet q a c) z.2) (ρ.prod ρ) := fun c => (h1 c).sub (h2 c)
  refine ⟨integrable_finsetSum _ fun c _ => h3 c, ?_⟩
  unfold pairGap
  rw [integral_finsetSum _ fun c _ => h3 c]
  refine Finset.sum_congr rfl fun c _ => ?_
  rw [integral_sub (h1 c) (h2 c), integral_prod_mul, integral_prod_mul,
    integral_one ρ (measurableSet_parts (a := a) hq c).2.2.1, integral_one ρ (measurableSet_parts hq c).2.2.2]
  ring

theorem close_mean (hq : Monotone q) (hN : ∀ x, q x < N) :
    |∫ z, pairScore z ∂(ρ.prod ρ) - ∫ z, coarse q N z ∂(ρ.prod ρ)| ≤ ∫ z, pairGap q a N z ∂(ρ.prod ρ) := by
  have hp : Integrable pairScore (ρ.prod ρ) := Integrable.of_bound (C := 1) measurable_pairScore.aestronglyMeasurable
    (.of_forall fun z => by rw [Real.norm_of_nonneg (pairScore_unit z).1]; exact (pairScore_unit z).2)
  rw [← integral_sub hp (integral_coarse ρ hq).1]
  refine (abs_integral_le_integral_abs).trans ?_
  exact integral_mono (hp.sub (integral_coarse ρ hq).1).abs (integral_pairGap ρ hq).1 fun z => close_point hq hN z

end

/-- Probability measures under which every event has nearly its probability under `ρ` from some place on: so has the mean over
pairs, provided this holds for countably many events. -/
theorem pairs_tendsto (ρ : Measure (ℝ × Bool)) [IsProbabilityMeasure ρ] :
    ∃ 𝓑 : ℕ → Set (ℝ × Bool), (∀ k, MeasurableSet (𝓑 k)) ∧ ∀ r : ℕ → Measure (ℝ × Bool), (∀ n, IsProbabilityMeasure (r n)) →
      (∀ k, Tendsto (fun n => (r n).real (𝓑 k)) atTop (𝓝 (ρ.real (𝓑 k)))) →
      Tendsto (fun n => ∫ z, pairScore z ∂((r n).prod (r n))) atTop (𝓝 (∫ z, pairScore z ∂(ρ.prod ρ))) := by
  have : IsProbabilityMeasure (ρ.map Prod.fst) := Measure.isProbabilityMeasure_map measurable_fst.aemeasurable
  choose q a hq hN hs using exists_grid (ρ.map Prod.fst)
  let S : ℕ × ℕ × Fin 4 → Set (ℝ × Bool) := fun k =>
    ![evSet (q k.1) k.2.1, otSet (q k.1) k.2.1, ceSet (q k.1) k.2.1, ptSet (q k.1) (a k.1) k.2.1] k.2.2
  have hS : ∀ k, MeasurableSet (S k) := by
    rintro ⟨m, c, i⟩
    obtain ⟨h1, h2, h3, h4⟩ := measurableSet_parts (a := a m) (hq m) c
    fin_cases i <;> assumption
  obtain ⟨g, hg⟩ := exists_surjective_nat (ℕ × ℕ × Fin 4)
  refine ⟨fun k => S (g k), fun k => hS _, fun r hr h => ?_⟩
  have hT : ∀ k, Tendsto (fun n => (r n).real (S k)) atTop (𝓝 (ρ.real (S k))) := fun k => by
    obtain ⟨j, rfl⟩ := hg k
    exact h j
  rw [Metric.tendsto_atTop']
  intro ε hε
  obtain ⟨m, hm⟩ := exists_nat_gt (16 / ε)
  have hsmall : 4 / (m + 1 : ℝ) < ε / 4 := by
    rw [div_lt_div_iff₀ (by positivity) (by norm_num)]
    rw [div_lt_iff₀ hε] at hm
    nlinarith
  have hgap : ∫ z, pairGap (q m) (a m) (m + 2) z ∂(ρ.prod ρ) ≤ 4 / (m + 1) := by
    rw [(integral_pairGap ρ (hq m)).2]
    refine le_trans (le_of_eq (Finset.sum_congr rfl fun c _ => ?_)) (hs m)
    have m1 : MeasurableSet {x | q m x = c} := (hq m).measurable (measurableSet_singleton c)
    have m2 : MeasurableSet {x | q m x = c ∧ x = a m c} := m1.inter (measurableSet_singleton (a m c))
    rw [map_measureReal_apply measurable_fst m1, map_measureReal_apply measurable_fst m2]
    rfl
  have t1 : Tendsto (fun n => ∫ z, pairGap (q m) (a m) (m + 2) z ∂((r n).prod (r n))) atTop
      (𝓝 (∫ z, pairGap (q m) (a m) (m + 2) z ∂(ρ.prod ρ))) := by
    simp only [fun n => (integral_pairGap (r n) (hq m) (a := a m) (N := m + 2)).2, (integral_pairGap ρ (hq m)).2]
    exact tendsto_finsetSum _ fun c _ => ((hT (m, c, 2)).pow 2).sub ((hT (m, c, 3)).pow 2)
  have t2 : Tendsto (fun n => ∫ z, coarse (q m) (m + 2) z ∂((r n).prod (r n))) atTop
      (𝓝 (∫ z, coarse (q m) (m + 2) z ∂(ρ.prod ρ))) := by
    simp only [fun n => (integral_coarse (r n) (hq m) (N := m + 2)).2, (integral_coarse ρ (hq m)).2]
    exact tendsto_finsetSum _ fun c _ => tendsto_finsetSum _ fun d _ =>
      ((hT (m, c, 0)).mul (hT (m, d, 1))).const_mul _
  obtain ⟨N1, hN1⟩ := (Metric.tendsto_atTop'.1 t1) (ε / 4) (by positivity)
  obtain ⟨N2, hN2⟩ := (Metric.tendsto_atTop'.1 t2) (ε / 4) (by positivity)
  refine ⟨max N1 N2, fun n hn => ?_⟩
  have b1 := hN1 n (lt_of_le_of_lt (le_max_left _ _) hn)
  have b2 := hN2 n (lt_of_le_of_lt (le_max_right _ _) hn)
  have b3 := close_mean (a := a m) (r n) (hq m) (hN m)
  have b4 := close_mean (a := a m) ρ (hq m) (hN m)
  rw [Real.dist_eq, abs_lt] at *
  rw [abs_le] at b3 b4
  constructor <;> linarith

/-! ### the days recorded so far -/

/-- every member of the list has the same probability -/
noncomputable def emp (L : List (ℝ × Bool)) : Measure (ℝ × Bool) :=
  (L.length : ENNReal)⁻¹ • (L.map fun x => Measure.dirac x).sum

theorem sum_dirac (f : ℝ × Bool → ℝ) (L : List (ℝ × Bool)) :
    Integrable f (L.map fun x => Measure.dirac x).sum ∧ ∫ x, f x ∂(L.map fun x => Measure.dirac x).sum = (L.map f).sum := by
  induction L with
  | nil => simp
  | cons a L ih =>
    have h : Integrable f (Measure.dirac a) := integrable_dirac (by simp)
    simp only [List.map_cons, List.sum_cons]
    exact ⟨h.add_measure ih.1, by rw [integral_add_measure h ih.1, integral_dirac, ih.2]⟩

theorem integral_emp (f : ℝ × Bool → ℝ) (L : List (ℝ × Bool)) : ∫ x, f x ∂(emp L) = avg (L.map f) := by
  rw [emp, integral_smul_measure, (sum_dirac f L).2, avg, List.length_map, ENNReal.toReal_inv, ENNReal.toReal_natCast, smul_eq_mul,
    inv_mul_eq_div]

theorem emp_prob {L : List (ℝ × Bool)} (hL : L ≠ []) : IsProbabilityMeasure (emp L) := by
  refine ⟨?_⟩
  have h : ∀ L : List (ℝ × Bool), (L.map fun x => Measure.dirac x).sum Set.univ = L.length := by
    intro L
    induction L with
    | nil => simp
    | cons a L ih =>
      simp only [List.map_cons, List.sum_cons, Measure.add_apply, ih, measure_univ, List.length_cons, Nat.cast_add, Nat.cast_one]
      exact add_comm _ _
  rw [emp, Measure.smul_apply, h, smul_eq_mul]
  exact ENNReal.inv_mul_cancel (by simpa using hL) (ENNReal.natCast_ne_top _)

theorem emp_real {L : List (ℝ × Bool)} (hL : L ≠ []) {B : Set (ℝ × Bool)} (hB : MeasurableSet B) :
    (emp L).real B = avg (L.map fun x => (indicator (x ∈ B) : ℝ)) := by
  classical
  have := emp_prob hL
  rw [← integral_one (emp L) hB, integral_emp]
  refine congrArg (fun f => avg (List.map f L)) ?_
  funext x
  exact (indicator_set (fun x => x ∈ B) x).symm

theorem integral_emp_pairs {L : List (ℝ × Bool)} (hL : L ≠ []) :
    ∫ z, pairScore z ∂((emp L).prod (emp L)) = avg (L.map fun x => avg (L.map fun y => pairScore (x, y))) := by
  have := emp_prob hL
  have hp : Integrable pairScore ((emp L).prod (emp L)) := Integrable.of_bound (C := 1) measurable_pairScore.aestronglyMeasurable
    (.of_forall fun z => by rw [Real.norm_of_nonneg (pairScore_unit z).1]; exact (pairScore_unit z).2)
  rw [integral_prod _ hp, integral_emp]
  simp only [integral_emp]

theorem sum_filter_bool (L : List (ℝ × Bool)) (b : Bool) (f : ℝ → ℝ) :
    (((L.filter fun a => a.2 == b).map Prod.fst).map f).sum = (L.map fun x => if x.2 = b then f x.1 else 0).sum := by
  induction L with
  | nil => rfl
  | cons a L ih =>
    by_cases h : a.2 = b
    · rw [List.filter_cons_of_pos (by simpa using h)]
      simp only [List.map_cons, List.sum_cons, ih, if_pos h]
    · rw [List.filter_cons_of_neg (by simpa using h)]
      simp only [List.map_cons, List.sum_cons, ih, if_neg h, zero_add]

theorem ofEvents_eq (L : List (ℝ × Bool)) : ofEvents L = (L.filter fun a => a.2 == true).map Prod.fst := by
  unfold ofEvents
  refine congrArg _ (List.filter_congr fun a _ => ?_)
  cases a.2 <;> rfl

theorem ofOthers_eq (L : List (ℝ × Bool)) : ofOthers L = (L.filter fun a => a.2 == false).map Prod.fst := by
  unfold ofOthers
  refine congrArg _ (List.filter_congr fun a _ => ?_)
  cases a.2 <;> rfl

theorem pair_sum (L : List (ℝ × Bool)) : ((ofEvents L).map fun e => ((ofOthers L).map fun n => wins e n).sum).sum =
    (L.map fun x => (L.map fun y => pairScore (x, y)).sum).sum := by
  rw [ofEvents_eq, ofOthers_eq]
  simp only [sum_filter_bool]
  refine congrArg List.sum (List.map_congr_left fun x _ => ?_)
  by_cases h : x.2 = true
  · rw [if_pos h]
    refine congrArg List.sum (List.map_congr_left fun y _ => ?_)
    simp [pairScore, h]
  · rw [if_neg h]
    symm
    refine List.sum_eq_zero fun v hv => ?_
    obtain ⟨y, -, rfl⟩ := List.mem_map.1 hv
    simp [pairScore, h]

theorem length_bool (L : List (ℝ × Bool)) (b : Bool) :
    (((L.filter fun a => a.2 == b).map Prod.fst).length : ℝ) = (L.map fun x => (indicator (x ∈ {x : ℝ × Bool | x.2 = b}) : ℝ)).sum := by
  have := sum_filter_bool L b fun _ => 1
  rw [List.map_const', List.sum_replicate, nsmul_eq_mul, mul_one] at this
  rw [this]
  refine congrArg List.sum (List.map_congr_left fun x _ => ?_)
  by_cases h : x.2 = b <;> simp [indicator, h]

theorem measurableSet_is (b : Bool) : MeasurableSet {x : ℝ × Bool | x.2 = b} := measurable_snd (measurableSet_singleton b)

theorem discrimination_emp {L : List (ℝ × Bool)} (hL : L ≠ []) : discrimination L = (∫ z, pairScore z ∂((emp L).prod (emp L))) /
    ((emp L).real {x | x.2 = true} * (emp L).real {x | x.2 = false}) := by
  have hn : (L.length : ℝ) ≠ 0 := by exact_mod_cast fun h => hL (List.length_eq_zero_iff.1 h)
  have e1 : avg (L.map fun x => avg (L.map fun y => pairScore (x, y))) =
      (L.map fun x => (L.map fun y => pairScore (x, y)).sum).sum / (L.length * L.length) := by
    simp only [avg, List.length_map, ← div_div]
    congr 1
    simp only [div_eq_mul_inv, List.sum_map_mul_right]
  rw [integral_emp_pairs hL, e1, emp_real hL (measurableSet_is true), emp_real hL (measurableSet_is false), discrimination, pair_sum,
    Nat.cast_mul, ofEvents_eq, ofOthers_eq, length_bool, length_bool]
  simp only [avg, List.length_map]
  rw [div_mul_div_comm, div_div_div_cancel_right₀ (mul_ne_zero hn hn)]

variable {Ω : Type} [MeasurableSpace Ω] {P : Measure Ω} [IsProbabilityMeasure P]

theorem pairs_law {D : Ω → ℝ} {A : Set Ω} {v : Ω → ℝ × Bool} (hv : Measurable v) (h1 : ∀ ω, (v ω).1 = D ω)
    (h2 : ∀ ω, (v ω).2 = true ↔ ω ∈ A) :
    ∫ z, pairScore z ∂((P.map v).prod (P.map v)) =
      ∫ z : Ω × Ω, (indicator (z.1 ∈ A ∧ z.2 ∉ A) : ℝ) * wins (D z.1) (D z.2) ∂(P.prod P) := by
  rw [Measure.map_prod_map P P hv hv, integral_map (hv.prodMap hv).aemeasurable measurable_pairScore.aestronglyMeasurable]
  refine integral_congr_ae (.of_forall fun z => ?_)
  have e : ((v z.1).2 = true ∧ (v z.2).2 = false) ↔ (z.1 ∈ A ∧ z.2 ∉ A) := by
    rw [h2, ← h2 z.2]
    simp
  show pairScore (v z.1, v z.2) = _
  by_cases h : z.1 ∈ A ∧ z.2 ∉ A
  · simp only [pairScore, if_pos (e.2 h), indicator, if_pos h, h1, one_mul]
  · simp only [pairScore, if_neg (fun hh => h (e.1 hh)), indicator, if_neg h, zero_mul]

/-- the area of the days recorded so far settles -/
theorem settles_area {R : ℕ → Ω → ℝ × Bool} (h : SameDays P R) {A : Set Ω} (hA : ∀ ω, (R 0 ω).2 = true ↔ ω ∈ A)
    (h0 : P.real A ≠ 0) (h1 : P.real Aᶜ ≠ 0) :
    Settles P (fun n ω => discrimination ((List.range (n + 1)).map fun d => R d ω)) (trueArea P (fun ω => (R 0 ω).1) A) ∧
      ∀ᵐ ω ∂P, ∃ N, ∀ n, N ≤ n → (∃ d ≤ n, (R d ω).2 = true) ∧ ∃ d ≤ n, (R d ω).2 = false := by
  have : IsProbabilityMeasure (P.map (R 0)) := Measure.isProbabilityMeasure_map (h.meas 0).aemeasurable
  obtain ⟨B, hB, hlim⟩ := pairs_tendsto (P.map (R 0))
  have hne : ∀ n ω, ((List.range (n + 1)).map fun d => R d ω) ≠ [] := fun n ω => by simp
  have hsh : ∀ S : Set (ℝ × Bool), MeasurableSet S → ∀ᵐ ω ∂P,
      Tendsto (fun n => (emp ((List.range (n + 1)).map fun d => R d ω)).real S) atTop (𝓝 ((P.map (R 0)).real S)) := by
    intro S hS
    filter_upwards [settles_share h hS] with ω hω
    rw [map_measureReal_apply (h.meas 0) hS]
    simp only [fun n => emp_real (hne n ω) hS, List.map_map, Function.comp_def]
    exact hω
  have e1 : (P.map (R 0)).real {x | x.2 = true} = P.real A := by
    rw [map_measureReal_apply (h.meas 0) (measurableSet_is true)]
    exact congrArg _ (Set.ext hA)
  have e2 : (P.map (R 0)).real {x | x.2 = false} = P.real Aᶜ := by
    rw [map_measureReal_apply (h.meas 0) (measurableSet_is false)]
    refine congrArg _ (Set.ext fun ω => ?_)
    rw [Set.mem_compl_iff, ← hA]
    simp
  constructor
  · filter_upwards [ae_all_iff.2 fun k => hsh (B k) (hB k), hsh _ (measurableSet_is true), hsh _ (measurableSet_is false)]
      with ω w1 w2 w3
    simp only [fun n => discrimination_emp (hne n ω)]
    rw [e1] at w2
    rw [e2] at w3
    rw [trueArea, ← pairs_law (h.meas 0) (fun _ => rfl) hA]
    exact (hlim _ (fun n => emp_prob (hne n ω)) w1).div (w2.mul w3) (mul_ne_zero h0 h1)
  · filter_upwards [hsh _ (measurableSet_is true), hsh _ (measurableSet_is false)] with ω w2 w3
    rw [e1] at w2
    rw [e2] at w3
    have pos : ∀ (b : Bool) (n : ℕ), 0 < (emp ((List.range (n + 1)).map fun d => R d ω)).real {x | x.2 = b} →
        ∃ d ≤ n, (R d ω).2 = b := by
      intro b n hpos
      by_contra hno
      push Not at hno
      refine hpos.ne' ?_
      rw [emp_real (hne n ω) (measurableSet_is b), avg, List.sum_eq_zero, zero_div]
      intro v hv
      obtain ⟨x, hx, rfl⟩ := List.mem_map.1 hv
      obtain ⟨d, hd, rfl⟩ := List.mem_map.1 hx
      exact if_neg (hno d (Nat.lt_succ_iff.1 (List.mem_range.1 hd)))
    obtain ⟨N1, hN1⟩ := eventually_atTop.1 (w2.eventually_const_lt (lt_of_le_of_ne measureReal_nonneg h0.symm))
    obtain ⟨N2, hN2⟩ := eventually_atTop.1 (w3.eventually_const_lt (lt_of_le_of_ne measureReal_nonneg h1.symm))
    exact ⟨max N1 N2, fun n hn => ⟨pos _ n (hN1 n ((le_max_left _ _).trans hn)), pos _ n (hN2 n ((le_max_right _ _).trans hn))⟩⟩

end Lemmas
