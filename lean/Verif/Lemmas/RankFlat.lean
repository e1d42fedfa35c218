import Verif.Spec.RankFlat
import Mathlib.MeasureTheory.Constructions.Pi
import Mathlib.MeasureTheory.Measure.Prod
import Mathlib.MeasureTheory.Constructions.BorelSpace.Order
import Mathlib.MeasureTheory.Integral.Bochner.Set
import Mathlib.MeasureTheory.Measure.Real

/-! Ranks of exchangeable random numbers. -/

namespace Lemmas
open MeasureTheory Spec ProbabilityTheory

variable {n : Nat}

/-- how many of the numbers lie below number `i` -/
noncomputable def below (z : Fin n → ℝ) (i : Fin n) : ℕ := (Finset.univ.filter fun l => z l < z i).card

theorem below_perm (σ : Equiv.Perm (Fin n)) (z : Fin n → ℝ) (i : Fin n) :
    below (fun k => z (σ k)) i = below z (σ i) := by
  unfold below
  refine Finset.card_bij (fun l _ => σ l) (fun l hl => ?_) (fun a _ b _ h => σ.injective h) fun l hl => ?_
  · simpa using hl
  · exact ⟨σ.symm l, by simpa using hl, by simp⟩

theorem below_lt (z : Fin n → ℝ) (i : Fin n) : below z i < n := by
  have : (Finset.univ.filter fun l => z l < z i) ⊂ Finset.univ := by
    refine Finset.filter_ssubset.2 ⟨i, Finset.mem_univ _, by simp⟩
  simpa [below] using Finset.card_lt_card this

theorem below_mono {z : Fin n → ℝ} {i j : Fin n} (h : z i < z j) : below z i < below z j := by
  refine Finset.card_lt_card ?_
  refine Finset.ssubset_iff_subset_ne.2 ⟨fun l hl => ?_, fun e => ?_⟩
  · simp only [Finset.mem_filter, Finset.mem_univ, true_and] at hl ⊢
    exact hl.trans h
  · have : i ∈ Finset.univ.filter fun l => z l < z i := by rw [e]; simpa using h
    simp at this

/-- of different numbers exactly one has `r` numbers below it -/
theorem below_count {z : Fin n → ℝ} (hz : Function.Injective z) {r : ℕ} (hr : r < n) :
    (Finset.univ.filter fun i => below z i = r).card = 1 := by
  let b : Fin n → Fin n := fun i => ⟨below z i, below_lt z i⟩
  have hb : Function.Injective b := by
    intro i j h
    have h : below z i = below z j := Fin.mk.inj_iff.1 h
    rcases lt_trichotomy (z i) (z j) with g | g | g
    · exact absurd h (below_mono g).ne
    · exact hz g
    · exact absurd h (below_mono g).ne'
  obtain ⟨i, hi⟩ := (Finite.injective_iff_surjective.1 hb) ⟨r, hr⟩
  have hi' : below z i = r := Fin.mk.inj_iff.1 hi
  refine Finset.card_eq_one.2 ⟨i, ?_⟩
  ext j
  simp only [Finset.mem_filter, Finset.mem_univ, true_and, Finset.mem_singleton]
  refine ⟨fun h => hb ?_, fun h => h ▸ hi'⟩
  rw [hi]
  exact Fin.mk.inj_iff.2 h

theorem measurable_below (i : Fin n) : Measurable fun z : Fin n → ℝ => below z i := by
  have : (fun z : Fin n → ℝ => below z i) = fun z => ∑ l, if z l < z i then 1 else 0 := by
    funext z
    rw [below, Finset.card_filter]
  rw [this]
  refine Finset.measurable_sum _ fun l _ => ?_
  exact Measurable.ite (measurableSet_lt (measurable_pi_apply l) (measurable_pi_apply i)) measurable_const measurable_const

variable {Ω : Type} [MeasurableSpace Ω] {P : Measure Ω}

/-- exchangeable numbers are all equally likely to have `r` numbers below them -/
theorem below_equal {Z : Fin n → Ω → ℝ} (hm : ∀ k, Measurable (Z k)) (hE : ExchLaw P Z) (r : ℕ) (i j : Fin n) :
    P.real {ω | below (fun k => Z k ω) i = r} = P.real {ω | below (fun k => Z k ω) j = r} := by
  have hZ : Measurable fun ω k => Z k ω := measurable_pi_iff.2 hm
  have hS : ∀ k : Fin n, MeasurableSet {z : Fin n → ℝ | below z k = r} := fun k =>
    measurable_below k (measurableSet_singleton r)
  have hσ : Measurable fun ω k => Z ((Equiv.swap i j) k) ω := measurable_pi_iff.2 fun k => hm _
  have h := congrArg (fun μ => μ.real {z : Fin n → ℝ | below z i = r}) (hE (Equiv.swap i j))
  simp only [map_measureReal_apply hZ (hS i), map_measureReal_apply hσ (hS i)] at h
  refine Eq.trans h.symm ?_
  congr 1
  ext ω
  simp only [Set.mem_preimage, Set.mem_ofPred_eq, below_perm (Equiv.swap i j) (fun k => Z k ω) i, Equiv.swap_apply_left]

/-- the numbers with `r` numbers below them, counted on average -/
theorem below_total [IsProbabilityMeasure P] {Z : Fin n → Ω → ℝ} (hm : ∀ k, Measurable (Z k)) (r : ℕ) :
    ∑ i, P.real {ω | below (fun k => Z k ω) i = r} =
      ∫ ω, ((Finset.univ.filter fun i => below (fun k => Z k ω) i = r).card : ℝ) ∂P := by
  have hZ : Measurable fun ω k => Z k ω := measurable_pi_iff.2 hm
  have hS : ∀ i : Fin n, MeasurableSet {ω | below (fun k => Z k ω) i = r} := fun i =>
    ((measurable_below i).comp hZ) (measurableSet_singleton r)
  have e : ∀ ω, ((Finset.univ.filter fun i => below (fun k => Z k ω) i = r).card : ℝ) =
      ∑ i, Set.indicator {ω | below (fun k => Z k ω) i = r} (fun _ => (1 : ℝ)) ω := by
    intro ω
    rw [Finset.card_filter, Nat.cast_sum]
    refine Finset.sum_congr rfl fun i _ => ?_
    simp [Set.indicator_apply]
  simp only [e]
  rw [integral_finsetSum _ fun i _ => (integrable_const (1 : ℝ)).indicator (hS i)]
  refine Finset.sum_congr rfl fun i _ => ?_
  rw [integral_indicator (hS i)]
  simp

theorem distinct_ae {Z : Fin n → Ω → ℝ} (hD : Distinct P Z) : ∀ᵐ ω ∂P, Function.Injective fun k => Z k ω := by
  have : ∀ᵐ ω ∂P, ∀ j k, j ≠ k → Z j ω ≠ Z k ω := by
    rw [ae_all_iff]
    intro j
    rw [ae_all_iff]
    intro k
    by_cases h : j = k
    · simp [h]
    · have := hD j k h
      filter_upwards [compl_mem_ae_iff.2 this] with ω hω _ e
      exact hω e
  filter_upwards [this] with ω hω j k e
  by_contra h
  exact hω j k h e

/-- exchangeable, almost surely different numbers: each number of numbers below is equally likely -/
theorem below_flat [IsProbabilityMeasure P] {Z : Fin n → Ω → ℝ} (hm : ∀ k, Measurable (Z k)) (hE : ExchLaw P Z)
    (hD : Distinct P Z) (i : Fin n) {r : ℕ} (hr : r < n) : P.real {ω | below (fun k => Z k ω) i = r} = 1 / n := by
  have h1 := below_total (P := P) hm r
  rw [Finset.sum_congr rfl fun j _ => below_equal hm hE r j i] at h1
  have h2 : ∫ ω, ((Finset.univ.filter fun i => below (fun k => Z k ω) i = r).card : ℝ) ∂P = ∫ _, (1 : ℝ) ∂P := by
    refine integral_congr_ae ?_
    filter_upwards [distinct_ae hD] with ω hω
    rw [below_count hω hr, Nat.cast_one]
  rw [h2] at h1
  simp only [Finset.sum_const, Finset.card_univ, Fintype.card_fin, nsmul_eq_mul, integral_const, probReal_univ,
    smul_eq_mul, mul_one] at h1
  have hn : (n : ℝ) ≠ 0 := by
    have : 0 < n := by omega
    exact_mod_cast this.ne'
  field_simp
  linarith

/-- independent numbers with one distribution function are exchangeable -/
theorem exch_of_iid [IsProbabilityMeasure P] {Z : Fin n → Ω → ℝ} (hm : ∀ k, Measurable (Z k)) (hI : iIndepFun Z P)
    {F : ℝ → ℝ} (hF : ∀ k x, P.real {ω | Z k ω ≤ x} = F x) : ExchLaw P Z := by
  have hlaw : ∀ j k, P.map (Z j) = P.map (Z k) := by
    intro j k
    have : IsFiniteMeasure (P.map (Z j)) := inferInstance
    refine Measure.ext_of_Iic _ _ fun x => ?_
    have h : ∀ l, P.map (Z l) (Set.Iic x) = ENNReal.ofReal (F x) := fun l => by
      rw [Measure.map_apply (hm l) measurableSet_Iic, ← hF l x]
      exact (ENNReal.ofReal_toReal (measure_ne_top P _)).symm
    rw [h j, h k]
  intro σ
  have h1 := (iIndepFun_iff_map_fun_eq_pi_map fun k => (hm k).aemeasurable).1 hI
  have h2 := (iIndepFun_iff_map_fun_eq_pi_map fun k => (hm (σ k)).aemeasurable).1 (hI.precomp σ.injective)
  rw [h1]
  refine h2.trans ?_
  congr 1
  funext k
  exact hlaw _ _

/-- independent numbers are almost surely different if one of any two has a continuous distribution function -/
theorem distinct_of_continuous [IsProbabilityMeasure P] {Z : Fin n → Ω → ℝ} (hm : ∀ k, Measurable (Z k))
    (hI : ∀ j k, j ≠ k → IndepFun (Z j) (Z k) P) {F : Fin n → ℝ → ℝ} (hF : ∀ k x, P.real {ω | Z k ω ≤ x} = F k x)
    (hc : ∀ j k, j ≠ k → Continuous (F j) ∨ Continuous (F k)) : Distinct P Z := by
  suffices key : ∀ j k, j ≠ k → Continuous (F j) → P {ω | Z j ω = Z k ω} = 0 by
    intro j k hjk
    rcases hc j k hjk with h | h
    · exact key j k hjk h
    · rw [show {ω | Z j ω = Z k ω} = {ω | Z k ω = Z j ω} from Set.ext fun ω => eq_comm]
      exact key k j hjk.symm h
  intro j k hjk hc
  have hpt : ∀ x, P.map (Z j) {x} = 0 := by
    intro x
    have hle : ∀ m : ℕ, (P.map (Z j)).real {x} ≤ F j x - F j (x - 1 / ((m : ℝ) + 1)) := by
      intro m
      have h0 : (0 : ℝ) < 1 / ((m : ℝ) + 1) := by positivity
      rw [map_measureReal_apply (hm j) (measurableSet_singleton x)]
      have hsub : Z j ⁻¹' {x} ⊆ {ω | Z j ω ≤ x} \ {ω | Z j ω ≤ x - 1 / ((m : ℝ) + 1)} := by
        intro ω hω
        have hω : Z j ω = x := hω
        simp only [Set.mem_sdiff, Set.mem_ofPred_eq, hω, le_refl, true_and, not_le]
        linarith
      have hms : ∀ y, MeasurableSet {ω | Z j ω ≤ y} := fun y => (hm j) measurableSet_Iic
      refine (measureReal_mono hsub).trans ?_
      rw [measureReal_sdiff (fun ω hω => ?_) (hms _), hF, hF]
      have hω : Z j ω ≤ x - 1 / ((m : ℝ) + 1) := hω
      show Z j ω ≤ x
      linarith
    have hlim : Filter.Tendsto (fun m : ℕ => F j x - F j (x - 1 / ((m : ℝ) + 1))) Filter.atTop (nhds 0) := by
      have h1 : Filter.Tendsto (fun m : ℕ => x - 1 / ((m : ℝ) + 1)) Filter.atTop (nhds x) := by
        simpa using tendsto_const_nhds.sub (tendsto_one_div_add_atTop_nhds_zero_nat (𝕜 := ℝ))
      have h2 := (hc.tendsto x).comp h1
      simpa using (tendsto_const_nhds (x := F j x)).sub h2
    have h3 : (P.map (Z j)).real {x} ≤ 0 := ge_of_tendsto' hlim hle
    have h4 : (P.map (Z j)).real {x} = 0 := le_antisymm h3 measureReal_nonneg
    have : IsFiniteMeasure (P.map (Z j)) := inferInstance
    exact (measureReal_eq_zero_iff (measure_ne_top _ _)).1 h4
  have hp := (indepFun_iff_map_prod_eq_prod_map_map (hm j).aemeasurable (hm k).aemeasurable).1 (hI j k hjk)
  have hS : MeasurableSet {p : ℝ × ℝ | p.1 = p.2} := measurableSet_eq_fun measurable_fst measurable_snd
  have e : P {ω | Z j ω = Z k ω} = P.map (fun ω => (Z j ω, Z k ω)) {p | p.1 = p.2} := by
    rw [Measure.map_apply ((hm j).prodMk (hm k)) hS]; rfl
  rw [e, hp]
  have : IsFiniteMeasure (P.map (Z k)) := inferInstance
  rw [Measure.prod_apply_symm hS]
  have : ∀ y : ℝ, (fun x : ℝ => (x, y)) ⁻¹' {p : ℝ × ℝ | p.1 = p.2} = {y} := by
    intro y; ext x; simp
  simp only [this, hpt, lintegral_zero]

/-- exchangeable numbers: how likely it is that a number has none below it -/
theorem least_count [IsProbabilityMeasure P] (hn : 0 < n) {Z : Fin n → Ω → ℝ} (hm : ∀ k, Measurable (Z k))
    (hE : ExchLaw P Z) (i : Fin n) : 1 / n ≤ P.real {ω | below (fun k => Z k ω) i = 0} ∧
      (P.real {ω | below (fun k => Z k ω) i = 0} = 1 / n ↔
        P {ω | ∃ j k, j ≠ k ∧ below (fun l => Z l ω) j = 0 ∧ below (fun l => Z l ω) k = 0} = 0) := by
  have hn' : (0 : ℝ) < n := by exact_mod_cast hn
  have : Nonempty (Fin n) := ⟨⟨0, hn⟩⟩
  have h1 := below_total (P := P) hm 0
  rw [Finset.sum_congr rfl fun j _ => below_equal hm hE 0 j i] at h1
  simp only [Finset.sum_const, Finset.card_univ, Fintype.card_fin, nsmul_eq_mul] at h1
  set c : Ω → ℝ := fun ω => ((Finset.univ.filter fun i => below (fun k => Z k ω) i = 0).card : ℝ) with hc
  have hpos : ∀ ω, 1 ≤ c ω := by
    intro ω
    obtain ⟨j, hj⟩ := Finite.exists_min fun k => Z k ω
    have : 0 < (Finset.univ.filter fun i => below (fun k => Z k ω) i = 0).card := by
      refine Finset.card_pos.2 ⟨j, ?_⟩
      simp only [Finset.mem_filter, Finset.mem_univ, true_and, below, Finset.card_eq_zero, Finset.filter_eq_empty_iff,
        not_lt]
      exact fun l _ => hj l
    show (1 : ℝ) ≤ ((Finset.univ.filter fun i => below (fun k => Z k ω) i = 0).card : ℝ)
    exact_mod_cast this
  have hZ : Measurable fun ω k => Z k ω := measurable_pi_iff.2 hm
  have hint : Integrable c P := by
    have hmc : Measurable c := by
      have e : c = fun ω => ∑ i, if below (fun k => Z k ω) i = 0 then (1 : ℝ) else 0 := by
        funext ω
        rw [hc]
        simp only
        rw [Finset.card_filter, Nat.cast_sum]
        exact Finset.sum_congr rfl fun i _ => by split <;> simp
      rw [e]
      refine Finset.measurable_sum _ fun l _ => ?_
      exact Measurable.ite (((measurable_below l).comp hZ) (measurableSet_singleton 0)) measurable_const measurable_const
    refine Integrable.of_bound hmc.aestronglyMeasurable n (Filter.Eventually.of_forall fun ω => ?_)
    rw [Real.norm_of_nonneg (by positivity)]
    have := Finset.card_le_univ (Finset.univ.filter fun i => below (fun k => Z k ω) i = 0)
    rw [Fintype.card_fin] at this
    show ((Finset.univ.filter fun i => below (fun k => Z k ω) i = 0).card : ℝ) ≤ n
    exact_mod_cast this
  have hsub : ∫ ω, (c ω - 1) ∂P = (∫ ω, c ω ∂P) - 1 := by
    rw [integral_sub hint (integrable_const 1)]; simp
  have hnn : 0 ≤ ∫ ω, (c ω - 1) ∂P := integral_nonneg fun ω => sub_nonneg.2 (hpos ω)
  have hiff : ∫ ω, (c ω - 1) ∂P = 0 ↔ c =ᵐ[P] fun _ => 1 := by
    have hi' : Integrable (fun ω => c ω - 1) P := hint.sub (integrable_const 1)
    rw [integral_eq_zero_iff_of_nonneg (fun ω => sub_nonneg.2 (hpos ω)) hi']
    constructor
    · intro h
      filter_upwards [h] with ω hω
      have : c ω - 1 = 0 := hω
      linarith
    · intro h
      filter_upwards [h] with ω hω
      show c ω - 1 = 0
      rw [hω]; ring
  refine ⟨?_, ?_⟩
  · rw [div_le_iff₀ hn']
    have : (n : ℝ) * P.real {ω | below (fun k => Z k ω) i = 0} = ∫ ω, c ω ∂P := h1
    linarith
  · have h1 : (n : ℝ) * P.real {ω | below (fun k => Z k ω) i = 0} = ∫ ω, c ω ∂P := h1
    have e1 : P.real {ω | below (fun k => Z k ω) i = 0} = 1 / n ↔ ∫ ω, (c ω - 1) ∂P = 0 := by
      rw [hsub, ← h1, eq_div_iff hn'.ne']
      constructor <;> intro h <;> linarith
    rw [e1, hiff]
    have e2 : {ω | ∃ j k, j ≠ k ∧ below (fun l => Z l ω) j = 0 ∧ below (fun l => Z l ω) k = 0} = {ω | c ω = 1}ᶜ := by
      ext ω
      simp only [Set.mem_ofPred_eq, Set.mem_compl_iff]
      constructor
      · rintro ⟨j, k, hjk, hj, hk⟩ h
        have h : ((Finset.univ.filter fun i => below (fun k => Z k ω) i = 0).card : ℝ) = 1 := h
        have h : (Finset.univ.filter fun i => below (fun k => Z k ω) i = 0).card = 1 := by exact_mod_cast h
        exact hjk (Finset.card_le_one.1 h.le j (by simpa using hj) k (by simpa using hk))
      · intro h
        have hp := hpos ω
        have h2 : 1 < (Finset.univ.filter fun i => below (fun k => Z k ω) i = 0).card := by
          have h3 : (1 : ℝ) < ((Finset.univ.filter fun i => below (fun k => Z k ω) i = 0).card : ℝ) :=
            lt_of_le_of_ne hp (Ne.symm h)
          exact_mod_cast h3
        obtain ⟨j, hj, k, hk, hjk⟩ := Finset.one_lt_card.1 h2
        exact ⟨j, k, hjk, by simpa using hj, by simpa using hk⟩
    rw [e2]
    exact Iff.rfl

end Lemmas
