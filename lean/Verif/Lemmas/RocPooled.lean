import Verif.Lemmas.RocLimit
import Verif.Spec.RocPooled

/-! One ROC curve for many places: C142. -/

namespace Lemmas
open Np Spec MeasureTheory ProbabilityTheory Filter Topology

theorem sum_flat {α β : Type} (l : List α) (g : α → List β) (f : β → ℝ) :
    ((l.flatMap g).map f).sum = (l.map fun a => ((g a).map f).sum).sum := by
  induction l with
  | nil => rfl
  | cons a l ih => simp [ih]

theorem sum_comm_list {α β : Type} (l : List α) (m : List β) (f : α → β → ℝ) :
    (l.map fun a => (m.map fun b => f a b).sum).sum = (m.map fun b => (l.map fun a => f a b).sum).sum := by
  induction l with
  | nil => simp
  | cons a l ih =>
    simp only [List.map_cons, List.sum_cons, ih, List.sum_map_add]

/-- all positions are all places on all days -/
theorem sum_places {s : List Nat} {t : Nat} (ht : t ≤ s.length) (n : Nat) (f : List Nat → ℝ) :
    ((allIdx (s.insertIdx t n)).map f).sum =
      ((allIdx s).map fun k => ((List.range n).map fun d => f (k.insertIdx t d)).sum).sum := by
  induction t generalizing s f with
  | zero =>
    rw [List.insertIdx_zero, allIdx_cons, sum_flat]
    simp only [List.map_map, Function.comp_def]
    rw [sum_comm_list]
    rfl
  | succ t ih =>
    cases s with
    | nil => simp at ht
    | cons m s =>
      rw [List.insertIdx_succ_cons, allIdx_cons, allIdx_cons, sum_flat, sum_flat]
      refine congrArg List.sum (List.map_congr_left fun i _ => ?_)
      rw [List.map_map, List.map_map]
      exact ih (by simpa using ht) (f ∘ (i :: ·))

theorem avg_places {s : List Nat} {t : Nat} (ht : t ≤ s.length) (n : Nat) (f : List Nat → ℝ) :
    avg ((allIdx (s.insertIdx t n)).map f) = avg ((allIdx s).map fun k => avg ((List.range n).map fun d => f (k.insertIdx t d))) := by
  have h1 := sum_places ht n f
  have h2 : ((allIdx (s.insertIdx t n)).length : ℝ) = (allIdx s).length * n := by
    have := sum_places ht n fun _ => 1
    simpa [List.map_const', List.sum_replicate] using this
  simp only [avg, List.length_map, List.length_range, h1, h2, div_eq_mul_inv, List.sum_map_mul_right, mul_inv]
  ring

/-! ### mixtures -/

/-- every member of the list has the same weight -/
noncomputable def mix (M : List (Measure (ℝ × Bool))) : Measure (ℝ × Bool) := (M.length : ENNReal)⁻¹ • M.sum

theorem mix_prob {M : List (Measure (ℝ × Bool))} (hM : M ≠ []) (h : ∀ μ ∈ M, IsProbabilityMeasure μ) :
    IsProbabilityMeasure (mix M) := by
  refine ⟨?_⟩
  have h' : ∀ M : List (Measure (ℝ × Bool)), (∀ μ ∈ M, IsProbabilityMeasure μ) → M.sum Set.univ = M.length := by
    intro M
    induction M with
    | nil => simp
    | cons a M ih =>
      intro h
      have := h a (by simp)
      simp only [List.sum_cons, Measure.add_apply, ih fun μ hμ => h μ (by simp [hμ]), measure_univ, List.length_cons,
        Nat.cast_add, Nat.cast_one]
      exact add_comm _ _
  rw [mix, Measure.smul_apply, h' M h, smul_eq_mul]
  exact ENNReal.inv_mul_cancel (by simpa using hM) (ENNReal.natCast_ne_top _)

theorem integral_mix {M : List (Measure (ℝ × Bool))} {f : ℝ × Bool → ℝ} (h : ∀ μ ∈ M, Integrable f μ) :
    ∫ x, f x ∂(mix M) = avg (M.map fun μ => ∫ x, f x ∂μ) := by
  have h' : Integrable f M.sum ∧ ∫ x, f x ∂M.sum = (M.map fun μ => ∫ x, f x ∂μ).sum := by
    induction M with
    | nil => simp
    | cons a M ih =>
      obtain ⟨i1, i2⟩ := ih fun μ hμ => h μ (by simp [hμ])
      have i0 := h a (by simp)
      simp only [List.map_cons, List.sum_cons]
      exact ⟨i0.add_measure i1, by rw [integral_add_measure i0 i1, i2]⟩
  rw [mix, integral_smul_measure, h'.2, avg, List.length_map, ENNReal.toReal_inv, ENNReal.toReal_natCast, smul_eq_mul, inv_mul_eq_div]

theorem mix_real {M : List (Measure (ℝ × Bool))} (h : ∀ μ ∈ M, IsProbabilityMeasure μ) {B : Set (ℝ × Bool)} (hB : MeasurableSet B) :
    (mix M).real B = avg (M.map fun μ => μ.real B) := by
  have e : ∀ μ : Measure (ℝ × Bool), ∫ x, one B x ∂μ = μ.real B := by
    intro μ
    unfold one
    rw [integral_indicator hB]
    simp
  rw [← e, integral_mix fun μ hμ => by have := h μ hμ; exact integrable_one μ hB]
  simp only [e]

theorem integral_mix_pairs {M : List (Measure (ℝ × Bool))} (hM : M ≠ []) (h : ∀ μ ∈ M, IsProbabilityMeasure μ) :
    ∫ z, pairScore z ∂((mix M).prod (mix M)) = avg (M.map fun μ => avg (M.map fun ν => ∫ z, pairScore z ∂(μ.prod ν))) := by
  have := mix_prob hM h
  have hb : ∀ (μ : Measure ((ℝ × Bool) × (ℝ × Bool))) [IsFiniteMeasure μ], Integrable pairScore μ := fun μ _ =>
    Integrable.of_bound (C := 1) measurable_pairScore.aestronglyMeasurable
      (.of_forall fun z => by rw [Real.norm_of_nonneg (pairScore_unit z).1]; exact (pairScore_unit z).2)
  have hs : ∀ x (ν : Measure (ℝ × Bool)) [IsFiniteMeasure ν], Integrable (fun y => pairScore (x, y)) ν := fun x ν _ =>
    Integrable.of_bound (C := 1) (measurable_pairScore.comp (measurable_const.prodMk measurable_id)).aestronglyMeasurable
      (.of_forall fun z => by rw [Real.norm_of_nonneg (pairScore_unit _).1]; exact (pairScore_unit _).2)
  rw [integral_prod _ (hb _), integral_mix]
  · refine congrArg avg (List.map_congr_left fun μ hμ => ?_)
    have := h μ hμ
    have e1 : ∀ x, ∫ y, pairScore (x, y) ∂(mix M) = avg (M.map fun ν => ∫ y, pairScore (x, y) ∂ν) := fun x =>
      integral_mix fun ν hν => by have := h ν hν; exact hs x ν
    simp only [e1, avg, List.length_map]
    rw [integral_div]
    congr 1
    have key : ∀ L : List (Measure (ℝ × Bool)), (∀ ν ∈ L, IsProbabilityMeasure ν) →
        Integrable (fun x => (L.map fun ν => ∫ y, pairScore (x, y) ∂ν).sum) μ ∧
        ∫ x, (L.map fun ν => ∫ y, pairScore (x, y) ∂ν).sum ∂μ = (L.map fun ν => ∫ z, pairScore z ∂(μ.prod ν)).sum := by
      intro L
      induction L with
      | nil => simp
      | cons a L ih =>
        intro hL
        have := hL a (by simp)
        obtain ⟨j1, j2⟩ := ih fun ν hν => hL ν (by simp [hν])
        have j0 : Integrable (fun x => ∫ y, pairScore (x, y) ∂a) μ := (hb (μ.prod a)).integral_prod_left
        simp only [List.map_cons, List.sum_cons]
        exact ⟨j0.add j1, by rw [integral_add j0 j1, j2, integral_prod _ (hb (μ.prod a))]⟩
    exact (key M h).2
  · intro μ hμ
    have := h μ hμ
    exact (hb (μ.prod (mix M))).integral_prod_left

variable {Ω κ : Type} [MeasurableSpace Ω] {P : Measure Ω} [IsProbabilityMeasure P]

theorem pairs_law₂ {D D' : Ω → ℝ} {A A' : Set Ω} {v v' : Ω → ℝ × Bool} (hv : Measurable v) (hv' : Measurable v')
    (h1 : ∀ ω, (v ω).1 = D ω) (h1' : ∀ ω, (v' ω).1 = D' ω) (h2 : ∀ ω, (v ω).2 = true ↔ ω ∈ A) (h2' : ∀ ω, (v' ω).2 = true ↔ ω ∈ A') :
    ∫ z, pairScore z ∂((P.map v).prod (P.map v')) =
      ∫ z : Ω × Ω, (indicator (z.1 ∈ A ∧ z.2 ∉ A') : ℝ) * wins (D z.1) (D' z.2) ∂(P.prod P) := by
  rw [Measure.map_prod_map P P hv hv', integral_map (hv.prodMap hv').aemeasurable measurable_pairScore.aestronglyMeasurable]
  refine integral_congr_ae (.of_forall fun z => ?_)
  have e : ((v z.1).2 = true ∧ (v' z.2).2 = false) ↔ (z.1 ∈ A ∧ z.2 ∉ A') := by
    rw [h2, ← h2' z.2]
    simp
  show pairScore (v z.1, v' z.2) = _
  by_cases h : z.1 ∈ A ∧ z.2 ∉ A'
  · simp only [pairScore, if_pos (e.2 h), indicator, if_pos h, h1, h1', one_mul]
  · simp only [pairScore, if_neg (fun hh => h (e.1 hh)), indicator, if_neg h, zero_mul]

theorem avg_tendsto {ks : List κ} {f : ℕ → κ → ℝ} {l : κ → ℝ} (h : ∀ k ∈ ks, Tendsto (fun n => f n k) atTop (𝓝 (l k))) :
    Tendsto (fun n => avg (ks.map (f n))) atTop (𝓝 (avg (ks.map l))) := by
  simp only [avg, List.length_map]
  refine Tendsto.div_const ?_ _
  induction ks with
  | nil => simp
  | cons k ks ih =>
    simp only [List.map_cons, List.sum_cons]
    exact (h k (by simp)).add (ih fun k hk => h k (by simp [hk]))

/-- the area of everything recorded so far settles -/
theorem settles_pooled {R : List Nat → Ω → ℝ × Bool} {s : List Nat} {t : Nat} (ht : t ≤ s.length)
    (h : ∀ k, InB s k → SameDays P fun d => R (k.insertIdx t d)) {A : List Nat → Set Ω}
    (hA : ∀ k ω, (R (k.insertIdx t 0) ω).2 = true ↔ ω ∈ A k)
    (h0 : ((allIdx s).map fun k => P.real (A k)).sum ≠ 0) (h1 : ((allIdx s).map fun k => P.real (A k)ᶜ).sum ≠ 0) :
    Settles P (fun n ω => discrimination ((allIdx (s.insertIdx t (n + 1))).map fun i => R i ω))
        (pooledArea P (allIdx s) (fun k ω => (R (k.insertIdx t 0) ω).1) A) ∧
      ∀ᵐ ω ∂P, ∃ N, ∀ n, N ≤ n → (∃ i, InB (s.insertIdx t (n + 1)) i ∧ (R i ω).2 = true) ∧
        ∃ i, InB (s.insertIdx t (n + 1)) i ∧ (R i ω).2 = false := by
  let M := (allIdx s).map fun k => P.map (R (k.insertIdx t 0))
  have hk0 : allIdx s ≠ [] := fun h' => h0 (by simp [h'])
  have hlen : ((allIdx s).length : ℝ) ≠ 0 := by exact_mod_cast fun h => hk0 (List.length_eq_zero_iff.1 h)
  have hM0 : M ≠ [] := by simpa [M] using hk0
  have hMp : ∀ μ ∈ M, IsProbabilityMeasure μ := by
    intro μ hμ
    obtain ⟨k, hk, rfl⟩ := List.mem_map.1 hμ
    exact Measure.isProbabilityMeasure_map ((h k (mem_allIdx.1 hk)).meas 0).aemeasurable
  have := mix_prob hM0 hMp
  obtain ⟨B, hB, hlim⟩ := pairs_tendsto (mix M)
  have hne : ∀ n ω, ((allIdx (s.insertIdx t (n + 1))).map fun i => R i ω) ≠ [] := by
    intro n ω he
    have h2 := List.map_eq_nil_iff.1 he
    obtain ⟨k, hk⟩ := List.exists_mem_of_ne_nil _ hk0
    have : k.insertIdx t 0 ∈ allIdx (s.insertIdx t (n + 1)) := mem_allIdx.2 (inB_insertIdx (mem_allIdx.1 hk) (Nat.succ_pos n))
    rw [h2] at this
    simp at this
  have hmixr : ∀ S : Set (ℝ × Bool), MeasurableSet S → (mix M).real S =
      avg ((allIdx s).map fun k => P.real {ω | R (k.insertIdx t 0) ω ∈ S}) := by
    intro S hS
    rw [mix_real hMp hS, List.map_map]
    refine congrArg avg (List.map_congr_left fun k hk => ?_)
    exact map_measureReal_apply ((h k (mem_allIdx.1 hk)).meas 0) hS
  have hsh : ∀ S : Set (ℝ × Bool), MeasurableSet S → ∀ᵐ ω ∂P,
      Tendsto (fun n => (emp ((allIdx (s.insertIdx t (n + 1))).map fun i => R i ω)).real S) atTop (𝓝 ((mix M).real S)) := by
    intro S hS
    have hall : ∀ᵐ ω ∂P, ∀ k ∈ allIdx s, Tendsto (fun n => avg ((List.range (n + 1)).map fun d =>
        (indicator (R (k.insertIdx t d) ω ∈ S) : ℝ))) atTop (𝓝 (P.real {ω | R (k.insertIdx t 0) ω ∈ S})) := by
      have : ∀ k : {k // k ∈ allIdx s}, ∀ᵐ ω ∂P, Tendsto (fun n => avg ((List.range (n + 1)).map fun d =>
        (indicator (R (k.1.insertIdx t d) ω ∈ S) : ℝ))) atTop (𝓝 (P.real {ω | R (k.1.insertIdx t 0) ω ∈ S})) :=
        fun k => settles_share (h k.1 (mem_allIdx.1 k.2)) hS
      filter_upwards [ae_all_iff.2 this] with ω hω k hk
      exact hω ⟨k, hk⟩
    filter_upwards [hall] with ω hω
    rw [hmixr S hS]
    simp only [fun n => emp_real (hne n ω) hS, List.map_map, Function.comp_def, fun n => avg_places ht (n + 1)
      fun i => (indicator (R i ω ∈ S) : ℝ)]
    exact avg_tendsto hω
  have e1 : (mix M).real {x | x.2 = true} = avg ((allIdx s).map fun k => P.real (A k)) := by
    rw [hmixr _ (measurableSet_is true)]
    refine congrArg avg (List.map_congr_left fun k _ => ?_)
    exact congrArg _ (Set.ext (hA k))
  have e2 : (mix M).real {x | x.2 = false} = avg ((allIdx s).map fun k => P.real (A k)ᶜ) := by
    rw [hmixr _ (measurableSet_is false)]
    refine congrArg avg (List.map_congr_left fun k _ => ?_)
    refine congrArg _ (Set.ext fun ω => ?_)
    rw [Set.mem_compl_iff, ← hA]
    simp
  have a0 : avg ((allIdx s).map fun k => P.real (A k)) ≠ 0 := div_ne_zero h0 (by simpa using hlen)
  have a1 : avg ((allIdx s).map fun k => P.real (A k)ᶜ) ≠ 0 := div_ne_zero h1 (by simpa using hlen)
  have hpool : pooledArea P (allIdx s) (fun k ω => (R (k.insertIdx t 0) ω).1) A = (∫ z, pairScore z ∂((mix M).prod (mix M))) /
      (avg ((allIdx s).map fun k => P.real (A k)) * avg ((allIdx s).map fun k => P.real (A k)ᶜ)) := by
    have e3 : ∫ z, pairScore z ∂((mix M).prod (mix M)) = ((allIdx s).map fun k => ((allIdx s).map fun l =>
        ∫ z : Ω × Ω, (indicator (z.1 ∈ A k ∧ z.2 ∉ A l) : ℝ) * wins (R (k.insertIdx t 0) z.1).1 (R (l.insertIdx t 0) z.2).1
          ∂(P.prod P)).sum).sum / ((allIdx s).length * (allIdx s).length) := by
      rw [integral_mix_pairs hM0 hMp]
      simp only [avg, M, List.map_map, List.length_map, Function.comp_def, ← div_div]
      congr 1
      simp only [div_eq_mul_inv, List.sum_map_mul_right]
      congr 1
      refine congrArg List.sum (List.map_congr_left fun k hk => ?_)
      refine congrArg List.sum (List.map_congr_left fun l hl => ?_)
      exact pairs_law₂ ((h k (mem_allIdx.1 hk)).meas 0) ((h l (mem_allIdx.1 hl)).meas 0) (fun _ => rfl) (fun _ => rfl) (hA k) (hA l)
    rw [e3, pooledArea]
    simp only [avg, List.length_map]
    rw [div_mul_div_comm, div_div_div_cancel_right₀ (mul_ne_zero hlen hlen)]
  constructor
  · filter_upwards [ae_all_iff.2 fun k => hsh (B k) (hB k), hsh _ (measurableSet_is true), hsh _ (measurableSet_is false)]
      with ω w1 w2 w3
    simp only [fun n => discrimination_emp (hne n ω)]
    rw [e1] at w2
    rw [e2] at w3
    rw [hpool]
    exact (hlim _ (fun n => emp_prob (hne n ω)) w1).div (w2.mul w3) (mul_ne_zero a0 a1)
  · filter_upwards [hsh _ (measurableSet_is true), hsh _ (measurableSet_is false)] with ω w2 w3
    rw [e1] at w2
    rw [e2] at w3
    have pos : ∀ (b : Bool) (n : ℕ), (emp ((allIdx (s.insertIdx t (n + 1))).map fun i => R i ω)).real {x | x.2 = b} ≠ 0 →
        ∃ i, InB (s.insertIdx t (n + 1)) i ∧ (R i ω).2 = b := by
      intro b n hpos
      by_contra hno
      push Not at hno
      refine hpos ?_
      rw [emp_real (hne n ω) (measurableSet_is b), avg, List.sum_eq_zero, zero_div]
      intro v hv
      obtain ⟨x, hx, rfl⟩ := List.mem_map.1 hv
      obtain ⟨i, hi, rfl⟩ := List.mem_map.1 hx
      exact if_neg (hno i (mem_allIdx.1 hi))
    obtain ⟨N1, hN1⟩ := eventually_atTop.1 (w2.eventually_ne a0)
    obtain ⟨N2, hN2⟩ := eventually_atTop.1 (w3.eventually_ne a1)
    exact ⟨max N1 N2, fun n hn => ⟨pos _ n (hN1 n ((le_max_left _ _).trans hn)), pos _ n (hN2 n ((le_max_right _ _).trans hn))⟩⟩

end Lemmas
