import Verif.Props.RocPooled
import Verif.Props.RocBest

/-!
# Nobody has a larger area over many places than those who announce the probabilities that follow from what is known there: C143
-/

set_option linter.unusedSectionVars false

namespace Props
open Np NDArr Model Spec Lemmas MeasureTheory ProbabilityTheory Filter Topology

variable {Ω : Type} [MeasurableSpace Ω] {P : Measure Ω} [IsProbabilityMeasure P] {E : Type} [MeasurableSpace E]

/-- what a day at one place and a day at another count on average for those who know `K` and `K'` -/
noncomputable def crossMean (p e : E → ℝ) (K : Ω → E) (p' e' : E → ℝ) (K' : Ω → E) (z : Ω × Ω) : ℝ :=
  p (K z.1) * (1 - p' (K' z.2)) * wins (e (K z.1)) (e' (K' z.2))

theorem integrable_crossMean {K K' : Ω → E} {p e p' e' : E → ℝ} (hK : Measurable K) (hp : Measurable p) (he : Measurable e)
    (hu : ∀ ω, 0 ≤ p (K ω) ∧ p (K ω) ≤ 1) (hK' : Measurable K') (hp' : Measurable p') (he' : Measurable e')
    (hu' : ∀ ω, 0 ≤ p' (K' ω) ∧ p' (K' ω) ≤ 1) : Integrable (crossMean p e K p' e' K') (P.prod P) := by
  have k1 : Measurable fun z : Ω × Ω => K z.1 := hK.comp measurable_fst
  have k2 : Measurable fun z : Ω × Ω => K' z.2 := hK'.comp measurable_snd
  refine bounded_integrable (((hp.comp k1).mul (measurable_const.sub (hp'.comp k2))).mul
    (measurable_wins.comp ((he.comp k1).prodMk (he'.comp k2)))) (c := 1) fun z => ?_
  obtain ⟨a1, a2⟩ := hu z.1
  obtain ⟨b1, b2⟩ := hu' z.2
  obtain ⟨c1, c2⟩ := wins_unit (e (K z.1)) (e' (K' z.2))
  have h1 : 0 ≤ p (K z.1) * (1 - p' (K' z.2)) := mul_nonneg a1 (by linarith)
  have h2 : p (K z.1) * (1 - p' (K' z.2)) ≤ 1 := mul_le_one₀ a2 (by linarith) (by linarith)
  show |p (K z.1) * (1 - p' (K' z.2)) * wins (e (K z.1)) (e' (K' z.2))| ≤ 1
  rw [abs_of_nonneg (mul_nonneg h1 c1)]
  exact mul_le_one₀ h2 c1 c2

theorem cross_given {K K' : Ω → E} {p e p' e' : E → ℝ} {B B' : Set Ω} (hB : MeasurableSet B) (hB' : MeasurableSet B')
    (hK : Measurable K) (hp : Measurable p) (he : Measurable e)
    (hu : ∀ ω, 0 ≤ p (K ω) ∧ p (K ω) ≤ 1) (hK' : Measurable K') (hp' : Measurable p') (he' : Measurable e')
    (hu' : ∀ ω, 0 ≤ p' (K' ω) ∧ p' (K' ω) ≤ 1) (h : ProbGiven P K B p) (h' : ProbGiven P K' B' p') :
    ∫ z : Ω × Ω, (indicator (z.1 ∈ B ∧ z.2 ∉ B') : ℝ) * wins (e (K z.1)) (e' (K' z.2)) ∂(P.prod P) =
      ∫ z, crossMean p e K p' e' K' z ∂(P.prod P) := by
  classical
  have hw : Measurable fun q : E × Ω => wins (e q.1) (e' (K' q.2)) :=
    measurable_wins.comp ((he.comp measurable_fst).prodMk ((he'.comp hK').comp measurable_snd))
  have hsec : ∀ x, Measurable fun y => wins x (e' y) := fun x => measurable_wins.comp (measurable_const.prodMk he')
  have hwb : ∀ x y : ℝ, |wins x y| ≤ 1 := fun x y => by rw [abs_of_nonneg (wins_unit x y).1]; exact (wins_unit x y).2
  let G : E → ℝ := fun k => ∫ ω', (1 - p' (K' ω')) * wins (e k) (e' (K' ω')) ∂P
  have hG : Measurable G := by
    have : StronglyMeasurable fun q : E × Ω => (1 - p' (K' q.2)) * wins (e q.1) (e' (K' q.2)) :=
      ((measurable_const.sub ((hp'.comp hK').comp measurable_snd)).mul hw).stronglyMeasurable
    exact this.integral_prod_right.measurable
  have e1 : ∀ z : Ω × Ω, (indicator (z.1 ∈ B ∧ z.2 ∉ B') : ℝ) * wins (e (K z.1)) (e' (K' z.2)) =
      B.indicator (fun _ => 1) z.1 * B'ᶜ.indicator (fun ω' => wins (e (K z.1)) (e' (K' ω'))) z.2 := by
    intro z
    by_cases h1 : z.1 ∈ B <;> by_cases h2 : z.2 ∈ B' <;> simp [indicator, h1, h2]
  have hj : Integrable (fun z : Ω × Ω => (indicator (z.1 ∈ B ∧ z.2 ∉ B') : ℝ) * wins (e (K z.1)) (e' (K' z.2))) (P.prod P) := by
    have hm : Measurable fun z : Ω × Ω => (indicator (z.1 ∈ B ∧ z.2 ∉ B') : ℝ) := by
      have e2 : (fun z : Ω × Ω => (indicator (z.1 ∈ B ∧ z.2 ∉ B') : ℝ)) = (B ×ˢ B'ᶜ).indicator fun _ => 1 := by
        funext z
        exact indicator_set (fun z : Ω × Ω => z.1 ∈ B ∧ z.2 ∉ B') z
      rw [e2]
      exact measurable_const.indicator (hB.prod hB'.compl)
    refine bounded_integrable (hm.mul (hw.comp ((hK.comp measurable_fst).prodMk measurable_snd))) (c := 1) fun z => ?_
    rw [abs_mul]
    refine mul_le_one₀ ?_ (abs_nonneg _) (hwb _ _)
    rcases indicator_or (z.1 ∈ B ∧ z.2 ∉ B') with e2 | e2 <;> rw [e2] <;> norm_num
  rw [integral_prod _ hj, integral_prod _ (integrable_crossMean hK hp he hu hK' hp' he' hu')]
  have e3 : ∀ ω, ∫ ω', (indicator ((ω, ω').1 ∈ B ∧ (ω, ω').2 ∉ B') : ℝ) * wins (e (K (ω, ω').1)) (e' (K' (ω, ω').2)) ∂P =
      B.indicator (fun ω => G (K ω)) ω := by
    intro ω
    simp only [fun ω' => e1 (ω, ω')]
    rw [integral_const_mul, given_other hB' hK' hp' hu' h' (hsec (e (K ω))) fun y => hwb _ _]
    by_cases hω : ω ∈ B <;> simp [hω, G]
  simp only [e3]
  rw [given_mean hB hK hp hu h hG]
  refine integral_congr_ae (.of_forall fun ω => ?_)
  show G (K ω) * p (K ω) = ∫ ω', p (K ω) * (1 - p' (K' ω')) * wins (e (K ω)) (e' (K' ω')) ∂P
  simp only [mul_assoc]
  rw [integral_const_mul, mul_comm]

variable {κ : Type} {ks : List κ} {K : κ → Ω → E} {B : κ → Set Ω} {p e : κ → E → ℝ}

/-- how much the honest order of a day at `k` and a day at `l` gains -/
noncomputable def placeGain (p e : κ → E → ℝ) (K : κ → Ω → E) (k l : κ) (z : Ω × Ω) : ℝ :=
  (p k (K k z.1) - p l (K l z.2)) * (wins (p k (K k z.1)) (p l (K l z.2)) - wins (e k (K k z.1)) (e l (K l z.2)))

theorem honest_gain (x y v : ℝ) (h : 0 ≤ v ∧ v ≤ 1) : 0 ≤ (x - y) * (wins x y - v) := by
  rcases lt_trichotomy x y with h' | h' | h'
  · have : wins x y = 0 := by simp [wins, h'.not_gt, h'.ne']
    rw [this]
    nlinarith
  · rw [h', sub_self, zero_mul]
  · have : wins x y = 1 := by simp [wins, h']
    rw [this]
    nlinarith

theorem placeGain_nonneg (k l : κ) (z : Ω × Ω) : 0 ≤ placeGain p e K k l z := honest_gain _ _ _ (wins_unit _ _)

/-- for all pairs of places -/
noncomputable def allPairs (ks : List κ) (f : κ → κ → ℝ) : ℝ := (ks.map fun k => (ks.map fun l => f k l).sum).sum

theorem allPairs_swap (f : κ → κ → ℝ) : allPairs ks (fun k l => f l k) = allPairs ks f := sum_comm_list ..

theorem allPairs_comb (f g h : κ → κ → ℝ) (hc : ∀ k ∈ ks, ∀ l ∈ ks, f k l + g k l = h k l) :
    allPairs ks f + allPairs ks g = allPairs ks h := by
  simp only [allPairs, ← List.sum_map_add]
  exact congrArg List.sum (List.map_congr_left fun k hk => congrArg List.sum (List.map_congr_left fun l hl => hc k hk l hl))

theorem pooled_given (H : Honest P ks K B p) (he : ∀ k ∈ ks, Measurable (e k)) :
    pooledArea P ks (fun k ω => e k (K k ω)) B =
      allPairs ks (fun k l => ∫ z, crossMean (p k) (e k) (K k) (p l) (e l) (K l) z ∂(P.prod P)) /
        ((ks.map fun k => P.real (B k)).sum * (ks.map fun k => P.real (B k)ᶜ).sum) := by
  unfold pooledArea allPairs
  congr 1
  refine congrArg List.sum (List.map_congr_left fun k hk => congrArg List.sum (List.map_congr_left fun l hl => ?_))
  exact cross_given (H.event k hk) (H.event l hl) (H.known k hk) (H.prob k hk) (he k hk) (H.unit k hk) (H.known l hl) (H.prob l hl)
    (he l hl) (H.unit l hl) (H.given k hk) (H.given l hl)

theorem place_gain (H : Honest P ks K B p) (he : ∀ k ∈ ks, Measurable (e k)) {k l : κ} (hk : k ∈ ks) (hl : l ∈ ks) :
    Integrable (placeGain p e K k l) (P.prod P) ∧
    ((∫ z, crossMean (p k) (p k) (K k) (p l) (p l) (K l) z ∂(P.prod P)) +
      ∫ z, crossMean (p l) (p l) (K l) (p k) (p k) (K k) z ∂(P.prod P)) =
    ((∫ z, crossMean (p k) (e k) (K k) (p l) (e l) (K l) z ∂(P.prod P)) +
      ∫ z, crossMean (p l) (e l) (K l) (p k) (e k) (K k) z ∂(P.prod P)) + ∫ z, placeGain p e K k l z ∂(P.prod P) := by
  have i : ∀ x : κ → E → ℝ, (∀ k ∈ ks, Measurable (x k)) → ∀ k ∈ ks, ∀ l ∈ ks,
      Integrable (crossMean (p k) (x k) (K k) (p l) (x l) (K l)) (P.prod P) := fun x hx k hk l hl =>
    integrable_crossMean (H.known k hk) (H.prob k hk) (hx k hk) (H.unit k hk) (H.known l hl) (H.prob l hl) (hx l hl) (H.unit l hl)
  have sw : ∀ x : κ → E → ℝ, ∫ z : Ω × Ω, crossMean (p l) (x l) (K l) (p k) (x k) (K k) z.swap ∂(P.prod P) =
      ∫ z, crossMean (p l) (x l) (K l) (p k) (x k) (K k) z ∂(P.prod P) := fun x => integral_prod_swap _
  have jw : ∀ x : κ → E → ℝ, (∀ k ∈ ks, Measurable (x k)) →
      Integrable (fun z : Ω × Ω => crossMean (p l) (x l) (K l) (p k) (x k) (K k) z.swap) (P.prod P) := fun x hx => (i x hx l hl k hk).swap
  have key : ∀ z : Ω × Ω, placeGain p e K k l z =
      crossMean (p k) (p k) (K k) (p l) (p l) (K l) z + crossMean (p l) (p l) (K l) (p k) (p k) (K k) z.swap -
      (crossMean (p k) (e k) (K k) (p l) (e l) (K l) z + crossMean (p l) (e l) (K l) (p k) (e k) (K k) z.swap) := by
    intro z
    have h1 := wins_add (p k (K k z.1)) (p l (K l z.2))
    have h2 := wins_add (e k (K k z.1)) (e l (K l z.2))
    simp only [placeGain, crossMean, Prod.fst_swap, Prod.snd_swap]
    rw [show wins (p l (K l z.2)) (p k (K k z.1)) = 1 - wins (p k (K k z.1)) (p l (K l z.2)) by linarith,
      show wins (e l (K l z.2)) (e k (K k z.1)) = 1 - wins (e k (K k z.1)) (e l (K l z.2)) by linarith]
    ring
  have ip := (i p H.prob k hk l hl).add (jw p H.prob)
  have ie := (i e he k hk l hl).add (jw e he)
  have hi : Integrable (placeGain p e K k l) (P.prod P) := by
    rw [show placeGain p e K k l = _ from funext key]
    exact ip.sub ie
  refine ⟨hi, ?_⟩
  have h3 : ∫ z, placeGain p e K k l z ∂(P.prod P) = _ := (integral_congr_ae (.of_forall key)).trans (integral_sub ip ie)
  have h4 := integral_add (i p H.prob k hk l hl) (jw p H.prob)
  have h5 := integral_add (i e he k hk l hl) (jw e he)
  rw [sw] at h4 h5
  rw [h3, h4, h5]
  ring

theorem pooled_gain (H : Honest P ks K B p) (he : ∀ k ∈ ks, Measurable (e k)) :
    allPairs ks (fun k l => ∫ z, crossMean (p k) (p k) (K k) (p l) (p l) (K l) z ∂(P.prod P)) -
      allPairs ks (fun k l => ∫ z, crossMean (p k) (e k) (K k) (p l) (e l) (K l) z ∂(P.prod P)) =
    allPairs ks (fun k l => ∫ z, placeGain p e K k l z ∂(P.prod P)) / 2 := by
  have s1 := allPairs_swap (ks := ks) fun k l => ∫ z, crossMean (p k) (p k) (K k) (p l) (p l) (K l) z ∂(P.prod P)
  have s2 := allPairs_swap (ks := ks) fun k l => ∫ z, crossMean (p k) (e k) (K k) (p l) (e l) (K l) z ∂(P.prod P)
  have c1 := allPairs_comb (ks := ks) (fun k l => ∫ z, crossMean (p k) (p k) (K k) (p l) (p l) (K l) z ∂(P.prod P))
    (fun k l => ∫ z, crossMean (p l) (p l) (K l) (p k) (p k) (K k) z ∂(P.prod P)) _ fun k _ l _ => rfl
  have c2 := allPairs_comb (ks := ks) (fun k l => ∫ z, crossMean (p k) (e k) (K k) (p l) (e l) (K l) z ∂(P.prod P))
    (fun k l => ∫ z, crossMean (p l) (e l) (K l) (p k) (e k) (K k) z ∂(P.prod P)) _ fun k _ l _ => rfl
  have c3 := allPairs_comb (ks := ks) _ (fun k l => ∫ z, placeGain p e K k l z ∂(P.prod P)) _ fun k hk l hl =>
    (place_gain H he hk hl).2.symm
  linarith

theorem allPairs_nonneg {f : κ → κ → ℝ} (h : ∀ k l, 0 ≤ f k l) : 0 ≤ allPairs ks f :=
  List.sum_nonneg fun x hx => by
    obtain ⟨k, -, rfl⟩ := List.mem_map.1 hx
    exact List.sum_nonneg fun y hy => by obtain ⟨l, -, rfl⟩ := List.mem_map.1 hy; exact h k l

theorem allPairs_le {f : κ → κ → ℝ} (h : ∀ k l, 0 ≤ f k l) {k l : κ} (hk : k ∈ ks) (hl : l ∈ ks) : f k l ≤ allPairs ks f := by
  refine (List.single_le_sum (l := ks.map fun l => f k l) (fun y hy => ?_) _ (List.mem_map_of_mem hl)).trans
    (List.single_le_sum (fun x hx => ?_) _ (List.mem_map_of_mem (f := fun k => (ks.map fun l => f k l).sum) hk))
  · obtain ⟨l, -, rfl⟩ := List.mem_map.1 hy; exact h k l
  · obtain ⟨k, -, rfl⟩ := List.mem_map.1 hx
    exact List.sum_nonneg fun y hy => by obtain ⟨l, -, rfl⟩ := List.mem_map.1 hy; exact h k l

/-- **C143**: whoever announces at each place the probabilities that follow from what is known there has the largest area over
all places. -/
theorem C143_best (H : Honest P ks K B p) (he : ∀ k ∈ ks, Measurable (e k)) :
    pooledArea P ks (fun k ω => e k (K k ω)) B ≤ pooledArea P ks (fun k ω => p k (K k ω)) B := by
  rw [pooled_given H he, pooled_given H H.prob]
  have h0 : ∀ f : κ → ℝ, (∀ k, 0 ≤ f k) → 0 ≤ (ks.map f).sum := fun f hf =>
    List.sum_nonneg fun x hx => by obtain ⟨k, -, rfl⟩ := List.mem_map.1 hx; exact hf k
  refine div_le_div_of_nonneg_right ?_ (mul_nonneg (h0 _ fun _ => measureReal_nonneg) (h0 _ fun _ => measureReal_nonneg))
  have h1 := pooled_gain H he
  have h2 : 0 ≤ allPairs ks (fun k l => ∫ z, placeGain p e K k l z ∂(P.prod P)) :=
    allPairs_nonneg fun k l => integral_nonneg fun z => placeGain_nonneg k l z
  linarith

/-- **C143**: strictly, as soon as the other forecasts put days at two places, or at one, in the wrong order. -/
theorem C143_strict (H : Honest P ks K B p) (he : ∀ k ∈ ks, Measurable (e k)) (h0 : (ks.map fun k => P.real (B k)).sum ≠ 0)
    (h1 : (ks.map fun k => P.real (B k)ᶜ).sum ≠ 0) {k l : κ} (hk : k ∈ ks) (hl : l ∈ ks)
    (hne : ¬ ∀ᵐ z ∂(P.prod P), p k (K k z.1) < p l (K l z.2) → e k (K k z.1) < e l (K l z.2)) :
    pooledArea P ks (fun k ω => e k (K k ω)) B < pooledArea P ks (fun k ω => p k (K k ω)) B := by
  rw [pooled_given H he, pooled_given H H.prob]
  have hs : ∀ f : κ → ℝ, (∀ k, 0 ≤ f k) → 0 ≤ (ks.map f).sum := fun f hf =>
    List.sum_nonneg fun x hx => by obtain ⟨k, -, rfl⟩ := List.mem_map.1 hx; exact hf k
  refine div_lt_div_of_pos_right ?_ (mul_pos (lt_of_le_of_ne (hs _ fun _ => measureReal_nonneg) h0.symm)
    (lt_of_le_of_ne (hs _ fun _ => measureReal_nonneg) h1.symm))
  have h2 := pooled_gain H he
  have h3 : 0 < ∫ z, placeGain p e K k l z ∂(P.prod P) := by
    refine lt_of_le_of_ne (integral_nonneg fun z => placeGain_nonneg k l z) fun h4 => hne ?_
    filter_upwards [(integral_eq_zero_iff_of_nonneg (fun z => placeGain_nonneg k l z) (place_gain H he hk hl).1).1 h4.symm]
      with z hz hlt
    have hz' : (p k (K k z.1) - p l (K l z.2)) *
      (wins (p k (K k z.1)) (p l (K l z.2)) - wins (e k (K k z.1)) (e l (K l z.2))) = 0 := hz
    have h5 : wins (p k (K k z.1)) (p l (K l z.2)) = 0 := by simp [wins, hlt.not_gt, hlt.ne']
    rw [h5] at hz'
    rcases mul_eq_zero.1 hz' with h6 | h6
    · linarith
    · by_contra hle
      have : 1 / 2 ≤ wins (e k (K k z.1)) (e l (K l z.2)) := by
        unfold wins
        split_ifs with a b
        · norm_num
        · exact le_rfl
        · exact absurd (lt_of_le_of_ne (not_lt.1 a) (Ne.symm b)) hle
      linarith
  have h4 := allPairs_le (ks := ks) (f := fun k l => ∫ z, placeGain p e K k l z ∂(P.prod P))
    (fun k l => integral_nonneg fun z => placeGain_nonneg k l z) hk hl
  linarith

/-- **C143**: with probability one, from some day on the area `roc` returns for these probabilities is the larger one. -/
theorem C143_overtakes {S S' : Nat → Ω → ℝ} (H : Honest P ks K B p) (he : ∀ k ∈ ks, Measurable (e k))
    (h0 : (ks.map fun k => P.real (B k)).sum ≠ 0) (h1 : (ks.map fun k => P.real (B k)ᶜ).sum ≠ 0) {k l : κ} (hk : k ∈ ks)
    (hl : l ∈ ks) (hne : ¬ ∀ᵐ z ∂(P.prod P), p k (K k z.1) < p l (K l z.2) → e k (K k z.1) < e l (K l z.2))
    (hS : Settles P S (pooledArea P ks (fun k ω => e k (K k ω)) B))
    (hS' : Settles P S' (pooledArea P ks (fun k ω => p k (K k ω)) B)) : ∀ᵐ ω ∂P, ∃ N, ∀ n, N ≤ n → S n ω < S' n ω :=
  settles_lt hS hS' (C143_strict H he h0 h1 hk hl hne)

end Props
