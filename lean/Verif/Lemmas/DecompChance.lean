import Verif.Spec.DecompChance
import Verif.Lemmas.BrierChance
import Verif.Lemmas.RandomEns
import Mathlib.Probability.Moments.Variance

/-! Moments of weighted sums of independent events, and of Brier decompositions. -/

set_option linter.unusedSectionVars false

namespace Lemmas
open Spec MeasureTheory Np NDArr ProbabilityTheory

variable {Ω : Type} [MeasurableSpace Ω] {P : Measure Ω} [IsProbabilityMeasure P]

/-- distance of a weighted sum of independent numbers from a point -/
theorem weighted_sq {ι : Type} {s : Finset ι} {X : ι → Ω → ℝ} {q v : ι → ℝ} (hX : ∀ i ∈ s, MemLp (X i) 2 P)
    (hq : ∀ i ∈ s, ∫ ω, X i ω ∂P = q i) (hv : ∀ i ∈ s, Var[X i; P] = v i)
    (hi : Set.Pairwise ↑s fun i j => X i ⟂ᵢ[P] X j) (w : ι → ℝ) (a : ℝ) :
    Integrable (fun ω => (∑ i ∈ s, w i * X i ω - a) ^ 2) P ∧
      ∫ ω, (∑ i ∈ s, w i * X i ω - a) ^ 2 ∂P = (∑ i ∈ s, w i * q i - a) ^ 2 + ∑ i ∈ s, w i ^ 2 * v i := by
  have hZ : ∀ i ∈ s, MemLp (fun ω => w i * X i ω) 2 P := fun i h => (hX i h).const_mul _
  have hS : MemLp (fun ω => ∑ i ∈ s, w i * X i ω) 2 P := memLp_finsetSum s hZ
  have hD : MemLp (fun ω => ∑ i ∈ s, w i * X i ω - a) 2 P := hS.sub (memLp_const a)
  refine ⟨hD.integrable_sq, ?_⟩
  have hmean : ∫ ω, ∑ i ∈ s, w i * X i ω ∂P = ∑ i ∈ s, w i * q i := by
    rw [integral_finsetSum s fun i h => (hZ i h).integrable one_le_two]
    exact Finset.sum_congr rfl fun i h => by rw [integral_const_mul, hq i h]
  have hvar : Var[fun ω => ∑ i ∈ s, w i * X i ω; P] = ∑ i ∈ s, w i ^ 2 * v i := by
    have h1 := IndepFun.variance_sum (X := fun i ω => w i * X i ω) hZ fun i h j h' hij =>
      (hi h h' hij).comp (φ := fun x => w i * x) (ψ := fun x => w j * x) (by fun_prop) (by fun_prop)
    have e : (∑ i ∈ s, fun ω => w i * X i ω) = fun ω => ∑ i ∈ s, w i * X i ω := by
      funext ω; simp
    rw [e] at h1
    rw [h1]
    exact Finset.sum_congr rfl fun i h => by rw [variance_const_mul, hv i h]
  have h2 : Var[fun ω => ∑ i ∈ s, w i * X i ω - a; P] = ∑ i ∈ s, w i ^ 2 * v i := by
    rw [variance_sub_const hS.1, hvar]
  have h3 := variance_eq_sub hD
  rw [h2] at h3
  have h4 : ∫ ω, ∑ i ∈ s, w i * X i ω - a ∂P = ∑ i ∈ s, w i * q i - a := by
    rw [integral_sub (hS.integrable one_le_two) (integrable_const a), hmean]; simp
  rw [h4] at h3
  have h5 : ∫ ω, (∑ i ∈ s, w i * X i ω - a) ^ 2 ∂P = P[(fun ω => ∑ i ∈ s, w i * X i ω - a) ^ 2] := rfl
  rw [h5]
  linarith

variable {ι : Type} [DecidableEq ι]

/-- an average over part of a list as a weighted sum over all of it -/
theorem avg_filter {L : List ι} (hL : L.Nodup) (pr : ι → Bool) (f : ι → ℝ) :
    avg ((L.filter pr).map f) = ∑ i ∈ L.toFinset, (if pr i then 1 / ((L.filter pr).length : ℝ) else 0) * f i := by
  have h := List.sum_toFinset f (hL.filter pr)
  rw [List.toFinset_filter, Finset.sum_filter] at h
  rw [avg, List.length_map, ← h, Finset.sum_div]
  refine Finset.sum_congr rfl fun i _ => ?_
  split_ifs <;> ring

theorem avg_whole {L : List ι} (hL : L.Nodup) (f : ι → ℝ) : avg (L.map f) = ∑ i ∈ L.toFinset, 1 / (L.length : ℝ) * f i := by
  rw [avg, List.length_map, ← List.sum_toFinset f hL, Finset.sum_div]
  exact Finset.sum_congr rfl fun i _ => by ring

variable {L : List ι} {X : ι → Ω → ℝ} {q v : ι → ℝ}

/-- the frequency in a group against a fixed number -/
theorem group_sq (hL : L.Nodup) (hX : ∀ i ∈ L, MemLp (X i) 2 P) (hq : ∀ i ∈ L, ∫ ω, X i ω ∂P = q i)
    (hv : ∀ i ∈ L, Var[X i; P] = v i) (hi : ∀ i ∈ L, ∀ j ∈ L, i ≠ j → X i ⟂ᵢ[P] X j) (pr : ι → Bool) (a : ℝ) :
    Integrable (fun ω => (a - avg ((L.filter pr).map fun i => X i ω)) ^ 2) P ∧
      ∫ ω, (a - avg ((L.filter pr).map fun i => X i ω)) ^ 2 ∂P =
        (a - avg ((L.filter pr).map q)) ^ 2 + avg ((L.filter pr).map v) / (L.filter pr).length := by
  have h := weighted_sq (P := P) (s := L.toFinset) (X := X) (q := q) (v := v) (fun i h => hX i (List.mem_toFinset.1 h))
    (fun i h => hq i (List.mem_toFinset.1 h)) (fun i h => hv i (List.mem_toFinset.1 h))
    (fun i h j h' hij => hi i (by simpa using h) j (by simpa using h') hij)
    (fun i => if pr i then 1 / ((L.filter pr).length : ℝ) else 0) a
  simp only [← avg_filter hL pr] at h
  simp only [fun x : ℝ => sub_sq_comm a x]
  refine ⟨h.1, ?_⟩
  rw [h.2, avg_filter hL pr v, Finset.sum_div]
  congr 1
  refine Finset.sum_congr rfl fun i _ => ?_
  split_ifs <;> ring

/-- the frequency in a group against the frequency of all -/
theorem group_all_sq (hL : L.Nodup) (hX : ∀ i ∈ L, MemLp (X i) 2 P) (hq : ∀ i ∈ L, ∫ ω, X i ω ∂P = q i)
    (hv : ∀ i ∈ L, Var[X i; P] = v i) (hi : ∀ i ∈ L, ∀ j ∈ L, i ≠ j → X i ⟂ᵢ[P] X j) (pr : ι → Bool) :
    Integrable (fun ω => (avg ((L.filter pr).map fun i => X i ω) - avg (L.map fun i => X i ω)) ^ 2) P ∧
      ∫ ω, (avg ((L.filter pr).map fun i => X i ω) - avg (L.map fun i => X i ω)) ^ 2 ∂P =
        (avg ((L.filter pr).map q) - avg (L.map q)) ^ 2 + (avg ((L.filter pr).map v) / (L.filter pr).length -
          2 / L.length * avg ((L.filter pr).map v) + avg (L.map v) / L.length) := by
  have h := weighted_sq (P := P) (s := L.toFinset) (X := X) (q := q) (v := v) (fun i h => hX i (List.mem_toFinset.1 h))
    (fun i h => hq i (List.mem_toFinset.1 h)) (fun i h => hv i (List.mem_toFinset.1 h))
    (fun i h j h' hij => hi i (by simpa using h) j (by simpa using h') hij)
    (fun i => (if pr i then 1 / ((L.filter pr).length : ℝ) else 0) - 1 / (L.length : ℝ)) 0
  simp only [sub_mul, Finset.sum_sub_distrib, ← avg_filter hL pr, ← avg_whole hL, sub_zero] at h
  refine ⟨h.1, h.2.trans ?_⟩
  congr 1
  rw [avg_filter hL pr v, avg_whole hL v, Finset.sum_div, Finset.sum_div, Finset.mul_sum, ← Finset.sum_sub_distrib,
    ← Finset.sum_add_distrib]
  refine Finset.sum_congr rfl fun i _ => ?_
  split_ifs <;> ring

/-- averaging the averages of the groups over all gives the average of all -/
theorem avg_groups (L : List ι) (r : ι → ι → Bool) (hr : ∀ i, r i i = true) (hs : ∀ i j, r i j = r j i)
    (ht : ∀ i j k, r i j = true → r j k = r i k) (hL : L.Nodup) (f : ι → ℝ) :
    avg (L.map fun i => avg ((L.filter (r i)).map f)) = avg (L.map f) := by
  rw [avg, avg, List.length_map, List.length_map]
  congr 1
  rw [← List.sum_toFinset _ hL, ← List.sum_toFinset _ hL]
  simp only [avg_filter hL]
  rw [Finset.sum_comm]
  refine Finset.sum_congr rfl fun j hj => ?_
  rw [← Finset.sum_mul]
  have h1 : ∀ i ∈ L.toFinset, (if r i j = true then 1 / ((L.filter (r i)).length : ℝ) else 0) =
      if r j i = true then 1 / ((L.filter (r j)).length : ℝ) else 0 := by
    intro i _
    rw [hs i j]
    split_ifs with h
    · have : L.filter (r i) = L.filter (r j) := List.filter_congr fun k _ => by rw [ht j i k h]
      rw [this]
    · rfl
  rw [Finset.sum_congr rfl h1, ← Finset.sum_filter, Finset.sum_const, ← List.toFinset_filter,
    List.toFinset_card_of_nodup (hL.filter _)]
  have hpos : 0 < (L.filter (r j)).length :=
    List.length_pos_of_mem (List.mem_filter.2 ⟨List.mem_toFinset.1 hj, hr j⟩)
  have : ((L.filter (r j)).length : ℝ) ≠ 0 := by exact_mod_cast hpos.ne'
  rw [nsmul_eq_mul, mul_one_div_cancel this, one_mul]

open Classical in
theorem mates_positions (n : Nat) (p x : List Nat → ℝ) (L : List (List Nat)) (i : List Nat) :
    mates n (L.map fun j => (p j, x j)) (p i, x i) = (binMates n p L i).map fun j => (p j, x j) := by
  unfold mates binMates
  rw [List.filter_map]
  rfl

theorem binMean_avg (n : Nat) (p : List Nat → ℝ) {L : List (List Nat)} (hL : L.Nodup) (f : List Nat → ℝ) :
    avg (L.map (binMean n p L f)) = avg (L.map f) := by
  classical
  refine avg_groups L (fun i j => decide (sameBin n (p i) (p j))) (fun i => ?_) (fun i j => ?_) (fun i j k h => ?_) hL f
  · simp only [decide_eq_true_eq]
    exact fun _ _ _ => Iff.rfl
  · exact decide_eq_decide.2 ⟨fun h a b c => (h a b c).symm, fun h a b c => (h a b c).symm⟩
  · simp only [decide_eq_true_eq] at h
    exact decide_eq_decide.2 ⟨fun h' a b c => (h a b c).trans (h' a b c), fun h' a b c => (h a b c).symm.trans (h' a b c)⟩

theorem avg_plus {α : Type} (L : List α) (f g : α → ℝ) :
    avg (L.map fun i => f i + g i) = avg (L.map f) + avg (L.map g) := by
  rw [avg, avg, avg, List.length_map, List.length_map, List.length_map, List.sum_map_add, add_div]

theorem avg_times {α : Type} (L : List α) (a : ℝ) (f : α → ℝ) : avg (L.map fun i => a * f i) = a * avg (L.map f) := by
  rw [avg, avg, List.length_map, List.length_map, List.sum_map_mul_left, mul_div_assoc]

theorem avg_fixed {α : Type} {L : List α} (hL : L ≠ []) (a : ℝ) : avg (L.map fun _ => a) = a := by
  have : (L.length : ℝ) ≠ 0 := by exact_mod_cast (List.length_pos_iff.2 hL).ne'
  rw [avg, List.length_map, List.map_const', List.sum_replicate, nsmul_eq_mul, mul_div_cancel_left₀ _ this]

/-- the expected Brier decomposition of independent events -/
theorem expectedDecomp (n : Nat) (p : List Nat → ℝ) {L : List (List Nat)} (hL : L.Nodup) (hne : L ≠ [])
    {Q : List Nat → Ω → Prop} (hQ : ∀ i ∈ L, MeasurableSet {ω | Q i ω})
    (hi : ∀ i ∈ L, ∀ j ∈ L, i ≠ j → (fun ω => (indicator (Q i ω) : ℝ)) ⟂ᵢ[P] fun ω => (indicator (Q j ω) : ℝ)) :
    ExpectedDecomp P n L p (fun i => P.real {ω | Q i ω})
      (fun ω => specRel n (L.map fun i => (p i, (indicator (Q i ω) : ℝ))))
      (fun ω => specRes n (L.map fun i => (p i, (indicator (Q i ω) : ℝ))))
      (fun ω => specUnc (L.map fun i => (p i, (indicator (Q i ω) : ℝ)))) := by
  classical
  set q : List Nat → ℝ := fun i => P.real {ω | Q i ω} with hq
  have e0 : ∀ i, (fun ω => (indicator (Q i ω) : ℝ)) = {ω | Q i ω}.indicator fun _ => 1 := fun i => by
    funext ω; exact indicator_set (Q i) ω
  have hX : ∀ i ∈ L, MemLp (fun ω => (indicator (Q i ω) : ℝ)) 2 P := fun i h => by
    rw [e0]; exact (indicator_moments (hQ i h)).1
  have hm : ∀ i ∈ L, ∫ ω, (indicator (Q i ω) : ℝ) ∂P = q i := fun i h => by
    have := (indicator_moments (P := P) (hQ i h)).2.1
    rw [← e0] at this; exact this
  have hv : ∀ i ∈ L, Var[fun ω => (indicator (Q i ω) : ℝ); P] = q i * (1 - q i) := fun i h => by
    have := (indicator_moments (P := P) (hQ i h)).2.2
    rw [variance_eq_integral (hX i h).1.aemeasurable, hm i h]
    rw [← e0] at this; exact this
  have hF : ∀ ω i, binF n (L.map fun i => (p i, (indicator (Q i ω) : ℝ))) (p i, (indicator (Q i ω) : ℝ)) = binMean n p L p i := by
    intro ω i
    rw [binF, mates_positions n p (fun i => (indicator (Q i ω) : ℝ)), List.map_map]
    rfl
  have hO : ∀ ω i, binO n (L.map fun i => (p i, (indicator (Q i ω) : ℝ))) (p i, (indicator (Q i ω) : ℝ)) =
      avg ((L.filter fun j => decide (sameBin n (p i) (p j))).map fun j => (indicator (Q j ω) : ℝ)) := by
    intro ω i
    rw [binO, mates_positions n p (fun i => (indicator (Q i ω) : ℝ)), List.map_map]
    rfl
  have hall : ∀ ω, avg ((L.map fun i => (p i, (indicator (Q i ω) : ℝ))).map Prod.snd) =
      avg (L.map fun j => (indicator (Q j ω) : ℝ)) := by
    intro ω; rw [List.map_map]; rfl
  have r := mean_avg (P := P) L
    (g := fun i ω => (binMean n p L p i -
      avg ((L.filter fun j => decide (sameBin n (p i) (p j))).map fun j => (indicator (Q j ω) : ℝ))) ^ 2) fun i _ =>
    group_sq hL hX hm hv hi (fun j => decide (sameBin n (p i) (p j))) (binMean n p L p i)
  have s := mean_avg (P := P) L
    (g := fun i ω => (avg ((L.filter fun j => decide (sameBin n (p i) (p j))).map fun j => (indicator (Q j ω) : ℝ)) -
      avg (L.map fun j => (indicator (Q j ω) : ℝ))) ^ 2) fun i _ =>
    group_all_sq hL hX hm hv hi fun j => decide (sameBin n (p i) (p j))
  have u := group_sq (P := P) hL hX hm hv hi (fun _ => true) (1 / 2)
  simp only [List.filter_true] at u
  have eR : ∀ ω, specRel n (L.map fun i => (p i, (indicator (Q i ω) : ℝ))) = avg (L.map fun i => (binMean n p L p i -
      avg ((L.filter fun j => decide (sameBin n (p i) (p j))).map fun j => (indicator (Q j ω) : ℝ))) ^ 2) := by
    intro ω
    unfold specRel
    rw [List.map_map]
    refine congrArg avg (List.map_congr_left fun i _ => ?_)
    simp only [Function.comp, hF, hO]
  have eS : ∀ ω, specRes n (L.map fun i => (p i, (indicator (Q i ω) : ℝ))) = avg (L.map fun i =>
      (avg ((L.filter fun j => decide (sameBin n (p i) (p j))).map fun j => (indicator (Q j ω) : ℝ)) -
      avg (L.map fun j => (indicator (Q j ω) : ℝ))) ^ 2) := by
    intro ω
    unfold specRes
    rw [List.map_map]
    refine congrArg avg (List.map_congr_left fun i _ => ?_)
    simp only [Function.comp, hO, hall]
  have eU : ∀ ω, specUnc (L.map fun i => (p i, (indicator (Q i ω) : ℝ))) =
      1 / 4 - (1 / 2 - avg (L.map fun j => (indicator (Q j ω) : ℝ))) ^ 2 := by
    intro ω
    unfold specUnc
    rw [hall]
    ring
  simp only [eR, eS, eU]
  refine ⟨⟨r.1, s.1, (integrable_const _).sub u.1⟩, ?_, ?_, ?_⟩
  · rw [r.2, avg_plus]
    rfl
  · rw [s.2]
    have e : ∀ i ∈ L, (avg ((L.filter fun j => decide (sameBin n (p i) (p j))).map q) - avg (L.map q)) ^ 2 +
        (avg ((L.filter fun j => decide (sameBin n (p i) (p j))).map fun j => q j * (1 - q j)) /
            (L.filter fun j => decide (sameBin n (p i) (p j))).length -
          2 / L.length * avg ((L.filter fun j => decide (sameBin n (p i) (p j))).map fun j => q j * (1 - q j)) +
          avg (L.map fun j => q j * (1 - q j)) / L.length) =
        ((binMean n p L q i - avg (L.map q)) ^ 2 + binMean n p L (fun j => q j * (1 - q j)) i / (binMates n p L i).length) +
          (-(2 / L.length) * binMean n p L (fun j => q j * (1 - q j)) i + allNoise q L) := by
      intro i _
      unfold binMean binMates allNoise
      ring
    rw [List.map_congr_left e, avg_plus, avg_plus, avg_plus, avg_times, binMean_avg n p hL, avg_fixed hne]
    unfold binNoise allNoise
    ring
  · rw [integral_sub (integrable_const _) u.1, u.2]
    simp only [integral_const, probReal_univ, one_smul]
    unfold allNoise
    ring

end Lemmas
