import Verif.Props.RelPooled
import Verif.Props.RocPooledBestCase

/-! # Concrete cases for C144 -/

namespace Props
open Np NDArr Model Spec Lemmas MeasureTheory ProbabilityTheory

theorem Phi_half : Phi 0 = 1 / 2 := by
  have := one_sub_Phi 0
  rw [neg_zero] at this
  linarith

/-- **C144**: forecasts that are wrong at every place can look right over all places. Two places, at both of which 1/2 is
announced every day: the only point of `reliability(1, over=0)` settles at (1/2, 1/2), but the event happens with probability
less than 1/2 at the first place and more than 1/2 at the second. -/
theorem C144_places : ∃ (sl : ℕ → (ℕ → ℝ × ℝ) → RelSlice (Fl ℝ)) (V T : ℕ → (ℕ → ℝ × ℝ) → ℝ),
    (∀ n ω, construct (gaussPrims rocCfg (fnsPit 0) embBoth) noMids (placeGauss (fun _ => 0) n ω) world0 =
      (.ok (placeGauss (fun _ => 0) n ω), world0)) ∧
    (∀ n ω, result .gaussian bothInfo (gaussPrims rocCfg (fnsPit 0) embBoth) noMids
      (.slot (.reliability (.inr 1) (some (.inl 0)) none)) (unsaved (placeGauss (fun _ => 0) n ω)) world0 =
        .ok (some (.rel (.slice (sl n ω)))) ∧
      (sl n ω).probPred = [some (V n ω)] ∧ (sl n ω).probTrue = [some (T n ω)]) ∧
    Settles days V (1 / 2) ∧ Settles days T (1 / 2) ∧
    days.real (placeOver 0) < 1 / 2 ∧ 1 / 2 < days.real (placeOver 1) := by
  have hd : beyondProb true (gaussLaw false 0 1 0) = 1 / 2 := by
    show 1 - Phi ((0 - 0) / 1) = 1 / 2
    rw [sub_zero, zero_div, Phi_half]
    norm_num
  obtain ⟨sl, bs, V, T, M, r1, r2, r3⟩ := C144_reliability (P := days) (shared_gauss rocCfg (fnsPit 0) embBoth).base
    (placeGauss_says fun _ => 0) (Nat.zero_le _) (fun i ω => beyondProb_unit ((unit_normal _ _).lo _) ((unit_normal _ _).hi _)) rfl
    (nb := .inr 1) (nbins := 1) rfl (by simp [Printable, bothInfo]) le_rfl (fun _ => trivial)
  have hin : InRelBin 1 0 (1 / 2 : ℝ) := by
    constructor <;> simp [relEdge] <;> norm_num
  have hbs : ∀ n ω, bs n ω = [0] := by
    intro n ω
    obtain ⟨h1, h2, -⟩ := r2 n ω
    have h0 : 0 ∈ bs n ω := (h2 0).2 ⟨one_pos, [0, 0], by simp [InB], by rw [hd]; exact hin⟩
    have hall : ∀ b ∈ bs n ω, b = 0 := fun b hb => by have := ((h2 b).1 hb).1; omega
    rcases h : bs n ω with - | ⟨x, - | ⟨y, l⟩⟩
    · rw [h] at h0; simp at h0
    · rw [hall x (by simp [h])]
    · rw [h] at h1
      have := (List.pairwise_cons.1 h1).1 y (by simp)
      have := hall x (by simp [h])
      have := hall y (by simp [h])
      omega
  have hB : ∀ k : List ℕ, {ω : ℕ → ℝ × ℝ | InRelBin 1 0 (beyondProb true (gaussLaw false 0 1 0))} = Set.univ := fun _ =>
    Set.eq_univ_of_forall fun _ => show InRelBin 1 0 (beyondProb true (gaussLaw false 0 1 0)) by rw [hd]; exact hin
  obtain ⟨-, k2⟩ := r3 (fun k _ => by
    refine days_repeat (g := fun p : ℝ × ℝ => (beyondProb true (gaussLaw false 0 1 0), seen (k.getD 0 0) p)) ?_
    exact measurable_const.prodMk (measurable_seen _)) 0 one_pos
  have hk : allIdx [2] = [[0], [1]] := by decide
  have hev : ∀ k : List ℕ, {ω : ℕ → ℝ × ℝ | Beyond true 0 (fun ω : ℕ → ℝ × ℝ => seen (k.getD 0 0) (ω 0)) ω} = placeOver (k.getD 0 0) :=
    fun _ => rfl
  have hb : ∀ j, days.real (placeOver j) = 1 - Phi (-usual j) := place_chance
  have u0 : usual 0 = -1 := if_pos rfl
  have u1 : usual 1 = 1 := if_neg one_ne_zero
  have n1 : Phi (-1) = 1 - Phi 1 := Phi_neg 1
  have hl := half_lt
  have b0 : days.real (placeOver 0) = 1 - Phi 1 := by rw [hb, u0, neg_neg]
  have b1 : days.real (placeOver 1) = Phi 1 := by rw [hb, u1, n1]; ring
  obtain ⟨-, kV, kT⟩ := k2 (by
    have e : shareOver days (allIdx [2]) (fun _ => {ω : ℕ → ℝ × ℝ | InRelBin 1 0 (beyondProb true (gaussLaw false 0 1 0))}) = 1 := by
      simp only [shareOver, hk, hB [], List.map_cons, List.map_nil, avg, probReal_univ, List.sum_cons, List.sum_nil,
        List.length_cons, List.length_nil]
      norm_num
    exact fun h => one_ne_zero (e.symm.trans h))
  refine ⟨sl, V 0, T 0, placeGauss_made _, fun n ω => ⟨r1 n ω, ?_, ?_⟩, settles_to kV ?_, settles_to kT ?_, by linarith, by linarith⟩
  · rw [(r2 n ω).2.2.1, hbs]; rfl
  · rw [(r2 n ω).2.2.2.1, hbs]; rfl
  · show 1 / 2 = meanOver days (allIdx [2]) (fun _ => {ω : ℕ → ℝ × ℝ | InRelBin 1 0 (beyondProb true (gaussLaw false 0 1 0))})
      fun _ _ => beyondProb true (gaussLaw false 0 1 0)
    simp only [meanOver, hk, hB [], List.map_cons, List.map_nil, List.sum_cons, List.sum_nil, Measure.restrict_univ, integral_const,
      probReal_univ, one_smul]
    rw [hd]
    norm_num
  · show 1 / 2 = ((allIdx [2]).map fun k => days.real ({ω : ℕ → ℝ × ℝ | InRelBin 1 0 (beyondProb true (gaussLaw false 0 1 0))} ∩
      placeOver (k.getD 0 0))).sum / ((allIdx [2]).map fun _ =>
        days.real {ω : ℕ → ℝ × ℝ | InRelBin 1 0 (beyondProb true (gaussLaw false 0 1 0))}).sum
    simp only [hk, hB [], List.map_cons, List.map_nil, List.sum_cons, List.sum_nil, Set.univ_inter, probReal_univ,
      List.getD_cons_zero, b0, b1]
    norm_num

/-- the probabilities of each place are on the diagonal -/
example (nbins b : ℕ) : let B := fun j : ℕ => {_ω : ℕ → ℝ × ℝ | InRelBin nbins b (1 - Phi (-usual j))}
    (([0, 1] : List ℕ).map fun k => days.real (B k ∩ placeOver k)).sum / (([0, 1] : List ℕ).map fun k => days.real (B k)).sum =
      meanOver days [0, 1] B fun j _ => 1 - Phi (-usual j) :=
  C144_diagonal (K := fun _ _ => ()) (p := fun j _ => 1 - Phi (-usual j)) place_honest nbins b

end Props
