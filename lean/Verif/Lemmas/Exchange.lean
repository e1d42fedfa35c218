import Verif.Spec.Exchange
import Verif.Lemmas.Proper
import Mathlib.Algebra.BigOperators.Group.List.Lemmas
import Mathlib.Data.List.Sort

/-! Sums and ranks over groups of values that take turns as the observation. -/

set_option linter.unusedSectionVars false

open Np Spec

namespace Lemmas

variable {K : Type} [Field K] [LinearOrder K] [IsStrictOrderedRing K]

theorem exch_perm {β : Type} {n : Nat} {groups : List (List K)} {cases : List (K × List K)}
    (h : IsExchangeable n groups cases) (phi : K → Multiset K → β) :
    (cases.map fun p => phi p.1 p.2).Perm (groups.flatMap fun V => V.map fun v => phi v (V.erase v : List K)) := by
  have := h.2.map fun p => phi p.1 p.2
  rw [List.map_map, List.map_flatMap] at this
  refine this.trans (List.Perm.of_eq ?_)
  congr 1
  funext V
  rw [List.map_map]
  rfl

theorem exch_sum {n : Nat} {groups : List (List K)} {cases : List (K × List K)} (h : IsExchangeable n groups cases)
    (phi : K → Multiset K → K) : (cases.map fun p => phi p.1 p.2).sum =
      (groups.map fun V => (V.map fun v => phi v (V.erase v : List K)).sum).sum := by
  rw [(exch_perm h phi).sum_eq]
  generalize groups = G
  induction G with
  | nil => simp
  | cons V G ih => simp only [List.flatMap_cons, List.sum_append, List.map_cons, List.sum_cons, ih]

theorem exch_length {n : Nat} {groups : List (List K)} {cases : List (K × List K)} (h : IsExchangeable n groups cases) :
    cases.length = groups.length * (n + 1) := by
  have := h.2.length_eq
  rw [List.length_map] at this
  rw [this, List.length_flatMap]
  have h1 := h.1
  clear this h
  induction groups with
  | nil => simp
  | cons V G ih =>
    rw [List.map_cons, List.sum_cons, ih fun W hW => h1 W (by simp [hW]), List.length_map, List.length_cons,
      h1 V (by simp)]
    ring

theorem sum_map_erase' {V : List K} {v : K} (hv : v ∈ V) (g : K → K) :
    ((V.erase v).map g).sum = (V.map g).sum - g v := by
  have := List.sum_map_erase g hv
  linear_combination this

theorem sum_erase' {V : List K} {v : K} (hv : v ∈ V) : (V.erase v).sum = V.sum - v := by
  have := sum_map_erase' hv id
  simpa using this

theorem sum_lin (V : List K) (a b d : K) : (V.map fun v => a * v ^ 2 + b * v + d).sum =
    a * (V.map fun v => v ^ 2).sum + b * V.sum + V.length * d := by
  induction V with
  | nil => simp
  | cons v V ih =>
    simp only [List.map_cons, List.sum_cons, ih, List.length_cons]
    push_cast
    ring

/-- the errors of the mean of the others cancel -/
theorem group_bias {n : Nat} (hn : n ≠ 0) {V : List K} (hV : V.length = n + 1) :
    (V.map fun v => (V.erase v).sum / (n : K) - v).sum = 0 := by
  have hn' : (n : K) ≠ 0 := by exact_mod_cast hn
  have e : (V.map fun v => (V.erase v).sum / (n : K) - v) =
      V.map fun v => 0 * v ^ 2 + (-(1 / n + 1)) * v + V.sum / n := by
    apply List.map_congr_left
    intro v hv
    rw [sum_erase' hv]
    ring
  rw [e, sum_lin V, hV]
  push_cast
  field_simp
  ring

/-- squared errors and variances of a group -/
theorem group_skill {n : Nat} (hn : n ≠ 0) {V : List K} (hV : V.length = n + 1) :
    ((n : K) - 1) * (V.map fun v => ((V.erase v).sum / (n : K) - v) ^ 2).sum =
      (n + 1) * (V.map fun v => ((V.erase v).map fun x => x ^ 2).sum / n - ((V.erase v).sum / n) ^ 2).sum := by
  have hn' : (n : K) ≠ 0 := by exact_mod_cast hn
  set S := V.sum
  set Q := (V.map fun v => v ^ 2).sum
  have e1 : (V.map fun v => ((V.erase v).sum / (n : K) - v) ^ 2) =
      V.map fun v => (1 / n + 1) ^ 2 * v ^ 2 + (-(2 * (1 / n + 1) * (S / n))) * v + (S / n) ^ 2 := by
    apply List.map_congr_left
    intro v hv
    rw [sum_erase' hv]
    ring
  have e2 : (V.map fun v => ((V.erase v).map fun x => x ^ 2).sum / (n : K) - ((V.erase v).sum / n) ^ 2) =
      V.map fun v => (-(1 / n) - 1 / n ^ 2) * v ^ 2 + (2 * S / n ^ 2) * v + (Q / n - S ^ 2 / n ^ 2) := by
    apply List.map_congr_left
    intro v hv
    rw [sum_erase' hv, sum_map_erase' hv fun x => x ^ 2]
    field_simp
    ring
  rw [e1, e2, sum_lin V, sum_lin V, hV]
  push_cast
  change ((n : K) - 1) * ((1 / n + 1) ^ 2 * Q + -(2 * (1 / n + 1) * (S / n)) * S + (n + 1) * (S / n) ^ 2) =
    (n + 1) * ((-(1 / n) - 1 / n ^ 2) * Q + 2 * S / n ^ 2 * S + (n + 1) * (Q / n - S ^ 2 / n ^ 2))
  field_simp
  ring

/-- the others predict the frequency of an event without bias -/
theorem group_freq {n : Nat} (hn : n ≠ 0) {V : List K} (hV : V.length = n + 1) (e : K → K) :
    (V.map fun v => ((V.erase v).map e).sum / (n : K)).sum = (V.map e).sum := by
  have hn' : (n : K) ≠ 0 := by exact_mod_cast hn
  have e1 : (V.map fun v => ((V.erase v).map e).sum / (n : K)) = V.map fun v => (V.map e).sum / n - e v / n := by
    apply List.map_congr_left
    intro v hv
    rw [sum_map_erase' hv]
    ring
  rw [e1, sum_sub]
  have e2 : (V.map fun v => e v / (n : K)).sum = (V.map e).sum / n := by
    have := mul_sum_div V e 1 (n : K)
    simp only [one_mul] at this
    exact this.symm
  rw [e2]
  simp only [List.map_const', List.sum_replicate, nsmul_eq_mul, hV]
  push_cast
  field_simp
  ring

theorem sorted_ranks : ∀ {S : List K}, S.Pairwise (· < ·) →
    S.map (fun v => 1 + S.countP fun x => decide (x < v)) = List.range' 1 S.length
  | [], _ => rfl
  | a :: S, h => by
    obtain ⟨h1, h2⟩ := List.pairwise_cons.1 h
    have ih := sorted_ranks h2
    have ea : (a :: S).countP (fun x => decide (x < a)) = 0 := by
      rw [List.countP_eq_zero]
      intro x hx
      rcases List.mem_cons.1 hx with rfl | hx
      · simp
      · simpa using (h1 x hx).le
    have eb : S.map (fun v => 1 + (a :: S).countP fun x => decide (x < v)) =
        (S.map fun v => 1 + S.countP fun x => decide (x < v)).map (· + 1) := by
      rw [List.map_map]
      apply List.map_congr_left
      intro v hv
      rw [List.countP_cons_of_pos (by simpa using h1 v hv)]
      simp only [Function.comp]
      omega
    rw [List.map_cons, ea, eb, ih, List.length_cons, List.range'_succ]
    simp [List.range'_eq_map_range, Function.comp_def, add_comm, add_left_comm]

/-- in a group of distinct values every rank occurs once -/
theorem group_ranks {n : Nat} {V : List K} (hV : V.length = n + 1) (hd : V.Nodup) {j : Nat} (h1 : 1 ≤ j) (h2 : j ≤ n + 1) :
    (V.map fun v => 1 + (V.erase v).countP fun x => decide (x < v)).count j = 1 := by
  have e : (V.map fun v => 1 + (V.erase v).countP fun x => decide (x < v)) =
      V.map fun v => 1 + V.countP fun x => decide (x < v) := by
    apply List.map_congr_left
    intro v hv
    rw [(List.perm_cons_erase hv).countP_eq, List.countP_cons_of_neg (by simp)]
  have hp := V.perm_insertionSort (· ≤ ·)
  have hs : (V.insertionSort (· ≤ ·)).Pairwise (· < ·) := by
    have h1 := V.pairwise_insertionSort (· ≤ ·)
    have h2 := (hp.nodup_iff).2 hd
    exact (h1.and h2).imp fun h => lt_of_le_of_ne h.1 h.2
  have e2 : (V.map fun v => 1 + V.countP fun x => decide (x < v)).Perm (List.range' 1 (n + 1)) := by
    have h3 := sorted_ranks hs
    rw [hp.length_eq, hV] at h3
    rw [← h3]
    refine (hp.symm.map _).trans (List.Perm.of_eq ?_)
    apply List.map_congr_left
    intro v _
    rw [hp.countP_eq]
  rw [e, e2.count_eq]
  exact List.count_eq_one_of_mem (List.nodup_range' ..) (by rw [List.mem_range'_1]; omega)

/-- every rank occurs as often as there are groups -/
theorem exch_ranks {n : Nat} {groups : List (List K)} {cases : List (K × List K)} (h : IsExchangeable n groups cases)
    (hd : ∀ V ∈ groups, V.Nodup) {j : Nat} (h1 : 1 ≤ j) (h2 : j ≤ n + 1) :
    (cases.map fun p => 1 + p.2.countP fun x => decide (x < p.1)).count j = groups.length := by
  have hp := exch_perm h fun v m => 1 + m.countP fun x => x < v
  simp only [Multiset.coe_countP] at hp
  rw [hp.count_eq]
  have hl := h.1
  clear hp h
  induction groups with
  | nil => simp
  | cons V G ih =>
    rw [List.flatMap_cons, List.count_append, ih (fun W hW => hd W (by simp [hW])) fun W hW => hl W (by simp [hW]),
      group_ranks (hl V (by simp)) (hd V (by simp)) h1 h2, List.length_cons, add_comm]

section positions
variable {α : Type} {n : Nat} {groups : List (List K)} {L : List α} {Y : α → K} {M : α → List K}

theorem exch_case (h : IsExchangeable n groups (L.map fun i => (Y i, M i))) {i : α} (hi : i ∈ L) :
    (M i).length = n ∧ ∃ V ∈ groups, Y i ∈ V ∧ (M i).Perm (V.erase (Y i)) := by
  have hm : (Y i, (M i : Multiset K)) ∈ groups.flatMap fun V => V.map fun v => (v, ((V.erase v : List K) : Multiset K)) := by
    rw [← h.2.mem_iff, List.map_map]
    exact List.mem_map.2 ⟨i, hi, rfl⟩
  obtain ⟨V, hV, hm⟩ := List.mem_flatMap.1 hm
  obtain ⟨v, hv, he⟩ := List.mem_map.1 hm
  simp only [Prod.mk.injEq] at he
  obtain ⟨rfl, he⟩ := he
  have hp := (Multiset.coe_eq_coe.1 he).symm
  refine ⟨?_, V, hV, hv, hp⟩
  rw [hp.length_eq, List.length_erase_of_mem hv, h.1 V hV]
  omega

theorem exch_sum_positions (h : IsExchangeable n groups (L.map fun i => (Y i, M i))) (phi : K → Multiset K → K) :
    (L.map fun i => phi (Y i) (M i)).sum = (groups.map fun V => (V.map fun v => phi v (V.erase v : List K)).sum).sum := by
  have := exch_sum h phi
  rwa [List.map_map] at this

theorem exch_bias (h : IsExchangeable n groups (L.map fun i => (Y i, M i))) (hn : n ≠ 0) :
    avg (L.map fun i => avg (M i) - Y i) = 0 := by
  have e : (L.map fun i => avg (M i) - Y i) = L.map fun i => (fun v (m : Multiset K) => m.sum / (n : K) - v) (Y i) (M i) := by
    apply List.map_congr_left
    intro i hi
    simp only [avg, (exch_case h hi).1, Multiset.sum_coe]
  have e2 : (L.map fun i => avg (M i) - Y i).sum = 0 := by
    rw [e]
    refine (exch_sum_positions h fun v (m : Multiset K) => m.sum / (n : K) - v).trans ?_
    refine List.sum_eq_zero fun x hx => ?_
    obtain ⟨V, hV, rfl⟩ := List.mem_map.1 hx
    simpa using group_bias hn (h.1 V hV)
  rw [avg, e2, zero_div]

theorem exch_skill (h : IsExchangeable n groups (L.map fun i => (Y i, M i))) (hn : n ≠ 0) :
    ((n : K) - 1) * avg (L.map fun i => (avg (M i) - Y i) ^ 2) =
      (n + 1) * avg (L.map fun i => avg ((M i).map fun x => (x - avg (M i)) ^ 2)) := by
  have hvar : ∀ i ∈ L, avg ((M i).map fun x => (x - avg (M i)) ^ 2) =
      ((M i).map fun x => x ^ 2).sum / n - ((M i).sum / n) ^ 2 := by
    intro i hi
    have hl := (exch_case h hi).1
    have hne : M i ≠ [] := by
      rintro h0
      rw [h0] at hl
      exact hn hl.symm
    have := avg_sq_split hne (fun x => x) 0
    simp only [zero_sub, neg_sq, List.map_id'] at this
    have e : ((M i).map fun x => (x - avg (M i)) ^ 2) = (M i).map fun x => (avg (M i) - x) ^ 2 := by
      apply List.map_congr_left
      intro x _
      ring
    rw [e]
    simp only [avg, List.length_map, hl] at this ⊢
    linear_combination -this
  have e1 : (L.map fun i => (avg (M i) - Y i) ^ 2) =
      L.map fun i => (fun v (m : Multiset K) => (m.sum / (n : K) - v) ^ 2) (Y i) (M i) := by
    apply List.map_congr_left
    intro i hi
    simp only [avg, (exch_case h hi).1, Multiset.sum_coe]
  have e2 : (L.map fun i => avg ((M i).map fun x => (x - avg (M i)) ^ 2)) =
      L.map fun i => (fun _ (m : Multiset K) => (m.map fun x => x ^ 2).sum / (n : K) - (m.sum / n) ^ 2) (Y i) (M i) := by
    apply List.map_congr_left
    intro i hi
    simp only [hvar i hi, Multiset.map_coe, Multiset.sum_coe]
  have e3 : ∀ G : List (List K), (∀ V ∈ G, V.length = n + 1) →
      ((n : K) - 1) * (G.map fun V => (V.map fun v => ((V.erase v).sum / (n : K) - v) ^ 2).sum).sum =
      (n + 1) * (G.map fun V => (V.map fun v =>
        ((V.erase v).map fun x => x ^ 2).sum / (n : K) - ((V.erase v).sum / n) ^ 2).sum).sum := by
    intro G hG
    induction G with
    | nil => simp
    | cons V G ih =>
      simp only [List.map_cons, List.sum_cons]
      linear_combination group_skill hn (hG V (by simp)) + ih fun W hW => hG W (by simp [hW])
  have s1 := exch_sum_positions h fun v m => (m.sum / (n : K) - v) ^ 2
  have s2 := exch_sum_positions h fun _ m => (m.map fun x => x ^ 2).sum / (n : K) - (m.sum / n) ^ 2
  simp only [Multiset.map_coe, Multiset.sum_coe] at s1 s2 e1 e2
  rw [e1, e2, avg, avg, List.length_map, List.length_map, s1, s2]
  linear_combination (1 / (L.length : K)) * e3 groups h.1

theorem exch_freq (h : IsExchangeable n groups (L.map fun i => (Y i, M i))) (hn : n ≠ 0) (e : K → K) :
    avg (L.map fun i => avg ((M i).map e)) = avg (L.map fun i => e (Y i)) := by
  have e1 : (L.map fun i => avg ((M i).map e)) =
      L.map fun i => (fun _ (m : Multiset K) => (m.map e).sum / (n : K)) (Y i) (M i) := by
    apply List.map_congr_left
    intro i hi
    simp only [avg, List.length_map, (exch_case h hi).1, Multiset.map_coe, Multiset.sum_coe]
  have s1 := exch_sum_positions h fun _ m => (m.map e).sum / (n : K)
  have s2 := exch_sum_positions h fun v _ => e v
  simp only [Multiset.map_coe, Multiset.sum_coe] at s1 e1
  rw [e1, avg, avg, List.length_map, List.length_map, s1, s2]
  congr 2
  apply List.map_congr_left
  intro V hV
  exact group_freq hn (h.1 V hV) e

end positions

end Lemmas
