import Verif.Spec.Coverage
import Verif.Lemmas.Boot
import Mathlib.Data.List.Sort
import Mathlib.Data.List.GetD

/-! # Quantiles and counts -/

set_option linter.unusedSectionVars false

namespace Lemmas
open Np Spec

variable {K : Type} [Field K] [LinearOrder K] [IsStrictOrderedRing K] [FloorSemiring K]

theorem getD_mem' {s : List K} {i : Nat} (h : i < s.length) : s.getD i 0 ∈ s := by
  rw [List.getD_eq_getElem _ _ h]; exact List.getElem_mem h

/-- in a sorted list at most `j` elements are below a bound that element `j` reaches -/
theorem countP_lt_le {s : List K} (h : s.Pairwise (· ≤ ·)) {v : K} {j : Nat} (hj : j < s.length)
    (hv : v ≤ s.getD j 0) : s.countP (fun x => decide (x < v)) ≤ j := by
  conv_lhs => rw [← List.take_append_drop j s]
  rw [List.countP_append]
  have h1 : (s.take j).countP (fun x => decide (x < v)) ≤ j :=
    (List.countP_le_length).trans (List.length_take_le _ _)
  have h2 : (s.drop j).countP (fun x => decide (x < v)) = 0 := by
    rw [List.countP_eq_zero]
    intro x hx
    simp only [decide_eq_true_eq, not_lt]
    obtain ⟨i, hi, rfl⟩ := List.mem_iff_getElem.1 hx
    rw [List.getElem_drop]
    have hl : j + i < s.length := by simp at hi; omega
    have := getD_mono h (Nat.le_add_right j i) hl
    rw [List.getD_eq_getElem _ _ hl] at this
    exact hv.trans this
  omega

theorem countP_gt_le {s : List K} (h : s.Pairwise (· ≤ ·)) {v : K} {i : Nat} (hi : i < s.length)
    (hv : s.getD i 0 ≤ v) : s.countP (fun x => decide (v < x)) ≤ s.length - 1 - i := by
  conv_lhs => rw [← List.take_append_drop (i + 1) s]
  rw [List.countP_append]
  have h1 : (s.drop (i + 1)).countP (fun x => decide (v < x)) ≤ s.length - 1 - i := by
    refine (List.countP_le_length).trans ?_
    simp only [List.length_drop]
    omega
  have h2 : (s.take (i + 1)).countP (fun x => decide (v < x)) = 0 := by
    rw [List.countP_eq_zero]
    intro x hx
    simp only [decide_eq_true_eq, not_lt]
    obtain ⟨n, hn, rfl⟩ := List.mem_iff_getElem.1 hx
    rw [List.getElem_take]
    have hl : n ≤ i := by simp at hn; omega
    have := getD_mono h hl hi
    rw [List.getD_eq_getElem _ _ (by omega)] at this
    exact this.trans hv
  omega

theorem le_countP_lt {s : List K} {v : K} {j : Nat} (hj : j ≤ s.length)
    (hv : ∀ i, i < j → s.getD i 0 < v) : j ≤ s.countP (fun x => decide (x < v)) := by
  conv_rhs => rw [← List.take_append_drop j s]
  rw [List.countP_append]
  have h1 : (s.take j).countP (fun x => decide (x < v)) = (s.take j).length := by
    rw [List.countP_eq_length]
    intro x hx
    obtain ⟨n, hn, rfl⟩ := List.mem_iff_getElem.1 hx
    rw [List.getElem_take]
    have hl : n < j := by simp at hn; omega
    have := hv n hl
    rw [List.getD_eq_getElem _ _ (by omega)] at this
    simpa using this
  rw [h1, List.length_take]
  omega

theorem le_countP_gt {s : List K} {v : K} {i : Nat} (hi : i ≤ s.length)
    (hv : ∀ n, i ≤ n → n < s.length → v < s.getD n 0) : s.length - i ≤ s.countP (fun x => decide (v < x)) := by
  conv_rhs => rw [← List.take_append_drop i s]
  rw [List.countP_append]
  have h1 : (s.drop i).countP (fun x => decide (v < x)) = (s.drop i).length := by
    rw [List.countP_eq_length]
    intro x hx
    obtain ⟨n, hn, rfl⟩ := List.mem_iff_getElem.1 hx
    rw [List.getElem_drop]
    have hl : i + n < s.length := by simp at hn; omega
    have := hv (i + n) (by omega) hl
    rw [List.getD_eq_getElem _ _ hl] at this
    simpa using this
  rw [h1, List.length_drop]
  omega

/-- the counts below and above an interpolated quantile -/
theorem lerpAt_counts {s : List K} (h : s.Pairwise (· ≤ ·)) (hs : s ≠ []) {u : K} (h0 : 0 ≤ u)
    (h1 : u ≤ ((s.length - 1 : Nat) : K)) :
    ((s.countP fun x => decide (x < lerpAt s u) : Nat) : K) < u + 1 ∧
    ((s.countP fun x => decide (lerpAt s u < x) : Nat) : K) < ((s.length - 1 : Nat) : K) - u + 1 ∧
    (s.Nodup → u ≤ ((s.countP fun x => decide (x < lerpAt s u) : Nat) : K) ∧
      ((s.length - 1 : Nat) : K) - u ≤ ((s.countP fun x => decide (lerpAt s u < x) : Nat) : K)) := by
  have hpos : 0 < s.length := List.length_pos_iff.2 hs
  obtain ⟨b1, b2⟩ := lerpAt_bounds h h0 h1 hs
  have hf : Nat.floor u ≤ s.length - 1 := by
    have := Nat.floor_le_floor h1
    rwa [Nat.floor_natCast] at this
  have fl : ((Nat.floor u : Nat) : K) ≤ u := Nat.floor_le h0
  have fl' : u < (Nat.floor u : K) + 1 := Nat.lt_floor_add_one u
  have hup : s.countP (fun x => decide (lerpAt s u < x)) ≤ s.length - 1 - Nat.floor u := countP_gt_le h (by omega) b1
  have hupK : ((s.countP fun x => decide (lerpAt s u < x) : Nat) : K) ≤ ((s.length - 1 : Nat) : K) - (Nat.floor u : K) := by
    rw [← Nat.cast_sub hf]; exact_mod_cast hup
  have strict : s.Nodup → ∀ i j, i < j → j < s.length → s.getD i 0 < s.getD j 0 := by
    intro hn i j hij hj
    refine lt_of_le_of_ne (getD_mono h hij.le hj) fun e => ?_
    rw [List.getD_eq_getElem _ _ (by omega), List.getD_eq_getElem _ _ hj] at e
    have := (List.Nodup.getElem_inj_iff hn).1 e
    omega
  rcases eq_or_lt_of_le fl with heq | hlt
  · -- a whole index
    have hv : lerpAt s u = s.getD (Nat.floor u) 0 := by
      unfold lerpAt
      rw [← heq]
      simp
    refine ⟨?_, by linarith, fun hn => ⟨?_, ?_⟩⟩
    · have := countP_lt_le h (v := lerpAt s u) (j := Nat.floor u) (by omega) hv.le
      have : ((s.countP fun x => decide (x < lerpAt s u) : Nat) : K) ≤ (Nat.floor u : K) := by exact_mod_cast this
      linarith
    · rw [← heq]
      have := le_countP_lt (s := s) (v := lerpAt s (Nat.floor u : K)) (j := Nat.floor u) (by omega) (by
        rw [heq, hv]; exact fun i hi => strict hn i _ hi (by omega))
      exact_mod_cast this
    · have := le_countP_gt (s := s) (v := lerpAt s u) (i := Nat.floor u + 1) (by omega) (by
        rw [hv]; exact fun n hn' hn'' => strict hn _ n (by omega) hn'')
      rw [← heq, ← Nat.cast_sub hf, heq]
      exact_mod_cast (by omega : s.length - 1 - Nat.floor u ≤ _)
  · -- between two indices
    have hflt : Nat.floor u < s.length - 1 := by
      have : (Nat.floor u : K) < ((s.length - 1 : Nat) : K) := lt_of_lt_of_le hlt h1
      exact_mod_cast this
    have hmin : min (Nat.floor u + 1) (s.length - 1) = Nat.floor u + 1 := by omega
    rw [hmin] at b2
    refine ⟨?_, by linarith, fun hn => ?_⟩
    · have := countP_lt_le h (v := lerpAt s u) (j := Nat.floor u + 1) (by omega) b2
      have : ((s.countP fun x => decide (x < lerpAt s u) : Nat) : K) ≤ (Nat.floor u : K) + 1 := by exact_mod_cast this
      linarith
    · have hst := strict hn _ _ (Nat.lt_succ_self (Nat.floor u)) (by omega)
      have e : lerpAt s u = s.getD (Nat.floor u) 0 +
          (u - Nat.floor u) * (s.getD (Nat.floor u + 1) 0 - s.getD (Nat.floor u) 0) := by
        unfold lerpAt; simp only [hmin]
      have c1 : s.getD (Nat.floor u) 0 < lerpAt s u := by
        rw [e]
        have : 0 < (u - Nat.floor u) * (s.getD (Nat.floor u + 1) 0 - s.getD (Nat.floor u) 0) :=
          mul_pos (by linarith) (by simp only [Nat.succ_eq_add_one] at hst; linarith)
        linarith
      have c2 : lerpAt s u < s.getD (Nat.floor u + 1) 0 := by
        rw [e]
        simp only [Nat.succ_eq_add_one] at hst
        nlinarith
      constructor
      · have := le_countP_lt (s := s) (v := lerpAt s u) (j := Nat.floor u + 1) (by omega) (fun i hi =>
          lt_of_le_of_lt (getD_mono h (by omega : i ≤ Nat.floor u) (by omega)) c1)
        have : (Nat.floor u : K) + 1 ≤ ((s.countP fun x => decide (x < lerpAt s u) : Nat) : K) := by exact_mod_cast this
        linarith
      · have := le_countP_gt (s := s) (v := lerpAt s u) (i := Nat.floor u + 1) (by omega) (fun n hn' hn'' =>
          lt_of_lt_of_le c2 (getD_mono h hn' hn''))
        have : ((s.length - 1 : Nat) : K) - (Nat.floor u : K) ≤ ((s.countP fun x => decide (lerpAt s u < x) : Nat) : K) := by
          rw [← Nat.cast_sub hf]
          exact_mod_cast (by omega : s.length - 1 - Nat.floor u ≤ _)
        linarith

/-- a list is split by an interval -/
theorem countP_three (l : List K) {lo hi : K} (h : lo ≤ hi) :
    l.countP (fun x => decide (x < lo)) + l.countP (fun x => decide (lo ≤ x) && decide (x ≤ hi)) +
      l.countP (fun x => decide (hi < x)) = l.length := by
  induction l with
  | nil => rfl
  | cons a l ih =>
    simp only [List.countP_cons, List.length_cons]
    rcases lt_or_ge a lo with h1 | h1
    · have h2 : ¬ hi < a := not_lt.2 (h1.le.trans h)
      simp only [h1, decide_true, if_true, not_le.2 h1, decide_false, Bool.false_and, Bool.false_eq_true, if_false, h2]
      omega
    · rcases lt_or_ge hi a with h2 | h2
      · simp only [not_lt.2 h1, h1, h2, not_le.2 h2, decide_true, decide_false, Bool.and_false, Bool.false_eq_true,
          if_false, if_true]
        omega
      · simp only [not_lt.2 h1, h1, h2, not_lt.2 h2, decide_true, decide_false, Bool.and_true, Bool.false_eq_true,
          if_false, if_true]
        omega

theorem heldBy_some (lo hi : K) (l : List K) :
    heldBy lo hi (l.map some) = l.countP fun x => decide (lo ≤ x) && decide (x ≤ hi) := by
  unfold heldBy
  rw [List.countP_map]
  rfl

/-- the interval between two quantiles -/
theorem summary_holds {ms : List (Fl K)} {a b : K} (h0 : 0 ≤ a) (hab : a ≤ b) (h1 : b ≤ 1) {lo hi : K} {m : Fl K}
    (h : IsSummary ms a b [some lo, m, some hi]) : HoldsShare (b - a) lo hi ms := by
  obtain ⟨l', h', q1, q2, e⟩ := h
  simp only [List.cons.injEq, and_true] at e
  obtain ⟨rfl, rfl, rfl⟩ := e
  have hok : ¬ (ms = [] ∨ none ∈ ms) := by
    intro hc
    unfold quantile at q1
    rw [if_pos ⟨h0, hab.trans h1⟩, if_pos hc] at q1
    cases q1
  push Not at hok
  obtain ⟨vs, rfl⟩ := exists_map_some hok.2
  have hvne : vs ≠ [] := by rintro rfl; exact hok.1 rfl
  rw [quantile_some hvne h0 (hab.trans h1)] at q1
  rw [quantile_some hvne (h0.trans hab) h1] at q2
  simp only [Except.ok.injEq, Option.some.injEq] at q1 q2
  have hl : (sortK vs).length = vs.length := (sortK_perm vs).length_eq
  have hsne : sortK vs ≠ [] := by
    intro h
    rw [h] at hl
    exact hvne (List.length_eq_zero_iff.1 hl.symm)
  have hord : lo ≤ hi := by
    rw [← q1, ← q2]
    refine lerpAt_mono (sortK_sorted vs) (vidx_bounds h0 (hab.trans h1)).1 ?_ (vidx_bounds (h0.trans hab) h1).2 hsne
    exact mul_le_mul_of_nonneg_right hab (Nat.cast_nonneg _)
  obtain ⟨c1, -, c3⟩ := lerpAt_counts (sortK_sorted vs) hsne (vidx_bounds h0 (hab.trans h1)).1
    (vidx_bounds (n := (sortK vs).length - 1) h0 (hab.trans h1)).2
  obtain ⟨-, d2, d3⟩ := lerpAt_counts (sortK_sorted vs) hsne (vidx_bounds (h0.trans hab) h1).1
    (vidx_bounds (n := (sortK vs).length - 1) (h0.trans hab) h1).2
  rw [q1] at c1 c3
  rw [q2] at d2 d3
  rw [(sortK_perm vs).countP_eq] at c1 c3 d2 d3
  rw [hl] at c1 c3 d2 d3
  have h3 := countP_three vs hord
  have h3K : ((vs.countP fun x => decide (x < lo) : Nat) : K) +
      ((vs.countP fun x => decide (lo ≤ x) && decide (x ≤ hi) : Nat) : K) +
      ((vs.countP fun x => decide (hi < x) : Nat) : K) = (vs.length : K) := by exact_mod_cast h3
  have hpos : 1 ≤ vs.length := List.length_pos_iff.2 hvne
  have hN : ((vs.length - 1 : Nat) : K) = (vs.length : K) - 1 := by rw [Nat.cast_sub hpos]; simp
  unfold HoldsShare
  rw [heldBy_some, List.length_map, hN]
  rw [hN] at c1 d2 c3 d3
  refine ⟨by linarith, fun hn => ?_⟩
  have hn' : vs.Nodup := List.Nodup.of_map some hn
  have hn'' : (sortK vs).Nodup := (sortK_perm vs).nodup_iff.2 hn'
  have g1 := (c3 hn'').1
  have g2 := (d3 hn'').2
  rw [(sortK_perm vs).countP_eq] at g2
  linarith

end Lemmas
