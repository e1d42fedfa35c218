import Verif.Lemmas.Groups
import Verif.Lemmas.Average
import Verif.Spec.CurveSums
import Verif.Spec.SpreadSkill
import Mathlib.Algebra.Order.BigOperators.Group.List
import Mathlib.Tactic.Positivity
import Mathlib.Tactic.Linarith

/-! Sums over the points of a curve. -/

set_option linter.unusedSectionVars false

namespace Lemmas
open Np Spec Model

variable {K : Type} [Field K] [LinearOrder K] [IsStrictOrderedRing K]

theorem weighted_map {α : Type} (l : List α) (n : α → Nat) (x : α → K) :
    weighted (l.map n) (l.map x) = (l.map fun a => (n a : K) * x a).sum := by
  unfold weighted
  rw [List.zipWith_map_left, List.zipWith_map_right, List.zipWith_self]

theorem sum_map_evt {α : Type} (l : List α) (e : α → Bool) :
    (l.map fun a => (evt (e a) : K)).sum = (l.countP e : Nat) := by
  induction l with
  | nil => simp
  | cons a l ih => rw [List.map_cons, List.sum_cons, ih, List.countP_cons]; cases e a <;> simp [evt, add_comm]

theorem length_mul_avg {l : List K} (h : l ≠ []) : (l.length : K) * avg l = l.sum := by
  have : (l.length : K) ≠ 0 := by exact_mod_cast (List.length_pos_iff.2 h).ne'
  unfold avg; field_simp

theorem sum_map_sub' {α : Type} (l : List α) (f g : α → K) :
    (l.map fun a => f a - g a).sum = (l.map f).sum - (l.map g).sum := by
  induction l with
  | nil => simp
  | cons a l ih => simp only [List.map_cons, List.sum_cons, ih]; ring

/-- the mean of the differences is the difference of the means -/
theorem sq_avg_sub_le {α : Type} {g : List α} (h : g ≠ []) (x y : α → K) :
    (g.length : K) * (avg (g.map x) - avg (g.map y)) ^ 2 ≤ (g.map fun a => (x a - y a) ^ 2).sum := by
  have hd : avg (g.map x) - avg (g.map y) = avg (g.map fun a => x a - y a) := by
    unfold avg
    rw [sum_map_sub', List.length_map, List.length_map, List.length_map, sub_div]
  have h0 : (g.length : K) ≠ 0 := by exact_mod_cast (List.length_pos_iff.2 h).ne'
  have hp : (0 : K) ≤ g.length := Nat.cast_nonneg _
  have := avg_sq_le (l := g.map fun a => x a - y a) (by simpa using h)
  have h2 := mul_le_mul_of_nonneg_left this hp
  have e : (g.length : K) * avg (List.map (fun x => x * x) (g.map fun a => x a - y a)) =
      (g.map fun a => (x a - y a) ^ 2).sum := by
    have := length_mul_avg (l := List.map (fun x => x * x) (g.map fun a => x a - y a)) (by simpa using h)
    rw [List.length_map, List.length_map, List.map_map] at this
    rw [List.map_map, this]
    simp only [Function.comp_def, pow_two]
  rw [hd, pow_two]
  exact h2.trans e.le

variable [FloorSemiring K]

/-- the points of a reliability curve add up to the pairs -/
theorem relCurve_addsUp {nbins : Nat} (hn : 1 ≤ nbins) (Q : List (K × Bool)) (h0 : ∀ q ∈ Q, 0 ≤ q.1) :
    let P : List (Fl K × Bool) := Q.map fun q => (some q.1, q.2)
    ∃ ps ts : List K,
      (relNonEmpty nbins P).map (fun b => mean ((relGroup nbins b P).map Prod.fst)) = ps.map some ∧
      (relNonEmpty nbins P).map (fun b => mean ((relGroup nbins b P).map fun p => (ind p.2 : Fl K))) = ts.map some ∧
      CurveAddsUp Q ((relNonEmpty nbins P).map fun b => (relGroup nbins b P).length) ps ts := by
  intro P
  let val : Fl K × Bool → K := fun p => p.1.getD 0
  let iv : Fl K × Bool → K := fun p => evt p.2
  have hok : ∀ p ∈ P, NonNegFl p.1 := by
    intro p hp v hv
    obtain ⟨q, hq, rfl⟩ := List.mem_map.1 hp
    cases hv; exact h0 q hq
  have hval : ∀ p ∈ P, p.1 = some (val p) := by
    intro p hp
    obtain ⟨q, hq, rfl⟩ := List.mem_map.1 hp
    rfl
  have hg : ∀ b, ∀ p ∈ relGroup nbins b P, p ∈ P := fun b p hp => (List.mem_filter.1 hp).1
  have hne : ∀ b ∈ relNonEmpty nbins P, relGroup nbins b P ≠ [] := by
    intro b hb
    simp only [relNonEmpty, List.mem_filter, List.mem_range, decide_eq_true_eq] at hb
    exact hb.2
  have hpart : ∀ {M : Type} [AddCommMonoid M] (g : Fl K × Bool → M),
      ((relNonEmpty nbins P).map fun b => ((relGroup nbins b P).map g).sum).sum = (P.map g).sum := by
    intro M _ g
    exact sum_relGroups hn hok g
  refine ⟨(relNonEmpty nbins P).map fun b => avg ((relGroup nbins b P).map val),
    (relNonEmpty nbins P).map fun b => avg ((relGroup nbins b P).map iv), ?_, ?_, ?_⟩
  · rw [List.map_map]
    refine List.map_congr_left fun b hb => ?_
    have : (relGroup nbins b P).map Prod.fst = ((relGroup nbins b P).map val).map some := by
      rw [List.map_map]
      exact List.map_congr_left fun p hp => hval p (hg b p hp)
    rw [this, mean_some _ (by simpa using hne b hb)]; rfl
  · rw [List.map_map]
    refine List.map_congr_left fun b hb => ?_
    have : (relGroup nbins b P).map (fun p => (ind p.2 : Fl K)) = ((relGroup nbins b P).map iv).map some := by
      rw [List.map_map]; rfl
    rw [this, mean_some _ (by simpa using hne b hb)]; rfl
  · have hfor : ∀ (x : Fl K × Bool → K), weighted ((relNonEmpty nbins P).map fun b => (relGroup nbins b P).length)
        ((relNonEmpty nbins P).map fun b => avg ((relGroup nbins b P).map x)) = (P.map x).sum := by
      intro x
      rw [weighted_map, ← hpart x]
      congr 1
      refine List.map_congr_left fun b hb => ?_
      have := length_mul_avg (l := (relGroup nbins b P).map x) (by simpa using hne b hb)
      rwa [List.length_map] at this
    refine ⟨by simp, by simp, ?_, ?_, ?_, ?_⟩
    · have := hpart (fun _ => (1 : Nat))
      simpa [P, Function.comp_def] using this
    · rw [hfor val]; simp [P, val, Function.comp_def]
    · rw [hfor iv]
      have := sum_map_evt (K := K) Q fun q => q.2
      simpa [P, iv, Function.comp_def] using this
    · rw [List.zipWith_map_left, List.zipWith_map_right, List.zipWith_self, weighted_map]
      have e : (Q.map fun q => (q.1 - evt q.2) ^ 2).sum = (P.map fun p => (val p - iv p) ^ 2).sum := by
        simp [P, val, iv, Function.comp_def]
      rw [e, ← hpart]
      exact List.sum_le_sum fun b hb => sq_avg_sub_le (hne b hb) val iv

/-- the groups of a spread-skill curve add up to the values -/
theorem grouping_addsUp {gs : List (List K)} (hne : ∀ g ∈ gs, g ≠ []) :
    weighted (gs.map List.length) (gs.map avg) = gs.flatten.sum := by
  rw [weighted_map, List.sum_flatten]
  congr 1
  exact List.map_congr_left fun g hg => length_mul_avg (hne g hg)

/-- balanced sizes that add up to at least their number are positive -/
theorem balanced_pos {L : List Nat} (hb : L.Pairwise fun a b => b ≤ a ∧ a ≤ b + 1) (hs : L.length ≤ L.sum) :
    ∀ x ∈ L, x ≠ 0 := by
  have aux : ∀ L : List Nat, (∀ x ∈ L, x ≤ 1) → L.sum ≤ L.length ∧ (0 ∈ L → L.sum < L.length) := by
    intro L
    induction L with
    | nil => simp
    | cons a L ih =>
      intro h
      obtain ⟨h1, h2⟩ := ih fun x hx => h x (by simp [hx])
      have ha := h a (by simp)
      rw [List.sum_cons, List.length_cons]
      refine ⟨by omega, fun h0 => ?_⟩
      rcases List.mem_cons.1 h0 with h0 | h0
      · omega
      · have := h2 h0; omega
  rintro x hx rfl
  have h1 : ∀ y ∈ L, y ≤ 1 := by
    clear aux hs
    induction L with
    | nil => simp
    | cons a L ih =>
      rw [List.pairwise_cons] at hb
      intro y hy
      rcases List.mem_cons.1 hx with h0 | h0
      · rcases List.mem_cons.1 hy with h2 | h2
        · omega
        · have := hb.1 y h2; omega
      · rcases List.mem_cons.1 hy with h2 | h2
        · have := hb.1 0 h0; omega
        · exact ih hb.2 h0 y h2
  have := (aux L h1).2 hx
  omega

/-- no group of a spread-skill curve is empty when there are at least as many pairs as groups -/
theorem grouping_ne {nbins : Nat} {P : List (Fl K × Fl K)} {gs : List (List (Fl K × Fl K))} (h : IsGrouping nbins P gs)
    (hle : nbins ≤ P.length) : ∀ g ∈ gs, g ≠ [] := by
  intro g hg e
  have h1 : (gs.map List.length).Pairwise fun a b => b ≤ a ∧ a ≤ b + 1 := List.pairwise_map.2 h.balanced
  have h2 : (gs.map List.length).sum = P.length := by rw [← List.length_flatten, h.complete.length_eq]
  have := balanced_pos h1 (by rw [List.length_map, h.count, h2]; exact hle) g.length (List.mem_map_of_mem hg)
  rw [e] at this
  exact this rfl

end Lemmas
