import Verif.Lemmas.Reduce
import Verif.Lemmas.Pairs
import Verif.Model.Average
import Verif.Spec.Average
import Verif.Spec.Reliability

/-! Facts about means of lists with missing values. -/

set_option linter.unusedSectionVars false

namespace Lemmas
open Np NDArr Spec Model

variable {K : Type} [Field K] [LinearOrder K] [IsStrictOrderedRing K]

theorem meanOf_isAvg (skip : Bool) (l : List (Fl K)) : IsAvg skip l (meanOf skip l) := by
  unfold IsAvg
  cases skip with
  | true =>
    simp only [Bool.true_eq_false, false_and, false_or, meanOf, if_true]
    split
    · rename_i h; exact nanmean_nil h
    · rename_i h; exact nanmean_eq l h
  | false =>
    simp only [true_and, meanOf, Bool.false_eq_true, if_false]
    by_cases hn : none ∈ l
    · rw [if_pos (Or.inl hn)]; exact mean_none hn
    · obtain ⟨v, rfl⟩ := exists_map_some hn
      unfold present
      rw [filterMap_id_map_some]
      split
      · rename_i h
        rcases h with h | h
        · exact absurd h hn
        · subst h; rfl
      · rename_i h
        rw [not_or] at h
        exact mean_some v h.2

theorem isAvg_unique {skip : Bool} {l : List (Fl K)} {v w : Fl K} (h1 : IsAvg skip l v)
    (h2 : IsAvg skip l w) : v = w := by
  unfold IsAvg at h1 h2
  split at h1
  · rename_i h; rw [if_pos h] at h2; rw [h1, h2]
  · rename_i h; rw [if_neg h] at h2; rw [h1, h2]

theorem present_map (g : K → K) (l : List (Fl K)) :
    present (l.map fun x => x.map g) = (present l).map g := by
  unfold present
  induction l with
  | nil => rfl
  | cons a l ih => cases a <;> simp_all

theorem none_mem_map (g : K → K) (l : List (Fl K)) :
    none ∈ (l.map fun x => x.map g) ↔ none ∈ l := by
  simp [List.mem_map]

/-- `mean`-type reductions over axes -/
theorem avg_spec (skip : Bool) (a : NDArr (Fl K)) {axes : Option (List Int)}
    (h : OptOK a.shape.length axes) :
    ∃ r, (if skip then reduceAxes nanmean a axes else reduceAxes mean a axes) = .ok r ∧
      r.shape = dropAxes (nums a.shape.length axes) a.shape ∧
      ∀ k, InB (dropAxes (nums a.shape.length axes) a.shape) k →
        r.get k = meanOf skip (fiber a (nums a.shape.length axes) k) := by
  cases skip with
  | true => simpa [meanOf] using reduceAxes_spec nanmean a h
  | false => simpa [meanOf] using reduceAxes_spec mean a h

/-- entries of an elementwise operation, over a fibre -/
theorem fiber_zipWith {α β γ : Type} [Inhabited α] [Inhabited β] [Inhabited γ] (g : α → β → γ)
    (f : NDArr α) (o : NDArr β) (A k : List Nat) (h : f.shape = o.shape) :
    ∃ d, zipWith g f o = .ok d ∧ d.shape = f.shape ∧
      fiber d A k = (pairsAt f o A k).map fun p => g p.1 p.2 := by
  refine ⟨_, zipWith_ok g f o h, rfl, ?_⟩
  unfold fiber pairsAt
  rw [List.map_map]
  apply List.map_congr_left
  intro i hi
  rw [get_ofFn _ (s := f.shape) (mem_fiberIdx.1 hi).1]; rfl

theorem fiber_map {α β : Type} [Inhabited α] [Inhabited β] (g : α → β) (a : NDArr α) (A k : List Nat) :
    fiber (a.map g) A k = (fiber a A k).map g := by
  unfold fiber
  rw [List.map_map]
  apply List.map_congr_left
  intro i hi
  exact get_map g a (mem_fiberIdx.1 hi).1

theorem present_sub (P : List (Fl K × Fl K)) :
    present (P.map fun p => Fl.sub p.1 p.2) = (complete P).map fun p => p.1 - p.2 := by
  unfold present complete
  induction P with
  | nil => rfl
  | cons p P ih =>
    obtain ⟨x, y⟩ := p
    cases x <;> cases y <;> simp_all [Fl.sub, Fl.lift2]

theorem none_mem_sub (P : List (Fl K × Fl K)) :
    none ∈ (P.map fun p => Fl.sub p.1 p.2) ↔ ∃ p ∈ P, p.1 = none ∨ p.2 = none := by
  rw [List.mem_map]
  constructor
  · rintro ⟨⟨x, y⟩, hp, h⟩
    refine ⟨(x, y), hp, ?_⟩
    cases x <;> cases y <;> simp_all [Fl.sub, Fl.lift2]
  · rintro ⟨⟨x, y⟩, hp, h⟩
    refine ⟨(x, y), hp, ?_⟩
    cases x <;> cases y <;> simp_all [Fl.sub, Fl.lift2]

/-! ### inequalities between averages -/

theorem avg_nonneg {l : List K} (h : ∀ x ∈ l, 0 ≤ x) : 0 ≤ avg l :=
  div_nonneg (List.sum_nonneg h) (Nat.cast_nonneg _)

theorem abs_sum_le (l : List K) : |l.sum| ≤ (l.map fun x => |x|).sum := by
  induction l with
  | nil => simp
  | cons a l ih =>
    simp only [List.sum_cons, List.map_cons]
    exact (abs_add_le _ _).trans (add_le_add le_rfl ih)

theorem abs_avg_le (l : List K) : |avg l| ≤ avg (l.map fun x => |x|) := by
  unfold avg
  rw [abs_div, Nat.abs_cast, List.length_map]
  exact div_le_div_of_nonneg_right (abs_sum_le l) (Nat.cast_nonneg _)

/-- the variance identity behind `mean² ≤ mean of squares` -/
theorem sum_sq_dev (l : List K) (m : K) :
    (l.map fun x => (x - m) * (x - m)).sum =
      (l.map fun x => x * x).sum - 2 * m * l.sum + (l.length : K) * (m * m) := by
  induction l with
  | nil => simp
  | cons a l ih =>
    simp only [List.map_cons, List.sum_cons, List.length_cons, ih]
    push_cast; ring

theorem avg_sq_le {l : List K} (hl : l ≠ []) : avg l * avg l ≤ avg (l.map fun x => x * x) := by
  have hpos : (0 : K) < l.length := by exact_mod_cast List.length_pos_iff.2 hl
  have h := sum_sq_dev l (avg l)
  have h0 : 0 ≤ (l.map fun x => (x - avg l) * (x - avg l)).sum :=
    List.sum_nonneg (by
      intro y hy
      obtain ⟨x, _, rfl⟩ := List.mem_map.1 hy
      exact mul_self_nonneg _)
  rw [h] at h0
  have hs : l.sum = (l.length : K) * avg l := by unfold avg; field_simp
  rw [hs] at h0
  have : avg (l.map fun x => x * x) = (l.map fun x => x * x).sum / (l.length : K) := by
    unfold avg; rw [List.length_map]
  rw [this, le_div_iff₀ hpos]
  nlinarith

end Lemmas
