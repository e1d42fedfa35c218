import Verif.Np.Array
import Mathlib.Algebra.Order.Field.Basic
import Mathlib.Algebra.Order.Floor.Semiring
import Mathlib.Algebra.Order.BigOperators.Group.List
import Mathlib.Tactic.Ring
import Mathlib.Tactic.Linarith
import Mathlib.Tactic.FieldSimp
import Mathlib.Tactic.Positivity

/-!
# Scalars with NaN, means, quantiles

A float is an element of an ordered field or NaN (`none`).  Comparisons with NaN are false and
arithmetic propagates NaN, as in IEEE arithmetic.  Infinities and rounding are not modelled.
-/

set_option linter.unusedSectionVars false

namespace Np

/-- a number or NaN -/
abbrev Fl (K : Type) := Option K

variable {K : Type} [Field K] [LinearOrder K] [IsStrictOrderedRing K]

namespace Fl

/-- elementwise operation propagating NaN -/
def lift2 (f : K → K → K) : Fl K → Fl K → Fl K
  | some x, some y => some (f x y)
  | _, _ => none

def add : Fl K → Fl K → Fl K := lift2 (· + ·)
def sub : Fl K → Fl K → Fl K := lift2 (· - ·)
def mul : Fl K → Fl K → Fl K := lift2 (· * ·)

/-- `x / y`; a zero denominator gives NaN (numpy: NaN for `0/0`, else an infinity, which the model
does not have - every use in the model divides by a non-zero number or `0/0`). -/
def div : Fl K → Fl K → Fl K
  | some x, some y => if y = 0 then none else some (x / y)
  | _, _ => none

def lt : Fl K → Fl K → Bool
  | some x, some y => decide (x < y)
  | _, _ => false

def le : Fl K → Fl K → Bool
  | some x, some y => decide (x ≤ y)
  | _, _ => false

/-- `np.square` -/
def sq (x : Fl K) : Fl K := x.map fun v => v * v
/-- `np.abs` -/
def abs (x : Fl K) : Fl K := x.map fun v => |v|

omit [LinearOrder K] [IsStrictOrderedRing K] in
@[simp] theorem add_some (x y : K) : add (some x) (some y) = some (x + y) := rfl
omit [LinearOrder K] [IsStrictOrderedRing K] in
@[simp] theorem sub_some (x y : K) : sub (some x) (some y) = some (x - y) := rfl
omit [LinearOrder K] [IsStrictOrderedRing K] in
@[simp] theorem mul_some (x y : K) : mul (some x) (some y) = some (x * y) := rfl
omit [LinearOrder K] [IsStrictOrderedRing K] in
@[simp] theorem add_none_left (y : Fl K) : add none y = none := rfl
omit [LinearOrder K] [IsStrictOrderedRing K] in
@[simp] theorem add_none_right (y : Fl K) : add y none = none := by cases y <;> rfl

end Fl

/-- `sum(l)` (NaN-propagating) -/
def fsum (l : List (Fl K)) : Fl K := l.foldr Fl.add (some 0)

/-- `np.mean(l)`; NaN (with a warning) for an empty list -/
def mean (l : List (Fl K)) : Fl K :=
  if l = [] then none else (fsum l).map fun s => s / (l.length : K)

/-- `np.nanmean(l)`; NaN (with a warning) if there is no non-NaN element -/
def nanmean (l : List (Fl K)) : Fl K := mean (l.filter Option.isSome)

/-- `nanmean` or `mean` depending on the NaN setting -/
def meanOf (skipNan : Bool) (l : List (Fl K)) : Fl K := if skipNan then nanmean l else mean l

omit [LinearOrder K] [IsStrictOrderedRing K] in
theorem fsum_some (l : List K) : fsum (l.map some) = some l.sum := by
  induction l with
  | nil => rfl
  | cons a l ih =>
    have : fsum ((a :: l).map some) = Fl.add (some a) (fsum (l.map some)) := rfl
    rw [this, ih]; simp

omit [LinearOrder K] [IsStrictOrderedRing K] in
theorem fsum_none {l : List (Fl K)} (h : none ∈ l) : fsum l = none := by
  induction l with
  | nil => simp at h
  | cons a l ih =>
    have e : fsum (a :: l) = Fl.add a (fsum l) := rfl
    rw [e]
    rcases List.mem_cons.1 h with h | h
    · rw [← h]; simp
    · rw [ih h]; simp

theorem exists_map_some {α : Type} {l : List (Option α)} (h : none ∉ l) :
    ∃ v : List α, l = v.map some := by
  induction l with
  | nil => exact ⟨[], rfl⟩
  | cons a l ih =>
    simp only [List.mem_cons, not_or] at h
    obtain ⟨v, rfl⟩ := ih h.2
    cases a with
    | none => exact absurd rfl h.1
    | some x => exact ⟨x :: v, rfl⟩

theorem filter_isSome {α : Type} (l : List (Option α)) :
    l.filter Option.isSome = (l.filterMap id).map some := by
  induction l with
  | nil => rfl
  | cons a l ih => cases a <;> simp [ih]

omit [LinearOrder K] [IsStrictOrderedRing K] in
theorem mean_some (l : List K) (h : l ≠ []) :
    mean (l.map some) = some (l.sum / (l.length : K)) := by
  unfold mean; rw [if_neg (by simpa using h), fsum_some]; simp

omit [LinearOrder K] [IsStrictOrderedRing K] in
theorem mean_none {l : List (Fl K)} (h : none ∈ l) : mean l = none := by
  unfold mean; split
  · rfl
  · rw [fsum_none h]; rfl

omit [LinearOrder K] [IsStrictOrderedRing K] in
theorem nanmean_eq (l : List (Fl K)) (h : l.filterMap id ≠ []) :
    nanmean l = some ((l.filterMap id).sum / ((l.filterMap id).length : K)) := by
  unfold nanmean; rw [filter_isSome, mean_some _ h]

omit [LinearOrder K] [IsStrictOrderedRing K] in
theorem nanmean_nil {l : List (Fl K)} (h : l.filterMap id = []) : nanmean l = none := by
  unfold nanmean; rw [filter_isSome, h]; rfl

/-! ### quantiles -/

/-- ascending sort of numbers -/
def sortK (l : List K) : List K := l.insertionSort (· ≤ ·)

/-- linear interpolation at virtual index `v` of a list (numpy's `_lerp` between the neighbours
`floor v` and `min (floor v + 1) (n-1)`) -/
def lerpAt [FloorSemiring K] (s : List K) (v : K) : K :=
  let i := Nat.floor v
  let j := min (i + 1) (s.length - 1)
  s.getD i 0 + (v - i) * (s.getD j 0 - s.getD i 0)

/-- `np.quantile(l, q)` (method 'linear'): `ValueError` unless `0 ≤ q ≤ 1`; NaN if the list is empty
or contains NaN. -/
def quantile [FloorSemiring K] (l : List (Fl K)) (q : K) : Except Err (Fl K) :=
  if 0 ≤ q ∧ q ≤ 1 then
    if l = [] ∨ none ∈ l then .ok none
    else
      let s := sortK (l.filterMap id)
      .ok (some (lerpAt s (q * ((s.length - 1 : Nat) : K))))
  else .error .value

/-- `np.nanquantile(l, q)` -/
def nanquantile [FloorSemiring K] (l : List (Fl K)) (q : K) : Except Err (Fl K) :=
  quantile (l.filter Option.isSome) q

omit [IsStrictOrderedRing K] in
theorem sortK_perm (l : List K) : (sortK l).Perm l := List.perm_insertionSort _ _

omit [IsStrictOrderedRing K] in
theorem sortK_sorted (l : List K) : (sortK l).Pairwise (· ≤ ·) := List.pairwise_insertionSort _ _

omit [IsStrictOrderedRing K] in
theorem getD_mono {s : List K} (h : s.Pairwise (· ≤ ·)) {i j : Nat} (hij : i ≤ j)
    (hj : j < s.length) : s.getD i 0 ≤ s.getD j 0 := by
  rw [List.getD_eq_getElem?_getD, List.getD_eq_getElem?_getD, List.getElem?_eq_getElem (by omega),
    List.getElem?_eq_getElem hj]
  simp only [Option.getD_some]
  rcases Nat.lt_or_eq_of_le hij with h' | h'
  · exact List.pairwise_iff_getElem.1 h i j (by omega) hj h'
  · subst h'; exact le_rfl

theorem lerpAt_bounds [FloorSemiring K] {s : List K} (h : s.Pairwise (· ≤ ·)) {v : K} (h0 : 0 ≤ v)
    (h1 : v ≤ ((s.length - 1 : Nat) : K)) (hs : s ≠ []) :
    s.getD (Nat.floor v) 0 ≤ lerpAt s v ∧
      lerpAt s v ≤ s.getD (min (Nat.floor v + 1) (s.length - 1)) 0 := by
  have hpos : 0 < s.length := List.length_pos_iff.2 hs
  have hf : Nat.floor v ≤ s.length - 1 := by
    have := Nat.floor_le_floor h1
    rwa [Nat.floor_natCast] at this
  have hle : s.getD (Nat.floor v) 0 ≤ s.getD (min (Nat.floor v + 1) (s.length - 1)) 0 :=
    getD_mono h (by omega) (by omega)
  have ha : (0 : K) ≤ v - Nat.floor v := by linarith [Nat.floor_le h0]
  have hb : v - (Nat.floor v : K) ≤ 1 := by linarith [Nat.lt_floor_add_one v]
  unfold lerpAt
  constructor <;> simp only <;> nlinarith

theorem lerpAt_mono [FloorSemiring K] {s : List K} (h : s.Pairwise (· ≤ ·)) {v w : K} (h0 : 0 ≤ v)
    (hvw : v ≤ w) (h1 : w ≤ ((s.length - 1 : Nat) : K)) (hs : s ≠ []) :
    lerpAt s v ≤ lerpAt s w := by
  have hpos : 0 < s.length := List.length_pos_iff.2 hs
  have hfm : Nat.floor v ≤ Nat.floor w := Nat.floor_le_floor hvw
  have hf : Nat.floor w ≤ s.length - 1 := by
    have := Nat.floor_le_floor h1
    rwa [Nat.floor_natCast] at this
  rcases Nat.lt_or_eq_of_le hfm with hlt | heq
  · have b1 := (lerpAt_bounds h h0 (hvw.trans h1) hs).2
    have b2 := (lerpAt_bounds h (h0.trans hvw) h1 hs).1
    refine b1.trans (le_trans ?_ b2)
    exact getD_mono h (by omega) (by omega)
  · have hle : s.getD (Nat.floor w) 0 ≤ s.getD (min (Nat.floor w + 1) (s.length - 1)) 0 :=
      getD_mono h (by omega) (by omega)
    unfold lerpAt
    simp only [heq]
    nlinarith

theorem lerpAt_range [FloorSemiring K] {s : List K} (h : s.Pairwise (· ≤ ·)) {v lo hi : K}
    (h0 : 0 ≤ v) (h1 : v ≤ ((s.length - 1 : Nat) : K)) (hs : s ≠ [])
    (hb : ∀ x ∈ s, lo ≤ x ∧ x ≤ hi) : lo ≤ lerpAt s v ∧ lerpAt s v ≤ hi := by
  have hpos : 0 < s.length := List.length_pos_iff.2 hs
  have hf : Nat.floor v ≤ s.length - 1 := by
    have := Nat.floor_le_floor h1
    rwa [Nat.floor_natCast] at this
  have hm : ∀ i, i < s.length → s.getD i 0 ∈ s := by
    intro i hi
    rw [List.getD_eq_getElem?_getD, List.getElem?_eq_getElem hi]
    exact List.getElem_mem hi
  obtain ⟨b1, b2⟩ := lerpAt_bounds h h0 h1 hs
  exact ⟨(hb _ (hm _ (by omega))).1.trans b1, b2.trans (hb _ (hm _ (by omega))).2⟩

theorem filterMap_id_map_some {α : Type} (l : List α) : (l.map some).filterMap id = l := by
  induction l with
  | nil => rfl
  | cons a l ih => simp

/-- value of `np.quantile` on numbers -/
theorem quantile_some [FloorSemiring K] {l : List K} (hl : l ≠ []) {q : K} (h0 : 0 ≤ q)
    (h1 : q ≤ 1) : quantile (l.map some) q =
      .ok (some (lerpAt (sortK l) (q * (((sortK l).length - 1 : Nat) : K)))) := by
  unfold quantile
  rw [if_pos ⟨h0, h1⟩, if_neg (by simp [hl]), filterMap_id_map_some]

omit [IsStrictOrderedRing K] in
theorem sortK_ne_nil {l : List K} (hl : l ≠ []) : sortK l ≠ [] := by
  intro h
  have := (sortK_perm l).length_eq
  rw [h] at this
  exact hl (List.length_eq_zero_iff.1 (by simpa using this.symm))

theorem vidx_bounds {n : Nat} {q : K} (h0 : 0 ≤ q) (h1 : q ≤ 1) :
    0 ≤ q * ((n : Nat) : K) ∧ q * ((n : Nat) : K) ≤ ((n : Nat) : K) := by
  have : (0 : K) ≤ (n : K) := Nat.cast_nonneg n
  constructor
  · positivity
  · nlinarith

/-! ### sums and means of bounded lists -/

theorem sum_bounds {l : List K} {lo hi : K} (h : ∀ x ∈ l, lo ≤ x ∧ x ≤ hi) :
    (l.length : K) * lo ≤ l.sum ∧ l.sum ≤ (l.length : K) * hi := by
  induction l with
  | nil => simp
  | cons a l ih =>
    obtain ⟨h1, h2⟩ := ih fun x hx => h x (by simp [hx])
    obtain ⟨h3, h4⟩ := h a (by simp)
    simp only [List.length_cons, List.sum_cons]
    push_cast
    constructor <;> nlinarith

theorem mean_bounds {l : List K} (hl : l ≠ []) {lo hi : K} (h : ∀ x ∈ l, lo ≤ x ∧ x ≤ hi) :
    lo ≤ l.sum / (l.length : K) ∧ l.sum / (l.length : K) ≤ hi := by
  have hpos : (0 : K) < l.length := by exact_mod_cast List.length_pos_iff.2 hl
  obtain ⟨h1, h2⟩ := sum_bounds h
  constructor
  · rw [le_div_iff₀ hpos]; linarith
  · rw [div_le_iff₀ hpos]; linarith

end Np
