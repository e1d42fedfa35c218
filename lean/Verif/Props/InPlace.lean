import Mathlib.Data.Rat.Floor
import Verif.Lemmas.InPlace

/-!
# Spread-skill sorts its arguments in place: C100

`_binned_spread_skill_create_split` assigns the sorted columns to the arrays it was handed (utils_ss.py:71-74), through
`np.moveaxis` (always a view) and `reshape` (a view or a copy, depending on the layout in memory).  The other theorems of
spread-skill (C04, C18, C62) speak of a computation on values.  Here the memory is part of the model.
-/

set_option linter.unusedSectionVars false

namespace Props
open Np NDArr Spec Model Lemmas

variable {K : Type} [Field K] [LinearOrder K] [FloorSemiring K]

/-- **C100.** Sorting in place does not disturb the result: whatever `reshape` copies, two arrays that share no element are
binned as the values they held before the call. -/
theorem C100_returns (nocopy : NDArr (Option Nat) → List Nat → Bool) {argsort : Nat → List (Fl K) → List Nat}
    (hargs : ∀ c l, IsArgsort l (argsort c l)) {h : Mem (Fl K)} {v e : View} (hv : Fits h v) (he : Fits h e)
    (ha : Apart v e) (nbins : Nat) (ax : Option (List Int)) :
    (ssCreateSplitMem nocopy argsort h v e nbins ax).1 = ssCreateSplit argsort (h.read v) (h.read e) nbins ax :=
  (ssMem_cases nocopy hargs hv he ha nbins ax).1

/-- **C100**, frame: a call changes no place outside its two arguments, also when it fails. -/
theorem C100_frame (nocopy : NDArr (Option Nat) → List Nat → Bool) {argsort : Nat → List (Fl K) → List Nat}
    (hargs : ∀ c l, IsArgsort l (argsort c l)) {h : Mem (Fl K)} {v e : View} (hv : Fits h v) (he : Fits h e)
    (ha : Apart v e) (nbins : Nat) (ax : Option (List Int)) {w : View} (hw : Fits h w) (h1 : Apart v w) (h2 : Apart e w) :
    (ssCreateSplitMem nocopy argsort h v e nbins ax).2.read w = h.read w := by
  refine ext_get rfl fun k hk => ?_
  rw [read_shape] at hk
  rw [read_get _ _ hk, read_get _ _ hk]
  obtain ⟨q, hq, -⟩ := hw.inside _ (get_mem _ hk)
  have hwq : View.holds w w.buf q := ⟨rfl, hq ▸ get_mem _ hk⟩
  have hnot : ∀ {u : View}, Apart u w → ¬ View.holds u w.buf q := by
    rintro u (hb | hb) ⟨e1, e2⟩
    · exact hb e1.symm
    · exact hb _ e2 hwq.2
  rw [hq]
  exact ssMem_frame nocopy hargs hv he ha nbins ax hw.buf (hnot h1) (hnot h2)

/-- **C100**, the methods: `binned_spread_skill` of an ensemble or of a distribution computes on new arrays, so everything
that was in memory before – forecasts, observations, and what earlier calls returned – reads as before, and the result is
that of the computation on values. -/
theorem C100_method (nocopy : NDArr (Option Nat) → List Nat → Bool) {argsort : Nat → List (Fl K) → List Nat}
    (hargs : ∀ c l, IsArgsort l (argsort c l)) (h : Mem (Fl K)) (variance sqError : NDArr (Fl K)) (nbins : Nat)
    (ax : Option (List Int)) :
    (methodSpreadSkillMem nocopy argsort h variance sqError nbins ax).1 = ssCreateSplit argsort variance sqError nbins ax ∧
    ∀ w, Fits h w → (methodSpreadSkillMem nocopy argsort h variance sqError nbins ax).2.read w = h.read w := by
  have f1 : Fits (h.alloc variance).1 (h.alloc variance).2 := alloc_fits _ _
  have f2 : Fits ((h.alloc variance).1.alloc sqError).1 (h.alloc variance).2 := fits_append f1 _
  have f3 : Fits ((h.alloc variance).1.alloc sqError).1 ((h.alloc variance).1.alloc sqError).2 := alloc_fits _ _
  have hap : Apart (h.alloc variance).2 ((h.alloc variance).1.alloc sqError).2 := by
    refine Or.inl ?_
    simp [Mem.alloc]
  unfold methodSpreadSkillMem
  constructor
  · simp only
    rw [C100_returns nocopy hargs f2 f3 hap nbins ax, alloc_read]
    congr 1
    exact (read_append _ _ f1.buf).trans (alloc_read _ _)
  · intro w hw
    have hb := hw.buf
    have g1 : Fits (h.alloc variance).1 w := fits_append hw _
    have g2 : Fits ((h.alloc variance).1.alloc sqError).1 w := fits_append g1 _
    have := C100_frame nocopy hargs f2 f3 hap nbins ax g2
      (Or.inl (by simp only [Mem.alloc]; omega)) (Or.inl (by simp only [Mem.alloc, List.length_append]; omega))
    rw [this]
    exact (read_append _ _ g1.buf).trans (read_append _ _ hw.buf)

/-- **C100**, calling twice: when both arrays have the same layout, and the sort leaves a sorted column alone (as every
stable sort does), a second call of the function with the same arrays returns what the first did. -/
theorem C100_again_partial (nocopy : NDArr (Option Nat) → List Nat → Bool) {argsort : Nat → List (Fl K) → List Nat}
    (hargs : ∀ c l, IsArgsort l (argsort c l))
    (hid : ∀ c l, l.Pairwise leNan → argsort c l = List.range l.length)
    {h : Mem (Fl K)} {v e : View} (hv : Fits h v) (he : Fits h e) (ha : Apart v e) (hl : v.pos = e.pos)
    (nbins nbins' : Nat) (ax : Option (List Int)) :
    (ssCreateSplitMem nocopy argsort (ssCreateSplitMem nocopy argsort h v e nbins' ax).2 v e nbins ax).1 =
      (ssCreateSplitMem nocopy argsort h v e nbins ax).1 := by
  rw [C100_returns nocopy hargs (ssMem_fits nocopy hargs hv he ha nbins' ax hv)
    (ssMem_fits nocopy hargs hv he ha nbins' ax he) ha, C100_returns nocopy hargs hv he ha]
  exact ssMem_again nocopy hargs hid hv he ha hl nbins nbins' ax

/-- a stable sort: NaN last, ties in the order of their positions -/
def stableSort (_ : Nat) (l : List (Fl K)) : List Nat :=
  (List.range l.length).insertionSort fun i j => leNan (l.getD i none) (l.getD j none)

theorem leNan_trans {a b c : Fl K} (h1 : leNan a b) (h2 : leNan b c) : leNan a c := by
  cases a <;> cases b <;> cases c <;> simp_all [leNan]
  exact le_trans h1 h2

theorem leNan_total (a b : Fl K) : leNan a b ∨ leNan b a := by
  cases a <;> cases b <;> simp [leNan, le_total]

/-- the sorts `C100_again_partial` asks for exist -/
theorem stableSort_spec (c : Nat) (l : List (Fl K)) :
    IsArgsort l (stableSort c l) ∧ (l.Pairwise leNan → stableSort c l = List.range l.length) := by
  have : Std.Total (fun i j => leNan (l.getD i none) (l.getD j none)) := ⟨fun _ _ => leNan_total _ _⟩
  have : IsTrans Nat (fun i j => leNan (l.getD i none) (l.getD j none)) := ⟨fun _ _ _ => leNan_trans⟩
  refine ⟨⟨List.perm_insertionSort _ _, ?_⟩, fun h => ?_⟩
  · rw [List.pairwise_map]
    exact List.pairwise_insertionSort _ _
  · refine List.Pairwise.insertionSort_eq ?_
    rw [List.pairwise_iff_getElem]
    intro i j hi hj hij
    rw [List.length_range] at hi hj
    have := List.pairwise_iff_getElem.1 h i j hi hj hij
    simpa [List.getD_eq_getElem?_getD, hi, hj] using this

/-- numpy's answer for the layouts below: `reshape` makes a view of an array whose places follow one another and a copy of
a transposed one -/
def contiguous (p : NDArr (Option Nat)) (_ : List Nat) : Bool :=
  (List.range p.data.length).all fun i => p.data.getD i none == (p.data.getD 0 none).map (· + i)

/-- the variance, as the transpose of a stored 2×2 array -/
def vT : View := ⟨0, ⟨[2, 2], [some 0, some 2, some 1, some 3], rfl⟩⟩
/-- the squared error -/
def eC : View := ⟨1, ⟨[2, 2], [some 0, some 1, some 2, some 3], rfl⟩⟩
/-- variances 4, 2, 3, 1 and squared errors 40, 20, 30, 10 -/
def memT : Mem (Fl ℚ) := [[some 4, some 3, some 2, some 1], [some 40, some 20, some 30, some 10]]

/-- **C100**, what fails: the function changes the array it was handed – here the squared error is left sorted and the
variance is not – so a second call pairs every variance with another squared error. -/
theorem C100_again_false :
    Fits memT vT ∧ Fits memT eC ∧ Apart vT eC ∧
    (memT.read vT).data = [some 4, some 2, some 3, some 1] ∧ (memT.read eC).data = [some 40, some 20, some 30, some 10] ∧
    ((ssCreateSplitMem contiguous stableSort memT vT eC 2 none).2.read vT).data = [some 4, some 2, some 3, some 1] ∧
    ((ssCreateSplitMem contiguous stableSort memT vT eC 2 none).2.read eC).data = [some 10, some 20, some 30, some 40] ∧
    ((ssCreateSplitMem contiguous stableSort memT vT eC 2 none).1.map fun r => r.1.map NDArr.data) =
      .ok [[some 1, some 10, some 2, some 20], [some 3, some 30, some 4, some 40]] ∧
    ((ssCreateSplitMem contiguous stableSort (ssCreateSplitMem contiguous stableSort memT vT eC 2 none).2 vT eC 2 none).1.map
      fun r => r.1.map NDArr.data) =
      .ok [[some 1, some 40, some 2, some 20], [some 3, some 30, some 4, some 10]] := by
  refine ⟨⟨by decide, ?_, by decide⟩, ⟨by decide, ?_, by decide⟩, Or.inl (by decide), by decide +kernel, by decide +kernel,
    by decide +kernel, by decide +kernel, by decide +kernel, by decide +kernel⟩
  · intro p hp
    simp only [vT, List.mem_cons, List.not_mem_nil, or_false] at hp
    rcases hp with rfl | rfl | rfl | rfl <;> exact ⟨_, rfl, by decide⟩
  · intro p hp
    simp only [eC, List.mem_cons, List.not_mem_nil, or_false] at hp
    rcases hp with rfl | rfl | rfl | rfl <;> exact ⟨_, rfl, by decide⟩

/-- **C100**, what fails: a call refused for asking too many bins has sorted the arrays before refusing. -/
theorem C100_refused_false :
    (∃ x, (ssCreateSplitMem contiguous stableSort memT vT eC 5 none).1 = .error x) ∧
    ((ssCreateSplitMem contiguous stableSort memT vT eC 5 none).2.read eC).data ≠ (memT.read eC).data :=
  ⟨⟨.assertion, by decide +kernel⟩, by decide +kernel⟩

/-- **C100**, what fails without `Apart`: handed the same array twice, the function sorts it, applies the order of the
unsorted array to it again, and pairs nothing with itself. -/
theorem C100_shared_false :
    ((ssCreateSplitMem contiguous stableSort [[some (3 : ℚ), some 1, some 2]]
      ⟨0, ⟨[3], [some 0, some 1, some 2], rfl⟩⟩ ⟨0, ⟨[3], [some 0, some 1, some 2], rfl⟩⟩ 1 none).1.map
        fun r => r.1.map NDArr.data) =
      .ok [[some 2, some 2, some 3, some 3, some 1, some 1]] ∧
    ((ssCreateSplit stableSort ⟨[3], [some (3 : ℚ), some 1, some 2], rfl⟩ ⟨[3], [some (3 : ℚ), some 1, some 2], rfl⟩ 1
      none).map fun r => r.1.map NDArr.data) =
      .ok [[some 1, some 1, some 2, some 2, some 3, some 3]] :=
  ⟨by decide +kernel, by decide +kernel⟩

/-- the hypotheses are met: a 2×2 variance and squared error with the same layout, sorted by the stable sort -/
example : (ssCreateSplitMem contiguous stableSort (ssCreateSplitMem contiguous stableSort memT ⟨0, eC.pos⟩ eC 2 none).2
      ⟨0, eC.pos⟩ eC 2 none).1 = (ssCreateSplitMem contiguous stableSort memT ⟨0, eC.pos⟩ eC 2 none).1 := by
  have hin : ∀ b < 2, Fits memT ⟨b, eC.pos⟩ := by
    intro b hb
    refine ⟨by simpa [memT] using hb, ?_, by show eC.pos.data.Nodup; decide⟩
    intro p hp
    simp only [eC, List.mem_cons, List.not_mem_nil, or_false] at hp
    have hb' : b = 0 ∨ b = 1 := by omega
    rcases hb' with rfl | rfl <;> rcases hp with rfl | rfl | rfl | rfl <;> exact ⟨_, rfl, by decide⟩
  exact C100_again_partial contiguous (fun c l => (stableSort_spec c l).1) (fun c l => (stableSort_spec c l).2)
    (hin 0 (by omega)) (hin 1 (by omega)) (Or.inl (by decide)) rfl 2 2 none

/-- the call of the theorem above does sort: the squared errors of the caller end up in another order -/
example : ((ssCreateSplitMem contiguous stableSort memT ⟨0, eC.pos⟩ eC 2 none).2.read eC).data =
    [some 10, some 30, some 20, some 40] := by decide +kernel

end Props
