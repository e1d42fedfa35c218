import Verif.Lemmas.Average
import Verif.Lemmas.Decomp
import Mathlib.Algebra.Order.Ring.Rat
import Mathlib.Data.Rat.Floor

/-!
# Averaged metrics: C07, C08, C27, C61, C62 (averages)
-/

set_option linter.unusedSectionVars false

namespace Props
open Np NDArr Spec Model Lemmas

variable {K : Type} [Field K] [LinearOrder K] [IsStrictOrderedRing K] [FloorSemiring K]

/-- the averaging branch of `boot_or_avg` -/
theorem bootOrAvg_none (skip : Bool) (axes : Option (List Int)) (reps : Nat) (conf : K)
    (draw : Nat → Nat → Nat → Nat) (m : NDArr (Fl K)) (h : OptOK m.shape.length axes) :
    ∃ r, bootOrAvg skip axes none reps conf draw m = .ok r ∧
      r.shape = dropAxes (nums m.shape.length axes) m.shape ∧
      ∀ k, InB (dropAxes (nums m.shape.length axes) m.shape) k →
        r.get k = meanOf skip (fiber m (nums m.shape.length axes) k) :=
  avg_spec skip m h

/-! ### C62: what is averaged -/

/-- **C62**, averaging: at every kept position the averaged metric is the mean of the values present
there (missing if none is; without skipping, missing as soon as one is). -/
theorem C62_average_partial (skip : Bool) (axes : Option (List Int)) (reps : Nat) (conf : K)
    (draw : Nat → Nat → Nat → Nat) (m : NDArr (Fl K)) (h : OptOK m.shape.length axes) :
    ∃ r, bootOrAvg skip axes none reps conf draw m = .ok r ∧
      r.shape = dropAxes (nums m.shape.length axes) m.shape ∧
      ∀ k, InB (dropAxes (nums m.shape.length axes) m.shape) k →
        IsAvg skip (fiber m (nums m.shape.length axes) k) (r.get k) := by
  obtain ⟨r, h1, h2, h3⟩ := bootOrAvg_none skip axes reps conf draw m h
  exact ⟨r, h1, h2, fun k hk => by rw [h3 k hk]; exact meanOf_isAvg _ _⟩

/-- what `error`, `ab_error` and `sq_error` return without bootstrapping, in terms of the pairs of each
position: `g` is the identity, the absolute value or the square. -/
theorem errors_spec (g : K → K) (skip : Bool) (axes : Option (List Int)) (reps : Nat) (conf : K)
    (draw : Nat → Nat → Nat → Nat) (f o : NDArr (Fl K)) (hsh : f.shape = o.shape)
    (h : OptOK f.shape.length axes) :
    ∃ d r, zipWith Fl.sub f o = .ok d ∧
      bootOrAvg skip axes none reps conf draw (d.map fun x => x.map g) = .ok r ∧
      r.shape = dropAxes (nums f.shape.length axes) f.shape ∧
      ∀ k, InB (dropAxes (nums f.shape.length axes) f.shape) k →
        r.get k = (if (skip = false ∧ ∃ p ∈ pairsAt f o (nums f.shape.length axes) k,
            p.1 = none ∨ p.2 = none) ∨ complete (pairsAt f o (nums f.shape.length axes) k) = []
          then none
          else some (avg ((complete (pairsAt f o (nums f.shape.length axes) k)).map
            fun p => g (p.1 - p.2)))) := by
  obtain ⟨d, hd, hds, -⟩ := fiber_zipWith Fl.sub f o [] [] hsh
  have h' : OptOK (d.map fun x => x.map g).shape.length axes := by simpa [hds] using h
  obtain ⟨r, h1, h2, h3⟩ := C62_average_partial skip axes reps conf draw (d.map fun x => x.map g) h'
  rw [shape_map, hds] at h2 h3
  refine ⟨d, r, hd, h1, h2, ?_⟩
  intro k hk
  have h4 := h3 k hk
  obtain ⟨d', hd', -, hdf⟩ := fiber_zipWith Fl.sub f o (nums f.shape.length axes) k hsh
  rw [hd] at hd'
  cases hd'
  rw [fiber_map, hdf] at h4
  unfold IsAvg at h4
  simp only [none_mem_map, none_mem_sub, present_map, present_sub, List.map_eq_nil_iff] at h4
  split at h4
  · rename_i hc; rw [if_pos hc]; exact h4
  · rename_i hc; rw [if_neg hc, h4, List.map_map]; rfl

/-- **C62**: with NaN skipping, a pair with a missing forecast or observation contributes nothing to
`error`, `ab_error` and `sq_error`. -/
theorem C62_errors_partial (axes : Option (List Int)) (reps : Nat) (conf : K)
    (draw : Nat → Nat → Nat → Nat) (f o : NDArr (Fl K)) (hsh : f.shape = o.shape)
    (h : OptOK f.shape.length axes) :
    ∃ e a q, (errorArr f o >>= bootOrAvg true axes none reps conf draw) = .ok e ∧
      (abErrorArr f o >>= bootOrAvg true axes none reps conf draw) = .ok a ∧
      (sqErrorArr f o >>= bootOrAvg true axes none reps conf draw) = .ok q ∧
      ∀ k, InB (dropAxes (nums f.shape.length axes) f.shape) k →
        let P := complete (pairsAt f o (nums f.shape.length axes) k)
        (P = [] → e.get k = none ∧ a.get k = none ∧ q.get k = none) ∧
        (P ≠ [] → e.get k = some (avg (P.map fun p => p.1 - p.2)) ∧
          a.get k = some (avg (P.map fun p => |p.1 - p.2|)) ∧
          q.get k = some (avg (P.map fun p => (p.1 - p.2) ^ 2))) := by
  obtain ⟨d, e, d1, e1, e2, e3⟩ := errors_spec id true axes reps conf draw f o hsh h
  obtain ⟨d', a, d2, a1, a2, a3⟩ := errors_spec (fun x => |x|) true axes reps conf draw f o hsh h
  rw [d1] at d2; cases d2
  obtain ⟨d'', q, d3, q1, q2, q3⟩ := errors_spec (fun x => x * x) true axes reps conf draw f o hsh h
  rw [d1] at d3; cases d3
  refine ⟨e, a, q, ?_, ?_, ?_, ?_⟩
  · unfold errorArr
    rw [d1]
    simp only [bind, Except.bind]
    rw [← e1]
    congr 1
    refine ext' (by rfl) ?_
    simp [NDArr.map]
  · unfold abErrorArr; rw [d1]; exact a1
  · unfold sqErrorArr; rw [d1]; exact q1
  · intro k hk P
    have e4 := e3 k hk
    have a4 := a3 k hk
    have q4 := q3 k hk
    constructor
    · intro hP
      rw [if_pos (Or.inr hP)] at e4 a4 q4
      exact ⟨e4, a4, q4⟩
    · intro hP
      have hc : ¬ ((true = false ∧ ∃ p ∈ pairsAt f o (nums f.shape.length axes) k,
          p.1 = none ∨ p.2 = none) ∨ complete (pairsAt f o (nums f.shape.length axes) k) = []) := by
        rintro (⟨h, -⟩ | h)
        · cases h
        · exact hP h
      rw [if_neg hc] at e4 a4 q4
      refine ⟨e4, a4, ?_⟩
      rw [q4]
      congr 2
      apply List.map_congr_left
      intro p _
      ring

/-! ### C08 -/

/-- **C08.** For the same data and averaging axes (any legal choice, with or without NaN skipping):
`rmse ≥ ab_error ≥ |error|`, `sq_error ≥ 0` and `rmse² = sq_error`; the four are missing together. -/
theorem C08_error_inequalities (s : K → K) (hs : IsSqrt s) (skip : Bool) (axes : Option (List Int))
    (reps : Nat) (conf : K) (draw : Nat → Nat → Nat → Nat) (f o : NDArr (Fl K))
    (hsh : f.shape = o.shape) (h : OptOK f.shape.length axes) :
    ∃ e a q r, (errorArr f o >>= bootOrAvg skip axes none reps conf draw) = .ok e ∧
      (abErrorArr f o >>= bootOrAvg skip axes none reps conf draw) = .ok a ∧
      (sqErrorArr f o >>= bootOrAvg skip axes none reps conf draw) = .ok q ∧
      rmse s skip axes none reps conf draw f o = .ok r ∧
      ∀ k, InB (dropAxes (nums f.shape.length axes) f.shape) k →
        (e.get k = none ∧ a.get k = none ∧ q.get k = none ∧ r.get k = none) ∨
        ∃ e' a' q' r', e.get k = some e' ∧ a.get k = some a' ∧ q.get k = some q' ∧
          r.get k = some r' ∧ |e'| ≤ a' ∧ a' ≤ r' ∧ 0 ≤ q' ∧ r' * r' = q' := by
  obtain ⟨d, e, d1, e1, e2, e3⟩ := errors_spec id skip axes reps conf draw f o hsh h
  obtain ⟨d', a, d2, a1, a2, a3⟩ := errors_spec (fun x => |x|) skip axes reps conf draw f o hsh h
  rw [d1] at d2; cases d2
  obtain ⟨d'', q, d3, q1, q2, q3⟩ := errors_spec (fun x => x * x) skip axes reps conf draw f o hsh h
  rw [d1] at d3; cases d3
  have hq : (sqErrorArr f o >>= bootOrAvg skip axes none reps conf draw) = .ok q := by
    unfold sqErrorArr; rw [d1]; exact q1
  refine ⟨e, a, q, q.map (Fl.sqrt s), ?_, ?_, hq, ?_, ?_⟩
  · unfold errorArr
    rw [d1]
    simp only [bind, Except.bind]
    rw [← e1]
    congr 1
    refine ext' (by rfl) ?_
    simp [NDArr.map]
  · unfold abErrorArr; rw [d1]; exact a1
  · unfold rmse
    cases hm : sqErrorArr f o with
    | error x => rw [hm] at hq; cases hq
    | ok m =>
      rw [hm] at hq
      simp only [bind, Except.bind] at hq ⊢
      rw [hq]; rfl
  · intro k hk
    have e4 := e3 k hk
    have a4 := a3 k hk
    have q4 := q3 k hk
    rw [get_map _ _ (by rw [q2]; exact hk)]
    split at e4
    · rename_i hc
      rw [if_pos hc] at a4 q4
      left
      exact ⟨e4, a4, q4, by rw [q4]; rfl⟩
    · rename_i hc
      rw [if_neg hc] at a4 q4
      right
      rw [not_or] at hc
      set P := complete (pairsAt f o (nums f.shape.length axes) k) with hP
      set D := P.map fun p => p.1 - p.2 with hD
      have hDne : D ≠ [] := by rw [hD]; simpa using hc.2
      have hq' : avg (P.map fun p => (p.1 - p.2) * (p.1 - p.2)) = avg (D.map fun x => x * x) := by
        rw [hD, List.map_map]; rfl
      have ha' : avg (P.map fun p => |p.1 - p.2|) = avg (D.map fun x => |x|) := by
        rw [hD, List.map_map]; rfl
      have hq0 : 0 ≤ avg (D.map fun x => x * x) := avg_nonneg (by
        intro y hy
        obtain ⟨x, _, rfl⟩ := List.mem_map.1 hy
        exact mul_self_nonneg _)
      have ha0 : 0 ≤ avg (D.map fun x => |x|) := avg_nonneg (by
        intro y hy
        obtain ⟨x, _, rfl⟩ := List.mem_map.1 hy
        exact abs_nonneg _)
      rw [ha'] at a4
      rw [hq'] at q4
      refine ⟨avg D, _, _, s (avg (D.map fun x => x * x)), e4, a4, q4, ?_, abs_avg_le D, ?_, hq0,
        hs.sq _ hq0⟩
      · rw [q4, Fl.sqrt, if_pos hq0]
      · have h1 := avg_sq_le (l := D.map fun x => |x|) (by simpa using hDne)
        have h2 : ((D.map fun x => |x|).map fun x => x * x) = D.map fun x => x * x := by
          rw [List.map_map]
          apply List.map_congr_left
          intro x _
          exact abs_mul_abs_self x
        rw [h2] at h1
        have h3 := hs.sq _ hq0
        have h4 := hs.nonneg _ hq0
        by_contra hlt
        push Not at hlt
        nlinarith

/-! ### C07 -/

/-- **C07.** Without missing values, averaging over all axes equals averaging the per-position
averages, whatever the averaging axes. -/
theorem C07_average_of_averages (skip : Bool) (axes : Option (List Int)) (reps : Nat) (conf : K)
    (draw : Nat → Nat → Nat → Nat) (m : NDArr (Fl K)) (h : OptOK m.shape.length axes)
    (hnn : none ∉ m.data) (hne : m.data ≠ []) :
    ∃ r t, bootOrAvg skip axes none reps conf draw m = .ok r ∧
      bootOrAvg skip none none reps conf draw m = .ok t ∧
      bootOrAvg skip none none reps conf draw r = .ok t ∧ t.shape = [] ∧
      t.get [] = some (avg (present m.data)) := by
  obtain ⟨r, r1, r2, r3⟩ := C62_average_partial skip axes reps conf draw m h
  obtain ⟨t, t1, t2, t3⟩ := C62_average_partial skip none reps conf draw m trivial
  obtain ⟨u, u1, u2, u3⟩ := C62_average_partial skip none reps conf draw r trivial
  rw [show nums m.shape.length none = List.range m.shape.length from rfl, dropAxes_all] at t2 t3
  rw [show nums r.shape.length none = List.range r.shape.length from rfl, dropAxes_all] at u2 u3
  set A := nums m.shape.length axes with hA
  obtain ⟨v, hv⟩ := exists_map_some hnn
  have hvne : v ≠ [] := by rintro rfl; exact hne hv
  have hpr : present m.data = v := by unfold present; rw [hv, filterMap_id_map_some]
  have hget : ∀ i, InB m.shape i → ∃ x, m.get i = some x := by
    intro i hi
    have : m.get i ∈ m.data := by
      rw [data_eq m]; exact List.mem_map.2 ⟨i, mem_allIdx.2 hi, rfl⟩
    cases hx : m.get i with
    | none => rw [hx] at this; exact absurd this hnn
    | some x => exact ⟨x, rfl⟩
  set g : List Nat → K := fun i => (m.get i).getD 0 with hg
  have hgs : ∀ i, InB m.shape i → m.get i = some (g i) := by
    intro i hi
    obtain ⟨x, hx⟩ := hget i hi
    simp [hg, hx]
  have hvg : v = (allIdx m.shape).map g := by
    have h1 : v.map some = ((allIdx m.shape).map g).map some := by
      rw [← hv, data_eq m, List.map_map]
      apply List.map_congr_left
      intro i hi
      rw [hgs i (mem_allIdx.1 hi)]; rfl
    exact List.map_injective_iff.2 (Option.some_injective K) h1
  have hprod : m.shape.prod ≠ 0 := by
    rw [← m.wf]
    intro h0
    exact hne (List.length_eq_zero_iff.1 h0)
  have hpd := prod_take_drop m.shape A
  have hD0 : (dropAxes A m.shape).prod ≠ 0 := by
    intro h0; rw [h0, zero_mul] at hpd; exact hprod hpd
  have hT0 : (takeAxes A m.shape).prod ≠ 0 := by
    intro h0; rw [h0, mul_zero] at hpd; exact hprod hpd
  have hT0' : ((takeAxes A m.shape).prod : K) ≠ 0 := by exact_mod_cast hT0
  have hD0' : ((dropAxes A m.shape).prod : K) ≠ 0 := by exact_mod_cast hD0
  -- the per-position averages
  have hr : ∀ k, InB (dropAxes A m.shape) k →
      r.get k = some (((fiberIdx m.shape A k).map g).sum / ((takeAxes A m.shape).prod : K)) := by
    intro k hk
    have h1 := r3 k hk
    have h2 : fiber m A k = ((fiberIdx m.shape A k).map g).map some := by
      unfold fiber
      rw [List.map_map]
      apply List.map_congr_left
      intro i hi
      rw [hgs i (mem_fiberIdx.1 hi).1]; rfl
    rw [h2] at h1
    unfold IsAvg present at h1
    rw [filterMap_id_map_some] at h1
    have hlen := length_fiberIdx hk
    rw [if_neg] at h1
    · rw [h1]
      unfold avg
      rw [List.length_map, hlen]
    · rintro (⟨-, hh⟩ | hh)
      · simp at hh
      · rw [List.map_eq_nil_iff] at hh
        rw [hh] at hlen
        exact hT0 hlen.symm
  have ht : t.get [] = some (avg v) := by
    have h1 := t3 [] List.Forall₂.nil
    rw [fiber_all] at h1
    unfold IsAvg at h1
    rw [hpr, if_neg] at h1
    · exact h1
    · rintro (⟨-, hh⟩ | hh)
      · exact hnn hh
      · exact hvne hh
  have hu : u.get [] = some (avg v) := by
    have h1 := u3 [] List.Forall₂.nil
    rw [fiber_all] at h1
    have hrd : r.data = ((allIdx (dropAxes A m.shape)).map fun k =>
        ((fiberIdx m.shape A k).map g).sum / ((takeAxes A m.shape).prod : K)).map some := by
      rw [data_eq r, r2, List.map_map]
      apply List.map_congr_left
      intro k hk
      exact hr k (mem_allIdx.1 hk)
    rw [hrd] at h1
    unfold IsAvg present at h1
    rw [filterMap_id_map_some] at h1
    rw [if_neg] at h1
    · rw [h1]
      congr 1
      unfold avg
      rw [List.length_map, length_allIdx, hvg, List.length_map, length_allIdx]
      have hsum := sum_by_key (allIdx m.shape) (allIdx (dropAxes A m.shape)) (nodup_allIdx _)
        (dropAxes A) (fun i hi => mem_allIdx.2 (inB_dropAxes A (mem_allIdx.1 hi))) g
      rw [hsum]
      have e1 : ((allIdx (dropAxes A m.shape)).map fun k =>
          ((fiberIdx m.shape A k).map g).sum / ((takeAxes A m.shape).prod : K)) =
          (allIdx (dropAxes A m.shape)).map fun k =>
          ((fiberIdx m.shape A k).map g).sum * (1 / ((takeAxes A m.shape).prod : K)) := by
        apply List.map_congr_left; intro k _; ring
      rw [e1, List.sum_map_mul_right]
      unfold fiberIdx
      rw [hpd]
      push_cast
      field_simp
    · rintro (⟨-, hh⟩ | hh)
      · simp at hh
      · rw [List.map_eq_nil_iff] at hh
        have := congrArg List.length hh
        rw [length_allIdx] at this
        exact hD0 this
  have htu : u = t := by
    apply ext_get (by rw [u2, t2])
    intro i hi
    rw [u2] at hi
    cases hi
    rw [hu, ht]
  subst htu
  exact ⟨r, u, r1, t1, u1, u2, by rw [ht, hpr]⟩

/-! ### C27 -/

theorem fsum_map_some {α : Type} (g : α → K) (l : List α) :
    fsum (l.map fun x => some (g x)) = some (l.map g).sum := by
  have : (l.map fun x => some (g x)) = (l.map g).map some := by rw [List.map_map]; rfl
  rw [this, fsum_some]

/-- value of the reliability index on a histogram of numbers with non-zero total -/
theorem reliabilityIndex_value (l : List K) (h : l.sum ≠ 0) :
    reliabilityIndex (l.map some) =
      some ((l.zip (List.range l.length)).map fun p =>
        |p.1 / l.sum - 1 / ((p.2 + 2 : Nat) : K)|).sum := by
  have hz : ∀ (m : List K), fsum (((m.map some).zip (List.range (m.map some).length)).map fun p =>
      Fl.abs (Fl.sub p.1 (some (1 / ((p.2 + 2 : Nat) : K))))) =
      some ((m.zip (List.range m.length)).map fun p => |p.1 - 1 / ((p.2 + 2 : Nat) : K)|).sum := by
    intro m
    rw [List.length_map, List.zip_map_left, List.map_map, ← fsum_map_some]
    rfl
  unfold reliabilityIndex
  simp only [fsum_some]
  by_cases h1 : l.sum = 1
  · rw [if_pos (by rw [h1]), hz, h1]
    simp
  · rw [if_neg (by simpa using h1)]
    have : (l.map some).map (fun x => Fl.div x (some l.sum)) = (l.map fun x => x / l.sum).map some := by
      rw [List.map_map, List.map_map]
      apply List.map_congr_left
      intro x _
      simp [Fl.div, h]
    rw [this, hz, List.length_map, List.zip_map_left, List.map_map]
    rfl

/-- **C27**: the index depends on the histogram only through its frequencies. -/
theorem C27_scale_invariant_partial (l : List K) (c : K) (hc : c ≠ 0) (h : l.sum ≠ 0) :
    reliabilityIndex ((l.map fun x => c * x).map some) = reliabilityIndex (l.map some) := by
  have hs : (l.map fun x => c * x).sum = c * l.sum := by rw [List.sum_map_mul_left]; simp
  rw [reliabilityIndex_value l h, reliabilityIndex_value _ (by rw [hs]; exact mul_ne_zero hc h), hs,
    List.length_map, List.zip_map_left, List.map_map]
  congr 3
  funext p
  simp only [Function.comp, Prod.map]
  rw [mul_div_mul_left _ _ hc]
  rfl

/-- **C27**: the index is a non-negative number. -/
theorem C27_nonneg_partial (l : List K) (h : l.sum ≠ 0) :
    ∃ v, reliabilityIndex (l.map some) = some v ∧ 0 ≤ v := by
  refine ⟨_, reliabilityIndex_value l h, List.sum_nonneg ?_⟩
  intro y hy
  obtain ⟨x, _, rfl⟩ := List.mem_map.1 hy
  exact abs_nonneg _

/-- **C27** is false in its last clause, and for every number of bins: the index of a flat histogram
is never zero (the code compares bin `i` with `1/(i+2)` instead of `1/n`). -/
theorem C27_false (n : Nat) (hn : 1 ≤ n) (c : K) (hc : c ≠ 0) :
    ∃ v, reliabilityIndex ((List.replicate n c).map some) = some v ∧ 0 < v := by
  have hn0 : (n : K) ≠ 0 := by exact_mod_cast (by omega : n ≠ 0)
  have hs : (List.replicate n c).sum = (n : K) * c := by simp
  have hne : (List.replicate n c).sum ≠ 0 := by rw [hs]; exact mul_ne_zero hn0 hc
  refine ⟨_, reliabilityIndex_value _ hne, ?_⟩
  rw [hs]
  set L := ((List.replicate n c).zip (List.range (List.replicate n c).length)).map fun p =>
    |p.1 / ((n : K) * c) - 1 / ((p.2 + 2 : Nat) : K)| with hL
  have hnn : ∀ y ∈ L, 0 ≤ y := by
    intro y hy
    obtain ⟨x, _, rfl⟩ := List.mem_map.1 hy
    exact abs_nonneg _
  have hent : ∀ i, i < n → |1 / (n : K) - 1 / ((i + 2 : Nat) : K)| ∈ L := by
    intro i hi
    rw [hL, List.mem_map]
    refine ⟨(c, i), ?_, ?_⟩
    · rw [List.mem_iff_getElem?]
      exact ⟨i, by simp [hi]⟩
    · simp only
      congr 2
      field_simp
  have hpos : ∃ y ∈ L, 0 < y := by
    by_cases h2 : n = 2
    · refine ⟨_, hent 1 (by omega), ?_⟩
      rw [abs_pos, h2]
      norm_num
    · refine ⟨_, hent 0 (by omega), ?_⟩
      rw [abs_pos, sub_ne_zero]
      intro e
      rw [div_eq_div_iff hn0 (by norm_num)] at e
      apply h2
      have : ((0 + 2 : Nat) : K) = (n : K) := by simpa using e
      exact_mod_cast this.symm
  obtain ⟨y, hy, hy0⟩ := hpos
  have := List.single_le_sum (l := L) (fun x hx => hnn x hx) y hy
  linarith

/-! ### C61 -/

theorem fold_max (l : List K) (x : K) :
    ∃ M, (l.map some).foldl Fl.max (some x) = some M ∧ M ∈ x :: l ∧ ∀ v ∈ x :: l, v ≤ M := by
  induction l generalizing x with
  | nil => exact ⟨x, rfl, by simp, by simp⟩
  | cons a l ih =>
    obtain ⟨M, h1, h2, h3⟩ := ih (max x a)
    refine ⟨M, h1, ?_, ?_⟩
    · rcases List.mem_cons.1 h2 with h | h
      · rcases max_choice x a with e | e <;> rw [e] at h <;> simp [h]
      · simp [h]
    · intro v hv
      have h4 := h3 (max x a) (by simp)
      rcases List.mem_cons.1 hv with rfl | hv
      · exact (le_max_left _ _).trans h4
      · rcases List.mem_cons.1 hv with rfl | hv
        · exact (le_max_right _ _).trans h4
        · exact h3 v (by simp [hv])

theorem fold_min (l : List K) (x : K) :
    ∃ M, (l.map some).foldl Fl.min (some x) = some M ∧ M ∈ x :: l ∧ ∀ v ∈ x :: l, M ≤ v := by
  induction l generalizing x with
  | nil => exact ⟨x, rfl, by simp, by simp⟩
  | cons a l ih =>
    obtain ⟨M, h1, h2, h3⟩ := ih (min x a)
    refine ⟨M, h1, ?_, ?_⟩
    · rcases List.mem_cons.1 h2 with h | h
      · rcases min_choice x a with e | e <;> rw [e] at h <;> simp [h]
      · simp [h]
    · intro v hv
      have h4 := h3 (min x a) (by simp)
      rcases List.mem_cons.1 hv with rfl | hv
      · exact h4.trans (min_le_left _ _)
      · rcases List.mem_cons.1 hv with rfl | hv
        · exact h4.trans (min_le_right _ _)
        · exact h3 v (by simp [hv])

/-- the population variance of a list of numbers -/
theorem npVar_some (l : List K) (h : l ≠ []) :
    npVar (l.map some) = some (avg (l.map fun x => (x - avg l) ^ 2)) := by
  unfold npVar
  rw [mean_some l h]
  have : ((l.map some).map fun x => Fl.sq (Fl.sub x (some (l.sum / (l.length : K))))) =
      (l.map fun x => (x - avg l) ^ 2).map some := by
    rw [List.map_map, List.map_map]
    apply List.map_congr_left
    intro x _
    simp [Fl.sq, Fl.sub, Fl.lift2, avg, pow_two]
  rw [this, mean_some _ (by simpa using h)]
  unfold avg
  simp

/-- largest and smallest of the present members under either NaN policy -/
theorem extremes (skip : Bool) (l : List (Fl K)) (h : skip = true ∨ none ∉ l) (hp : present l ≠ []) :
    ∃ M m, (if skip then nanMax else npMax) l = .ok (some M) ∧
      (if skip then nanMin else npMin) l = .ok (some m) ∧
      M ∈ present l ∧ (∀ v ∈ present l, v ≤ M) ∧ m ∈ present l ∧ ∀ v ∈ present l, m ≤ v := by
  cases hv : present l with
  | nil => exact absurd hv hp
  | cons x v =>
    obtain ⟨M, m1, m2, m3⟩ := fold_max v x
    obtain ⟨m, n1, n2, n3⟩ := fold_min v x
    refine ⟨M, m, ?_, ?_, m2, m3, n2, n3⟩
    · cases skip with
      | true =>
        simp only [if_true, nanMax]
        have hl : l ≠ [] := by rintro rfl; cases hv
        rw [if_neg hl, filter_isSome]
        unfold present at hv
        rw [hv]
        simp only [List.map_cons]
        rw [m1]
      | false =>
        obtain ⟨w, rfl⟩ := exists_map_some (h.resolve_left (by simp))
        unfold present at hv
        rw [filterMap_id_map_some] at hv
        subst hv
        simp only [Bool.false_eq_true, if_false, List.map_cons, npMax]
        rw [m1]
    · cases skip with
      | true =>
        simp only [if_true, nanMin]
        have hl : l ≠ [] := by rintro rfl; cases hv
        rw [if_neg hl, filter_isSome]
        unfold present at hv
        rw [hv]
        simp only [List.map_cons]
        rw [n1]
      | false =>
        obtain ⟨w, rfl⟩ := exists_map_some (h.resolve_left (by simp))
        unfold present at hv
        rw [filterMap_id_map_some] at hv
        subst hv
        simp only [Bool.false_eq_true, if_false, List.map_cons, npMin]
        rw [n1]

/-- Popoviciu: variance at most a quarter of the squared range -/
theorem popoviciu {l : List K} (hl : l ≠ []) {M m : K} (hM : ∀ v ∈ l, v ≤ M) (hm : ∀ v ∈ l, m ≤ v) :
    4 * avg (l.map fun x => (x - avg l) ^ 2) ≤ (M - m) ^ 2 := by
  have hpos : (0 : K) < l.length := by exact_mod_cast List.length_pos_iff.2 hl
  have h1 : 0 ≤ (l.map fun v => (M - v) * (v - m)).sum := List.sum_nonneg (by
    intro y hy
    obtain ⟨v, hv, rfl⟩ := List.mem_map.1 hy
    exact mul_nonneg (by linarith [hM v hv]) (by linarith [hm v hv]))
  have h2 : ∀ q : List K, (q.map fun v => (M - v) * (v - m)).sum =
      (M + m) * q.sum - (q.map fun x => x * x).sum - (q.length : K) * (M * m) := by
    intro q
    induction q with
    | nil => simp
    | cons a q ih => simp only [List.map_cons, List.sum_cons, List.length_cons, ih]; push_cast; ring
  rw [h2] at h1
  have h3 := sum_sq_dev l (avg l)
  have hs : l.sum = (l.length : K) * avg l := by unfold avg; field_simp
  have h4 : avg (l.map fun x => (x - avg l) ^ 2) =
      (l.map fun x => (x - avg l) * (x - avg l)).sum / (l.length : K) := by
    conv_lhs => rw [avg, List.length_map]
    simp only [pow_two]
  rw [h4, h3, ← mul_div_assoc, div_le_iff₀ hpos]
  rw [hs] at h1 ⊢
  nlinarith [mul_nonneg hpos.le (sq_nonneg (M + m - 2 * avg l))]

/-- **C61.** At every position whose members are all present, `variance()` is the population variance
(non-negative, zero exactly when all members agree), `spread()` is the largest minus the smallest
member, non-negative, and `4 variance ≤ spread²`. -/
theorem C61_variance_spread (skip : Bool) (f : NDArr (Fl K)) (ax : Int) (hax : AxisOK f.shape.length ax)
    (hm : f.shape.getD (axisNum f.shape.length ax) 0 ≠ 0) :
    let A := [axisNum f.shape.length ax]
    ∃ var spr, ensVariance f ax = .ok var ∧ ensSpread skip f ax = .ok spr ∧
      var.shape = dropAxes A f.shape ∧ spr.shape = dropAxes A f.shape ∧
      ∀ k, InB (dropAxes A f.shape) k → none ∉ fiber f A k →
        ∃ v s M m, var.get k = some v ∧ spr.get k = some s ∧
          v = avg ((present (fiber f A k)).map fun x => (x - avg (present (fiber f A k))) ^ 2) ∧
          0 ≤ v ∧ (v = 0 ↔ ∀ x ∈ fiber f A k, ∀ y ∈ fiber f A k, x = y) ∧
          some M ∈ fiber f A k ∧ some m ∈ fiber f A k ∧
          (∀ x, some x ∈ fiber f A k → m ≤ x ∧ x ≤ M) ∧ s = M - m ∧ 0 ≤ s ∧ 4 * v ≤ s ^ 2 := by
  intro A
  have hok : OptOK f.shape.length (some [ax]) := ⟨by simpa using hax, by simp⟩
  have hlt := axisNum_lt hax
  have hfl : ∀ k, InB (dropAxes A f.shape) k → fiber f A k ≠ [] := by
    intro k hk h0
    have h1 := length_fiberIdx hk
    have h2 : (takeAxes A f.shape).prod = f.shape.getD (axisNum f.shape.length ax) 0 := by
      have : (List.range f.shape.length).filter (fun a => a ∈ A) = [axisNum f.shape.length ax] := by
        have : ∀ a, (a ∈ A) ↔ a = axisNum f.shape.length ax := by simp [A]
        simp only [this]
        have hp := filter_mem_range_eq (n := f.shape.length) (S := [axisNum f.shape.length ax])
          (by simp) (by simpa using hlt)
        simpa using hp
      unfold takeAxes
      rw [this]; simp
    rw [h2] at h1
    unfold fiber at h0
    rw [List.map_eq_nil_iff] at h0
    rw [h0] at h1
    exact hm h1.symm
  obtain ⟨var, v1, v2, v3⟩ := reduceAxes_spec npVar f hok
  have hmaxok : ∀ l : List (Fl K), l ≠ [] → ∃ v, (if skip then nanMax else npMax) l = .ok v := by
    intro l hl
    cases skip with
    | true =>
      simp only [if_true, nanMax, if_neg hl]
      split <;> exact ⟨_, rfl⟩
    | false =>
      cases l with
      | nil => exact absurd rfl hl
      | cons a l => exact ⟨_, rfl⟩
  have hminok : ∀ l : List (Fl K), l ≠ [] → ∃ v, (if skip then nanMin else npMin) l = .ok v := by
    intro l hl
    cases skip with
    | true =>
      simp only [if_true, nanMin, if_neg hl]
      split <;> exact ⟨_, rfl⟩
    | false =>
      cases l with
      | nil => exact absurd rfl hl
      | cons a l => exact ⟨_, rfl⟩
  obtain ⟨hi, hi1⟩ := reduceAxesE_total (if skip then nanMax else npMax) f hok
    (fun k hk => hmaxok _ (hfl k hk))
  obtain ⟨lo, lo1⟩ := reduceAxesE_total (if skip then nanMin else npMin) f hok
    (fun k hk => hminok _ (hfl k hk))
  obtain ⟨-, hi2, hi3⟩ := reduceAxesE_spec _ f hi1
  obtain ⟨-, lo2, lo3⟩ := reduceAxesE_spec _ f lo1
  have hspr : ensSpread skip f ax = .ok (ofFn hi.shape fun i => Fl.sub (hi.get i) (lo.get i)) := by
    unfold ensSpread
    rw [hi1, lo1]
    exact zipWith_ok Fl.sub hi lo (by rw [hi2, lo2])
  refine ⟨var, _, v1, hspr, v2, hi2, ?_⟩
  intro k hk hn
  obtain ⟨w, hw⟩ := exists_map_some hn
  have hwne : w ≠ [] := by rintro rfl; exact hfl k hk hw
  have hpr : present (fiber f A k) = w := by unfold present; rw [hw, filterMap_id_map_some]
  obtain ⟨M, m, e1, e2, e3, e4, e5, e6⟩ := extremes skip (fiber f A k) (Or.inr hn)
    (by rw [hpr]; exact hwne)
  rw [hpr] at e3 e4 e5 e6 ⊢
  have hvk := v3 k hk
  rw [show nums f.shape.length (some [ax]) = A from rfl, hw, npVar_some w hwne] at hvk
  have hik := hi3 k hk
  have hlk := lo3 k hk
  rw [show nums f.shape.length (some [ax]) = A from rfl] at hik hlk
  rw [e1] at hik
  rw [e2] at hlk
  simp only [Except.ok.injEq] at hik hlk
  have hmM : m ≤ M := e6 M e3
  refine ⟨_, M - m, M, m, hvk, ?_, rfl, ?_, ?_, ?_, ?_, ?_, rfl, by linarith, popoviciu hwne e4 e6⟩
  · rw [get_ofFn _ (by rw [hi2]; exact hk), ← hik, ← hlk]; rfl
  · exact avg_nonneg (by
      intro y hy
      obtain ⟨x, _, rfl⟩ := List.mem_map.1 hy
      exact sq_nonneg _)
  · constructor
    · intro h0
      have hpos : (w.length : K) ≠ 0 := by
        have : 0 < w.length := List.length_pos_iff.2 hwne
        exact_mod_cast this.ne'
      have hsum : (w.map fun x => (x - avg w) ^ 2).sum = 0 := by
        unfold avg at h0
        rw [List.length_map, div_eq_zero_iff] at h0
        exact h0.resolve_right hpos
      have hall : ∀ x ∈ w, x = avg w := by
        intro x hx
        have h1 : ∀ y ∈ w.map fun x => (x - avg w) ^ 2, 0 ≤ y := by
          intro y hy
          obtain ⟨x, _, rfl⟩ := List.mem_map.1 hy
          exact sq_nonneg _
        have h2 := List.single_le_sum h1 _ (List.mem_map.2 ⟨x, hx, rfl⟩)
        rw [hsum] at h2
        have h3 : (x - avg w) ^ 2 = 0 := le_antisymm h2 (sq_nonneg _)
        have := pow_eq_zero_iff (two_ne_zero) |>.1 h3
        linarith
      rw [hw]
      intro x hx y hy
      obtain ⟨x', hx', rfl⟩ := List.mem_map.1 hx
      obtain ⟨y', hy', rfl⟩ := List.mem_map.1 hy
      rw [hall x' hx', hall y' hy']
    · intro hall
      have heq : ∀ x ∈ w, ∀ y ∈ w, x = y := by
        intro x hx y hy
        have := hall (some x) (by rw [hw]; exact List.mem_map.2 ⟨x, hx, rfl⟩) (some y)
          (by rw [hw]; exact List.mem_map.2 ⟨y, hy, rfl⟩)
        simpa using this
      have h1 : (M - m) = 0 := by rw [heq M e3 m e5]; ring
      have h2 := popoviciu hwne e4 e6
      rw [h1] at h2
      have h3 : 0 ≤ avg (w.map fun x => (x - avg w) ^ 2) := avg_nonneg (by
        intro y hy
        obtain ⟨x, _, rfl⟩ := List.mem_map.1 hy
        exact sq_nonneg _)
      have : 4 * avg (w.map fun x => (x - avg w) ^ 2) ≤ 0 := by simpa using h2
      linarith
  · rw [hw]; exact List.mem_map.2 ⟨M, e3, rfl⟩
  · rw [hw]; exact List.mem_map.2 ⟨m, e5, rfl⟩
  · intro x hx
    rw [hw] at hx
    obtain ⟨y, hy, h⟩ := List.mem_map.1 hx
    cases h
    exact ⟨e6 _ hy, e4 _ hy⟩

/-! ### examples -/

example : OptOK [2, 3, 4].length (some [-1, 0]) := ⟨by unfold AxisOK; decide, by decide⟩

example : okAnd (bootOrAvg (K := ℚ) true (some [-1]) none 0 0 (fun _ _ _ => 0)
    ⟨[2, 2], [some 1, none, some 4, some 8], rfl⟩) (fun r => r.data = [some 1, some 6]) = true := by
  decide +kernel

example : okAnd (ensSpread (K := ℚ) false ⟨[2, 2], [some 1, some 5, some 4, some 8], rfl⟩ (-1))
    (fun r => r.data = [some 4, some 4]) = true := by decide +kernel

example : okAnd (ensVariance (K := ℚ) ⟨[2, 2], [some 1, some 5, some 4, some 8], rfl⟩ 0)
    (fun r => r.data = [some (9/4), some (9/4)]) = true := by decide +kernel

end Props
