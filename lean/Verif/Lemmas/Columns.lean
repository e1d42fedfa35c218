import Verif.Lemmas.Axes

/-! Columns of the flattened array are the fibers of the original one. -/

set_option linter.unusedSectionVars false

namespace Lemmas
open Np NDArr Spec Model

variable {α : Type} [Inhabited α]

theorem reshape_ok (a : NDArr α) (s : List Nat) (h : a.shape.prod = s.prod) :
    ∃ b, a.reshape s = .ok b ∧ b.shape = s ∧ b.data = a.data := by
  unfold reshape; rw [dif_pos h]; exact ⟨_, rfl, rfl, rfl⟩

/-- flattening the last block: `a.reshape(*T, prod D)` looked up at corresponding positions -/
theorem get_of_ravel_eq {a b : NDArr α} (hd : b.data = a.data) {i j : List Nat}
    (h : ravel b.shape j = ravel a.shape i) : b.get j = a.get i := by
  unfold NDArr.get; rw [hd, h]

theorem ravel_pair (m n i j : Nat) : ravel [m, n] [i, j] = i * n + j := by
  simp [ravel]

theorem reshapeInfer_flat (a : NDArr α) (T D : List Nat) (hs : a.shape = T ++ D)
    (hD : D.prod ≠ 0) :
    ∃ b, a.reshapeInfer [] [D.prod] = .ok b ∧ b.shape = [T.prod, D.prod] ∧
      ∀ t d, InB T t → InB D d → b.get [ravel T t, ravel D d] = a.get (t ++ d) := by
  have hp : a.shape.prod / ([].prod * [D.prod].prod) = T.prod := by
    simp [hs]
    exact Nat.mul_div_cancel _ (Nat.pos_of_ne_zero hD)
  unfold reshapeInfer
  simp only
  rw [if_neg (by simpa using hD), hp]
  obtain ⟨b, hb, hbs, hbd⟩ := reshape_ok a ([] ++ [T.prod] ++ [D.prod]) (by simp [hs])
  refine ⟨b, hb, by simpa using hbs, ?_⟩
  intro t d ht hd
  apply get_of_ravel_eq hbd
  rw [hbs, hs, ravel_append ht]
  simp [ravel]

theorem reshapeInfer_lead (a : NDArr α) (T D : List Nat) (hs : a.shape = T ++ D)
    (hD : D.prod ≠ 0) :
    ∃ b, a.reshapeInfer [] D = .ok b ∧ b.shape = T.prod :: D ∧
      ∀ t d, InB T t → InB D d → b.get (ravel T t :: d) = a.get (t ++ d) := by
  have hp : a.shape.prod / ([].prod * D.prod) = T.prod := by
    simp [hs]
    exact Nat.mul_div_cancel _ (Nat.pos_of_ne_zero hD)
  unfold reshapeInfer
  simp only
  rw [if_neg (by simpa using hD), hp]
  obtain ⟨b, hb, hbs, hbd⟩ := reshape_ok a ([] ++ [T.prod] ++ D) (by simp [hs])
  refine ⟨b, hb, by simpa using hbs, ?_⟩
  intro t d ht hd
  apply get_of_ravel_eq hbd
  rw [hbs, hs, ravel_append ht]
  simp [ravel]

/-- Walking down a column of the moved-and-flattened array lists the fiber. -/
theorem map_range_fiber {a : NDArr α} {axes k : List Nat} (hk : InB (dropAxes axes a.shape) k)
    (g : Nat → α)
    (hg : ∀ i, InB a.shape i → dropAxes axes i = k →
      g (ravel (takeAxes axes a.shape) (takeAxes axes i)) = a.get i) :
    (List.range (takeAxes axes a.shape).prod).map g = fiber a axes k := by
  rw [← map_ravel_allIdx, ← map_takeAxes_fiberIdx a.shape axes k hk, fiber, List.map_map,
    List.map_map]
  apply List.map_congr_left
  intro i hi
  obtain ⟨h1, h2⟩ := mem_fiberIdx.1 hi
  exact hg i h1 h2

/-! ### which axis lists are good -/

theorem axisNum_inj_nonneg {n : Nat} {l : List Int} (hnn : ∀ x ∈ l, 0 ≤ x) :
    l.map (axisNum n) = l.map Int.toNat := by
  apply List.map_congr_left
  intro x hx
  unfold axisNum
  rw [if_neg (by have := hnn x hx; omega)]

theorem npSortInt_sorted (l : List Int) : (npSortInt l).Pairwise (· ≤ ·) :=
  List.pairwise_insertionSort _ _

theorem goodAxes_nonneg {n : Nat} {axes : List Int} (h : ∀ x ∈ axes, 0 ≤ x ∧ x < n)
    (hnd : axes.Nodup) : GoodAxes n axes := by
  refine ⟨fun x hx => ⟨by have := (h x hx).1; omega, (h x hx).2⟩, ?_⟩
  have hp := npSortInt_perm axes
  have hs := npSortInt_sorted axes
  have hnd' : (npSortInt axes).Nodup := hp.nodup_iff.2 hnd
  rw [List.pairwise_map]
  refine (hs.and hnd').imp_of_mem ?_
  intro a b ha hb ⟨h1, h2⟩
  have h3 := h a (hp.mem_iff.1 ha)
  have h4 := h b (hp.mem_iff.1 hb)
  unfold axisNum
  rw [if_neg (by omega), if_neg (by omega)]
  omega

theorem goodAxes_neg {n : Nat} {axes : List Int} (h : ∀ x ∈ axes, -(n : Int) ≤ x ∧ x < 0)
    (hnd : axes.Nodup) : GoodAxes n axes := by
  refine ⟨fun x hx => ⟨(h x hx).1, by have := (h x hx).2; omega⟩, ?_⟩
  have hp := npSortInt_perm axes
  have hs := npSortInt_sorted axes
  have hnd' : (npSortInt axes).Nodup := hp.nodup_iff.2 hnd
  rw [List.pairwise_map]
  refine (hs.and hnd').imp_of_mem ?_
  intro a b ha hb ⟨h1, h2⟩
  have h3 := h a (hp.mem_iff.1 ha)
  have h4 := h b (hp.mem_iff.1 hb)
  unfold axisNum
  rw [if_pos (by omega), if_pos (by omega)]
  omega

/-- `sample_axis is None` is the list of all axes. -/
theorem goodAxes_all (n : Nat) : GoodAxes n ((List.range n).map Int.ofNat) := by
  apply goodAxes_nonneg
  · intro x hx; simp at hx; obtain ⟨a, ha, rfl⟩ := hx; omega
  · exact List.nodup_range.map (fun a b h => by simpa using h)

theorem axisNum_all (n : Nat) : ((List.range n).map Int.ofNat).map (axisNum n) = List.range n := by
  rw [List.map_map]
  conv_rhs => rw [← List.map_id (List.range n)]
  apply List.map_congr_left
  intro x hx
  simp [axisNum]
  omega

end Lemmas
