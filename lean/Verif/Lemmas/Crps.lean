import Verif.Model.Crps
import Verif.Lemmas.Dist
import Verif.Lemmas.Ensemble

/-! Helper lemmas for the ensemble score. -/

set_option linter.unusedSectionVars false

namespace Model
open Np NDArr Lemmas Spec

variable {K : Type} [Field K] [LinearOrder K] [IsStrictOrderedRing K]

theorem insertIdx_len {β : Type} (l : List β) (x : β) : l.insertIdx l.length x = l ++ [x] := by
  induction l with
  | nil => rfl
  | cons a l ih => simp [ih]

/-- `np.moveaxis(a, ax, -1)` -/
theorem moveaxis_end {α : Type} [Inhabited α] (a : NDArr α) {ax : Int} (hax : AxisOK a.shape.length ax) :
    ∃ c, a.moveaxis ax (-1) = .ok c ∧
      c.shape = a.shape.eraseIdx (axisNum a.shape.length ax) ++ [a.shape.getD (axisNum a.shape.length ax) 0] ∧
      ∀ k j, InB (a.shape.eraseIdx (axisNum a.shape.length ax)) k →
        j < a.shape.getD (axisNum a.shape.length ax) 0 →
        c.get (k ++ [j]) = a.get (k.insertIdx (axisNum a.shape.length ax) j) := by
  have hlt := axisNum_lt hax
  set n := axisNum a.shape.length ax with hn
  have hpos : 0 < a.shape.length := by omega
  have h0 : normAxis a.shape.length (-1) = .ok (a.shape.length - 1) := by
    unfold normAxis
    rw [if_pos (by omega)]
    congr 1
    simp; omega
  have hlen : (a.shape.eraseIdx n).length = a.shape.length - 1 := List.length_eraseIdx_of_lt hlt
  refine ⟨a.transpose (moveOrder a.shape.length n (a.shape.length - 1)), ?_, ?_, ?_⟩
  · unfold moveaxis
    rw [show a.ndim = a.shape.length from rfl, normAxis_ok hax, h0]; rfl
  · rw [shape_transpose, map_moveOrder a.shape rfl hlt, ← hlen, insertIdx_len]
  · intro k j hk hj
    have hi := inB_insert_erase hlt hk hj
    have h1 := get_transpose a (moveOrder_perm hlt (by omega : a.shape.length - 1 < a.shape.length)) hi
    rw [map_moveOrder _ hi.length hlt] at h1
    have hkl : n ≤ k.length := by
      have := hk.length
      rw [hlen] at this
      omega
    rw [eraseIdx_insertIdx', getD_insertIdx_self hkl] at h1
    have hk2 : a.shape.length - 1 = k.length := by rw [hk.length, hlen]
    rw [hk2, insertIdx_len] at h1
    rw [hk2]
    exact h1

theorem inB_snoc {s : List Nat} {m : Nat} {i : List Nat} (h : InB (s ++ [m]) i) :
    ∃ k j, i = k ++ [j] ∧ InB s k ∧ j < m := by
  unfold InB at h
  have hl : i.length = s.length + 1 := by simpa using h.length_eq
  have h1 := List.forall₂_take_append i s [m] h
  have h2 := List.forall₂_drop_append i s [m] h
  have hd : (i.drop s.length).length = 1 := by simp [hl]
  obtain ⟨j, hj⟩ := List.length_eq_one_iff.1 hd
  rw [hj] at h2
  refine ⟨i.take s.length, j, ?_, h1, ?_⟩
  · rw [← hj, List.take_append_drop]
  · simpa using h2

/-- moving the last axis to the end changes nothing -/
theorem moveaxis_end_self {α : Type} [Inhabited α] (a : NDArr α) {ax : Int} (hax : AxisOK a.shape.length ax)
    (hl : axisNum a.shape.length ax = a.shape.length - 1) : a.moveaxis ax (-1) = .ok a := by
  obtain ⟨c, c1, c2, c3⟩ := moveaxis_end a hax
  have hlt := axisNum_lt hax
  rw [hl] at c2 c3
  have hne : a.shape ≠ [] := by intro h; rw [h] at hlt; simp at hlt
  have hsplit : a.shape = a.shape.eraseIdx (a.shape.length - 1) ++ [a.shape.getD (a.shape.length - 1) 0] := by
    conv_lhs => rw [← List.dropLast_append_getLast hne]
    congr 1
    · rw [List.eraseIdx_length_sub_one]
    · rw [List.getLast_eq_getElem, List.getD_eq_getElem?_getD, List.getElem?_eq_getElem]; rfl
  rw [c1]
  congr 1
  apply ext_get (by rw [c2, ← hsplit])
  intro i hi
  rw [c2] at hi
  obtain ⟨k, j, rfl, hk, hj⟩ := inB_snoc hi
  rw [c3 k j hk hj]
  congr 1
  have : a.shape.length - 1 = k.length := by
    rw [hk.length, List.length_eraseIdx_of_lt (by omega)]
  rw [this, insertIdx_len]

/-- the score with the members on the last axis -/
theorem psCrpsEnsemble_last (pt : Fl K → List (Fl K) → Fl K) (o m : NDArr (Fl K)) (M : Nat)
    (hm : m.shape = o.shape ++ [M]) :
    psCrpsEnsemble pt o m (-1) = .ok (ofFn o.shape fun k => pt (o.get k) ((List.range M).map fun j => m.get (k ++ [j]))) := by
  unfold psCrpsEnsemble
  have h1 : o.shape ≠ m.shape := by
    intro h
    have := congrArg List.length h
    rw [hm] at this
    simp at this
  simp only [if_true, pure, Except.pure, bind, Except.bind]
  rw [if_neg h1, if_pos (by rw [hm]; simp)]
  simp [hm]

theorem stack0_ok {α : Type} [Inhabited α] (g : Nat → List Nat → α) (n : Nat) (t : List Nat) (hn : 0 < n) :
    stack0 ((List.range n).map fun i => ofFn t (g i)) =
      .ok (ofFn (n :: t) fun idx => match idx with | [] => default | i :: k => g i k) := by
  obtain ⟨m, rfl⟩ : ∃ m, n = m + 1 := ⟨n - 1, by omega⟩
  have hl : (List.range (m + 1)).map (fun i => ofFn t (g i)) =
      ofFn t (g 0) :: ((List.range m).map fun i => ofFn t (g (i + 1))) := by
    rw [List.range_succ_eq_map]; simp [Function.comp_def]
  rw [hl]
  simp only [stack0]
  rw [if_pos (by intro d hd; obtain ⟨i, -, rfl⟩ := List.mem_map.1 hd; rfl)]
  congr 1
  apply ext_get
  · simp
  · intro i hi
    simp only [shape_ofFn, List.length_cons, List.length_map, List.length_range] at hi
    rw [get_ofFn _ (by simpa using hi), get_ofFn _ hi]
    cases hi with
    | cons h1 h2 =>
      rename_i x y hx
      simp only []
      rw [← hl]
      rw [List.getD_eq_getElem?_getD, List.getElem?_map, List.getElem?_range (by omega)]
      simp only [Option.map_some, Option.getD_some]
      rw [get_ofFn _ h2]

end Model
