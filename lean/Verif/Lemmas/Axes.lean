import Verif.Spec.Axes
import Verif.Model.MoveLoop

namespace Lemmas
open Np NDArr Spec Model

variable {α : Type}

/-! ## selecting coordinates -/

/-- structural version of `takeAxes`/`dropAxes` -/
def sel (p : Nat → Bool) : List Nat → List Nat
  | [] => []
  | x :: l => if p 0 then x :: sel (fun n => p (n + 1)) l else sel (fun n => p (n + 1)) l

theorem sel_eq (p : Nat → Bool) (l : List Nat) :
    ((List.range l.length).filter p).map (l.getD · 0) = sel p l := by
  induction l generalizing p with
  | nil => simp [sel]
  | cons x l ih =>
    rw [List.length_cons, List.range_succ_eq_map, sel, ← ih]
    simp only [List.filter_cons, List.filter_map]
    split <;> simp [Function.comp_def]

theorem takeAxes_eq_sel (axes l : List Nat) : takeAxes axes l = sel (fun a => decide (a ∈ axes)) l :=
  sel_eq _ _

theorem dropAxes_eq_sel (axes l : List Nat) : dropAxes axes l = sel (fun a => decide (a ∉ axes)) l :=
  sel_eq _ _

theorem inB_sel {s i : List Nat} (h : InB s i) (p : Nat → Bool) : InB (sel p s) (sel p i) := by
  induction h generalizing p with
  | nil => simp [sel, InB]
  | @cons a b l₁ l₂ hab h ih =>
    simp only [sel]
    split
    · exact List.Forall₂.cons hab (ih _)
    · exact ih _

theorem flatMap_range_ite {β : Type} (n k : Nat) (hk : k < n) (X : List β) :
    ((List.range n).flatMap fun i => if i = k then X else []) = X := by
  induction n with
  | zero => omega
  | succ n ih =>
    rw [List.range_succ, List.flatMap_append]
    by_cases h : k < n
    · rw [ih h]; simp; intro h2; omega
    · have : k = n := by omega
      subst this
      have : ((List.range k).flatMap fun i => if i = k then X else []) = [] := by
        rw [List.flatMap_eq_nil_iff]
        intro x hx
        simp at hx
        simp; omega
      rw [this]; simp

theorem map_sel_filter (s : List Nat) (p : Nat → Bool) (k : List Nat)
    (hk : InB (sel (fun a => !p a) s) k) :
    ((allIdx s).filter fun i => sel (fun a => !p a) i = k).map (sel p) = allIdx (sel p s) := by
  induction s generalizing p k with
  | nil =>
    simp only [sel, InB] at hk
    cases hk
    simp [sel]
  | cons n s ih =>
    rw [allIdx_cons, List.filter_flatMap, List.map_flatMap]
    by_cases hp : p 0
    · simp only [sel, hp, Bool.not_true, Bool.false_eq_true, if_false] at hk ⊢
      rw [if_pos trivial, allIdx_cons]
      congr 1
      funext i
      rw [List.filter_map, List.map_map, ← ih _ k hk, List.map_map]
      simp only [Function.comp_def, sel, hp, Bool.not_true, Bool.false_eq_true, if_false, if_true]
    · simp only [Bool.not_eq_true] at hp
      simp only [sel, hp, Bool.not_false, if_true] at hk
      cases hk with
      | @cons k0 _ k' _ hk0 hk' =>
        simp only [sel, hp, Bool.false_eq_true, if_false]
        have : (fun i => List.map (sel p)
            (List.filter (fun i => decide (sel (fun a => !p a) i = k0 :: k'))
              (List.map (fun x => i :: x) (allIdx s)))) =
            fun i => if i = k0 then allIdx (sel (fun n => p (n + 1)) s) else [] := by
          funext i
          rw [List.filter_map, List.map_map]
          simp only [Function.comp_def, sel, hp, Bool.not_false, if_true, Bool.false_eq_true, if_false]
          by_cases hi : i = k0
          · subst hi
            simp only [List.cons.injEq, true_and, if_true]
            exact ih _ k' hk'
          · simp [hi]
        rw [this, flatMap_range_ite _ _ hk0]

/-- The multi-indices over a kept position, in storage order, run through all sample coordinates
in storage order. -/
theorem map_takeAxes_fiberIdx (s axes k : List Nat) (hk : InB (dropAxes axes s) k) :
    (fiberIdx s axes k).map (takeAxes axes) = allIdx (takeAxes axes s) := by
  have h := map_sel_filter s (fun a => decide (a ∈ axes)) k (by
    rw [dropAxes_eq_sel] at hk; simpa using hk)
  rw [takeAxes_eq_sel, ← h]
  unfold fiberIdx
  have e1 : (fun i => decide (dropAxes axes i = k)) =
      fun i => decide (sel (fun a => !decide (a ∈ axes)) i = k) := by
    funext i; rw [dropAxes_eq_sel]; simp
  rw [e1]
  exact List.map_congr_left fun i _ => takeAxes_eq_sel _ _

theorem inB_dropAxes {s i : List Nat} (axes : List Nat) (h : InB s i) :
    InB (dropAxes axes s) (dropAxes axes i) := by
  rw [dropAxes_eq_sel, dropAxes_eq_sel]; exact inB_sel h _

theorem inB_takeAxes {s i : List Nat} (axes : List Nat) (h : InB s i) :
    InB (takeAxes axes s) (takeAxes axes i) := by
  rw [takeAxes_eq_sel, takeAxes_eq_sel]; exact inB_sel h _

theorem mem_fiberIdx {s axes k i : List Nat} :
    i ∈ fiberIdx s axes k ↔ InB s i ∧ dropAxes axes i = k := by
  simp [fiberIdx, mem_allIdx]

/-! ## composing transpositions -/

theorem map_getD_map (p q i : List Nat) (hq : ∀ x ∈ q, x < p.length) :
    q.map ((p.map (i.getD · 0)).getD · 0) = (q.map (p.getD · 0)).map (i.getD · 0) := by
  rw [List.map_map]
  apply List.map_congr_left
  intro x hx
  have := hq x hx
  simp [List.getD_eq_getElem?_getD, this]

theorem perm_comp {n : Nat} {p q : List Nat} (hp : p.Perm (List.range n))
    (hq : q.Perm (List.range n)) : (q.map (p.getD · 0)).Perm (List.range n) := by
  have h1 : (q.map (p.getD · 0)).Perm ((List.range n).map (p.getD · 0)) := hq.map _
  have hl : p.length = n := by simpa using hp.length_eq
  have h2 : (List.range n).map (p.getD · 0) = p := by
    apply List.ext_getElem
    · simp [hl]
    · intro m h1 h2; simp [List.getD_eq_getElem?_getD, h2]
  rw [h2] at h1
  exact h1.trans hp

theorem transpose_transpose [Inhabited α] (a : NDArr α) {p q : List Nat}
    (hp : p.Perm (List.range a.shape.length)) (hq : q.Perm (List.range a.shape.length)) :
    (a.transpose p).transpose q = a.transpose (q.map (p.getD · 0)) := by
  have hpl : p.length = a.shape.length := by simpa using hp.length_eq
  have hqm : ∀ x ∈ q, x < p.length := fun x hx => by
    have := (hq.mem_iff).1 hx; simp at this; omega
  have hpm : ∀ x ∈ p, x < a.shape.length := fun x hx => by
    have := (hp.mem_iff).1 hx; simpa using this
  have hsh : ((a.transpose p).transpose q).shape = (a.transpose (q.map (p.getD · 0))).shape := by
    simp only [shape_transpose]
    rw [map_getD_map p q _ hqm]
  have hpq := perm_comp hp hq
  apply ext_get hsh
  intro j hj
  -- every in-range index of the result is the image of an original index
  obtain ⟨i, hi, rfl⟩ : ∃ i, InB a.shape i ∧ j = (q.map (p.getD · 0)).map (i.getD · 0) := by
    rw [hsh, shape_transpose] at hj
    set r := q.map (p.getD · 0) with hr
    have hrm : ∀ x, x ∈ r ↔ x < a.shape.length := fun x => by rw [hpq.mem_iff]; simp
    have hrl : r.length = a.shape.length := by simpa using hpq.length_eq
    refine ⟨(List.range a.shape.length).map fun ax => j.getD (r.idxOf ax) 0, ?_, ?_⟩
    · rw [InB_iff_getD]
      refine ⟨by simp, ?_⟩
      intro k hk
      have hkr : k ∈ r := (hrm k).2 hk
      have hidx : r.idxOf k < r.length := List.idxOf_lt_length_iff.2 hkr
      have := (InB_iff_getD.1 hj).2 (r.idxOf k) (by simpa using hidx)
      simpa [List.getD_eq_getElem?_getD, hk, hidx] using this
    · have hjl := hj.length
      apply List.ext_getElem
      · simpa using hjl
      · intro m h1 h2
        have hm : m < r.length := by simpa using h2
        have : r[m] < a.shape.length := (hrm _).1 (List.getElem_mem hm)
        have hnd : r.Nodup := hpq.nodup_iff.2 (List.nodup_range)
        simp [List.getD_eq_getElem?_getD, this, hnd.idxOf_getElem, h1]
  rw [get_transpose a hpq hi, ← map_getD_map p q i hqm]
  rw [get_transpose (a.transpose p) (by simpa [hpl] using hq)
    (by rw [shape_transpose]; exact inB_permute hi hpm)]
  exact get_transpose a hp hi

theorem transpose_id [Inhabited α] (a : NDArr α) :
    a.transpose (List.range a.shape.length) = a := by
  have hid : ∀ l : List Nat, l.length = a.shape.length →
      (List.range a.shape.length).map (l.getD · 0) = l := by
    intro l hl
    apply List.ext_getElem
    · simp [hl]
    · intro m h1 h2; simp [List.getD_eq_getElem?_getD, h2]
  apply ext_get (by rw [shape_transpose, hid _ rfl])
  intro i hi
  rw [shape_transpose, hid _ rfl] at hi
  have := get_transpose a (List.Perm.refl _) hi
  rwa [hid i hi.length] at this

/-! ## moveaxis as a permutation of labels -/

theorem filter_ne_range (n s : Nat) (h : s < n) :
    (List.range n).filter (· != s) = (List.range n).eraseIdx s := by
  rw [List.eraseIdx_eq_take_drop_succ]
  have : List.range n = List.range s ++ s :: (List.range n).drop (s + 1) := by
    conv_lhs => rw [← List.take_append_drop s (List.range n)]
    rw [List.take_range, Nat.min_eq_left (by omega), List.drop_eq_getElem_cons (by simpa using h)]
    simp
  rw [this, List.filter_append, List.filter_cons]
  simp only [bne_self_eq_false, Bool.false_eq_true, if_false]
  have e1 : (List.range s).filter (· != s) = List.range s := by
    rw [List.filter_eq_self]; intro a ha; simp at ha; simp; omega
  have e2 : ((List.range n).drop (s + 1)).filter (· != s) = (List.range n).drop (s + 1) := by
    rw [List.filter_eq_self]; intro a ha
    obtain ⟨m, hm, rfl⟩ := List.mem_iff_getElem.1 ha
    simp; omega
  rw [e1, e2]
  congr 1
  · rw [← this]; simp [Nat.min_eq_left h.le]
  · rw [← this]

theorem moveOrder_perm {n s d : Nat} (hs : s < n) (hd : d < n) :
    (moveOrder n s d).Perm (List.range n) := by
  unfold moveOrder
  rw [filter_ne_range n s hs]
  have h1 : (((List.range n).eraseIdx s).insertIdx d s).Perm (s :: (List.range n).eraseIdx s) :=
    List.perm_insertIdx _ _ (by rw [List.length_eraseIdx]; simp [hs]; omega)
  have h2 : ((List.range n)[s]'(by simpa using hs) :: (List.range n).eraseIdx s).Perm (List.range n) :=
    List.getElem_cons_eraseIdx_perm _
  simp at h2
  exact h1.trans h2

theorem map_moveOrder {n s d : Nat} (L : List Nat) (hL : L.length = n) (hs : s < n) :
    (moveOrder n s d).map (L.getD · 0) = (L.eraseIdx s).insertIdx d (L.getD s 0) := by
  unfold moveOrder
  rw [filter_ne_range n s hs, List.map_insertIdx, ← List.eraseIdx_map]
  congr 2
  apply List.ext_getElem
  · simp [hL]
  · intro m h1 h2; simp [List.getD_eq_getElem?_getD, h2]

theorem normAxis_ok {n : Nat} {ax : Int} (h : AxisOK n ax) :
    normAxis n ax = .ok (axisNum n ax) := by
  unfold normAxis axisNum
  unfold AxisOK at h
  rw [if_pos h]

theorem axisNum_lt {n : Nat} {ax : Int} (h : AxisOK n ax) : axisNum n ax < n := by
  unfold axisNum; unfold AxisOK at h; split <;> omega

/-- `moveaxis` on an array that is a transposition of `a` acts on the labels. -/
theorem moveaxis_transpose [Inhabited α] (a : NDArr α) {L : List Nat} {src : Int} {d : Nat}
    (hL : L.Perm (List.range a.shape.length)) (hsrc : AxisOK a.shape.length src)
    (hd : d < a.shape.length) :
    (a.transpose L).moveaxis src d =
      .ok (a.transpose ((L.eraseIdx (axisNum a.shape.length src)).insertIdx d
        (L.getD (axisNum a.shape.length src) 0))) := by
  have hl : L.length = a.shape.length := by simpa using hL.length_eq
  have hn : (a.transpose L).ndim = a.shape.length := by simp [ndim, hl]
  have hdok : AxisOK a.shape.length (d : Int) := by unfold AxisOK; omega
  have hdn : axisNum a.shape.length (d : Int) = d := by unfold axisNum; split <;> omega
  unfold moveaxis
  rw [hn, normAxis_ok hsrc, normAxis_ok hdok, hdn]
  simp only [bind, Except.bind, pure, Except.pure]
  rw [transpose_transpose a hL (moveOrder_perm (axisNum_lt hsrc) hd),
    map_moveOrder L hl (axisNum_lt hsrc)]

/-! ## the loop invariant -/

/-- Labels after the axes `S` have been moved to the front. -/
def frontLabels (n : Nat) (S : List Nat) : List Nat :=
  S ++ (List.range n).filter fun a => a ∉ S

theorem insertIdx_length_append {β : Type} (S T : List β) (x : β) :
    (S ++ T).insertIdx S.length x = S ++ x :: T := by
  induction S with
  | nil => simp
  | cons a S ih => simp [ih]

theorem range_split {n x : Nat} (h : x < n) :
    List.range n = List.range x ++ x :: (List.range n).drop (x + 1) := by
  conv_lhs => rw [← List.take_append_drop x (List.range n)]
  rw [List.take_range, Nat.min_eq_left (by omega), List.drop_eq_getElem_cons (by simpa using h)]
  simp

theorem length_filter_notMem {S : List Nat} {x : Nat} (hnd : S.Nodup) (hlt : ∀ y ∈ S, y < x) :
    S.length + ((List.range x).filter fun a => a ∉ S).length = x := by
  have h1 : ((List.range x).filter fun a => a ∈ S).Perm S := by
    rw [List.perm_ext_iff_of_nodup (List.nodup_range.filter _) hnd]
    intro a; simp; exact hlt a
  have h2 := List.length_eq_length_filter_add (l := List.range x) (fun a => decide (a ∈ S))
  have h3 := h1.length_eq
  simp only [List.length_range] at h2
  have h4 : ((List.range x).filter fun a => !decide (a ∈ S)) =
      (List.range x).filter fun a => decide (a ∉ S) := by
    congr 1; funext a; simp
  rw [h4] at h2
  omega

theorem frontLabels_perm {n : Nat} {S : List Nat} (hnd : S.Nodup) (hlt : ∀ y ∈ S, y < n) :
    (frontLabels n S).Perm (List.range n) := by
  rw [List.perm_ext_iff_of_nodup ?_ List.nodup_range]
  · intro a
    simp only [frontLabels, List.mem_append, List.mem_filter, List.mem_range, decide_eq_true_eq]
    constructor
    · rintro (h | h)
      · exact hlt a h
      · exact h.1
    · intro h
      by_cases ha : a ∈ S
      · exact Or.inl ha
      · exact Or.inr ⟨h, ha⟩
  · unfold frontLabels
    rw [List.nodup_append]
    refine ⟨hnd, List.nodup_range.filter _, ?_⟩
    intro a ha b hb
    simp at hb
    rintro rfl
    exact hb.2 ha

theorem frontLabels_step_aux {n : Nat} {S : List Nat} {x : Nat} (hlt : ∀ y ∈ S, y < x)
    (hx : x < n) :
    frontLabels n S = S ++ ((List.range x).filter fun a => a ∉ S) ++ x ::
        ((List.range n).drop (x + 1)).filter (fun a => a ∉ S) ∧
    frontLabels n (S ++ [x]) = S ++ x :: ((List.range x).filter fun a => a ∉ S) ++
        ((List.range n).drop (x + 1)).filter (fun a => a ∉ S) := by
  have hxS : x ∉ S := fun h => lt_irrefl _ (hlt x h)
  constructor
  · unfold frontLabels
    conv_lhs => rw [range_split hx]
    rw [List.filter_append, List.filter_cons]
    simp [hxS]
  · unfold frontLabels
    conv_lhs => rw [range_split hx]
    rw [List.filter_append, List.filter_cons]
    have e1 : (List.range x).filter (fun a => decide (a ∉ S ++ [x])) =
        (List.range x).filter fun a => decide (a ∉ S) := by
      apply List.filter_congr
      intro a ha
      simp at ha
      have : a ≠ x := by omega
      simp [this]
    have e2 : ((List.range n).drop (x + 1)).filter (fun a => decide (a ∉ S ++ [x])) =
        ((List.range n).drop (x + 1)).filter fun a => decide (a ∉ S) := by
      apply List.filter_congr
      intro a ha
      obtain ⟨m, hm, rfl⟩ := List.mem_iff_getElem.1 ha
      have : x + 1 + m ≠ x := by omega
      simp [this]
    rw [e1, e2]
    simp

/-- Moving the next (larger) axis to the end of the front block. -/
theorem frontLabels_step {n : Nat} {S : List Nat} {x : Nat} (hnd : S.Nodup)
    (hlt : ∀ y ∈ S, y < x) (hx : x < n) :
    ((frontLabels n S).eraseIdx x).insertIdx S.length ((frontLabels n S).getD x 0) =
      frontLabels n (S ++ [x]) := by
  obtain ⟨h1, h2⟩ := frontLabels_step_aux hlt hx
  have hlen := length_filter_notMem hnd hlt
  rw [h2, h1]
  set A := (List.range x).filter fun a => decide (a ∉ S)
  set B := ((List.range n).drop (x + 1)).filter fun a => decide (a ∉ S)
  have hSA : (S ++ A).length = x := by simpa using hlen
  have e1 : (S ++ A ++ x :: B).eraseIdx x = S ++ A ++ B := by
    rw [List.eraseIdx_append_of_length_le (by omega), hSA]; simp
  have e2 : (S ++ A ++ x :: B).getD x 0 = x := by
    rw [List.getD_eq_getElem?_getD, List.getElem?_append_right (by omega), hSA]; simp
  rw [e1, e2, List.append_assoc, insertIdx_length_append]
  simp

theorem frontLabels_skip {n : Nat} {S : List Nat} (hnd : S.Nodup)
    (hlt : ∀ y ∈ S, y < S.length) (hx : S.length < n) :
    frontLabels n S = frontLabels n (S ++ [S.length]) := by
  obtain ⟨h1, h2⟩ := frontLabels_step_aux hlt hx
  have hlen := length_filter_notMem hnd hlt
  have : ((List.range S.length).filter fun a => decide (a ∉ S)) = [] := by
    rw [← List.length_eq_zero_iff]; omega
  rw [h1, h2, this]; simp

theorem frontLabels_nil (n : Nat) : frontLabels n [] = List.range n := by
  simp [frontLabels]

theorem moveLoop_spec [Inhabited α] (a : NDArr α) (axs : List Int) (S : List Nat)
    (hS : S.Nodup) (hSlt : ∀ y ∈ S, y < a.shape.length)
    (hok : ∀ ax ∈ axs, AxisOK a.shape.length ax)
    (hsorted : (S ++ axs.map (axisNum a.shape.length)).Pairwise (· < ·)) :
    moveLoop axs S.length (a.transpose (frontLabels a.shape.length S)) =
      .ok (a.transpose (frontLabels a.shape.length (S ++ axs.map (axisNum a.shape.length))),
        S.length + axs.length) := by
  induction axs generalizing S with
  | nil => simp [moveLoop]
  | cons ax axs ih =>
    set x := axisNum a.shape.length ax with hxdef
    have hax := hok ax (by simp)
    have hxn : x < a.shape.length := axisNum_lt hax
    have hlt : ∀ y ∈ S, y < x := by
      intro y hy
      rw [List.pairwise_append] at hsorted
      exact hsorted.2.2 y hy x (by simp [hxdef])
    have hsorted' : ((S ++ [x]) ++ axs.map (axisNum a.shape.length)).Pairwise (· < ·) := by
      simpa using hsorted
    have hnd' : (S ++ [x]).Nodup := by
      rw [List.pairwise_append] at hsorted'
      exact hsorted'.1.imp (fun h => Nat.ne_of_lt h)
    have hlt' : ∀ y ∈ S ++ [x], y < a.shape.length := by
      intro y hy; simp at hy
      rcases hy with h | h
      · exact hSlt y h
      · omega
    have hlen : S.length ≤ x := by
      have := length_filter_notMem hS hlt; omega
    have ih' := ih (S ++ [x]) hnd' hlt' (fun b hb => hok b (by simp [hb])) hsorted'
    have e : S ++ List.map (axisNum a.shape.length) (ax :: axs) =
        (S ++ [x]) ++ axs.map (axisNum a.shape.length) := by simp [hxdef]
    have e' : S.length + (ax :: axs).length = (S ++ [x]).length + axs.length := by simp; omega
    rw [e, e', ← ih']
    conv_lhs => unfold moveLoop
    by_cases hne : ax ≠ (S.length : Int)
    · rw [if_pos hne, moveaxis_transpose a (frontLabels_perm hS hSlt) hax (by omega)]
      simp only
      rw [← hxdef, frontLabels_step hS hlt hxn]
      simp
    · rw [if_neg hne]
      simp only [ne_eq, not_not] at hne
      have hx : x = S.length := by
        rw [hxdef, hne]; unfold axisNum; split <;> omega
      rw [hx] at hlt hxn
      conv_lhs => rw [frontLabels_skip hS hlt hxn]
      rw [← hx]
      simp [hx]

/-- The legal axis lists on which the move loop is right: after `np.sort`, the axes are legal,
distinct and in increasing order of axis *number*. -/
def GoodAxes (n : Nat) (axes : List Int) : Prop :=
  (∀ ax ∈ axes, AxisOK n ax) ∧ ((npSortInt axes).map (axisNum n)).Pairwise (· < ·)

theorem npSortInt_perm (l : List Int) : (npSortInt l).Perm l := List.perm_insertionSort _ _

/-- the axis numbers, sorted -/
def sortedNums (n : Nat) (axes : List Int) : List Nat := (npSortInt axes).map (axisNum n)

theorem filter_mem_range_eq {n : Nat} {S : List Nat} (hs : S.Pairwise (· < ·))
    (hlt : ∀ y ∈ S, y < n) : ((List.range n).filter fun a => a ∈ S) = S := by
  have hp : ((List.range n).filter fun a => a ∈ S).Perm S := by
    rw [List.perm_ext_iff_of_nodup (List.nodup_range.filter _) (hs.imp fun h => Nat.ne_of_lt h)]
    intro a; simp; exact hlt a
  have h1 : ((List.range n).filter fun a => a ∈ S).Pairwise (· < ·) :=
    (List.pairwise_lt_range (n := n)).filter _
  exact hp.eq_of_pairwise (fun a b _ _ h h' => absurd h (by omega)) h1 hs

theorem moveSampleAxes_eq [Inhabited α] (a : NDArr α) (axes : List Int)
    (h : GoodAxes a.shape.length axes) :
    moveSampleAxes a (some axes) =
      .ok (a.transpose (frontLabels a.shape.length (sortedNums a.shape.length axes)),
        (a.transpose (frontLabels a.shape.length (sortedNums a.shape.length axes))).shape.drop
          axes.length) := by
  obtain ⟨hok, hsort⟩ := h
  have hperm := npSortInt_perm axes
  have hloop := moveLoop_spec a (npSortInt axes) [] (by simp) (by simp)
    (fun ax hax => hok ax (hperm.mem_iff.1 hax)) (by simpa using hsort)
  rw [frontLabels_nil, transpose_id] at hloop
  simp only [List.length_nil, List.nil_append, Nat.zero_add] at hloop
  unfold moveSampleAxes resolveAxes ndim sortedNums
  rw [hloop, hperm.length_eq]

/-- Only the set of axis numbers matters. -/
theorem moveSampleAxes_congr [Inhabited α] (a : NDArr α) {axes axes' : List Int}
    (h : GoodAxes a.shape.length axes) (h' : GoodAxes a.shape.length axes')
    (hp : (axes.map (axisNum a.shape.length)).Perm (axes'.map (axisNum a.shape.length))) :
    moveSampleAxes a (some axes) = moveSampleAxes a (some axes') := by
  have e : sortedNums a.shape.length axes = sortedNums a.shape.length axes' := by
    have p1 : (sortedNums a.shape.length axes).Perm (sortedNums a.shape.length axes') :=
      (((npSortInt_perm axes).map _).trans hp).trans ((npSortInt_perm axes').map _).symm
    exact p1.eq_of_pairwise (fun a b _ _ h h' => absurd h (by omega)) h.2 h'.2
  have el : axes.length = axes'.length := by simpa using hp.length_eq
  rw [moveSampleAxes_eq a axes h, moveSampleAxes_eq a axes' h', e, el]

theorem moveSampleAxes_spec [Inhabited α] (a : NDArr α) (axes : List Int)
    (h : GoodAxes a.shape.length axes) :
    ∃ m, moveSampleAxes a (some axes) = .ok (m, dropAxes (axes.map (axisNum a.shape.length)) a.shape) ∧
      m.shape = takeAxes (axes.map (axisNum a.shape.length)) a.shape ++
        dropAxes (axes.map (axisNum a.shape.length)) a.shape ∧
      ∀ i, InB a.shape i → m.get (takeAxes (axes.map (axisNum a.shape.length)) i ++
        dropAxes (axes.map (axisNum a.shape.length)) i) = a.get i := by
  obtain ⟨hok, hsort⟩ := h
  set n := a.shape.length with hn
  set S := (npSortInt axes).map (axisNum n) with hSdef
  have hperm := npSortInt_perm axes
  have hSlt : ∀ y ∈ S, y < n := by
    intro y hy
    simp only [hSdef, List.mem_map] at hy
    obtain ⟨ax, hax, rfl⟩ := hy
    exact axisNum_lt (hok ax (hperm.mem_iff.1 hax))
  have hmem : ∀ y, y ∈ axes.map (axisNum n) ↔ y ∈ S := fun y =>
    ((hperm.map (axisNum n)).mem_iff).symm
  have hnd : S.Nodup := hsort.imp fun h => Nat.ne_of_lt h
  have hloop := moveLoop_spec a (npSortInt axes) [] (by simp) (by simp)
    (fun ax hax => hok ax (hperm.mem_iff.1 hax)) (by simpa using hsort)
  rw [frontLabels_nil, transpose_id] at hloop
  simp only [List.length_nil, List.nil_append, Nat.zero_add] at hloop
  rw [← hn, ← hSdef] at hloop
  have hSl : (npSortInt axes).length = S.length := by simp [hSdef]
  have hfl : ∀ l : List Nat, l.length = n → (frontLabels n S).map (l.getD · 0) =
      takeAxes (axes.map (axisNum n)) l ++ dropAxes (axes.map (axisNum n)) l := by
    intro l hl
    unfold frontLabels takeAxes dropAxes
    rw [List.map_append, hl]
    congr 2
    · rw [← filter_mem_range_eq hsort hSlt]
      apply List.filter_congr; intro x _
      rw [decide_eq_decide, hmem]
    · apply List.filter_congr; intro x _; rw [decide_eq_decide, hmem]
  have htl : ∀ l : List Nat, l.length = n → (takeAxes (axes.map (axisNum n)) l).length = S.length := by
    intro l hl
    unfold takeAxes
    rw [List.length_map, hl, ← filter_mem_range_eq hsort hSlt]
    congr 1
    apply List.filter_congr; intro x _
    rw [decide_eq_decide, hmem]
  refine ⟨a.transpose (frontLabels n S), ?_, ?_, ?_⟩
  · unfold moveSampleAxes resolveAxes
    rw [hloop]
    simp only [shape_transpose]
    rw [hfl _ hn.symm, hSl, ← htl _ hn.symm, List.drop_left]
  · rw [shape_transpose, hfl _ hn.symm]
  · intro i hi
    rw [← hfl i (hi.length.trans hn.symm)]
    exact get_transpose a (by rw [← hn]; exact frontLabels_perm hnd hSlt) hi

end Lemmas
