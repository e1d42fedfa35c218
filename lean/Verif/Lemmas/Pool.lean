import Verif.Lemmas.Average
import Verif.Lemmas.Axes
import Verif.Spec.Pool

/-! Multi-indices over a kept position after selecting or reordering along an axis. -/

namespace Lemmas
open Np NDArr Spec Model

/-- number of selected coordinates before `n` -/
def selPos (p : Nat → Bool) (n : Nat) : Nat := ((List.range n).filter p).length

theorem selPos_zero (p : Nat → Bool) : selPos p 0 = 0 := rfl

theorem selPos_succ (p : Nat → Bool) (n : Nat) :
    selPos p (n + 1) = (if p 0 then 1 else 0) + selPos (fun m => p (m + 1)) n := by
  unfold selPos
  rw [List.range_succ_eq_map, List.filter_cons, List.filter_map, Function.comp_def]
  split <;> simp; omega

theorem sel_set (p : Nat → Bool) (l : List Nat) (n v : Nat) :
    sel p (l.set n v) = if p n then (sel p l).set (selPos p n) v else sel p l := by
  induction l generalizing p n with
  | nil => simp [sel]
  | cons x l ih =>
    cases n with
    | zero =>
      simp only [List.set_cons_zero, sel, selPos_zero]
      by_cases h : p 0 <;> simp [h]
    | succ n =>
      simp only [List.set_cons_succ, sel, ih, selPos_succ]
      by_cases h : p 0 <;> by_cases h' : p (n + 1) <;> simp [h, h', Nat.add_comm 1]

theorem sel_getD (p : Nat → Bool) (l : List Nat) (n : Nat) (hn : p n = true) :
    (sel p l).getD (selPos p n) 0 = l.getD n 0 := by
  induction l generalizing p n with
  | nil => simp [sel]
  | cons x l ih =>
    cases n with
    | zero => simp [sel, selPos_zero, hn]
    | succ n =>
      have := ih (fun m => p (m + 1)) n hn
      simp only [sel, selPos_succ]
      by_cases h : p 0
      · simp only [h, if_true, Nat.add_comm 1, List.getD_cons_succ]; exact this
      · simp only [h, Bool.false_eq_true, if_false, Nat.zero_add, List.getD_cons_succ]; exact this

theorem dropAxes_set {A : List Nat} (l : List Nat) (n v : Nat) :
    dropAxes A (l.set n v) = if n ∈ A then dropAxes A l else (dropAxes A l).set (keptPos A n) v := by
  rw [dropAxes_eq_sel, sel_set, dropAxes_eq_sel]
  by_cases h : n ∈ A
  · simp [h]
  · simp only [h, not_false_eq_true, decide_true, if_true, if_false]; rfl

theorem dropAxes_getD {A : List Nat} (l : List Nat) {n : Nat} (hn : n ∉ A) :
    (dropAxes A l).getD (keptPos A n) 0 = l.getD n 0 := by
  rw [dropAxes_eq_sel]; exact sel_getD _ _ _ (by simpa using hn)

theorem inB_set {s i : List Nat} {n v m : Nat} (h : InB s i) (hv : v < m) : InB (s.set n m) (i.set n v) := by
  rw [InB_iff_getD] at h ⊢
  refine ⟨by simpa using h.1, fun k hk => ?_⟩
  rw [List.length_set] at hk
  have := h.2 k hk
  simp only [List.getD_eq_getElem?_getD, List.getElem?_set] at this ⊢
  by_cases hnk : n = k
  · subst hnk
    have : n < i.length := by omega
    simp [hk, this, hv]
  · simp only [hnk, if_false]; exact this

theorem getD_lt_of_inB {s i : List Nat} (h : InB s i) {n : Nat} (hn : n < s.length) : i.getD n 0 < s.getD n 0 :=
  (InB_iff_getD.1 h).2 n hn

theorem set_getD_self (l : List Nat) (n : Nat) : l.set n (l.getD n 0) = l := by
  apply List.ext_getElem?
  intro m
  rw [List.getElem?_set]
  by_cases h : n = m
  · subst h
    by_cases hl : n < l.length
    · simp [hl, List.getD_eq_getElem?_getD]
    · simp [hl]
  · simp [h]

theorem getD_set_self {l : List Nat} {n v : Nat} (h : n < l.length) : (l.set n v).getD n 0 = v := by
  simp [List.getD_eq_getElem?_getD, h]

/-- valid selection: the hyperplanes named exist -/
theorem inB_lookAt {s i σ : List Nat} {n : Nat} (hn : n < s.length) (hσ : ∀ j ∈ σ, j < s.getD n 0)
    (h : InB (s.set n σ.length) i) : InB s (lookAt n σ i) := by
  have hi : i.getD n 0 < σ.length := by
    have := getD_lt_of_inB h (n := n) (by simpa using hn)
    rwa [getD_set_self hn] at this
  have hv : σ.getD (i.getD n 0) 0 < s.getD n 0 := by
    apply hσ
    rw [List.getD_eq_getElem?_getD, List.getElem?_eq_getElem hi]
    exact List.getElem_mem hi
  have := inB_set (n := n) h hv
  rw [List.set_set, set_getD_self] at this
  exact this

theorem getD_lt_of_take {s i σ : List Nat} {n : Nat} (hn : n < s.length) (h : InB (s.set n σ.length) i) :
    i.getD n 0 < σ.length := by
  have := getD_lt_of_inB h (n := n) (by simpa using hn)
  rwa [getD_set_self hn] at this

theorem get_takeAlong {α : Type} [Inhabited α] (a : NDArr α) {n : Nat} {σ i : List Nat}
    (h : InB (a.shape.set n σ.length) i) : (takeAlong a n σ).get i = a.get (lookAt n σ i) :=
  get_ofFn _ h

theorem nodup_fiberIdx (s A k : List Nat) : (fiberIdx s A k).Nodup := (nodup_allIdx s).filter _

theorem keptPos_lt {s A : List Nat} {n : Nat} (hn : n < s.length) (hA : n ∉ A) :
    keptPos A n < (dropAxes A s).length := by
  have h2 : (dropAxes A s).length = keptPos A s.length := by
    unfold dropAxes keptPos
    simp
  rw [h2]
  unfold keptPos
  have h3 : ((List.range (n + 1)).filter fun a => decide (a ∉ A)).length =
      ((List.range n).filter fun a => decide (a ∉ A)).length + 1 := by
    rw [List.range_succ, List.filter_append]; simp [hA]
  have h4 : ((List.range (n + 1)).filter fun a => decide (a ∉ A)).Sublist
      ((List.range s.length).filter fun a => decide (a ∉ A)) :=
    (List.range_sublist.2 hn).filter _
  have := h4.length_le
  omega

theorem sel_inj (p : Nat → Bool) {l m : List Nat} (hl : l.length = m.length) (h1 : sel p l = sel p m)
    (h2 : sel (fun a => !p a) l = sel (fun a => !p a) m) : l = m := by
  induction l generalizing p m with
  | nil => cases m with
    | nil => rfl
    | cons => cases hl
  | cons x l ih =>
    cases m with
    | nil => cases hl
    | cons y m =>
      simp only [List.length_cons, Nat.add_right_cancel_iff] at hl
      simp only [sel] at h1 h2
      by_cases h : p 0
      · simp only [h, if_true, Bool.not_true, Bool.false_eq_true, if_false, List.cons.injEq] at h1 h2
        rw [h1.1, ih (fun n => p (n + 1)) hl h1.2 h2]
      · simp only [h, if_true, Bool.not_false, Bool.false_eq_true, if_false, List.cons.injEq] at h1 h2
        rw [h2.1, ih (fun n => p (n + 1)) hl h1 h2.2]

theorem axes_inj {A l m : List Nat} (hl : l.length = m.length) (h1 : takeAxes A l = takeAxes A m)
    (h2 : dropAxes A l = dropAxes A m) : l = m := by
  rw [takeAxes_eq_sel, takeAxes_eq_sel] at h1
  rw [dropAxes_eq_sel, dropAxes_eq_sel] at h2
  refine sel_inj (fun a => decide (a ∈ A)) hl h1 ?_
  have : (fun a => !decide (a ∈ A)) = fun a => decide (a ∉ A) := by funext a; simp
  rw [this]; exact h2

theorem takeAxes_set {A : List Nat} (l : List Nat) {n : Nat} (hn : n ∉ A) (v : Nat) :
    takeAxes A (l.set n v) = takeAxes A l := by
  rw [takeAxes_eq_sel, takeAxes_eq_sel, sel_set]
  simp [hn]

theorem map_inj_on {α β : Type} (g : α → β) {l m : List α} (h : l.map g = m.map g)
    (hg : ∀ x ∈ l, ∀ y ∈ m, g x = g y → x = y) : l = m := by
  induction l generalizing m with
  | nil => cases m with
    | nil => rfl
    | cons => cases h
  | cons x l ih =>
    cases m with
    | nil => cases h
    | cons y m =>
      simp only [List.map_cons, List.cons.injEq] at h
      rw [hg x (by simp) y (by simp) h.1, ih h.2 fun a ha b hb => hg a (by simp [ha]) b (by simp [hb])]

/-- selecting along a kept axis -/
theorem fiberIdx_kept {s A σ k : List Nat} {n : Nat} (hn : n < s.length) (hA : n ∉ A)
    (hσ : ∀ j ∈ σ, j < s.getD n 0) (hk : InB (dropAxes A (s.set n σ.length)) k) :
    (fiberIdx (s.set n σ.length) A k).map (lookAt n σ) = fiberIdx s A (lookAt (keptPos A n) σ k) := by
  have hk' : InB (dropAxes A s) (lookAt (keptPos A n) σ k) := by
    rw [dropAxes_set, if_neg hA] at hk
    refine inB_lookAt (keptPos_lt hn hA) ?_ hk
    rw [dropAxes_getD s hA]
    exact hσ
  refine map_inj_on (takeAxes A) ?_ ?_
  · rw [map_takeAxes_fiberIdx _ _ _ hk', List.map_map]
    have : ∀ i ∈ fiberIdx (s.set n σ.length) A k, (takeAxes A ∘ lookAt n σ) i = takeAxes A i :=
      fun i _ => takeAxes_set i hA _
    rw [List.map_congr_left this, map_takeAxes_fiberIdx _ _ _ hk, takeAxes_set s hA]
  · intro x hx y hy hxy
    obtain ⟨i, hi, rfl⟩ := List.mem_map.1 hx
    obtain ⟨h1, h2⟩ := mem_fiberIdx.1 hi
    obtain ⟨h3, h4⟩ := mem_fiberIdx.1 hy
    refine axes_inj ((inB_lookAt hn hσ h1).length.trans h3.length.symm) hxy ?_
    rw [h4, lookAt, dropAxes_set, if_neg hA, h2, lookAt]
    congr 2
    rw [← h2, dropAxes_getD i hA]

/-- reordering along an averaged axis -/
theorem fiberIdx_averaged {s A σ k : List Nat} {n : Nat} (hn : n < s.length) (hA : n ∈ A)
    (hσ : σ.Perm (List.range (s.getD n 0))) :
    ((fiberIdx s A k).map (lookAt n σ)).Perm (fiberIdx s A k) := by
  have hl : σ.length = s.getD n 0 := by simpa using hσ.length_eq
  have hs : s.set n σ.length = s := by rw [hl, set_getD_self]
  have hlt : ∀ j ∈ σ, j < s.getD n 0 := fun j hj => by simpa using hσ.mem_iff.1 hj
  have hnd : σ.Nodup := hσ.nodup_iff.2 List.nodup_range
  rw [List.perm_ext_iff_of_nodup]
  · intro j
    rw [List.mem_map, mem_fiberIdx]
    constructor
    · rintro ⟨i, hi, rfl⟩
      obtain ⟨h1, h2⟩ := mem_fiberIdx.1 hi
      refine ⟨inB_lookAt hn hlt (by rw [hs]; exact h1), ?_⟩
      rw [lookAt, dropAxes_set, if_pos hA, h2]
    · rintro ⟨h1, h2⟩
      have hj := getD_lt_of_inB h1 hn
      have hm : j.getD n 0 ∈ σ := hσ.mem_iff.2 (by simpa using hj)
      obtain ⟨m, hm, hm'⟩ := List.getElem_of_mem hm
      refine ⟨j.set n m, ?_, ?_⟩
      · rw [mem_fiberIdx, dropAxes_set, if_pos hA]
        refine ⟨?_, h2⟩
        have := inB_set (n := n) h1 hm
        rwa [hs] at this
      · have hjl : j.length = s.length := h1.length
        rw [lookAt, getD_set_self (by omega), List.set_set, List.getD_eq_getElem?_getD,
          List.getElem?_eq_getElem hm, Option.getD_some, hm', set_getD_self]
  · refine (nodup_fiberIdx _ _ _).map_on ?_
    intro i hi j hj hij
    have h1 := (mem_fiberIdx.1 hi).1
    have h2 := (mem_fiberIdx.1 hj).1
    have hi' := getD_lt_of_inB h1 hn
    have hj' := getD_lt_of_inB h2 hn
    have hil : i.length = s.length := h1.length
    have hjl : j.length = s.length := h2.length
    unfold lookAt at hij
    have h3 : σ.getD (i.getD n 0) 0 = σ.getD (j.getD n 0) 0 := by
      have := congrArg (fun l => l.getD n 0) hij
      rwa [getD_set_self (by omega), getD_set_self (by omega)] at this
    have h4 : i.getD n 0 = j.getD n 0 := by
      rw [← hl] at hi' hj'
      have g : ∀ m (hm : m < σ.length), σ.getD m 0 = σ[m] := fun m hm => by
        rw [List.getD_eq_getElem?_getD, List.getElem?_eq_getElem hm]; rfl
      rw [g _ hi', g _ hj'] at h3
      exact (hnd.getElem_inj_iff).1 h3
    have h5 : (i.set n (σ.getD (i.getD n 0) 0)).set n (i.getD n 0) =
        (j.set n (σ.getD (j.getD n 0) 0)).set n (j.getD n 0) := by
      rw [hij, h4]
    rwa [List.set_set, List.set_set, set_getD_self, set_getD_self] at h5
  · exact nodup_fiberIdx _ _ _

theorem shape_takeAlong {α : Type} [Inhabited α] (a : NDArr α) (n : Nat) (σ : List Nat) :
    (takeAlong a n σ).shape = a.shape.set n σ.length := rfl

theorem shape_takeAlong_perm {α : Type} [Inhabited α] (a : NDArr α) {n : Nat} {σ : List Nat}
    (hσ : σ.Perm (List.range (a.shape.getD n 0))) : (takeAlong a n σ).shape = a.shape := by
  have hl : σ.length = a.shape.getD n 0 := by simpa using hσ.length_eq
  rw [shape_takeAlong, hl, set_getD_self]

section
variable {α β : Type} [Inhabited α] [Inhabited β]

omit [Inhabited β] in
theorem map_fiberIdx_kept (g : List Nat → β) {s A σ k : List Nat} {n : Nat} (hn : n < s.length) (hA : n ∉ A)
    (hσ : ∀ j ∈ σ, j < s.getD n 0) (hk : InB (dropAxes A (s.set n σ.length)) k) :
    (fiberIdx (s.set n σ.length) A k).map (fun i => g (lookAt n σ i)) =
      (fiberIdx s A (lookAt (keptPos A n) σ k)).map g := by
  rw [← fiberIdx_kept hn hA hσ hk, List.map_map]; rfl

omit [Inhabited β] in
theorem map_fiberIdx_averaged (g : List Nat → β) {s A σ k : List Nat} {n : Nat} (hn : n < s.length) (hA : n ∈ A)
    (hσ : σ.Perm (List.range (s.getD n 0))) :
    ((fiberIdx s A k).map (fun i => g (lookAt n σ i))).Perm ((fiberIdx s A k).map g) := by
  have := (fiberIdx_averaged (k := k) hn hA hσ).map g
  rwa [List.map_map] at this

theorem pairsAt_kept {f : NDArr α} {o : NDArr β} (hsh : f.shape = o.shape) {A σ k : List Nat} {n : Nat}
    (hn : n < f.shape.length) (hA : n ∉ A) (hσ : ∀ j ∈ σ, j < f.shape.getD n 0)
    (hk : InB (dropAxes A (f.shape.set n σ.length)) k) :
    pairsAt (takeAlong f n σ) (takeAlong o n σ) A k = pairsAt f o A (lookAt (keptPos A n) σ k) := by
  unfold pairsAt
  rw [← map_fiberIdx_kept (fun i => (f.get i, o.get i)) hn hA hσ hk]
  refine List.map_congr_left fun i hi => ?_
  have := (mem_fiberIdx.1 hi).1
  rw [get_takeAlong f this, get_takeAlong o (by rw [← hsh]; exact this)]

theorem pairsAt_averaged {f : NDArr α} {o : NDArr β} (hsh : f.shape = o.shape) {A σ k : List Nat} {n : Nat}
    (hn : n < f.shape.length) (hA : n ∈ A) (hσ : σ.Perm (List.range (f.shape.getD n 0))) :
    (pairsAt (takeAlong f n σ) (takeAlong o n σ) A k).Perm (pairsAt f o A k) := by
  unfold pairsAt
  refine .trans (.of_eq ?_) (map_fiberIdx_averaged (fun i => (f.get i, o.get i)) hn hA hσ)
  rw [shape_takeAlong_perm f hσ]
  refine List.map_congr_left fun i hi => ?_
  have hi := (mem_fiberIdx.1 hi).1
  have e := shape_takeAlong_perm f hσ
  rw [shape_takeAlong] at e
  rw [get_takeAlong f (by rw [e]; exact hi), get_takeAlong o (by rw [← hsh, e]; exact hi)]

/-- an array that looks its entries up in another one -/
theorem eq_takeAlong {a b : NDArr α} {m : Nat} {σ : List Nat} (hs : b.shape = a.shape.set m σ.length)
    (h : ∀ k, InB b.shape k → b.get k = a.get (lookAt m σ k)) : b = takeAlong a m σ := by
  refine ext_get (by rw [hs]; rfl) fun k hk => ?_
  rw [h k hk, get_takeAlong a (by rw [← hs]; exact hk)]

end

section
variable {K : Type}

theorem membersAt_taken {f : NDArr (Fl K)} {ax : Int} {n : Nat} {σ k : List Nat} (hn : n < f.shape.length)
    (hne : n ≠ axisNum f.shape.length ax) (hσ : ∀ j ∈ σ, j < f.shape.getD n 0)
    (hk : InB (dropAxes [axisNum f.shape.length ax] (f.shape.set n σ.length)) k) :
    membersAt (takeAlong f n σ) ax k = membersAt f ax (lookAt (keptPos [axisNum f.shape.length ax] n) σ k) := by
  unfold membersAt fiber
  rw [shape_takeAlong, List.length_set, ← map_fiberIdx_kept f.get hn (by simpa using hne) hσ hk]
  exact List.map_congr_left fun i hi => get_takeAlong f (mem_fiberIdx.1 hi).1

end

end Lemmas
