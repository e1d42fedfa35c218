import Verif.Model.SpreadSkill
import Verif.Spec.SpreadSkill
import Verif.Lemmas.RelMulti

set_option linter.unusedSectionVars false

namespace Lemmas
open Np NDArr Spec Model

/-! ### `np.array_split` -/

theorem splitStart_zero (N n : Nat) : splitStart N n 0 = 0 := by simp [splitStart]

theorem splitStart_succ (N n b : Nat) : splitStart N n (b + 1) = splitStart N n b + splitSize N n b := by
  unfold splitStart splitSize
  rw [Nat.add_mul]
  split <;> omega

theorem splitStart_last {N n : Nat} (hn : n ≠ 0) : splitStart N n n = N := by
  unfold splitStart
  have h1 := Nat.mod_lt N (Nat.pos_of_ne_zero hn)
  have h2 := Nat.div_add_mod N n
  rw [Nat.min_eq_right (by omega)]
  exact h2

theorem splitStart_mono (N n : Nat) {b c : Nat} (h : b ≤ c) : splitStart N n b ≤ splitStart N n c := by
  induction h with
  | refl => exact le_rfl
  | step _ ih => rw [splitStart_succ]; omega

/-- group `b` of a list -/
def groupOf {α : Type} [Inhabited α] (L : List α) (n b : Nat) : List α :=
  (List.range (splitSize L.length n b)).map fun r => L.getD (splitStart L.length n b + r) default

def groupsOf {α : Type} [Inhabited α] (L : List α) (n : Nat) : List (List α) :=
  (List.range n).map (groupOf L n)

theorem groups_take {α : Type} [Inhabited α] (L : List α) {n : Nat} (hn : n ≠ 0) (m : Nat) (hm : m ≤ n) :
    ((List.range m).map (groupOf L n)).flatten = L.take (splitStart L.length n m) := by
  induction m with
  | zero => simp [splitStart_zero]
  | succ m ih =>
    rw [List.range_succ, List.map_append, List.flatten_append, ih (by omega), splitStart_succ]
    have hle : splitStart L.length n m + splitSize L.length n m ≤ L.length := by
      rw [← splitStart_succ]
      exact (splitStart_mono _ _ hm).trans (splitStart_last hn).le
    rw [List.take_add]
    congr 1
    simp only [List.map_cons, List.map_nil, List.flatten_cons, List.flatten_nil, List.append_nil]
    unfold groupOf
    apply List.ext_getElem
    · simp; omega
    · intro i h1 h2
      simp only [List.length_map, List.length_range] at h1
      have : splitStart L.length n m + i < L.length := by omega
      simp [List.getD_eq_getElem?_getD, this]

theorem groups_flatten {α : Type} [Inhabited α] (L : List α) {n : Nat} (hn : n ≠ 0) :
    (groupsOf L n).flatten = L := by
  unfold groupsOf
  rw [groups_take L hn n le_rfl, splitStart_last hn, List.take_length]

theorem groupOf_length {α : Type} [Inhabited α] (L : List α) (n b : Nat) :
    (groupOf L n b).length = splitSize L.length n b := by simp [groupOf]

theorem groups_balanced {α : Type} [Inhabited α] (L : List α) (n : Nat) :
    (groupsOf L n).Pairwise fun g h => h.length ≤ g.length ∧ g.length ≤ h.length + 1 := by
  unfold groupsOf
  rw [List.pairwise_map]
  refine (List.pairwise_lt_range (n := n)).imp ?_
  intro a b hab
  rw [groupOf_length, groupOf_length]
  unfold splitSize
  split <;> split <;> omega

theorem getD_getD_map {α : Type} [Inhabited α] (P : List α) (idx : List Nat) (r : Nat)
    (h : r < idx.length) :
    (idx.map (P.getD · default)).getD r default = P.getD (idx.getD r 0) default := by
  simp [List.getD_eq_getElem?_getD, h]

variable {K : Type} [Field K] [LinearOrder K]

theorem argsort_perm {α : Type} [Inhabited α] {P : List α} {idx : List Nat}
    (h : idx.Perm (List.range P.length)) : (idx.map (P.getD · default)).Perm P := by
  have h1 := h.map (P.getD · default)
  have h2 : (List.range P.length).map (P.getD · default) = P := by
    apply List.ext_getElem
    · simp
    · intro i h1 h2; simp [List.getD_eq_getElem?_getD, h2]
  rwa [h2] at h1

theorem isGrouping_of_argsort {P : List (Fl K × Fl K)} {idx : List Nat}
    (h : IsArgsort (P.map Prod.fst) idx) {n : Nat} (hn : n ≠ 0) :
    IsGrouping n P (groupsOf (idx.map (P.getD · default)) n) := by
  refine ⟨by simp [groupsOf], ?_, ?_, groups_balanced _ _⟩
  · rw [groups_flatten _ hn]
    exact argsort_perm (by simpa using h.1)
  · rw [groups_flatten _ hn, List.map_map]
    have h2 := h.2
    convert h2 using 1
    apply List.map_congr_left
    intro r _
    simp only [Function.comp, List.getD_eq_getElem?_getD, List.getElem?_map]
    cases P[r]? <;> rfl

/-! ### the two axis moves of the results -/

/-- `np.moveaxis(a, 0, -1)` -/
theorem moveaxis_last {α : Type} [Inhabited α] (a : NDArr α) (n : Nat) (D : List Nat)
    (hs : a.shape = n :: D) :
    ∃ r, a.moveaxis 0 (-1) = .ok r ∧ r.shape = D ++ [n] ∧
      ∀ b k, b < n → InB D k → r.get (k ++ [b]) = a.get (b :: k) := by
  have hl : a.shape.length = D.length + 1 := by rw [hs]; simp
  have h0 : normAxis a.ndim 0 = .ok 0 := by
    unfold normAxis ndim; rw [if_pos (by omega)]; simp
  have h1 : normAxis a.ndim (-1) = .ok D.length := by
    unfold normAxis ndim; rw [if_pos (by omega), if_pos (by omega), hl]
    congr 1; omega
  have hperm : (moveOrder a.ndim 0 D.length).Perm (List.range a.shape.length) :=
    moveOrder_perm (by unfold ndim; omega) (by unfold ndim; omega)
  have hmap : ∀ x l, l.length = D.length → (moveOrder a.ndim 0 D.length).map ((x :: l).getD · 0) =
      l ++ [x] := by
    intro x l hx
    rw [map_moveOrder (x :: l) (by simp [ndim, hl, hx]) (by unfold ndim; omega)]
    simp only [List.eraseIdx_zero, List.tail_cons, List.getD_cons_zero]
    rw [← hx]
    simp
  refine ⟨a.transpose (moveOrder a.ndim 0 D.length), ?_, ?_, ?_⟩
  · unfold moveaxis; rw [h0, h1]; rfl
  · rw [shape_transpose, hs, hmap n D rfl]
  · intro b k hb hk
    rw [← hmap b k hk.length]
    exact get_transpose a hperm (by rw [hs]; exact List.Forall₂.cons hb hk)

/-- `np.moveaxis(a, 0, -2)` with a trailing axis of length 3 -/
theorem moveaxis_last2 {α : Type} [Inhabited α] (a : NDArr α) (n : Nat) (D : List Nat)
    (hs : a.shape = n :: D ++ [3]) :
    ∃ r, a.moveaxis 0 (-2) = .ok r ∧ r.shape = D ++ [n, 3] ∧
      ∀ b k c, b < n → InB D k → c < 3 → r.get (k ++ [b, c]) = a.get (b :: k ++ [c]) := by
  have hl : a.shape.length = D.length + 2 := by rw [hs]; simp
  have h0 : normAxis a.ndim 0 = .ok 0 := by
    unfold normAxis ndim; rw [if_pos (by omega)]; simp
  have h1 : normAxis a.ndim (-2) = .ok D.length := by
    unfold normAxis ndim; rw [if_pos (by omega), if_pos (by omega), hl]
    congr 1; omega
  have hperm : (moveOrder a.ndim 0 D.length).Perm (List.range a.shape.length) :=
    moveOrder_perm (by unfold ndim; omega) (by unfold ndim; omega)
  have hmap : ∀ x l c, l.length = D.length →
      (moveOrder a.ndim 0 D.length).map ((x :: l ++ [c]).getD · 0) = l ++ [x, c] := by
    intro x l c hx
    rw [map_moveOrder (x :: l ++ [c]) (by simp [ndim, hl, hx]) (by unfold ndim; omega)]
    simp only [List.cons_append, List.eraseIdx_zero, List.tail_cons, List.getD_cons_zero]
    rw [← hx]
    exact insertIdx_length_append l [c] x
  refine ⟨a.transpose (moveOrder a.ndim 0 D.length), ?_, ?_, ?_⟩
  · unfold moveaxis; rw [h0, h1]; rfl
  · rw [shape_transpose, hs, hmap n D 3 rfl]
  · intro b k c hb hk hc
    rw [← hmap b k c hk.length]
    refine get_transpose a hperm ?_
    rw [hs]
    exact List.Forall₂.cons hb (InB.append hk (List.Forall₂.cons hc List.Forall₂.nil))

/-! ### the split -/

variable [IsStrictOrderedRing K] [FloorSemiring K]

/-- piece `b`, column of kept position `k`: the pairs of group `b` -/
theorem ssCreateSplit_spec (argsort : Nat → List (Fl K) → List Nat) (v e : NDArr (Fl K))
    (nbins : Nat) (axes : List Int) (hsh : v.shape = e.shape) (hg : GoodAxes v.shape.length axes)
    (hargs : ∀ c l, IsArgsort l (argsort c l))
    (hD : (dropAxes (axes.map (axisNum v.shape.length)) v.shape).prod ≠ 0) (hn : nbins ≠ 0)
    (hle : nbins ≤ (takeAxes (axes.map (axisNum v.shape.length)) v.shape).prod) :
    ∃ pieces, ssCreateSplit argsort v e nbins (some axes) =
        .ok (pieces, dropAxes (axes.map (axisNum v.shape.length)) v.shape) ∧
      pieces.length = nbins ∧
      ∀ b, b < nbins → ∃ arr, pieces[b]? = some arr ∧
        arr.shape = [splitSize (takeAxes (axes.map (axisNum v.shape.length)) v.shape).prod nbins b, 2,
          (dropAxes (axes.map (axisNum v.shape.length)) v.shape).prod] ∧
        ∀ k, InB (dropAxes (axes.map (axisNum v.shape.length)) v.shape) k →
          ∀ r, r < splitSize (takeAxes (axes.map (axisNum v.shape.length)) v.shape).prod nbins b →
          (arr.get [r, 0, ravel (dropAxes (axes.map (axisNum v.shape.length)) v.shape) k],
           arr.get [r, 1, ravel (dropAxes (axes.map (axisNum v.shape.length)) v.shape) k]) =
          (groupOf ((argsort (ravel (dropAxes (axes.map (axisNum v.shape.length)) v.shape) k)
              ((pairsAt v e (axes.map (axisNum v.shape.length)) k).map Prod.fst)).map
              ((pairsAt v e (axes.map (axisNum v.shape.length)) k).getD · default)) nbins b).getD r
            default := by
  obtain ⟨m, hm, hms, hmg⟩ := moveSampleAxes_spec v axes hg
  obtain ⟨m', hm', hms', hmg'⟩ := moveSampleAxes_spec e axes (by rw [← hsh]; exact hg)
  rw [← hsh] at hm' hms' hmg'
  set A := axes.map (axisNum v.shape.length)
  set T := takeAxes A v.shape
  set D := dropAxes A v.shape with hDdef
  obtain ⟨v2, hv2, hv2s, hv2g⟩ := reshapeInfer_flat m T D hms hD
  obtain ⟨e2, he2, he2s, he2g⟩ := reshapeInfer_flat m' T D hms' hD
  have hcolv : ∀ k, InB D k → v2.col (ravel D k) = (pairsAt v e A k).map Prod.fst := by
    intro k hk
    rw [pairsAt_fst]
    unfold col
    rw [hv2s]
    have e0 : ([T.prod, D.prod] : List Nat).getD 0 0 = T.prod := rfl
    rw [e0]
    apply map_range_fiber hk
    intro i hi hik
    rw [hv2g _ _ (inB_takeAxes A hi) hk, ← hmg i hi, hik]
  have hcole : ∀ k, InB D k → e2.col (ravel D k) = (pairsAt v e A k).map Prod.snd := by
    intro k hk
    rw [pairsAt_snd v e hsh]
    have hk' : InB (dropAxes A e.shape) k := by rw [← hsh]; exact hk
    unfold col
    rw [he2s]
    have e0 : ([T.prod, D.prod] : List Nat).getD 0 0 = T.prod := rfl
    rw [e0]
    have := map_range_fiber (a := e) (axes := A) (k := k) hk' (fun r => e2.get [r, ravel D k]) (by
      intro i hi hik
      rw [← hsh] at hi ⊢
      rw [he2g _ _ (inB_takeAxes A hi) hk, ← hmg' i hi, hik])
    rw [← hsh] at this
    exact this
  have hPl : ∀ k, InB D k → (pairsAt v e A k).length = T.prod := by
    intro k hk
    have := congrArg List.length (hcolv k hk)
    simp only [List.length_map, col, List.length_range, hv2s] at this
    exact this.symm
  have hrun : ssCreateSplit argsort v e nbins (some axes) =
      ssCreateSplit argsort v e nbins (some axes) := rfl
  conv_rhs at hrun =>
    unfold ssCreateSplit
    rw [if_neg (by simpa using hsh)]
    simp only [resolveAxes, bind, Except.bind, hm, hm', hv2, he2, pure, Except.pure]
    rw [if_neg (by simp [he2s, hle])]
    unfold arraySplit0
    rw [if_neg hn]
  refine ⟨_, hrun, ?_, ?_⟩
  · simp
  · intro b hb
    refine ⟨_, by rw [List.getElem?_map, List.getElem?_range hb, Option.map_some], ?_, ?_⟩
    · simp [hv2s]
    · intro k hk r hr
      set i := ravel D k
      have hi : i < D.prod := ravel_lt hk
      set ord := argsort i ((pairsAt v e A k).map Prod.fst) with hord
      have hordp := (hargs i ((pairsAt v e A k).map Prod.fst)).1
      rw [← hord, List.length_map, hPl k hk] at hordp
      have hordl : ord.length = T.prod := by simpa using hordp.length_eq
      have hstart : splitStart T.prod nbins b + r < T.prod := by
        have := splitStart_mono T.prod nbins (show b + 1 ≤ nbins by omega)
        rw [splitStart_succ, splitStart_last hn] at this
        omega
      have hord_lt : ord.getD (splitStart T.prod nbins b + r) 0 < T.prod := by
        have hm : ord.getD (splitStart T.prod nbins b + r) 0 ∈ ord := by
          rw [List.getD_eq_getElem?_getD, List.getElem?_eq_getElem (by omega)]
          exact List.getElem_mem _
        simpa using hordp.mem_iff.1 hm
      have hL : (ord.map ((pairsAt v e A k).getD · default)).length = T.prod := by simp [hordl]
      have hrhs : (groupOf (ord.map ((pairsAt v e A k).getD · default)) nbins b).getD r default =
          (pairsAt v e A k).getD (ord.getD (splitStart T.prod nbins b + r) 0) default := by
        rw [← getD_getD_map _ _ _ (by omega)]
        unfold groupOf
        rw [hL]
        simp [List.getD_eq_getElem?_getD, hr]
      rw [hrhs]
      have g0 : ∀ c, c < 2 → InB [splitSize T.prod nbins b, 2, D.prod] [r, c, i] := fun c hc =>
        List.Forall₂.cons hr (List.Forall₂.cons hc (List.Forall₂.cons hi List.Forall₂.nil))
      have g1 : ∀ c, c < 2 → InB [T.prod, 2, D.prod] [splitStart T.prod nbins b + r, c, i] := fun c hc =>
        List.Forall₂.cons hstart (List.Forall₂.cons hc (List.Forall₂.cons hi List.Forall₂.nil))
      have g2 : InB [T.prod, D.prod] [splitStart T.prod nbins b + r, i] :=
        List.Forall₂.cons hstart (List.Forall₂.cons hi List.Forall₂.nil)
      have c1 : ∀ (x : NDArr (Fl K)), x.shape = [T.prod, D.prod] → ∀ j, j < T.prod →
          x.get [j, i] = (x.col i).getD j default := by
        intro x hx j hj
        simp [col, hx, List.getD_eq_getElem?_getD, hj]
      have f1 : v2.get [ord.getD (splitStart T.prod nbins b + r) 0, i] =
          ((pairsAt v e A k).getD (ord.getD (splitStart T.prod nbins b + r) 0) default).1 := by
        rw [c1 v2 hv2s _ hord_lt, hcolv k hk]
        simp only [List.getD_eq_getElem?_getD, List.getElem?_map]
        cases (pairsAt v e A k)[(ord[splitStart T.prod nbins b + r]?.getD 0)]? <;> rfl
      have f2 : e2.get [ord.getD (splitStart T.prod nbins b + r) 0, i] =
          ((pairsAt v e A k).getD (ord.getD (splitStart T.prod nbins b + r) 0) default).2 := by
        rw [c1 e2 he2s _ hord_lt, hcole k hk]
        simp only [List.getD_eq_getElem?_getD, List.getElem?_map]
        cases (pairsAt v e A k)[(ord[splitStart T.prod nbins b + r]?.getD 0)]? <;> rfl
      simp only [shape_ofFn, hv2s, he2s, List.getD_cons_zero, List.tail_cons, List.getD_cons_succ]
      rw [get_ofFn _ (g0 0 (by omega)), get_ofFn _ (g0 1 (by omega))]
      simp only [List.getD_cons_zero, List.tail_cons]
      rw [get_ofFn _ (g1 0 (by omega)), get_ofFn _ (g1 1 (by omega))]
      simp only [List.getD_cons_zero, List.getD_cons_succ, if_true, Nat.one_ne_zero, if_false]
      rw [get_ofFn _ g2, get_ofFn _ g2]
      simp only [List.getD_cons_zero, List.getD_cons_succ]
      rw [hcolv k hk, ← hord, f1, f2]

end Lemmas
