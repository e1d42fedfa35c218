import Verif.Lemmas.SpreadSkill
import Verif.Model.SpecialBoot
import Verif.Spec.Reliability

set_option linter.unusedSectionVars false

namespace Lemmas
open Np NDArr Spec Model

variable {α : Type} [Inhabited α]

theorem mapE_normAxis {n : Nat} {axes : List Nat} (h : ∀ x ∈ axes, x < n) :
    mapE (normAxis n) (axes.map Int.ofNat) = .ok axes := by
  rw [mapE_map, mapE_eq_map (g := id)]
  · simp
  · intro a ha
    have := h a ha
    unfold normAxis
    rw [if_pos (by simp; omega)]
    simp only [Int.ofNat_eq_natCast, id, Except.ok.injEq]
    rw [if_neg (by omega)]
    simp

theorem transposeAx_ok (a : NDArr α) {p : List Nat} (hp : p.Perm (List.range a.shape.length)) :
    a.transposeAx (p.map Int.ofNat) = .ok (a.transpose p) := by
  unfold transposeAx
  rw [if_neg (by simpa [ndim] using hp.length_eq)]
  rw [mapE_normAxis (n := a.ndim) (fun x hx => by simpa [ndim] using hp.mem_iff.1 hx)]
  simp only [bind, Except.bind]
  rw [if_pos (hp.nodup_iff.2 List.nodup_range)]
  rfl

/-- axes not averaged, then the averaged ones as written -/
def workLabels (n : Nat) (A : List Nat) : List Nat := ((List.range n).filter fun a => a ∉ A) ++ A

theorem workLabels_perm {n : Nat} {A : List Nat} (hnd : A.Nodup) (hlt : ∀ y ∈ A, y < n) :
    (workLabels n A).Perm (List.range n) :=
  List.perm_append_comm.trans (frontLabels_perm hnd hlt)

theorem workLabels_map {n : Nat} (A l : List Nat) (hl : l.length = n) :
    (workLabels n A).map (l.getD · 0) = dropAxes A l ++ A.map (l.getD · 0) := by
  subst hl
  simp [workLabels, dropAxes]

/-- the coordinates of a fiber on the averaged axes, in the written order, enumerate all of them -/
theorem fiberIdx_map_perm {s A k : List Nat} (hnd : A.Nodup) (hlt : ∀ y ∈ A, y < s.length)
    (hk : InB (dropAxes A s) k) :
    ((fiberIdx s A k).map fun i => A.map (i.getD · 0)).Perm (allIdx (A.map (s.getD · 0))) := by
  have hnodF : (fiberIdx s A k).Nodup := (nodup_allIdx s).filter _
  have hinj : ((fiberIdx s A k).map fun i => A.map (i.getD · 0)).Nodup := by
    apply hnodF.map_on
    intro i hi j hj hij
    obtain ⟨hi1, hi2⟩ := mem_fiberIdx.1 hi
    obtain ⟨hj1, hj2⟩ := mem_fiberIdx.1 hj
    have hdij : dropAxes A i = dropAxes A j := by rw [hi2, hj2]
    apply List.ext_getElem (by rw [hi1.length, hj1.length])
    intro n h1 h2
    have key : i.getD n 0 = j.getD n 0 := by
      by_cases hn : n ∈ A
      · exact (List.map_inj_left.1 hij) n hn
      · unfold dropAxes at hdij
        rw [hi1.length, hj1.length] at hdij
        exact (List.map_inj_left.1 hdij) n (by
          simp only [List.mem_filter, List.mem_range, decide_eq_true_eq]
          exact ⟨by rw [← hi1.length]; exact h1, hn⟩)
    simpa [List.getD_eq_getElem?_getD, h1, h2] using key
  have hsub : ((fiberIdx s A k).map fun i => A.map (i.getD · 0)) ⊆ allIdx (A.map (s.getD · 0)) := by
    intro t ht
    obtain ⟨i, hi, rfl⟩ := List.mem_map.1 ht
    exact mem_allIdx.2 (inB_permute (mem_fiberIdx.1 hi).1 hlt)
  apply (List.subperm_of_subset hinj hsub).perm_of_length_le
  rw [length_allIdx, List.length_map]
  have h3 := congrArg List.length (map_takeAxes_fiberIdx s A k hk)
  rw [List.length_map, length_allIdx] at h3
  rw [h3]
  apply le_of_eq
  unfold takeAxes
  apply List.Perm.prod_eq
  apply List.Perm.map
  rw [List.perm_ext_iff_of_nodup hnd (List.nodup_range.filter _)]
  intro a
  simp only [List.mem_filter, List.mem_range, decide_eq_true_eq]
  exact ⟨fun h => ⟨hlt a h, h⟩, fun h => h.2⟩

/-- the flattened row of a kept position -/
theorem work_row (a : NDArr α) {A : List Nat} (hnd : A.Nodup) (hlt : ∀ y ∈ A, y < a.shape.length) :
    ∃ b, (a.transpose (workLabels a.shape.length A)).reshape
        [(dropAxes A a.shape).prod, (A.map (a.shape.getD · 0)).prod] = .ok b ∧
      b.shape = [(dropAxes A a.shape).prod, (A.map (a.shape.getD · 0)).prod] ∧
      ∀ k, InB (dropAxes A a.shape) k → ∀ i, InB a.shape i → dropAxes A i = k →
        b.get [ravel (dropAxes A a.shape) k, ravel (A.map (a.shape.getD · 0)) (A.map (i.getD · 0))] =
          a.get i := by
  have hperm := workLabels_perm hnd hlt
  have hsh : (a.transpose (workLabels a.shape.length A)).shape =
      dropAxes A a.shape ++ A.map (a.shape.getD · 0) := by
    rw [shape_transpose, workLabels_map A a.shape rfl]
  obtain ⟨b, hb1, hb2, hb3⟩ := reshape_ok (a.transpose (workLabels a.shape.length A))
    [(dropAxes A a.shape).prod, (A.map (a.shape.getD · 0)).prod] (by rw [hsh]; simp)
  refine ⟨b, hb1, hb2, ?_⟩
  intro k hk i hi hik
  have h1 := get_transpose a hperm hi
  rw [workLabels_map A i hi.length, hik] at h1
  rw [← h1]
  apply get_of_ravel_eq hb3
  rw [hb2, hsh, ravel_pair, ravel_append hk]

/-- `np.moveaxis(a, -1, 0)` -/
theorem moveaxis_first (a : NDArr α) (n : Nat) (D : List Nat) (hs : a.shape = D ++ [n]) :
    ∃ r, a.moveaxis (-1) 0 = .ok r ∧ r.shape = n :: D ∧
      ∀ b k, b < n → InB D k → r.get (b :: k) = a.get (k ++ [b]) := by
  have hl : a.shape.length = D.length + 1 := by rw [hs]; simp
  have h0 : normAxis a.ndim 0 = .ok 0 := by
    unfold normAxis ndim; rw [if_pos (by omega)]; simp
  have h1 : normAxis a.ndim (-1) = .ok D.length := by
    unfold normAxis ndim; rw [if_pos (by omega), if_pos (by omega), hl]
    congr 1; omega
  have hperm : (moveOrder a.ndim D.length 0).Perm (List.range a.shape.length) :=
    moveOrder_perm (by unfold ndim; omega) (by unfold ndim; omega)
  have hmap : ∀ x l, l.length = D.length → (moveOrder a.ndim D.length 0).map ((l ++ [x]).getD · 0) =
      x :: l := by
    intro x l hx
    rw [map_moveOrder (l ++ [x]) (by simp [ndim, hl, hx]) (by unfold ndim; omega)]
    rw [List.insertIdx_zero, ← hx]
    simp [List.eraseIdx_append_of_length_le]
  refine ⟨a.transpose (moveOrder a.ndim D.length 0), ?_, ?_, ?_⟩
  · unfold moveaxis; rw [h0, h1]; rfl
  · rw [shape_transpose, hs, hmap n D rfl]
  · intro b k hb hk
    rw [← hmap b k hk.length]
    exact get_transpose a hperm (by rw [hs]; exact hk.append (List.Forall₂.cons hb List.Forall₂.nil))

theorem ofRows_ok {rows : List (List α)} {w : Nat} (hne : rows ≠ []) (hw : ∀ r ∈ rows, r.length = w) :
    ∃ b, NDArr.ofRows rows = .ok b ∧ b.shape = [rows.length, w] ∧ b.data = rows.flatten := by
  cases rows with
  | nil => exact absurd rfl hne
  | cons r rs =>
    have hr := hw r (by simp)
    simp only [NDArr.ofRows]
    rw [dif_pos (fun s hs => by rw [hw s (by simp [hs]), hr])]
    exact ⟨_, rfl, by simp [hr], rfl⟩

theorem getElem?_flatten_const {rows : List (List α)} {w : Nat} (hw : ∀ r ∈ rows, r.length = w)
    (i j : Nat) (hj : j < w) : rows.flatten[i * w + j]? = (rows[i]?).bind fun r => r[j]? := by
  have := getElem?_flatMap_const rows id w hw i j hj
  simpa [List.flatMap_id] using this

variable {K : Type} [Field K] [LinearOrder K] [IsStrictOrderedRing K] [FloorSemiring K]

/-- What `_workflow` computes, for distinct non-negative axes: the statistic of an arrangement of the
pairs of each kept position, stored with the statistic's numbers along the first axis. -/
theorem specialWorkflow_spec (func : Nat → List (Fl K) → List (Fl K) → Except Err (List (Fl K)))
    (w : Nat) (hw : ∀ i x y r, func i x y = .ok r → r.length = w)
    (f o : NDArr (Fl K)) (A : List Nat) (hsh : f.shape = o.shape) (hnd : A.Nodup)
    (hlt : ∀ y ∈ A, y < f.shape.length) (hA : A ≠ []) (hD : (dropAxes A f.shape).prod ≠ 0) :
    ∃ fs os : List Nat → List (Fl K),
      (∀ k, InB (dropAxes A f.shape) k → (fs k).length = (os k).length ∧
        ((fs k).zip (os k)).Perm (pairsAt f o A k)) ∧
      ((∀ k, InB (dropAxes A f.shape) k →
          ∃ r, func (ravel (dropAxes A f.shape) k) (fs k) (os k) = .ok r) →
        ∃ ret, specialWorkflow func f o (some (A.map Int.ofNat)) = .ok ret) ∧
      ∀ ret, specialWorkflow func f o (some (A.map Int.ofNat)) = .ok ret →
        ret.shape = (if w = 1 then dropAxes A f.shape else w :: dropAxes A f.shape) ∧
        ∀ k, InB (dropAxes A f.shape) k →
          ∃ r, func (ravel (dropAxes A f.shape) k) (fs k) (os k) = .ok r ∧
            ∀ c, c < w → ret.get (if w = 1 then k else c :: k) = r.getD c none := by
  set D := dropAxes A f.shape with hDdef
  set T := A.map (f.shape.getD · 0) with hTdef
  have hperm := workLabels_perm hnd hlt
  obtain ⟨fb, hfb1, hfb2, hfb3⟩ := work_row f hnd hlt
  obtain ⟨ob, hob1, hob2, hob3⟩ := work_row o hnd (by rw [← hsh]; exact hlt)
  rw [← hsh] at hob1 hob2 hob3
  rw [← hDdef, ← hTdef] at hfb1 hfb2 hfb3 hob1 hob2 hob3
  -- the run, up to the loop
  have hlab : ((List.range f.shape.length).filter fun a => a ∉ A).map Int.ofNat ++ A.map Int.ofNat =
      (workLabels f.shape.length A).map Int.ofNat := by simp [workLabels]
  have hshT : (f.transpose (workLabels f.shape.length A)).shape = D ++ T := by
    rw [shape_transpose, workLabels_map A f.shape rfl]
  have hDl : (((List.range f.shape.length).filter fun a => a ∉ A).map Int.ofNat).length = D.length := by
    rw [hDdef]; simp [dropAxes]
  have hTl : T.length = A.length := by simp [hTdef]
  have hrun : specialWorkflow func f o (some (A.map Int.ofNat)) = (do
      let rows ← mapE (fun i => func i (fb.row i) (ob.row i)) (List.range D.prod)
      let ret ← NDArr.ofRows rows
      let ret ← ret.reshapeInfer D []
      let ret ← ret.moveaxis (-1) 0
      pure (if ret.shape.getD 0 0 = 1 then ret.slice0 0 else ret)) := by
    unfold specialWorkflow
    rw [if_neg (by simpa using hsh)]
    simp only [resolveAxes]
    generalize hX : List.filter _ (List.map Int.ofNat (List.range o.ndim)) = X
    have hout : X = ((List.range f.shape.length).filter fun a => a ∉ A).map Int.ofNat := by
      rw [← hX, List.filter_map]
      congr 1
      unfold ndim
      rw [← hsh]
      apply List.filter_congr
      intro a _
      simp [Function.comp]
    rw [hout, hlab, transposeAx_ok o (by rw [← hsh]; exact hperm), transposeAx_ok f hperm]
    simp only [bind, Except.bind, hshT, hDl]
    rw [if_neg (by simp [hA])]
    have e1 : (D ++ T).take D.length = D := by simp
    have e2 : (D ++ T).drop ((D ++ T).length - (A.map Int.ofNat).length) = T := by
      have : (D ++ T).length - (A.map Int.ofNat).length = D.length := by
        simp only [List.length_append, List.length_map]; omega
      rw [this]; simp
    rw [e1, e2, hob1, hfb1]
    simp only [hfb2, List.getD_cons_zero]
  -- rows of the flattened arrays
  have hrow : ∀ k, InB D k → ∀ (b : NDArr (Fl K)), b.shape = [D.prod, T.prod] →
      b.row (ravel D k) = (allIdx T).map fun t => b.get [ravel D k, ravel T t] := by
    intro k hk b hb
    unfold row
    rw [hb]
    simp only [List.getD_cons_succ, List.getD_cons_zero]
    rw [← map_ravel_allIdx T, List.map_map]
    rfl
  refine ⟨fun k => fb.row (ravel D k), fun k => ob.row (ravel D k), ?_, ?_, ?_⟩
  · intro k hk
    beta_reduce
    rw [hrow k hk fb hfb2, hrow k hk ob hob2]
    refine ⟨by simp, ?_⟩
    rw [List.zip_map', pairsAt]
    refine ((fiberIdx_map_perm hnd hlt hk).symm.map _).trans ?_
    rw [List.map_map]
    refine List.Perm.of_eq ?_
    apply List.map_congr_left
    intro i hi
    obtain ⟨h1, h2⟩ := mem_fiberIdx.1 hi
    simp only [Function.comp]
    rw [hfb3 k hk i h1 h2, hob3 k hk i h1 h2]
  · intro hall
    rw [hrun]
    have : ∀ i, i < D.prod → ∃ r, func i (fb.row i) (ob.row i) = .ok r := by
      intro i hi
      have hi' : i ∈ (allIdx D).map (ravel D) := by rw [map_ravel_allIdx]; simpa using hi
      obtain ⟨k, hk, rfl⟩ := List.mem_map.1 hi'
      exact hall k (mem_allIdx.1 hk)
    choose! g hg using this
    rw [mapE_eq_map (g := g) (fun a ha => hg a (by simpa using ha))]
    simp only [bind, Except.bind]
    obtain ⟨b, hb1, hb2, hb3⟩ := ofRows_ok (rows := (List.range D.prod).map g) (w := w)
      (by simpa using hD) (by
        intro r hr
        obtain ⟨i, hi, rfl⟩ := List.mem_map.1 hr
        exact hw _ _ _ _ (hg i (by simpa using hi)))
    rw [hb1]
    simp only [List.length_map, List.length_range] at hb2
    have hrs : ∃ c, b.reshapeInfer D [] = .ok c ∧ c.shape = D ++ [w] := by
      unfold reshapeInfer
      simp only [List.prod_nil, Nat.mul_one, List.append_nil]
      rw [if_neg hD, hb2]
      have e : ([D.prod, w] : List Nat).prod / D.prod = w := by
        simp only [List.prod_cons, List.prod_nil, Nat.mul_one]
        exact Nat.mul_div_cancel_left _ (Nat.pos_of_ne_zero hD)
      rw [e]
      obtain ⟨c, h1, h2, -⟩ := reshape_ok b (D ++ [w]) (by rw [hb2]; simp)
      exact ⟨c, h1, h2⟩
    obtain ⟨c, hc1, hc2⟩ := hrs
    obtain ⟨r, hr1, -, -⟩ := moveaxis_first c w D hc2
    simp only
    rw [hc1]
    simp only
    rw [hr1]
    exact ⟨_, rfl⟩
  · intro ret hret
    rw [hrun] at hret
    cases hrows : mapE (fun i => func i (fb.row i) (ob.row i)) (List.range D.prod) with
    | error e => rw [hrows] at hret; cases hret
    | ok rows =>
    rw [hrows] at hret
    simp only [bind, Except.bind] at hret
    have hlen := mapE_length hrows
    rw [List.length_range] at hlen
    have hget : ∀ i, i < D.prod → ∃ y, rows[i]? = some y ∧ func i (fb.row i) (ob.row i) = .ok y :=
      fun i hi => mapE_range_get hrows hi
    have hwid : ∀ r ∈ rows, r.length = w := by
      intro r hr
      obtain ⟨i, hi, rfl⟩ := List.getElem_of_mem hr
      obtain ⟨y, hy1, hy2⟩ := hget i (by omega)
      rw [List.getElem?_eq_getElem hi] at hy1
      cases hy1
      exact hw _ _ _ _ hy2
    obtain ⟨b, hb1, hb2, hb3⟩ := ofRows_ok (rows := rows) (w := w)
      (by intro h0; rw [h0] at hlen; simp at hlen; exact hD hlen.symm) hwid
    rw [hb1] at hret
    rw [hlen] at hb2
    simp only at hret
    have hrs : ∃ c, b.reshapeInfer D [] = .ok c ∧ c.shape = D ++ [w] ∧ c.data = b.data := by
      unfold reshapeInfer
      simp only [List.prod_nil, Nat.mul_one, List.append_nil]
      rw [if_neg hD, hb2]
      have e : ([D.prod, w] : List Nat).prod / D.prod = w := by
        simp only [List.prod_cons, List.prod_nil, Nat.mul_one]
        exact Nat.mul_div_cancel_left _ (Nat.pos_of_ne_zero hD)
      rw [e]
      obtain ⟨c, h1, h2, h3⟩ := reshape_ok b (D ++ [w]) (by rw [hb2]; simp)
      exact ⟨c, h1, h2, h3⟩
    obtain ⟨c, hc1, hc2, hc3⟩ := hrs
    obtain ⟨r, hr1, hr2, hr3⟩ := moveaxis_first c w D hc2
    rw [hc1] at hret
    simp only at hret
    rw [hr1] at hret
    simp only [pure, Except.pure, Except.ok.injEq] at hret
    -- entries before the squeeze
    have hent : ∀ k, InB D k → ∃ y, func (ravel D k) (fb.row (ravel D k)) (ob.row (ravel D k)) = .ok y ∧
        ∀ j, j < w → r.get (j :: k) = y.getD j none := by
      intro k hk
      obtain ⟨y, hy1, hy2⟩ := hget (ravel D k) (ravel_lt hk)
      refine ⟨y, hy2, ?_⟩
      intro j hj
      rw [hr3 j k hj hk]
      unfold NDArr.get
      rw [hc2, ravel_append hk, hc3, hb3]
      have e : ravel D k * [w].prod + ravel [w] [j] = ravel D k * w + j := by simp [ravel]
      rw [e, List.getD_eq_getElem?_getD, getElem?_flatten_const hwid _ _ hj, hy1]
      simp [List.getD_eq_getElem?_getD]
      rfl
    rw [hr2] at hret
    simp only [List.getD_cons_zero] at hret
    by_cases h1 : w = 1
    · rw [if_pos h1] at hret
      subst hret
      rw [if_pos h1]
      refine ⟨by simp [slice0, hr2], ?_⟩
      intro k hk
      obtain ⟨y, hy1, hy2⟩ := hent k hk
      refine ⟨y, hy1, ?_⟩
      intro j hj
      have hj0 : j = 0 := by omega
      subst hj0
      rw [if_pos h1, ← hy2 0 hj]
      unfold slice0
      rw [get_ofFn _ (by rw [hr2]; exact hk)]
    · rw [if_neg h1] at hret
      subst hret
      rw [if_neg h1]
      refine ⟨hr2, ?_⟩
      intro k hk
      obtain ⟨y, hy1, hy2⟩ := hent k hk
      refine ⟨y, hy1, ?_⟩
      intro j hj
      rw [if_neg h1]
      exact hy2 j hj

end Lemmas
