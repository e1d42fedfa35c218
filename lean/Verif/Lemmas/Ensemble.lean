import Verif.Model.Ensemble
import Verif.Spec.Ensemble
import Verif.Lemmas.Average
import Verif.Lemmas.Columns

/-! Moving the ensemble axis to the front and merging a threshold or observation row. -/

set_option linter.unusedSectionVars false

namespace Lemmas
open Np NDArr Spec Model

theorem dropAxes_single {s : List Nat} {n : Nat} (h : n < s.length) :
    dropAxes [n] s = s.eraseIdx n := by
  unfold dropAxes
  have e : ((List.range s.length).filter fun a => a ∉ [n]) = (List.range s.length).eraseIdx n := by
    rw [← filter_ne_range _ _ h]
    apply List.filter_congr
    intro x _
    by_cases hx : x = n <;> simp [hx]
  rw [e, ← List.eraseIdx_map]
  congr 1
  apply List.ext_getElem
  · simp
  · intro i h1 h2
    simp [List.getD_eq_getElem?_getD, h2]

theorem getD_insertIdx_self {l : List Nat} {n j : Nat} (h : n ≤ l.length) :
    (l.insertIdx n j).getD n 0 = j := by
  rw [List.getD_eq_getElem?_getD, List.getElem?_insertIdx_self]
  simp [h]

theorem eraseIdx_insertIdx' {l : List Nat} {n j : Nat} :
    (l.insertIdx n j).eraseIdx n = l := List.eraseIdx_insertIdx_self ..

theorem insertIdx_eraseIdx' {l : List Nat} {n : Nat} (h : n < l.length) :
    (l.eraseIdx n).insertIdx n (l.getD n 0) = l := by
  rw [List.getD_eq_getElem?_getD, List.getElem?_eq_getElem h]
  exact List.insertIdx_eraseIdx_getElem h

theorem inB_insertIdx {s k : List Nat} {n j m : Nat} (hk : InB s k) (hj : j < m) :
    InB (s.insertIdx n m) (k.insertIdx n j) := by
  induction n generalizing s k with
  | zero => exact List.Forall₂.cons hj hk
  | succ n ih =>
    cases hk with
    | nil => exact List.Forall₂.nil
    | cons ha hk => exact List.Forall₂.cons ha (ih hk)

theorem inB_insert_erase {s k : List Nat} {n j : Nat} (h : n < s.length) (hk : InB (s.eraseIdx n) k)
    (hj : j < s.getD n 0) : InB s (k.insertIdx n j) := by
  have := inB_insertIdx (n := n) hk hj
  rwa [insertIdx_eraseIdx' h] at this

theorem inB_eraseIdx {s i : List Nat} {n : Nat} (h : InB s i) : InB (s.eraseIdx n) (i.eraseIdx n) := by
  induction n generalizing s i with
  | zero => cases h with
    | nil => exact List.Forall₂.nil
    | cons _ h => exact h
  | succ n ih => cases h with
    | nil => exact List.Forall₂.nil
    | cons ha h => exact List.Forall₂.cons ha (ih h)

theorem prod_insertIdx {s : List Nat} {n m : Nat} (h : n ≤ s.length) :
    (s.insertIdx n m).prod = m * s.prod := by
  induction n generalizing s with
  | zero => simp
  | succ n ih =>
    cases s with
    | nil => simp at h
    | cons a s =>
      simp only [List.insertIdx_succ_cons, List.prod_cons, ih (by simpa using h)]
      ring

theorem ravel_insertIdx {s k : List Nat} {n : Nat} (hk : InB s k) (h : n ≤ s.length) :
    ravel (s.insertIdx n 1) (k.insertIdx n 0) = ravel s k := by
  induction n generalizing s k with
  | zero => simp [ravel]
  | succ n ih =>
    cases hk with
    | nil => simp at h
    | @cons a b k s ha hk =>
      simp only [List.insertIdx_succ_cons, ravel, ih hk (by simpa using h)]
      rw [prod_insertIdx (by simpa using h), one_mul]

/-- the fibre over a single axis, in order -/
theorem fiber_single {α : Type} [Inhabited α] (a : NDArr α) {n : Nat} (h : n < a.shape.length)
    {k : List Nat} (hk : InB (dropAxes [n] a.shape) k) :
    fiber a [n] k = (List.range (a.shape.getD n 0)).map fun j => a.get (k.insertIdx n j) := by
  have ht : takeAxes [n] a.shape = [a.shape.getD n 0] := by
    unfold takeAxes
    have := filter_mem_range_eq (n := a.shape.length) (S := [n]) (by simp) (by simpa using h)
    rw [this]; simp
  have h1 := map_takeAxes_fiberIdx a.shape [n] k hk
  rw [ht, allIdx_singleton] at h1
  have h2 : fiberIdx a.shape [n] k =
      ((fiberIdx a.shape [n] k).map (takeAxes [n])).map fun t => k.insertIdx n (t.getD 0 0) := by
    rw [List.map_map]
    conv_lhs => rw [← List.map_id (fiberIdx a.shape [n] k)]
    apply List.map_congr_left
    intro i hi
    obtain ⟨hi1, hi2⟩ := mem_fiberIdx.1 hi
    have hil : n < i.length := by rw [hi1.length]; exact h
    have hti : takeAxes [n] i = [i.getD n 0] := by
      unfold takeAxes
      have := filter_mem_range_eq (n := i.length) (S := [n]) (by simp) (by simpa using hil)
      rw [this]; simp
    simp only [Function.comp, hti, id, List.getD_cons_zero]
    rw [← hi2, dropAxes_single hil, insertIdx_eraseIdx' hil]
  unfold fiber
  rw [h2, h1]
  simp [List.map_map, Function.comp_def]

/-- `np.moveaxis(a, ax, 0)` -/
theorem moveaxis_front {α : Type} [Inhabited α] (a : NDArr α) {ax : Int}
    (hax : AxisOK a.shape.length ax) :
    ∃ c, a.moveaxis ax 0 = .ok c ∧
      c.shape = a.shape.getD (axisNum a.shape.length ax) 0 :: a.shape.eraseIdx (axisNum a.shape.length ax) ∧
      ∀ k j, InB (a.shape.eraseIdx (axisNum a.shape.length ax)) k →
        j < a.shape.getD (axisNum a.shape.length ax) 0 →
        c.get (j :: k) = a.get (k.insertIdx (axisNum a.shape.length ax) j) := by
  have hlt := axisNum_lt hax
  set n := axisNum a.shape.length ax with hn
  have hpos : 0 < a.shape.length := by omega
  have h0 : normAxis a.shape.length 0 = .ok 0 := by
    unfold normAxis
    rw [if_pos (by omega)]; rfl
  refine ⟨a.transpose (moveOrder a.shape.length n 0), ?_, ?_, ?_⟩
  · unfold moveaxis
    rw [show a.ndim = a.shape.length from rfl, normAxis_ok hax, h0]; rfl
  · rw [shape_transpose, map_moveOrder a.shape rfl hlt]; simp
  · intro k j hk hj
    have hi := inB_insert_erase hlt hk hj
    have h1 := get_transpose a (moveOrder_perm hlt hpos) hi
    rw [map_moveOrder _ hi.length hlt] at h1
    have hkl : n ≤ k.length := by
      have := hk.length
      rw [List.length_eraseIdx_of_lt hlt] at this
      omega
    rw [eraseIdx_insertIdx', getD_insertIdx_self hkl] at h1
    simpa using h1

theorem reshape_eq {α : Type} [Inhabited α] (a : NDArr α) (s : List Nat) (h : a.shape.prod = s.prod) :
    ∃ b, a.reshape s = .ok b ∧ b.shape = s ∧ b.data = a.data := reshape_ok a s h

/-- `np.expand_dims(b, ax)` -/
theorem expandDims_spec {α : Type} [Inhabited α] (b : NDArr α) {N : Nat} {ax : Int}
    (hN : b.shape.length + 1 = N) (hax : AxisOK N ax) :
    ∃ e, b.expandDims ax = .ok e ∧ e.shape = b.shape.insertIdx (axisNum N ax) 1 ∧
      ∀ k, InB b.shape k → e.get (k.insertIdx (axisNum N ax) 0) = b.get k := by
  have hlt := axisNum_lt hax
  have hle : axisNum N ax ≤ b.shape.length := by omega
  obtain ⟨e, e1, e2, e3⟩ := reshape_ok b (b.shape.insertIdx (axisNum N ax) 1) (by
    rw [prod_insertIdx hle, one_mul])
  refine ⟨e, ?_, e2, ?_⟩
  · unfold expandDims
    rw [show b.ndim + 1 = N from hN, normAxis_ok hax]
    exact e1
  · intro k hk
    apply get_of_ravel_eq e3
    rw [e2]
    exact ravel_insertIdx hk hle

theorem set_insertIdx {l : List Nat} {n x y : Nat} (h : n ≤ l.length) :
    (l.insertIdx n x).set n y = l.insertIdx n y := by
  induction n generalizing l with
  | zero => simp
  | succ n ih => cases l with
    | nil => simp at h
    | cons a l => simp only [List.insertIdx_succ_cons, List.set_cons_succ, ih (by simpa using h)]

/-- putting a row `e` of width one before `f` along axis `n` -/
theorem concat_row {α : Type} [Inhabited α] (e f : NDArr α) {n : Nat} (hn : n < f.shape.length)
    (he : e.shape = (f.shape.eraseIdx n).insertIdx n 1) :
    ∃ c, concat n [e, f] = .ok c ∧
      c.shape = (f.shape.eraseIdx n).insertIdx n (f.shape.getD n 0 + 1) ∧
      (∀ k, InB (f.shape.eraseIdx n) k → c.get (k.insertIdx n 0) = e.get (k.insertIdx n 0)) ∧
      ∀ k j, InB (f.shape.eraseIdx n) k → j < f.shape.getD n 0 →
        c.get (k.insertIdx n (j + 1)) = f.get (k.insertIdx n j) := by
  set D := f.shape.eraseIdx n with hD
  have hDl : n ≤ D.length := by
    rw [hD, List.length_eraseIdx_of_lt hn]; omega
  have hf : f.shape = D.insertIdx n (f.shape.getD n 0) := (insertIdx_eraseIdx' hn).symm
  have hes : ∀ x, e.shape.set n x = D.insertIdx n x := fun x => by rw [he, set_insertIdx hDl]
  have hfs : ∀ x, f.shape.set n x = D.insertIdx n x := fun x => by
    conv_lhs => rw [hf]
    rw [set_insertIdx hDl]
  have h1 : e.shape.getD n 0 = 1 := by rw [he, getD_insertIdx_self hDl]
  have hel : n < e.shape.length := by rw [he, List.length_insertIdx_of_le_length hDl]; omega
  have hc : concat n [e, f] = .ok (ofFn (D.insertIdx n (f.shape.getD n 0 + 1))
      (concatGet n [e, f])) := by
    simp only [concat]
    rw [if_pos ⟨by
      intro d hd
      rw [List.mem_singleton] at hd
      subst hd
      rw [hes, hfs], hel⟩]
    congr 2
    simp only [List.map_cons, List.map_nil, List.sum_cons, List.sum_nil, h1, hes]
    congr 1
    omega
  refine ⟨_, hc, rfl, ?_, ?_⟩
  · intro k hk
    rw [get_ofFn _ (inB_insertIdx hk (by omega))]
    have hkl : n ≤ k.length := by rw [hk.length]; exact hDl
    simp only [concatGet, h1, getD_insertIdx_self hkl]
    rw [if_pos (by omega)]
  · intro k j hk hj
    rw [get_ofFn _ (inB_insertIdx hk (by omega))]
    have hkl : n ≤ k.length := by rw [hk.length]; exact hDl
    simp only [concatGet, h1, getD_insertIdx_self hkl]
    rw [if_neg (by omega), set_insertIdx hkl, getD_insertIdx_self hkl, Nat.add_sub_cancel,
      if_pos hj]

variable {K : Type} [Field K] [LinearOrder K]

theorem mergeThreshold_spec (f : NDArr (Fl K)) {ax : Int} (t : Thr K)
    (hax : AxisOK f.shape.length ax) (ht : ThrOK t (f.shape.eraseIdx (axisNum f.shape.length ax))) :
    ∃ c, mergeThreshold f ax t = .ok c ∧
      c.shape = (f.shape.getD (axisNum f.shape.length ax) 0 + 1) ::
        f.shape.eraseIdx (axisNum f.shape.length ax) ∧
      ∀ k, InB (f.shape.eraseIdx (axisNum f.shape.length ax)) k →
        column c k = thrAt t k :: fiber f [axisNum f.shape.length ax] k := by
  have hlt := axisNum_lt hax
  set n := axisNum f.shape.length ax with hn
  set D := f.shape.eraseIdx n with hD
  have hDl : D.length + 1 = f.shape.length := by
    rw [hD, List.length_eraseIdx_of_lt hlt]; omega
  have hDn : n ≤ D.length := by omega
  -- the threshold array
  obtain ⟨b, hb, hbs, hbg⟩ : ∃ b : NDArr (Fl K), (match t with
      | .array a => if a.shape = f.shape.eraseIdx n then pure a else .error .assertion
      | .scalar v => pure (full (f.shape.eraseIdx n) v)
      | .other => .error .assertion : Except Err (NDArr (Fl K))) = .ok b ∧ b.shape = D ∧
      ∀ k, InB D k → b.get k = thrAt t k := by
    cases t with
    | scalar v => exact ⟨_, rfl, rfl, fun k hk => get_full v hk⟩
    | array a => exact ⟨a, by simp only; rw [if_pos (show a.shape = f.shape.eraseIdx n from ht)]; rfl, ht, fun _ _ => rfl⟩
    | other => exact absurd ht (by simp [ThrOK])
  obtain ⟨e, e1, e2, e3⟩ := expandDims_spec b (N := f.shape.length) (ax := ax) (by rw [hbs]; exact hDl) hax
  rw [← hn] at e2 e3
  rw [hbs] at e2 e3
  obtain ⟨c, c1, c2, c3, c4⟩ := concat_row e f hlt (by rw [e2])
  have hel : e.shape.length = f.shape.length := by
    rw [e2, List.length_insertIdx_of_le_length hDn]; exact hDl
  have hcl : c.shape.length = f.shape.length := by
    rw [c2, List.length_insertIdx_of_le_length hDn]; exact hDl
  have hcax : AxisOK c.shape.length ax := by rw [hcl]; exact hax
  obtain ⟨m, m1, m2, m3⟩ := moveaxis_front c hcax
  rw [hcl, ← hn] at m2 m3
  rw [c2] at m2 m3
  rw [eraseIdx_insertIdx', getD_insertIdx_self hDn] at m2 m3
  refine ⟨m, ?_, m2, ?_⟩
  · unfold mergeThreshold
    rw [show f.ndim = f.shape.length from rfl, normAxis_ok hax]
    have hcat : concatAx ax [e, f] = .ok c := by
      simp only [concatAx]
      rw [show e.ndim = e.shape.length from rfl, hel, normAxis_ok hax, ← hn]
      exact c1
    simp only [bind, Except.bind, ← hn]
    cases t with
    | scalar v =>
      cases hb
      simp only [pure, Except.pure, e1, hcat]
      exact m1
    | array a =>
      have ha : a.shape = f.shape.eraseIdx n := ht
      simp only [if_pos ha] at hb ⊢
      cases hb
      simp only [pure, Except.pure, e1, hcat]
      exact m1
    | other => exact absurd ht (by simp [ThrOK])
  · intro k hk
    have hfk := fiber_single f hlt (k := k) (by rw [dropAxes_single hlt]; exact hk)
    unfold column
    rw [m2, hfk]
    simp only [List.getD_cons_zero]
    rw [List.range_succ_eq_map, List.map_cons, List.map_map]
    congr 1
    · rw [m3 k 0 hk (by omega), c3 k hk, e3 k hk, hbg k hk]
    · apply List.map_congr_left
      intro j hj
      have hj' := List.mem_range.1 hj
      simp only [Function.comp, Nat.succ_eq_add_one]
      rw [m3 k (j + 1) hk (by omega), c4 k j hk hj']

/-- The conversion used by a known method. -/
def convOf (method : Method) (kde : List (Fl K) → Fl K) : List (Fl K) → Fl K :=
  match method with
  | .kde => kde
  | _ => momentsCol

/-- `ens_to_prob(below=...)` for any worker count: at each position the conversion function of that
position's threshold and members. -/
theorem ensToProbBelow_spec (workers : Nat) (method : Method) (kde : List (Fl K) → Fl K)
    (f : NDArr (Fl K)) {ax : Int} (t : Thr K) (hax : AxisOK f.shape.length ax)
    (ht : ThrOK t (f.shape.eraseIdx (axisNum f.shape.length ax))) (hm : method ≠ .unknown)
    (hne : (f.shape.eraseIdx (axisNum f.shape.length ax)).prod ≠ 0) :
    ∃ r, ensToProbBelow workers method kde f ax t = .ok r ∧
      r.shape = f.shape.eraseIdx (axisNum f.shape.length ax) ∧
      ∀ k, InB (f.shape.eraseIdx (axisNum f.shape.length ax)) k →
        r.get k = convOf method kde (thrAt t k :: fiber f [axisNum f.shape.length ax] k) := by
  obtain ⟨c, c1, c2, c3⟩ := mergeThreshold_spec f t hax ht
  set n := axisNum f.shape.length ax with hn
  set D := f.shape.eraseIdx n with hD
  have hct : c.shape.tail = D := by rw [c2]; rfl
  have hrun : ensToProbBelow workers method kde f ax t =
      if workers = 1 then
        if method = .kde ∧ c.shape.tail.prod = 0 then .error .value
        else .ok (ofFn c.shape.tail fun k => convOf method kde (column c k))
      else c.reshapeInfer [c.shape.getD 0 0] [] >>= fun flat =>
        if flat.shape.getD 1 0 = 0 then .error .generic
        else
          (⟨[((flat.splitOnes 1).map fun p => convOf method kde (column p [0])).length],
            (flat.splitOnes 1).map fun p => convOf method kde (column p [0]), by simp⟩ :
            NDArr (Fl K)).reshape c.shape.tail := by
    unfold ensToProbBelow
    rw [c1]
    cases method with
    | kde => rfl
    | moments => rfl
    | unknown => exact absurd rfl hm
  by_cases hw : workers = 1
  · rw [if_pos hw, if_neg (by rw [hct]; exact fun h => hne h.2)] at hrun
    refine ⟨_, hrun, hct, ?_⟩
    intro k hk
    rw [get_ofFn _ (by rw [hct]; exact hk), c3 k hk]
  · rw [if_neg hw] at hrun
    -- flatten
    set M := f.shape.getD n 0 + 1 with hM
    have hM0 : c.shape.getD 0 0 = M := by rw [c2]; rfl
    have hMne : M ≠ 0 := by omega
    have hprod : c.shape.prod = [M, D.prod].prod := by rw [c2]; simp
    have hdiv : c.shape.prod / ([M].prod * ([] : List Nat).prod) = D.prod := by
      rw [c2]; simp [hM]
    obtain ⟨fl, f1, f2, f3⟩ := reshape_ok c [M, D.prod] hprod
    have hfl : c.reshapeInfer [c.shape.getD 0 0] [] = .ok fl := by
      unfold reshapeInfer
      rw [hM0]
      simp only
      rw [if_neg (by simp [hMne]), hdiv]
      exact f1
    rw [hfl] at hrun
    simp only [bind, Except.bind, f2] at hrun
    rw [if_neg (by simpa using hne)] at hrun
    have hpl : (fl.splitOnes 1).length = D.prod := by
      unfold splitOnes; rw [f2]; simp
    have hres : ∃ r, (⟨[((fl.splitOnes 1).map fun p => convOf method kde (column p [0])).length],
        (fl.splitOnes 1).map fun p => convOf method kde (column p [0]), by simp⟩ :
        NDArr (Fl K)).reshape c.shape.tail = .ok r ∧ r.shape = c.shape.tail ∧
        r.data = (fl.splitOnes 1).map fun p => convOf method kde (column p [0]) :=
      reshape_ok _ _ (by simp [hpl, hct])
    obtain ⟨r, r1, r2, r3⟩ := hres
    refine ⟨r, hrun.trans r1, r2.trans hct, ?_⟩
    intro k hk
    unfold NDArr.get
    rw [r2, hct, r3]
    have hlt' := ravel_lt hk
    unfold splitOnes
    rw [f2, List.map_map, List.getD_eq_getElem?_getD, List.getElem?_map]
    rw [List.getElem?_range (by simpa using hlt')]
    simp only [Option.map_some, Option.getD_some, Function.comp]
    rw [← c3 k hk]
    congr 1
    unfold column
    rw [c2]
    have hs0 : (fl.slab 1 (ravel D k)).shape = [M, 1] := by simp [slab, f2]
    rw [hs0]
    simp only [List.getD_cons_zero]
    apply List.map_congr_left
    intro j hj
    have hj' := List.mem_range.1 hj
    have hin : InB (fl.shape.set 1 1) [j, 0] := by
      rw [f2]
      exact List.Forall₂.cons hj' (List.Forall₂.cons (by omega) List.Forall₂.nil)
    unfold slab
    rw [get_ofFn _ hin]
    apply get_of_ravel_eq f3
    rw [f2, c2]
    simp [ravel]

end Lemmas
