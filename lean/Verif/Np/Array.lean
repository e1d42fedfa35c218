import Verif.Np.Index
import Mathlib.Data.List.Perm.Basic
import Mathlib.Data.List.Sort
import Mathlib.Data.List.NodupEquivFin

/-!
# n-dimensional arrays (the numpy fragment used by PyAnEn)

An array is a shape and its elements in storage (C) order.  `reshape` therefore only changes the
shape, exactly as numpy documents for C-order reshapes.  Views and copies are not distinguished.
-/

namespace Np

/-- Python exceptions, as values. -/
inductive Err where
  | assertion | value | axis | index | type | attribute | notImplemented | runtime | key
  | eof | fileExists | notADirectory | generic
  deriving DecidableEq, Repr

/-- A numpy array: shape plus elements in C order. -/
structure NDArr (α : Type) where
  shape : List Nat
  data : List α
  wf : data.length = shape.prod

variable {α β γ : Type}

namespace NDArr

@[ext] theorem ext' {a b : NDArr α} (h1 : a.shape = b.shape) (h2 : a.data = b.data) : a = b := by
  cases a; cases b; simp at h1 h2; subst h1; subst h2; rfl

instance [DecidableEq α] : DecidableEq (NDArr α) := fun a b =>
  if h : a.shape = b.shape ∧ a.data = b.data then isTrue (ext' h.1 h.2)
  else isFalse (fun e => h ⟨by rw [e], by rw [e]⟩)

/-- number of dimensions, `a.ndim` / `len(a.shape)` -/
def ndim (a : NDArr α) : Nat := a.shape.length

instance : Inhabited (NDArr α) := ⟨⟨[0], [], rfl⟩⟩

/-- Build an array from a function of the multi-index. -/
def ofFn (s : List Nat) (g : List Nat → α) : NDArr α := ⟨s, (allIdx s).map g, by simp⟩

/-- Element access `a[i0, i1, ...]`.  Only meaningful (and only used) for in-range indices. -/
def get [Inhabited α] (a : NDArr α) (i : List Nat) : α := a.data.getD (ravel a.shape i) default

@[simp] theorem shape_ofFn (s : List Nat) (g : List Nat → α) : (ofFn s g).shape = s := rfl

theorem get_ofFn [Inhabited α] {s i : List Nat} (g : List Nat → α) (h : InB s i) :
    (ofFn s g).get i = g i := by
  simp [get, ofFn, List.getD_eq_getElem?_getD, getElem?_allIdx h]

theorem data_eq [Inhabited α] (a : NDArr α) : a.data = (allIdx a.shape).map a.get := by
  apply List.ext_getElem
  · simp [a.wf]
  · intro n h1 h2
    have hn : n < (allIdx a.shape).length := by simpa using h2
    have hi : InB a.shape (allIdx a.shape)[n] := mem_allIdx.1 (List.getElem_mem hn)
    have h3 := getElem?_allIdx hi
    have h4 : ravel a.shape (allIdx a.shape)[n] = n := by
      have hlt : ravel a.shape (allIdx a.shape)[n] < (allIdx a.shape).length := by
        simpa using ravel_lt hi
      rw [List.getElem?_eq_getElem hlt] at h3
      exact (List.Nodup.getElem_inj_iff (nodup_allIdx _)).1 (by simpa using h3)
    simp [get, h4, List.getD_eq_getElem?_getD, h1]

theorem ext_get [Inhabited α] {a b : NDArr α} (h1 : a.shape = b.shape)
    (h2 : ∀ i, InB a.shape i → a.get i = b.get i) : a = b := by
  apply ext' h1
  rw [data_eq a, data_eq b, ← h1]
  exact List.map_congr_left fun i hi => h2 i (mem_allIdx.1 hi)

theorem eq_ofFn [Inhabited α] (a : NDArr α) : a = ofFn a.shape a.get := by
  refine ext' (by rfl) ?_
  exact data_eq a

theorem map_ravel_allIdx (s : List Nat) : (allIdx s).map (ravel s) = List.range s.prod := by
  have h := data_eq (⟨s, List.range s.prod, by simp⟩ : NDArr Nat)
  simp only at h
  rw [h]
  apply List.map_congr_left
  intro i hi
  have := ravel_lt (mem_allIdx.1 hi)
  simp [get, List.getD_eq_getElem?_getD, this]

/-- elementwise map -/
def map (f : α → β) (a : NDArr α) : NDArr β := ⟨a.shape, a.data.map f, by simpa using a.wf⟩

@[simp] theorem shape_map (f : α → β) (a : NDArr α) : (a.map f).shape = a.shape := rfl

theorem get_map [Inhabited α] [Inhabited β] (f : α → β) (a : NDArr α) {i : List Nat}
    (h : InB a.shape i) : (a.map f).get i = f (a.get i) := by
  have hl : ravel a.shape i < a.data.length := by rw [a.wf]; exact ravel_lt h
  simp [get, map, List.getD_eq_getElem?_getD, hl]

/-! ### broadcasting -/

/-- the common length of two aligned axes: equal, or one of them 1 -/
def bcDim (a b : Nat) : Option Nat := if a = b then some a else if a = 1 then some b else if b = 1 then some a else none

/-- the common shape, the axes listed from the last to the first; the shorter list is padded with ones -/
def bcShapeRev : List Nat → List Nat → Option (List Nat)
  | [], t => some t
  | s, [] => some s
  | a :: s, b :: t => do
    let d ← bcDim a b
    let r ← bcShapeRev s t
    return d :: r

/-- `np.broadcast_shapes(s, t)`: the shapes are aligned at their last axes -/
def bcShape (s t : List Nat) : Option (List Nat) := (bcShapeRev s.reverse t.reverse).map List.reverse

/-- the common shape of several arrays -/
def bcShapes : List (List Nat) → Option (List Nat)
  | [] => some []
  | s :: ss => (bcShapes ss).bind (bcShape s)

/-- where element `k` of the result is taken from in an operand of shape `s`: the last axes, an axis of length 1 always
at 0 -/
def bcIdx (s k : List Nat) : List Nat := List.zipWith (fun d i => if d = 1 then 0 else i) s (k.drop (k.length - s.length))

/-- elementwise binary operation: on equal shapes element by element, on other shapes with numpy's broadcasting, and a
`ValueError` if the shapes do not fit (`zipWith_bc` says that the two cases agree) -/
def zipWith [Inhabited α] [Inhabited β] (f : α → β → γ) (a : NDArr α) (b : NDArr β) : Except Err (NDArr γ) :=
  if h : a.shape = b.shape then
    .ok ⟨a.shape, List.zipWith f a.data b.data, by simp [a.wf, b.wf, h]⟩
  else match bcShape a.shape b.shape with
    | none => .error .value
    | some s => .ok (ofFn s fun k => f (a.get (bcIdx a.shape k)) (b.get (bcIdx b.shape k)))

theorem zipWith_ok [Inhabited α] [Inhabited β] (f : α → β → γ) (a : NDArr α) (b : NDArr β)
    (h : a.shape = b.shape) :
    zipWith f a b = .ok (ofFn a.shape fun i => f (a.get i) (b.get i)) := by
  unfold zipWith
  rw [dif_pos h]
  congr 1
  refine ext' (by rfl) ?_
  simp only [ofFn]
  rw [data_eq a, data_eq b, ← h]
  rw [List.zipWith_map, List.zipWith_self]

theorem bcDim_self (a : Nat) : bcDim a a = some a := by simp [bcDim]

theorem bcDim_comm (a b : Nat) : bcDim a b = bcDim b a := by
  unfold bcDim; split_ifs <;> simp_all

theorem bcShapeRev_self (s : List Nat) : bcShapeRev s s = some s := by
  induction s with
  | nil => rfl
  | cons a s ih => simp [bcShapeRev, bcDim_self, ih]

theorem bcShapeRev_comm (s t : List Nat) : bcShapeRev s t = bcShapeRev t s := by
  induction s generalizing t with
  | nil => cases t <;> simp [bcShapeRev]
  | cons a s ih =>
    cases t with
    | nil => simp [bcShapeRev]
    | cons b t => simp [bcShapeRev, bcDim_comm a b, ih t]

theorem bcShape_self (s : List Nat) : bcShape s s = some s := by simp [bcShape, bcShapeRev_self]

theorem bcShape_comm (s t : List Nat) : bcShape s t = bcShape t s := by
  unfold bcShape; rw [bcShapeRev_comm]

theorem bcShape_nil (s : List Nat) : bcShape s [] = some s := by
  have h : ∀ t, bcShapeRev t [] = some t := by intro t; cases t <;> simp [bcShapeRev]
  simp [bcShape, h]

theorem bcShapes_same {s : List Nat} {ss : List (List Nat)} (hne : ss ≠ []) (h : ∀ t ∈ ss, t = s) :
    bcShapes ss = some s := by
  induction ss with
  | nil => exact absurd rfl hne
  | cons t ss ih =>
    have ht := h t (by simp)
    subst ht
    cases ss with
    | nil => simp [bcShapes, bcShape_nil]
    | cons u us =>
      simp only [bcShapes]
      have := ih (by simp) (fun v hv => h v (by simp [hv]))
      simp only [bcShapes] at this
      rw [this]
      exact bcShape_self t

/-- each axis of an operand is 1 or the axis of the result, aligned from the end -/
theorem bcShapeRev_dims {s t r : List Nat} (h : bcShapeRev s t = some r) :
    ∃ r', r'.length = s.length ∧ r' <+: r ∧ List.Forall₂ (fun d n => d = 1 ∨ d = n) s r' := by
  induction s generalizing t r with
  | nil => exact ⟨[], rfl, List.nil_prefix, .nil⟩
  | cons a s ih =>
    cases t with
    | nil =>
      simp only [bcShapeRev, Option.some.injEq] at h
      subst h
      exact ⟨a :: s, rfl, List.prefix_rfl, List.forall₂_same.2 fun _ _ => Or.inr rfl⟩
    | cons b t =>
      simp only [bcShapeRev, bind, Option.bind] at h
      cases hd : bcDim a b with
      | none => rw [hd] at h; cases h
      | some d =>
        cases hr : bcShapeRev s t with
        | none => rw [hd, hr] at h; cases h
        | some r1 =>
          rw [hd, hr] at h
          cases h
          obtain ⟨r', h1, h2, h3⟩ := ih hr
          refine ⟨d :: r', by simp [h1], by simpa using h2, .cons ?_ h3⟩
          unfold bcDim at hd
          split_ifs at hd with e1 e2 e3
          · exact Or.inr (Option.some.inj hd)
          · exact Or.inl e2
          · exact Or.inr (Option.some.inj hd)

theorem bcShape_dims {s t r : List Nat} (h : bcShape s t = some r) :
    s.length ≤ r.length ∧ List.Forall₂ (fun d n => d = 1 ∨ d = n) s (r.drop (r.length - s.length)) := by
  unfold bcShape at h
  cases hr : bcShapeRev s.reverse t.reverse with
  | none => rw [hr] at h; cases h
  | some q =>
    rw [hr] at h
    cases h
    obtain ⟨r', h1, h2, h3⟩ := bcShapeRev_dims hr
    rw [List.length_reverse] at h1
    have hl := h2.length_le
    refine ⟨by simpa [h1] using hl, ?_⟩
    have e : q.reverse.drop (q.reverse.length - s.length) = r'.reverse := by
      obtain ⟨u, rfl⟩ := h2
      simp [h1]
    rw [e]
    have := List.rel_reverse h3
    rwa [List.reverse_reverse] at this

theorem bcIdx_inB {s t r k : List Nat} (h : bcShape s t = some r) (hk : InB r k) : InB s (bcIdx s k) := by
  obtain ⟨h1, h2⟩ := bcShape_dims h
  have hd : InB (r.drop (r.length - s.length)) (k.drop (k.length - s.length)) := by
    rw [hk.length]
    exact List.forall₂_drop _ hk
  unfold bcIdx
  generalize k.drop (k.length - s.length) = k' at hd
  generalize r.drop (r.length - s.length) = r' at h2 hd
  clear h hk h1
  induction h2 generalizing k' with
  | nil => cases hd; exact .nil
  | cons hx _ ih =>
    cases hd with
    | cons hy hys =>
      simp only [List.zipWith_cons_cons]
      refine .cons ?_ (ih _ hys)
      rcases hx with rfl | rfl
      · simp
      · split <;> omega

theorem bcIdx_inB' {s t r k : List Nat} (h : bcShape s t = some r) (hk : InB r k) : InB t (bcIdx t k) :=
  bcIdx_inB (t := s) (by rwa [bcShape_comm]) hk

/-- an index of the operand's own shape is left alone -/
theorem bcIdx_self {s k : List Nat} (hk : InB s k) : bcIdx s k = k := by
  unfold bcIdx
  rw [hk.length, Nat.sub_self, List.drop_zero]
  induction hk with
  | nil => rfl
  | cons h _ ih =>
    simp only [List.zipWith_cons_cons, ih]
    congr 1
    split <;> omega

/-- on equal shapes broadcasting is the elementwise operation -/
theorem zipWith_bc [Inhabited α] [Inhabited β] (f : α → β → γ) (a : NDArr α) (b : NDArr β) :
    zipWith f a b = match bcShape a.shape b.shape with
      | none => .error .value
      | some s => .ok (ofFn s fun k => f (a.get (bcIdx a.shape k)) (b.get (bcIdx b.shape k))) := by
  by_cases h : a.shape = b.shape
  · rw [zipWith_ok f a b h, ← h, bcShape_self]
    simp only [Except.ok.injEq]
    refine ext' rfl ?_
    simp only [ofFn]
    refine List.map_congr_left fun k hk => ?_
    rw [bcIdx_self (mem_allIdx.1 hk)]
  · unfold zipWith
    rw [dif_neg h]

theorem zipWith_maps {δ ε : Type} [Inhabited α] [Inhabited β] [Inhabited γ] [Inhabited δ] (φ : α → β) (ψ : γ → δ)
    (g : β → δ → ε) (a : NDArr α) (b : NDArr γ) :
    zipWith g (a.map φ) (b.map ψ) = zipWith (fun x y => g (φ x) (ψ y)) a b := by
  rw [zipWith_bc, zipWith_bc]
  simp only [shape_map]
  cases h : bcShape a.shape b.shape with
  | none => rfl
  | some s =>
    simp only [Except.ok.injEq]
    refine ext' rfl ?_
    simp only [ofFn]
    refine List.map_congr_left fun k hk => ?_
    rw [get_map _ _ (bcIdx_inB h (mem_allIdx.1 hk)), get_map _ _ (bcIdx_inB' h (mem_allIdx.1 hk))]

theorem map_zipWith' {δ : Type} [Inhabited α] [Inhabited β] (ψ : γ → δ) (g : α → β → γ) (a : NDArr α) (b : NDArr β) :
    (zipWith g a b).map (NDArr.map ψ) = zipWith (fun x y => ψ (g x y)) a b := by
  rw [zipWith_bc, zipWith_bc]
  cases h : bcShape a.shape b.shape with
  | none => rfl
  | some s =>
    simp only [Except.map, Except.ok.injEq]
    refine ext' rfl ?_
    simp [ofFn, NDArr.map]

theorem zipWith_swap [Inhabited α] [Inhabited β] (g : α → β → γ) (a : NDArr α) (b : NDArr β) :
    zipWith g a b = zipWith (fun y x => g x y) b a := by
  rw [zipWith_bc, zipWith_bc, bcShape_comm]

/-- what broadcasting returns -/
theorem zipWith_inv [Inhabited α] [Inhabited β] [Inhabited γ] {g : α → β → γ} {a : NDArr α} {b : NDArr β} {c : NDArr γ}
    (h : zipWith g a b = .ok c) : bcShape a.shape b.shape = some c.shape ∧
      ∀ k, InB c.shape k → c.get k = g (a.get (bcIdx a.shape k)) (b.get (bcIdx b.shape k)) := by
  rw [zipWith_bc] at h
  cases hs : bcShape a.shape b.shape with
  | none => rw [hs] at h; cases h
  | some s =>
    rw [hs] at h
    cases h
    exact ⟨rfl, fun k hk => get_ofFn _ hk⟩

/-- `np.full(shape, v)` -/
def full (s : List Nat) (v : α) : NDArr α := ⟨s, List.replicate s.prod v, by simp⟩

theorem get_full [Inhabited α] {s i : List Nat} (v : α) (h : InB s i) : (full s v).get i = v := by
  have := ravel_lt h
  simp [get, full, List.getD_eq_getElem?_getD, this]

/-- `a.reshape(s)` (no -1) -/
def reshape (a : NDArr α) (s : List Nat) : Except Err (NDArr α) :=
  if h : a.shape.prod = s.prod then .ok ⟨s, a.data, by rw [a.wf, h]⟩ else .error .value

/-- `a.reshape(*pre, -1, *post)`: the unknown dimension is inferred; numpy raises `ValueError` if
the known dimensions have product 0 or do not divide the size. -/
def reshapeInfer (a : NDArr α) (pre post : List Nat) : Except Err (NDArr α) :=
  let known := pre.prod * post.prod
  if known = 0 then .error .value
  else a.reshape (pre ++ [a.shape.prod / known] ++ post)

/-- `a.transpose(p)` for `p` a permutation of the axes (`ValueError` otherwise). -/
def transpose [Inhabited α] (a : NDArr α) (p : List Nat) : NDArr α :=
  ofFn (p.map (a.shape.getD · 0)) fun idx =>
    a.get ((List.range p.length).map fun ax => idx.getD (p.idxOf ax) 0)

@[simp] theorem shape_transpose [Inhabited α] (a : NDArr α) (p : List Nat) :
    (a.transpose p).shape = p.map (a.shape.getD · 0) := rfl

theorem inB_permute {s i p : List Nat} (h : InB s i) (hp : ∀ x ∈ p, x < s.length) :
    InB (p.map (s.getD · 0)) (p.map (i.getD · 0)) := by
  induction p with
  | nil => simp [InB]
  | cons x p ih =>
    simp only [List.map_cons]
    exact List.Forall₂.cons ((InB_iff_getD.1 h).2 x (hp x (by simp)))
      (ih fun y hy => hp y (by simp [hy]))

/-- Forward description of `transpose`: the element at original index `i` ends up at the permuted
index. -/
theorem get_transpose [Inhabited α] (a : NDArr α) {p i : List Nat}
    (hp : p.Perm (List.range a.shape.length)) (h : InB a.shape i) :
    (a.transpose p).get (p.map (i.getD · 0)) = a.get i := by
  have hmem : ∀ x, x ∈ p ↔ x < a.shape.length := fun x => by
    rw [hp.mem_iff]; simp
  unfold transpose
  rw [get_ofFn _ (inB_permute h fun x hx => (hmem x).1 hx)]
  congr 1
  have hpl : p.length = a.shape.length := by simpa using hp.length_eq
  apply List.ext_getElem
  · simp [hpl, h.length]
  · intro n h1 h2
    have hn : n < p.length := by simpa using h1
    have hnp : n ∈ p := (hmem n).2 (by omega)
    have hidx : p.idxOf n < p.length := List.idxOf_lt_length_iff.2 hnp
    simp [List.getD_eq_getElem?_getD, hidx, h2]

/-- Normalise a possibly negative axis number (`numpy.core.numeric.normalize_axis_index`). -/
def normAxis (n : Nat) (ax : Int) : Except Err Nat :=
  if -(n : Int) ≤ ax ∧ ax < n then .ok (if ax < 0 then ax + n else ax).toNat else .error .axis

/-- The axis order used by `np.moveaxis(a, src, dst)`:
`order = [n for n in range(ndim) if n != src]; order.insert(dst, src)`. -/
def moveOrder (n src dst : Nat) : List Nat :=
  ((List.range n).filter (· != src)).insertIdx dst src

/-- `np.moveaxis(a, src, dst)` -/
def moveaxis [Inhabited α] (a : NDArr α) (src dst : Int) : Except Err (NDArr α) := do
  let s ← normAxis a.ndim src
  let d ← normAxis a.ndim dst
  pure (a.transpose (moveOrder a.ndim s d))

/-- `a[:, j]` of a 2-D array -/
def col [Inhabited α] (a : NDArr α) (j : Nat) : List α :=
  (List.range (a.shape.getD 0 0)).map fun r => a.get [r, j]

/-- `a[i, :]` of a 2-D array -/
def row [Inhabited α] (a : NDArr α) (i : Nat) : List α :=
  (List.range (a.shape.getD 1 0)).map fun c => a.get [i, c]

/-- `a[i]` for an array with at least one axis: drop the first axis. -/
def slice0 [Inhabited α] (a : NDArr α) (i : Nat) : NDArr α :=
  ofFn a.shape.tail fun idx => a.get (i :: idx)

/-- the `j`-th piece of `np.split(a, a.shape[ax], ax)`: width-one slab `j` along `ax` -/
def slab [Inhabited α] (a : NDArr α) (ax j : Nat) : NDArr α :=
  ofFn (a.shape.set ax 1) fun idx => a.get (idx.set ax (idx.getD ax 0 + j))

/-- `np.split(a, a.shape[ax], ax)` -/
def splitOnes [Inhabited α] (a : NDArr α) (ax : Nat) : List (NDArr α) :=
  (List.range (a.shape.getD ax 0)).map (a.slab ax)

/-- element lookup of `np.concatenate(chunks, axis=ax)` -/
def concatGet [Inhabited α] (ax : Nat) : List (NDArr α) → List Nat → α
  | [], _ => default
  | c :: cs, idx =>
    let w := c.shape.getD ax 0
    if idx.getD ax 0 < w then c.get idx else concatGet ax cs (idx.set ax (idx.getD ax 0 - w))

/-- `np.concatenate(chunks, axis=ax)`; numpy raises if the list is empty or shapes disagree off
the axis. -/
def concat [Inhabited α] (ax : Nat) (chunks : List (NDArr α)) : Except Err (NDArr α) :=
  match chunks with
  | [] => .error .value
  | c :: cs =>
    if (∀ d ∈ cs, d.shape.set ax 0 = c.shape.set ax 0) ∧ ax < c.shape.length then
      .ok (ofFn (c.shape.set ax (((c :: cs).map fun d => d.shape.getD ax 0).sum))
        (concatGet ax (c :: cs)))
    else .error .value

/-- `np.stack(arrs, axis=0)` -/
def stack0 [Inhabited α] (arrs : List (NDArr α)) : Except Err (NDArr α) :=
  match arrs with
  | [] => .error .value
  | c :: cs =>
    if ∀ d ∈ cs, d.shape = c.shape then
      .ok (ofFn ((c :: cs).length :: c.shape) fun idx =>
        match idx with
        | [] => default
        | i :: t => ((c :: cs).getD i c).get t)
    else .error .value

end NDArr
end Np
