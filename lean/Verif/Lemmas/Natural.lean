import Verif.Model.Ensemble
import Verif.Model.Rank
import Verif.Model.Iou
import Verif.Model.Average

/-!
# Array operations commute with changing every element

`φ` is applied to every element of an array.  Operations that only move elements commute with it; since reading outside
an array is `default`, `φ` has to keep `default` (NaN stays NaN).
-/

set_option linter.unusedSectionVars false

namespace Lemmas
open Np NDArr Model

variable {α β γ δ : Type} [Inhabited α] [Inhabited β]

/-- `φ` on the elements of a result -/
abbrev emap (φ : α → β) (r : Except Err (NDArr α)) : Except Err (NDArr β) := r.map (NDArr.map φ)

omit [Inhabited α] [Inhabited β] in
theorem getD_map' (φ : α → β) (l : List α) (i : Nat) (a : α) (b : β) (h : φ a = b) :
    (l.map φ).getD i b = φ (l.getD i a) := by
  subst h
  simp only [List.getD_eq_getElem?_getD, List.getElem?_map]
  cases l[i]? <;> rfl

theorem get_map' {φ : α → β} (hφ : φ default = default) (a : NDArr α) (i : List Nat) :
    (a.map φ).get i = φ (a.get i) := getD_map' φ a.data _ _ _ hφ

theorem map_ofFn {α β : Type} (φ : α → β) (s : List Nat) (g : List Nat → α) :
    (ofFn s g).map φ = ofFn s fun i => φ (g i) := ext' rfl (by simp [ofFn, NDArr.map])

theorem map_full {α β : Type} (φ : α → β) (s : List Nat) (v : α) : (full s v).map φ = full s (φ v) :=
  ext' rfl (by simp [full, NDArr.map])

theorem map_map {α β γ : Type} (φ : α → β) (ψ : β → γ) (a : NDArr α) : (a.map φ).map ψ = a.map fun x => ψ (φ x) :=
  ext' rfl (by simp [NDArr.map])

theorem reshape_map {α β : Type} (φ : α → β) (a : NDArr α) (s : List Nat) :
    (a.map φ).reshape s = (a.reshape s).map (NDArr.map φ) := by
  unfold reshape
  by_cases h : a.shape.prod = s.prod
  · rw [dif_pos (show (a.map φ).shape.prod = s.prod from h), dif_pos h]; rfl
  · rw [dif_neg (show ¬ (a.map φ).shape.prod = s.prod from h), dif_neg h]; rfl

theorem reshapeInfer_map {α β : Type} (φ : α → β) (a : NDArr α) (p q : List Nat) :
    (a.map φ).reshapeInfer p q = (a.reshapeInfer p q).map (NDArr.map φ) := by
  unfold reshapeInfer
  simp only [shape_map, reshape_map]
  split <;> rfl

theorem transpose_map {φ : α → β} (hφ : φ default = default) (a : NDArr α) (p : List Nat) :
    (a.map φ).transpose p = (a.transpose p).map φ := by
  unfold transpose
  rw [map_ofFn]
  congr 1
  funext i
  exact get_map' hφ a _

theorem moveaxis_map {φ : α → β} (hφ : φ default = default) (a : NDArr α) (s d : Int) :
    (a.map φ).moveaxis s d = emap φ (a.moveaxis s d) := by
  unfold moveaxis
  simp only [ndim, shape_map, transpose_map hφ]
  cases normAxis a.shape.length s with
  | error e => rfl
  | ok u => cases normAxis a.shape.length d <;> rfl

theorem slab_map {φ : α → β} (hφ : φ default = default) (a : NDArr α) (ax j : Nat) :
    (a.map φ).slab ax j = (a.slab ax j).map φ := by
  unfold slab
  rw [map_ofFn]
  congr 1
  funext i
  exact get_map' hφ a _

theorem splitOnes_map {φ : α → β} (hφ : φ default = default) (a : NDArr α) (ax : Nat) :
    (a.map φ).splitOnes ax = (a.splitOnes ax).map (NDArr.map φ) := by
  unfold splitOnes
  rw [List.map_map]
  apply List.map_congr_left
  intro j _
  exact slab_map hφ a ax j

theorem concatGet_map {φ : α → β} (hφ : φ default = default) (ax : Nat) (cs : List (NDArr α)) (i : List Nat) :
    concatGet ax (cs.map (NDArr.map φ)) i = φ (concatGet ax cs i) := by
  induction cs generalizing i with
  | nil => exact hφ.symm
  | cons c cs ih =>
    show (if i.getD ax 0 < c.shape.getD ax 0 then (c.map φ).get i
        else concatGet ax (cs.map (NDArr.map φ)) (i.set ax (i.getD ax 0 - c.shape.getD ax 0))) =
      φ (if i.getD ax 0 < c.shape.getD ax 0 then c.get i
        else concatGet ax cs (i.set ax (i.getD ax 0 - c.shape.getD ax 0)))
    by_cases h : i.getD ax 0 < c.shape.getD ax 0
    · rw [if_pos h, if_pos h]; exact get_map' hφ c i
    · rw [if_neg h, if_neg h]; exact ih _

theorem concat_map {φ : α → β} (hφ : φ default = default) (ax : Nat) (cs : List (NDArr α)) :
    concat ax (cs.map (NDArr.map φ)) = emap φ (concat ax cs) := by
  cases cs with
  | nil => rfl
  | cons c cs =>
    simp only [List.map_cons, concat, shape_map, List.forall_mem_map, List.map_map]
    have e : (List.map ((fun d : NDArr β => d.shape.getD ax 0) ∘ NDArr.map φ) cs) = cs.map fun d => d.shape.getD ax 0 :=
      List.map_congr_left fun d _ => rfl
    rw [e]
    split
    · simp only [emap, Except.map, map_ofFn]
      congr 2
      funext i
      exact concatGet_map hφ ax (c :: cs) i
    · rfl

theorem expandDims_map {α β : Type} (φ : α → β) (a : NDArr α) (ax : Int) :
    (a.map φ).expandDims ax = (a.expandDims ax).map (NDArr.map φ) := by
  unfold expandDims
  simp only [ndim, shape_map, reshape_map]
  cases normAxis (a.shape.length + 1) ax <;> rfl

theorem concatAx_map {φ : α → β} (hφ : φ default = default) (ax : Int) (cs : List (NDArr α)) :
    concatAx ax (cs.map (NDArr.map φ)) = emap φ (concatAx ax cs) := by
  cases cs with
  | nil => rfl
  | cons c cs =>
    simp only [List.map_cons, concatAx, ndim, shape_map]
    cases normAxis c.shape.length ax with
    | error e => rfl
    | ok n => exact concat_map hφ n (c :: cs)

theorem column_map {φ : α → β} (hφ : φ default = default) (c : NDArr α) (k : List Nat) :
    column (c.map φ) k = (column c k).map φ := by
  unfold column
  rw [List.map_map]
  exact List.map_congr_left fun j _ => get_map' hφ c _

theorem col_map {φ : α → β} (hφ : φ default = default) (c : NDArr α) (k : Nat) :
    (c.map φ).col k = (c.col k).map φ := by
  unfold col
  rw [List.map_map]
  exact List.map_congr_left fun j _ => get_map' hφ c _

theorem moveLoop_map {φ : α → β} (hφ : φ default = default) (l : List Int) (t : Nat) (a : NDArr α) :
    moveLoop l t (a.map φ) = (moveLoop l t a).map fun p => (p.1.map φ, p.2) := by
  induction l generalizing t a with
  | nil => rfl
  | cons ax l ih =>
    simp only [moveLoop, moveaxis_map hφ]
    split
    · cases a.moveaxis ax t with
      | error e => rfl
      | ok a' => exact ih _ _
    · exact ih _ _

theorem moveSampleAxes_map {φ : α → β} (hφ : φ default = default) (a : NDArr α) (axes : Option (List Int)) :
    moveSampleAxes (a.map φ) axes = (moveSampleAxes a axes).map fun p => (p.1.map φ, p.2) := by
  unfold moveSampleAxes
  simp only [ndim, shape_map, moveLoop_map hφ]
  cases moveLoop (npSortInt (resolveAxes a.shape.length axes)) 0 a <;> rfl

theorem reduced_map {φ : α → β} (hφ : φ default = default) (a : NDArr α) (A k : List Nat) :
    reduced (a.map φ) A k = (reduced a A k).map φ := by
  unfold reduced
  rw [List.map_map]
  exact List.map_congr_left fun i _ => get_map' hφ a i

theorem reduceAxesE_map [Inhabited γ] {φ : α → β} (hφ : φ default = default) (g : List β → Except Err γ) (a : NDArr α)
    (axes : Option (List Int)) : reduceAxesE g (a.map φ) axes = reduceAxesE (fun l => g (l.map φ)) a axes := by
  unfold reduceAxesE
  simp only [reduced_map hφ]
  rfl

theorem reduceAxes_map [Inhabited γ] {φ : α → β} (hφ : φ default = default) (g : List β → γ) (a : NDArr α)
    (axes : Option (List Int)) : reduceAxes g (a.map φ) axes = reduceAxes (fun l => g (l.map φ)) a axes :=
  reduceAxesE_map hφ _ a axes

theorem mapE_map {α β γ : Type} (ψ : β → γ) (g : α → Except Err β) (l : List α) :
    mapE (fun x => (g x).map ψ) l = (mapE g l).map (List.map ψ) := by
  induction l with
  | nil => rfl
  | cons a l ih =>
    simp only [mapE]
    cases g a with
    | error e => rfl
    | ok b =>
      simp only [Except.map] at ih ⊢
      rw [ih]
      cases mapE g l <;> rfl

theorem reduceAxesE_post [Inhabited γ] {ψ : β → γ} (hψ : ψ default = default) (g : List α → Except Err β) (a : NDArr α)
    (axes : Option (List Int)) : reduceAxesE (fun l => (g l).map ψ) a axes = emap ψ (reduceAxesE g a axes) := by
  unfold reduceAxesE
  cases normAxes a.ndim axes with
  | error e => rfl
  | ok A =>
    simp only [bind, Except.bind, mapE_map ψ (fun k => g (reduced a A k))]
    cases mapE (fun k => g (reduced a A k)) (allIdx (offAxes A a.shape)) with
    | error e => rfl
    | ok vals =>
      simp only [Except.map, pure, Except.pure, map_ofFn]
      congr 2
      funext k
      exact getD_map' ψ _ _ _ _ hψ

theorem reduceAxes_post [Inhabited γ] {ψ : β → γ} (hψ : ψ default = default) (g : List α → β) (a : NDArr α)
    (axes : Option (List Int)) : reduceAxes (fun l => ψ (g l)) a axes = emap ψ (reduceAxes g a axes) :=
  reduceAxesE_post hψ (fun l => .ok (g l)) a axes

theorem atleast2d_map {α β : Type} (φ : α → β) (a : NDArr α) :
    atleast2d (a.map φ) = (atleast2d a).map (NDArr.map φ) := by
  unfold atleast2d
  simp only [shape_map]
  split <;> first | exact reshape_map _ _ _ | rfl

theorem vstack_map {φ : α → β} (hφ : φ default = default) (a b : NDArr α) :
    vstack (a.map φ) (b.map φ) = emap φ (vstack a b) := by
  unfold vstack
  simp only [atleast2d_map]
  cases atleast2d a with
  | error e => rfl
  | ok a' =>
    cases atleast2d b with
    | error e => rfl
    | ok b' => exact concat_map hφ 0 [a', b']

end Lemmas
