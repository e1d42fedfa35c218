import Verif.Np.Reduce
import Verif.Lemmas.Axes
import Mathlib.Algebra.BigOperators.Ring.List

/-! Facts about reductions over axes. -/

set_option linter.unusedSectionVars false

namespace Lemmas
open Np NDArr Spec

variable {α β : Type}

theorem offAxes_eq (A l : List Nat) : offAxes A l = dropAxes A l := rfl

theorem reduced_eq [Inhabited α] (a : NDArr α) (A k : List Nat) : reduced a A k = fiber a A k := rfl

theorem mapE_normAxis_ok {n : Nat} {l : List Int} (h : ∀ x ∈ l, AxisOK n x) :
    mapE (normAxis n) l = .ok (l.map (axisNum n)) :=
  mapE_eq_map fun x hx => normAxis_ok (h x hx)

theorem normAxes_ok {n : Nat} {axes : Option (List Int)} (h : OptOK n axes) :
    normAxes n axes = .ok (nums n axes) := by
  cases axes with
  | none => rfl
  | some l =>
    simp only [normAxes]
    rw [mapE_normAxis_ok h.ok]
    simp only [bind, Except.bind, pure, Except.pure]
    rw [if_pos h.nodup]; rfl

theorem normAxes_iff {n : Nat} {axes : Option (List Int)} {A : List Nat}
    (h : normAxes n axes = .ok A) : OptOK n axes := by
  cases axes with
  | none => trivial
  | some l =>
    simp only [normAxes] at h
    cases h1 : mapE (normAxis n) l with
    | error e => rw [h1] at h; cases h
    | ok B =>
      rw [h1] at h
      simp only [bind, Except.bind, pure, Except.pure] at h
      have hok : ∀ x ∈ l, AxisOK n x := by
        intro x hx
        have h2 := mapE_ok.1 h1
        clear h1 h
        induction h2 with
        | nil => simp at hx
        | cons ha _ ih =>
          rcases List.mem_cons.1 hx with rfl | hx
          · unfold normAxis at ha
            split at ha
            · rename_i hc; exact hc
            · cases ha
          · exact ih hx
      rw [mapE_normAxis_ok hok] at h1
      cases h1
      split at h
      · rename_i hn; exact ⟨hok, hn⟩
      · cases h

/-- complete description of a reduction -/
theorem reduceAxes_spec [Inhabited α] [Inhabited β] (g : List α → β) (a : NDArr α)
    {axes : Option (List Int)} (h : OptOK a.shape.length axes) :
    ∃ r, reduceAxes g a axes = .ok r ∧ r.shape = dropAxes (nums a.shape.length axes) a.shape ∧
      ∀ k, InB (dropAxes (nums a.shape.length axes) a.shape) k →
        r.get k = g (fiber a (nums a.shape.length axes) k) := by
  unfold reduceAxes reduceAxesE
  have : a.ndim = a.shape.length := rfl
  rw [this, normAxes_ok h]
  simp only [bind, Except.bind, pure, Except.pure]
  rw [mapE_pure]
  refine ⟨_, rfl, rfl, ?_⟩
  intro k hk
  simp only [offAxes_eq]
  rw [get_ofFn _ hk]
  rw [List.getD_eq_getElem?_getD, List.getElem?_map]
  rw [getElem?_allIdx hk]
  rfl

theorem reduceAxes_ok_iff [Inhabited α] [Inhabited β] (g : List α → β) (a : NDArr α)
    {axes : Option (List Int)} {r : NDArr β} (h : reduceAxes g a axes = .ok r) :
    OptOK a.shape.length axes := by
  unfold reduceAxes reduceAxesE at h
  cases h1 : normAxes a.ndim axes with
  | error e => rw [h1] at h; cases h
  | ok A => exact normAxes_iff h1

/-- the same for reductions that may raise -/
theorem reduceAxesE_spec [Inhabited α] [Inhabited β] (g : List α → Except Err β) (a : NDArr α)
    {axes : Option (List Int)} {r : NDArr β} (h : reduceAxesE g a axes = .ok r) :
    OptOK a.shape.length axes ∧ r.shape = dropAxes (nums a.shape.length axes) a.shape ∧
      ∀ k, InB (dropAxes (nums a.shape.length axes) a.shape) k →
        g (fiber a (nums a.shape.length axes) k) = .ok (r.get k) := by
  unfold reduceAxesE at h
  have e : a.ndim = a.shape.length := rfl
  rw [e] at h
  cases h1 : normAxes a.shape.length axes with
  | error e => rw [h1] at h; cases h
  | ok A =>
    have hok := normAxes_iff h1
    rw [normAxes_ok hok] at h1
    cases h1
    rw [normAxes_ok hok] at h
    simp only [bind, Except.bind] at h
    cases h2 : mapE (fun k => g (reduced a (nums a.shape.length axes) k))
        (allIdx (offAxes (nums a.shape.length axes) a.shape)) with
    | error e => rw [h2] at h; cases h
    | ok vals =>
      rw [h2] at h
      simp only [pure, Except.pure, Except.ok.injEq] at h
      subst h
      refine ⟨hok, rfl, ?_⟩
      intro k hk
      simp only [offAxes_eq]
      rw [get_ofFn _ hk]
      have h3 := mapE_ok.1 h2
      have hl := h3.length_eq
      have hg := getElem?_allIdx hk
      have hlt : ravel (dropAxes (nums a.shape.length axes) a.shape) k < vals.length := by
        rw [← hl, length_allIdx]; exact ravel_lt hk
      have hlt' : ravel (dropAxes (nums a.shape.length axes) a.shape) k <
          (allIdx (offAxes (nums a.shape.length axes) a.shape)).length := by rw [hl]; exact hlt
      have h4 := List.forall₂_iff_get.1 h3
      have h5 := h4.2 _ hlt' hlt
      have h6 : (allIdx (offAxes (nums a.shape.length axes) a.shape)).get ⟨_, hlt'⟩ = k := by
        have : (allIdx (dropAxes (nums a.shape.length axes) a.shape))[ravel (dropAxes (nums a.shape.length axes) a.shape) k]? = some k := hg
        rw [List.getElem?_eq_some_iff] at this
        obtain ⟨_, h⟩ := this
        exact h
      rw [h6] at h5
      rw [List.getD_eq_getElem?_getD, List.getElem?_eq_getElem hlt]
      exact h5

theorem reduceAxesE_total [Inhabited α] [Inhabited β] (g : List α → Except Err β) (a : NDArr α)
    {axes : Option (List Int)} (h : OptOK a.shape.length axes)
    (hg : ∀ k, InB (dropAxes (nums a.shape.length axes) a.shape) k →
      ∃ v, g (fiber a (nums a.shape.length axes) k) = .ok v) :
    ∃ r, reduceAxesE g a axes = .ok r := by
  unfold reduceAxesE
  have e : a.ndim = a.shape.length := rfl
  rw [e, normAxes_ok h]
  simp only [bind, Except.bind, pure, Except.pure]
  cases h2 : mapE (fun k => g (reduced a (nums a.shape.length axes) k))
      (allIdx (offAxes (nums a.shape.length axes) a.shape)) with
  | ok vals => exact ⟨_, rfl⟩
  | error e =>
    exfalso
    have : mapE (fun k => g (reduced a (nums a.shape.length axes) k))
      (allIdx (offAxes (nums a.shape.length axes) a.shape)) =
      .ok ((allIdx (offAxes (nums a.shape.length axes) a.shape)).map fun k =>
        match g (reduced a (nums a.shape.length axes) k) with
        | .ok v => v
        | .error _ => default) := by
      apply mapE_eq_map
      intro k hk
      obtain ⟨v, hv⟩ := hg k (mem_allIdx.1 hk)
      rw [reduced_eq, hv]
    rw [this] at h2; cases h2

/-- with no kept axis the single fibre is the whole array -/
theorem dropAxes_all (l : List Nat) : dropAxes (List.range l.length) l = [] := by
  unfold dropAxes
  rw [List.map_eq_nil_iff, List.filter_eq_nil_iff]
  intro x hx
  simp [List.mem_range.1 hx]

theorem fiber_all [Inhabited α] (a : NDArr α) :
    fiber a (List.range a.shape.length) [] = a.data := by
  unfold fiber fiberIdx
  rw [List.filter_eq_self.2, ← data_eq]
  intro i hi
  have := (mem_allIdx.1 hi).length
  rw [← this, dropAxes_all]
  simp

/-- splitting a sum by key -/
theorem sum_by_key {ι κ M : Type} [DecidableEq κ] [AddCommMonoid M] (l : List ι) (ks : List κ)
    (hks : ks.Nodup) (key : ι → κ) (hkey : ∀ i ∈ l, key i ∈ ks) (g : ι → M) :
    (l.map g).sum = (ks.map fun k => ((l.filter fun i => key i = k).map g).sum).sum := by
  induction l with
  | nil => simp
  | cons a l ih =>
    have h1 := hkey a (by simp)
    rw [List.map_cons, List.sum_cons, ih fun i hi => hkey i (by simp [hi])]
    have h2 : ∀ k, (((a :: l).filter fun i => key i = k).map g).sum =
        (if key a = k then g a else 0) + ((l.filter fun i => key i = k).map g).sum := by
      intro k
      by_cases h : key a = k <;> simp [h]
    simp only [h2]
    clear h2 ih
    have h3 : (ks.map fun k => (if key a = k then g a else 0)).sum = g a := by
      clear hkey
      induction ks with
      | nil => simp at h1
      | cons k ks ihk =>
        simp only [List.map_cons, List.sum_cons]
        rcases List.mem_cons.1 h1 with h | h
        · rw [if_pos h]
          have : (ks.map fun k => (if key a = k then g a else 0)) = ks.map fun _ => 0 := by
            apply List.map_congr_left
            intro k' hk'
            rw [if_neg]
            intro e
            rw [← e, h] at hk'
            exact (List.nodup_cons.1 hks).1 hk'
          rw [this]; simp
        · rw [if_neg, zero_add]
          · exact ihk (List.nodup_cons.1 hks).2 h
          · intro e
            rw [e] at h
            exact (List.nodup_cons.1 hks).1 h
    rw [List.sum_map_add, h3]

theorem length_fiberIdx {s A k : List Nat} (hk : InB (dropAxes A s) k) :
    (fiberIdx s A k).length = (takeAxes A s).prod := by
  have h3 := congrArg List.length (map_takeAxes_fiberIdx s A k hk)
  rwa [List.length_map, length_allIdx] at h3

theorem prod_take_drop (s A : List Nat) :
    s.prod = (dropAxes A s).prod * (takeAxes A s).prod := by
  have h := sum_by_key (allIdx s) (allIdx (dropAxes A s)) (nodup_allIdx _) (dropAxes A)
    (fun i hi => mem_allIdx.2 (inB_dropAxes A (mem_allIdx.1 hi))) (fun _ => (1 : Nat))
  simp only [List.map_const', List.sum_replicate, nsmul_eq_mul, Nat.cast_id, mul_one, length_allIdx] at h
  rw [h]
  have : ((allIdx (dropAxes A s)).map fun k => ((allIdx s).filter fun i => dropAxes A i = k).length) =
      (allIdx (dropAxes A s)).map fun _ => (takeAxes A s).prod := by
    apply List.map_congr_left
    intro k hk
    exact length_fiberIdx (mem_allIdx.1 hk)
  rw [this, List.map_const', List.sum_replicate, length_allIdx, nsmul_eq_mul, Nat.cast_id]

end Lemmas
