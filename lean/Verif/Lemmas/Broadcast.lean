import Verif.Spec.Broadcast
import Mathlib.Data.List.GetD

/-!
# Lemmas on broadcasting
-/

namespace Lemmas
open Np NDArr Spec

theorem bcIdx_aligned {s k : List Nat} (h : s.length ≤ k.length) : bcIdx s k = alignedPos s k := by
  unfold bcIdx alignedPos
  refine List.ext_getElem (by simp; omega) fun i h1 h2 => ?_
  simp only [List.length_map, List.length_range] at h2
  simp only [List.getElem_zipWith, List.getElem_drop, List.getElem_map, List.getElem_range]
  rw [List.getD_eq_getElem _ _ h2, List.getD_eq_getElem _ _ (show k.length - s.length + i < k.length by omega)]

theorem bcShapeRev_fit {s t : List Nat} (hl : s.length ≤ t.length)
    (h : ∀ i < s.length, s.getD i 0 = 1 ∨ s.getD i 0 = t.getD i 0) : bcShapeRev t s = some t := by
  induction s generalizing t with
  | nil => cases t <;> rfl
  | cons d s ih =>
    cases t with
    | nil => simp at hl
    | cons n t =>
      have h0 : bcDim n d = some n := by
        have := h 0 (by simp)
        simp only [List.getD_cons_zero] at this
        unfold bcDim
        rcases this with rfl | rfl
        · split_ifs <;> simp_all
        · simp
      have h1 := ih (t := t) (by simpa using hl) fun i hi => by
        have := h (i + 1) (by simpa using hi)
        simpa using this
      simp only [bcShapeRev, h0, h1, bind, Option.bind, pure]

theorem bcShape_fit {s t : List Nat} (h : FitsInto s t) : bcShape t s = some t := by
  unfold bcShape
  rw [bcShapeRev_fit (by simpa using h.1) fun i hi => ?_]
  · simp
  · rw [List.length_reverse] at hi
    have h1 := h.1
    have h2 := h.2 (s.length - 1 - i) (by omega)
    rw [List.getD_eq_getElem _ _ (show i < s.reverse.length by simpa using hi),
      List.getD_eq_getElem _ _ (show i < t.reverse.length by simp; omega), List.getElem_reverse, List.getElem_reverse]
    rw [List.getD_eq_getElem _ _ (show s.length - 1 - i < s.length by omega),
      List.getD_eq_getElem _ _ (show t.length - s.length + (s.length - 1 - i) < t.length by omega)] at h2
    have e : t.length - s.length + (s.length - 1 - i) = t.length - 1 - i := by omega
    simpa only [e] using h2

variable {α β γ : Type} [Inhabited α] [Inhabited β]

/-- a smaller operand acts like the repeated one -/
theorem zipWith_repeats (g : α → β → γ) {f : NDArr α} {a e : NDArr β} (hf : FitsInto a.shape f.shape)
    (h : Repeats a e f.shape) : zipWith g f a = zipWith g f e := by
  rw [zipWith_bc, zipWith_ok g f e h.1.symm, bcShape_fit hf]
  simp only [Except.ok.injEq]
  refine ext' rfl ?_
  simp only [ofFn]
  refine List.map_congr_left fun k hk => ?_
  have hk' := mem_allIdx.1 hk
  rw [bcIdx_self hk', bcIdx_aligned (by rw [hk'.length]; exact hf.1), h.2 k hk']

end Lemmas
