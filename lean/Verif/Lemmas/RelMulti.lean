import Verif.Lemmas.RelBoot

set_option linter.unusedSectionVars false

/-! From `relDiag_multi`: what each row of a multi-position reliability result is. -/

namespace Np
/-- a 1-D array -/
def vec {α : Type} (l : List α) : NDArr α := ⟨[l.length], l, by simp⟩
end Np

namespace Lemmas
open Np NDArr Spec Model

theorem stackRows_ok {P : Type} {rows out : List (List P)} (h : stackRows rows = .ok out) :
    out = rows ∧ ∀ r ∈ rows, ∀ s ∈ rows, r.length = s.length := by
  cases rows with
  | nil => cases h; simp
  | cons r rs =>
    simp only [stackRows] at h
    split at h
    · rename_i hl
      cases h
      refine ⟨rfl, ?_⟩
      have : ∀ s ∈ r :: rs, s.length = r.length := by
        intro s hs
        rcases List.mem_cons.1 hs with rfl | h'
        · rfl
        · exact hl s h'
      intro a ha b hb
      rw [this a ha, this b hb]
    · cases h

theorem stackRows_eq {P : Type} {rows : List (List P)}
    (h : ∀ r ∈ rows, ∀ s ∈ rows, r.length = s.length) : stackRows rows = .ok rows := by
  cases rows with
  | nil => rfl
  | cons r rs =>
    simp only [stackRows]
    rw [if_pos]
    intro s hs
    exact h s (by simp [hs]) r (by simp)

theorem mapE_get {α β : Type} {f : α → Except Err β} {l : List α} {r : List β}
    (h : mapE f l = .ok r) {j : Nat} {a : α} (hj : l[j]? = some a) :
    ∃ y, r[j]? = some y ∧ f a = .ok y := by
  have h1 := List.forall₂_iff_get.1 (mapE_ok.1 h)
  obtain ⟨hj1, rfl⟩ := List.getElem?_eq_some_iff.1 hj
  have hj2 : j < r.length := by omega
  exact ⟨r[j], by simp [hj2], by simpa using h1.2 j hj1 hj2⟩

theorem pairsAt_vec {α β : Type} [Inhabited α] [Inhabited β] (l : List α) (m : List β)
    (h : l.length = m.length) : pairsAt (vec l) (vec m) [0] [] = l.zip m := by
  have hall : fiberIdx [l.length] [0] [] = allIdx [l.length] := by
    unfold fiberIdx
    rw [List.filter_eq_self]
    intro i hi
    rw [mem_allIdx] at hi
    have hl := hi.length
    simp only [List.length_singleton] at hl
    simp [dropAxes, hl]
  unfold pairsAt
  have e : (vec l).shape = [l.length] := rfl
  rw [e, hall, allIdx_singleton, List.map_map]
  apply List.ext_getElem
  · simp [h]
  · intro i h1 h2
    simp only [List.length_map, List.length_range] at h1
    simp [NDArr.get, vec, ravel, List.getD_eq_getElem?_getD, h1, show i < m.length by omega]

theorem pairs_zip {α β : Type} (P : List (α × β)) : (P.map Prod.fst).zip (P.map Prod.snd) = P := by
  induction P with
  | nil => rfl
  | cons a P ih => simp [ih]

variable {K : Type} [Field K] [LinearOrder K] [IsStrictOrderedRing K] [FloorSemiring K]

theorem relCreateSplit_none (f : NDArr (Fl K)) (o : NDArr Bool) (nbins : Nat) :
    relCreateSplit f o nbins none =
      relCreateSplit f o nbins (some ((List.range o.shape.length).map Int.ofNat)) := rfl

/-- the call on 1-D arrays -/
theorem relDiag_vec {Q : Type} (P : List (Fl K × Bool)) (nbins : Nat)
    (F : List K → Nat → List Int → List (Fl K) → List Bool → Except Err (RelSlice Q)) :
    (do let s ← relCreateSplit (vec (P.map Prod.fst)) (vec (P.map Prod.snd)) nbins none
        relAgg s (F s.bins)) =
      (F (relBins nbins) 0 (idsOf nbins P) (P.map Prod.fst) (P.map Prod.snd)).map RelOut.slice := by
  rw [relCreateSplit_none]
  have hs : (vec (P.map Prod.fst)).shape = (vec (P.map Prod.snd)).shape := by simp [vec]
  have hl : (vec (P.map Prod.snd)).shape.length = 1 := rfl
  have hl' : (vec (P.map Prod.fst)).shape.length = 1 := rfl
  have := relDiag_slice (vec (P.map Prod.fst)) (vec (P.map Prod.snd)) nbins
    ((List.range (vec (P.map Prod.snd)).shape.length).map Int.ofNat) hs
    (by rw [hl, hl']; exact goodAxes_all 1)
    (by rw [hl, hl', axisNum_all]; rfl) F
  rw [this, hl, hl', axisNum_all]
  have e : (List.range 1) = [0] := rfl
  rw [e, pairsAt_vec _ _ (by simp), pairs_zip]

theorem dropAxes_ne_nil_of {A : List Nat} {s k : List Nat} (h : InB (dropAxes A s) k) :
    (dropAxes A s).prod ≠ 0 := by
  intro h0
  have := ravel_lt h
  omega

/-- rows of a multi-position result -/
theorem relDiag_rows {Q : Type} (f : NDArr (Fl K)) (o : NDArr Bool) (nbins : Nat) (axes : List Int)
    (hsh : f.shape = o.shape) (hg : GoodAxes f.shape.length axes)
    (hD : dropAxes (axes.map (axisNum f.shape.length)) f.shape ≠ [])
    (hDp : (dropAxes (axes.map (axisNum f.shape.length)) f.shape).prod ≠ 0)
    (F : List K → Nat → List Int → List (Fl K) → List Bool → Except Err (RelSlice Q))
    {out : RelOut Q}
    (hout : (do let s ← relCreateSplit f o nbins (some axes)
                relAgg s (F s.bins)) = .ok out) :
    ∃ pp pt pc tc, out = .multi (dropAxes (axes.map (axisNum f.shape.length)) f.shape) pp pt pc tc ∧
      ∀ k, InB (dropAxes (axes.map (axisNum f.shape.length)) f.shape) k → ∃ r,
        F (relBins nbins) (ravel (dropAxes (axes.map (axisNum f.shape.length)) f.shape) k)
            (idsOf nbins (pairsAt f o (axes.map (axisNum f.shape.length)) k))
            ((pairsAt f o (axes.map (axisNum f.shape.length)) k).map Prod.fst)
            ((pairsAt f o (axes.map (axisNum f.shape.length)) k).map Prod.snd) = .ok r ∧
        pp[ravel (dropAxes (axes.map (axisNum f.shape.length)) f.shape) k]? = some r.probPred ∧
        pt[ravel (dropAxes (axes.map (axisNum f.shape.length)) f.shape) k]? = some r.probTrue ∧
        pc[ravel (dropAxes (axes.map (axisNum f.shape.length)) f.shape) k]? =
          some (r.predCount.map Prod.snd) ∧
        tc[ravel (dropAxes (axes.map (axisNum f.shape.length)) f.shape) k]? =
          some (r.trueCount.map Prod.snd) := by
  rw [relDiag_multi f o nbins axes hsh hg hD hDp F] at hout
  set A := axes.map (axisNum f.shape.length)
  set D := dropAxes A f.shape
  cases hm : mapE (fun k => F (relBins nbins) (ravel D k) (idsOf nbins (pairsAt f o A k))
      ((pairsAt f o A k).map Prod.fst) ((pairsAt f o A k).map Prod.snd)) (allIdx D) with
  | error e => rw [hm] at hout; cases hout
  | ok rs =>
    rw [hm] at hout
    simp only [bind, Except.bind] at hout
    cases h1 : stackRows (rs.map (·.probPred)) with
    | error e => rw [h1] at hout; cases hout
    | ok pp =>
    cases h2 : stackRows (rs.map (·.probTrue)) with
    | error e => rw [h1, h2] at hout; cases hout
    | ok pt =>
    cases h3 : stackRows (rs.map fun r => r.predCount.map Prod.snd) with
    | error e => rw [h1, h2, h3] at hout; cases hout
    | ok pc =>
    cases h4 : stackRows (rs.map fun r => r.trueCount.map Prod.snd) with
    | error e => rw [h1, h2, h3, h4] at hout; cases hout
    | ok tc =>
    rw [h1, h2, h3, h4] at hout
    simp only [pure, Except.pure, Except.ok.injEq] at hout
    refine ⟨pp, pt, pc, tc, hout.symm, ?_⟩
    intro k hk
    obtain ⟨r, hr1, hr2⟩ := mapE_get hm (getElem?_allIdx hk)
    refine ⟨r, hr2, ?_, ?_, ?_, ?_⟩
    · rw [(stackRows_ok h1).1]; simp [hr1]
    · rw [(stackRows_ok h2).1]; simp [hr1]
    · rw [(stackRows_ok h3).1]; simp [hr1]
    · rw [(stackRows_ok h4).1]; simp [hr1]

end Lemmas
