import Verif.Lemmas.Natural
import Verif.Spec.Units

/-! # Comparisons do not see a strictly increasing change of the values -/

set_option linter.unusedSectionVars false

namespace Lemmas
open Np NDArr Model Spec

variable {K : Type} [Field K] [LinearOrder K]
variable {g : K → K} (hg : StrictMono g)

theorem opt_default (g : K → K) : (Option.map g) (default : Fl K) = default := rfl

include hg in
theorem lt_map (x y : Fl K) : Fl.lt (x.map g) (y.map g) = Fl.lt x y := by
  cases x <;> cases y <;> simp [Fl.lt, hg.lt_iff_lt]

include hg in
theorem le_map (x y : Fl K) : Fl.le (x.map g) (y.map g) = Fl.le x y := by
  cases x <;> cases y <;> simp [Fl.le, hg.le_iff_le]

include hg in
theorem momentsCol_map (col : List (Fl K)) : momentsCol (col.map (Option.map g)) = momentsCol col := by
  unfold momentsCol
  rw [getD_map' (Option.map g) col 0 none none rfl, ← List.map_tail, List.countP_map, List.length_map]
  have e : ((fun x => Fl.le x (Option.map g (col.getD 0 none))) ∘ Option.map g) = fun x => Fl.le x (col.getD 0 none) := by
    funext x
    exact le_map hg _ _
  rw [e]

theorem mergeThreshold_map (g : K → K) (f : NDArr (Fl K)) (ax : Int) (t : Thr K) :
    mergeThreshold (inUnit g f) ax (thrInUnit g t) = emap (Option.map g) (mergeThreshold f ax t) := by
  have hφ := opt_default g
  unfold mergeThreshold
  have hn : normAxis (inUnit g f).ndim ax = normAxis f.ndim ax := rfl
  rw [hn]
  cases normAxis f.ndim ax with
  | error e => rfl
  | ok n =>
    have main : ∀ b : NDArr (Fl K),
        (do let b1 ← (b.map (Option.map g)).expandDims ax
            let c ← concatAx ax [b1, f.map (Option.map g)]
            c.moveaxis ax 0) =
        emap (Option.map g) (do let b1 ← b.expandDims ax
                                let c ← concatAx ax [b1, f]
                                c.moveaxis ax 0) := by
      intro b
      rw [expandDims_map]
      cases b.expandDims ax with
      | error e => rfl
      | ok b1 =>
        have h1 := concatAx_map hφ ax [b1, f]
        simp only [List.map_cons, List.map_nil] at h1
        simp only [bind, Except.bind, Except.map] at h1 ⊢
        rw [h1]
        cases concatAx ax [b1, f] with
        | error e => rfl
        | ok c => exact moveaxis_map hφ c ax 0
    cases t with
    | scalar v =>
      have := main (full (f.shape.eraseIdx n) v)
      rw [map_full] at this
      exact this
    | array a =>
      by_cases h : a.shape = f.shape.eraseIdx n
      · have h' : (inUnit g a).shape = (inUnit g f).shape.eraseIdx n := h
        simp only [thrInUnit, bind, Except.bind, if_pos h, if_pos h']
        exact main a
      · have h' : ¬ (inUnit g a).shape = (inUnit g f).shape.eraseIdx n := h
        simp only [thrInUnit, bind, Except.bind, if_neg h, if_neg h']
        rfl
    | other => rfl

theorem kdeErr {α : Type} (c : NDArr α) {β : Type} (φ : α → β) : (c.map φ).shape.tail.prod = c.shape.tail.prod := rfl

include hg in
theorem ensToProbBelow_map (w : Nat) (kde : List (Fl K) → Fl K) (f : NDArr (Fl K)) (ax : Int) (t : Thr K) :
    ensToProbBelow w .moments kde (inUnit g f) ax (thrInUnit g t) = ensToProbBelow w .moments kde f ax t := by
  have hφ := opt_default g
  unfold ensToProbBelow
  rw [mergeThreshold_map]
  cases mergeThreshold f ax t with
  | error e => rfl
  | ok c =>
    simp only [bind, Except.bind, Except.map, pure, Except.pure, shape_map, column_map hφ, momentsCol_map hg,
      reshapeInfer_map]
    by_cases hw : w = 1
    · simp [hw]
    · simp only [if_neg hw]
      cases c.reshapeInfer [c.shape.getD 0 0] [] with
      | error e => rfl
      | ok flat =>
        simp only [shape_map, splitOnes_map hφ, List.map_map]
        have e : ((fun p => momentsCol (column p [0])) ∘ NDArr.map (Option.map g)) =
            fun p : NDArr (Fl K) => momentsCol (column p [0]) := by
          funext p
          simp only [Function.comp, column_map hφ, momentsCol_map hg]
        simp only [e, List.length_map]

include hg in
theorem cmpThr_lt_map (o : NDArr (Fl K)) (t : Thr K) :
    cmpThr Fl.lt (inUnit g o) (thrInUnit g t) = cmpThr Fl.lt o t := by
  cases t with
  | scalar v => simp only [cmpThr, thrInUnit, inUnit, map_map, lt_map hg]
  | array a => simp only [cmpThr, thrInUnit, inUnit, zipWith_maps, lt_map hg]
  | other => rfl

include hg in
theorem cmpThr_gt_map (o : NDArr (Fl K)) (t : Thr K) :
    cmpThr (fun x v => Fl.lt v x) (inUnit g o) (thrInUnit g t) = cmpThr (fun x v => Fl.lt v x) o t := by
  cases t with
  | scalar v => simp only [cmpThr, thrInUnit, inUnit, map_map, lt_map hg]
  | array a => simp only [cmpThr, thrInUnit, inUnit, zipWith_maps, lt_map hg]
  | other => rfl

include hg in
theorem binarizeObs_map (o : NDArr (Fl K)) (ov be : Option (Thr K)) :
    binarizeObs (inUnit g o) (ov.map (thrInUnit g)) (be.map (thrInUnit g)) = binarizeObs o ov be := by
  cases ov <;> cases be <;> simp only [Option.map, binarizeObs, cmpThr_lt_map hg, cmpThr_gt_map hg]

include hg in
theorem iouDeterm_map (f o : NDArr (Fl K)) (axis : Option (List Int)) (ov be : Option (Thr K)) :
    Model.iouDeterm (inUnit g f) (inUnit g o) axis (ov.map (thrInUnit g)) (be.map (thrInUnit g)) =
      Model.iouDeterm f o axis ov be := by
  unfold Model.iouDeterm
  have e : ((inUnit g f).shape = (inUnit g o).shape) = (f.shape = o.shape) := rfl
  simp only [e]
  cases ov <;> cases be <;> simp only [Option.map, cmpThr_lt_map hg, cmpThr_gt_map hg]

/-! ### ranks -/

include hg in
theorem minRank_map (col : List (Fl K)) (x : Fl K) : minRank (col.map (Option.map g)) (x.map g) = minRank col x := by
  unfold minRank
  rw [List.countP_map]
  congr 2
  funext y
  exact lt_map hg _ _

theorem none_mem_mapOpt (g : K → K) (col : List (Fl K)) : none ∈ col.map (Option.map g) ↔ none ∈ col := by
  constructor
  · intro h
    obtain ⟨x, hx, e⟩ := List.mem_map.1 h
    cases x with
    | none => exact hx
    | some y => cases e
  · intro h
    exact List.mem_map.2 ⟨none, h, rfl⟩

include hg in
theorem rankCol_map (col : List (Fl K)) : rankCol (col.map (Option.map g)) = rankCol col := by
  unfold rankCol
  rw [getD_map' (Option.map g) col 0 none none rfl, minRank_map hg]
  by_cases h : none ∈ col
  · rw [if_pos h, if_pos ((none_mem_mapOpt g col).2 h)]
  · rw [if_neg h, if_neg (mt (none_mem_mapOpt g col).1 h)]

include hg in
theorem tiesCol_map (col : List (Fl K)) : tiesCol (col.map (Option.map g)) = tiesCol col := by
  unfold tiesCol
  rw [getD_map' (Option.map g) col 0 none none rfl, minRank_map hg, ← List.map_tail, List.countP_map]
  have e : ((fun y => decide (minRank col (col.getD 0 none) = minRank (col.map (Option.map g)) y)) ∘ Option.map g) =
      fun y => decide (minRank col (col.getD 0 none) = minRank col y) := by
    funext y
    simp only [Function.comp, minRank_map hg]
  rw [e]
  by_cases h : none ∈ col
  · rw [if_pos h, if_pos ((none_mem_mapOpt g col).2 h)]
  · rw [if_neg h, if_neg (mt (none_mem_mapOpt g col).1 h)]

include hg in
theorem rankdata_map (d : Nat → Nat → Nat) (x : NDArr (Fl K)) : rankdata d (inUnit g x) = rankdata d x := by
  have e : rankPairs (inUnit g x) = rankPairs x := by
    unfold rankPairs inUnit
    simp only [shape_map, column_map (opt_default g), tiesCol_map hg, rankCol_map hg]
  unfold rankdata
  refine ext' rfl ?_
  simp only [e]

theorem mergeObs_map (g : K → K) (f o : NDArr (Fl K)) (ax : Int) :
    mergeObs (inUnit g f) (inUnit g o) ax = emap (Option.map g) (mergeObs f o ax) := by
  unfold mergeObs inUnit
  rw [expandDims_map, moveaxis_map (opt_default g)]
  cases o.expandDims 0 with
  | error e => rfl
  | ok e1 =>
    cases f.moveaxis ax 0 with
    | error e => rfl
    | ok m => exact vstack_map (opt_default g) e1 m

include hg in
theorem rankAll_map (w : Nat) (mapAxis : Int) (draw : Nat → Nat → Nat → Nat) (c : NDArr (Fl K)) :
    rankAll w mapAxis draw (inUnit g c) = rankAll w mapAxis draw c := by
  unfold rankAll
  rw [rankdata_map hg]
  have hs : (inUnit g c).shape = c.shape := rfl
  have e : (((inUnit g c).splitOnes (mapAxis + (inUnit g c).ndim).toNat).zipIdx.map fun p => rankdata (draw p.2) p.1) =
      ((c.splitOnes (mapAxis + c.ndim).toNat).zipIdx.map fun p => rankdata (draw p.2) p.1) := by
    unfold inUnit
    rw [splitOnes_map (opt_default g), List.zipIdx_map, List.map_map]
    apply List.map_congr_left
    rintro ⟨p, i⟩ _
    exact rankdata_map hg _ p
  simp only [e]
  rfl

theorem fsum_isNone_map (g : K → K) (l : List (Fl K)) :
    (fsum (l.map (Option.map g))).isNone = (fsum l).isNone := by
  induction l with
  | nil => rfl
  | cons x l ih =>
    have e : ∀ y : Fl K, ∀ l : List (Fl K), fsum (y :: l) = Fl.add y (fsum l) := fun _ _ => rfl
    rw [List.map_cons, e, e]
    cases x with
    | none => rfl
    | some v =>
      cases h1 : fsum l <;> cases h2 : fsum (l.map (Option.map g)) <;> rw [h1, h2] at ih <;>
        simp_all [Fl.add, Fl.lift2]

include hg in
theorem rankHistogram_map (skip npFloat : Bool) (w : Nat) (mapAxis : Int) (draw : Nat → Nat → Nat → Nat)
    (f o : NDArr (Fl K)) (ax : Int) :
    rankHistogram skip npFloat w mapAxis draw (inUnit g f) (inUnit g o) ax =
      rankHistogram skip npFloat w mapAxis draw f o ax := by
  have hc : ∀ c, rankAll w mapAxis draw (c.map (Option.map g)) = rankAll w mapAxis draw c :=
    fun c => rankAll_map hg w mapAxis draw c
  unfold rankHistogram
  cases skip with
  | false =>
    have h1 : (none ∈ (inUnit g f).data) = (none ∈ f.data) := propext (none_mem_mapOpt g _)
    have h2 : (none ∈ (inUnit g o).data) = (none ∈ o.data) := propext (none_mem_mapOpt g _)
    simp only [Bool.false_eq_true, if_false, h1, h2, mergeObs_map]
    split
    · rfl
    · split
      · rfl
      · cases mergeObs f o ax with
        | error e => rfl
        | ok c => exact hc c
  | true =>
    simp only [if_true, mergeObs_map]
    let ψ : Fl K → Option Unit := Option.map fun _ => ()
    have hψ : ψ default = default := rfl
    have hs : emap ψ (reduceAxes fsum (inUnit g f) (some [ax])) = emap ψ (reduceAxes fsum f (some [ax])) := by
      rw [← reduceAxes_post hψ, ← reduceAxes_post hψ, inUnit, reduceAxes_map (opt_default g)]
      congr 1
      funext l
      have := fsum_isNone_map g l
      cases h1 : fsum l <;> cases h2 : fsum (l.map (Option.map g)) <;> simp_all [ψ]
    have hz : ∀ (a : NDArr (Fl K)) (s : NDArr (Fl K)),
        zipWith (fun x y => Option.isNone x || Option.isNone y) a s =
          zipWith (fun (x y : Option Unit) => Option.isNone x || Option.isNone y) (a.map ψ) (s.map ψ) := by
      intro a s
      rw [zipWith_maps]
      congr 1
      funext x y
      cases x <;> cases y <;> rfl
    have ho : (inUnit g o).map ψ = o.map ψ := by
      rw [inUnit, map_map]
      congr 1
      funext x
      cases x <;> rfl
    cases h1 : reduceAxes fsum (inUnit g f) (some [ax]) with
    | error e =>
      cases h2 : reduceAxes fsum f (some [ax]) with
      | error e2 =>
        rw [h1, h2] at hs
        cases hs
        rfl
      | ok s2 => rw [h1, h2] at hs; cases hs
    | ok s1 =>
      cases h2 : reduceAxes fsum f (some [ax]) with
      | error e2 => rw [h1, h2] at hs; cases hs
      | ok s2 =>
        rw [h1, h2] at hs
        have hs' : s1.map ψ = s2.map ψ := by
          simpa [emap, Except.map] using hs
        simp only [bind, Except.bind]
        rw [hz _ s1, hz _ s2, ho, hs']
        cases zipWith (fun (x y : Option Unit) => Option.isNone x || Option.isNone y) (o.map ψ) (s2.map ψ) with
        | error e => rfl
        | ok mask =>
          cases mergeObs f o ax with
          | error e => rfl
          | ok c =>
            simp only [Except.map, hc c]

end Lemmas
