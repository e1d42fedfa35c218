import Verif.Lemmas.Columns
import Verif.Model.Boot
import Verif.Spec.Boot

set_option linter.unusedSectionVars false

namespace Lemmas
open Np NDArr Spec Model

variable {K : Type} [Field K] [LinearOrder K] [IsStrictOrderedRing K] [FloorSemiring K]

theorem bind_ok {α β : Type} {x : Except Err α} {f : α → Except Err β} {b : β} :
    (x >>= f) = .ok b ↔ ∃ a, x = .ok a ∧ f a = .ok b := by
  cases x <;> simp [bind, Except.bind]

theorem choice_ok {α : Type} [Inhabited α] {pop : List α} {n : Nat} {draw : Nat → Nat} {s : List α}
    (h : choice pop n draw = .ok s) :
    s.length = n ∧ ∀ x ∈ s, x ∈ pop := by
  unfold choice at h
  split at h
  · cases h
  · rename_i hne
    cases h
    refine ⟨by simp, ?_⟩
    intro x hx
    simp only [List.mem_map, List.mem_range] at hx
    obtain ⟨j, hj, rfl⟩ := hx
    have hp : pop ≠ [] := fun h => hne ⟨h, by omega⟩
    have : draw j % pop.length < pop.length := Nat.mod_lt _ (List.length_pos_iff.2 hp)
    rw [List.getD_eq_getElem?_getD, List.getElem?_eq_getElem this]
    exact List.getElem_mem this

theorem choice_total {α : Type} [Inhabited α] {pop : List α} (hp : pop ≠ []) (n : Nat)
    (draw : Nat → Nat) : choice pop n draw =
      .ok ((List.range n).map fun j => pop.getD (draw j % pop.length) default) := by
  unfold choice; rw [if_neg (fun h => hp h.1)]

/-- every list of elements of `pop` is a possible outcome of `choice` -/
theorem choice_reach {α : Type} [Inhabited α] [BEq α] [LawfulBEq α] {pop s : List α}
    (h : ∀ x ∈ s, x ∈ pop) :
    choice pop s.length (fun j => pop.idxOf (s.getD j default)) = .ok s := by
  unfold choice
  rw [if_neg]
  · congr 1
    apply List.ext_getElem
    · simp
    · intro j h1 h2
      have hm := h s[j] (List.getElem_mem h2)
      have hlt : pop.idxOf s[j] < pop.length := List.idxOf_lt_length_iff.2 hm
      simp [List.getD_eq_getElem?_getD, h2, Nat.mod_eq_of_lt hlt, hlt]
  · rintro ⟨hp, hn⟩
    obtain ⟨x, hx⟩ := List.exists_mem_of_length_pos (Nat.pos_of_ne_zero hn)
    have := h x hx
    rw [hp] at this
    simp at this

theorem bootVec_ok {pop : List (Fl K)} {n reps : Nat} {conf : K} {skip : Bool}
    {draw : Nat → Nat → Nat} {t : List (Fl K)} :
    bootVec pop n reps conf skip draw = .ok t ↔
      ∃ samples, mapE (fun r => choice pop n (draw r)) (List.range reps) = .ok samples ∧
        IsBootSummary samples conf skip t := by
  have key : ∀ l : List Nat, mapE (fun r => do
      let s ← choice pop n (draw r)
      pure (meanOf skip s)) l =
      (mapE (fun r => choice pop n (draw r)) l).map (List.map (meanOf skip)) := by
    intro l
    induction l with
    | nil => rfl
    | cons r l ih =>
      simp only [mapE]
      rw [ih]
      cases choice pop n (draw r) with
      | error e => rfl
      | ok s =>
        cases mapE (fun r => choice pop n (draw r)) l with
        | error e => rfl
        | ok ss => rfl
  unfold bootVec
  rw [key]
  cases mapE (fun r => choice pop n (draw r)) (List.range reps) with
  | error e => simp [Except.map, bind, Except.bind]
  | ok samples =>
    simp only [Except.map, bind, Except.bind, pure, Except.pure]
    unfold IsBootSummary
    simp only
    cases h1 : quantile (samples.map (meanOf skip)) ((1 - conf) / 2) with
    | error e => simp [h1]
    | ok lo =>
      cases h2 : quantile (samples.map (meanOf skip)) (1 - (1 - conf) / 2) with
      | error e => simp [h2, h1]
      | ok hi => simp [h2, h1, eq_comm]

theorem bootVec_isResample {pop : List (Fl K)} {n reps : Nat} {draw : Nat → Nat → Nat}
    {samples : List (List (Fl K))}
    (h : mapE (fun r => choice pop n (draw r)) (List.range reps) = .ok samples) :
    IsResample pop n reps samples := by
  refine ⟨by simpa using mapE_length h, ?_⟩
  have := mapE_ok.1 h
  clear h
  intro s hs
  generalize List.range reps = l at this
  induction this with
  | nil => simp at hs
  | cons h1 _ ih =>
    rcases List.mem_cons.1 hs with rfl | h'
    · exact choice_ok h1
    · exact ih h'

theorem bootVec_reach {pop : List (Fl K)} {n reps : Nat} {samples : List (List (Fl K))}
    (h : IsResample pop n reps samples) :
    mapE (fun r => choice pop n
      (fun j => pop.idxOf ((samples.getD r []).getD j none))) (List.range reps) = .ok samples := by
  obtain ⟨h1, h2⟩ := h
  subst h1
  have hall : ∀ r ∈ List.range samples.length,
      choice pop n (fun j => pop.idxOf ((samples.getD r []).getD j none)) =
        .ok (samples.getD r []) := by
    intro r hr
    simp only [List.mem_range] at hr
    have hmem : samples.getD r [] ∈ samples := by
      rw [List.getD_eq_getElem?_getD, List.getElem?_eq_getElem hr]; exact List.getElem_mem hr
    obtain ⟨h3, h4⟩ := h2 _ hmem
    rw [← h3]
    exact choice_reach h4
  rw [mapE_eq_map hall]
  congr 1
  apply List.ext_getElem
  · simp
  · intro j h1 h2; simp [List.getD_eq_getElem?_getD, h2]

/-- Layout of `boot_arr`: the numbers at a kept position come from `boot_vec` applied to the
fiber over that position. -/
theorem bootArr_layout {metric : NDArr (Fl K)} {axes : List Int} {n reps : Nat} {conf : K}
    {skip : Bool} {draw : Nat → Nat → Nat → Nat} {res : NDArr (Fl K)}
    (hg : GoodAxes metric.shape.length axes)
    (hres : bootArr metric (some axes) n reps conf skip draw = .ok res) :
    res.shape = 3 :: dropAxes (axes.map (axisNum metric.shape.length)) metric.shape ∧
    ∀ k, InB (dropAxes (axes.map (axisNum metric.shape.length)) metric.shape) k →
      ∃ t, bootVec (fiber metric (axes.map (axisNum metric.shape.length)) k) n reps conf skip
          (draw (ravel (dropAxes (axes.map (axisNum metric.shape.length)) metric.shape) k)) = .ok t ∧
        ∀ c, c < 3 → res.get (c :: k) = t.getD c none := by
  obtain ⟨m, hm, hms, hmg⟩ := moveSampleAxes_spec metric axes hg
  set A := axes.map (axisNum metric.shape.length)
  set T := takeAxes A metric.shape
  set D := dropAxes A metric.shape with hDdef
  unfold bootArr at hres
  rw [hm] at hres
  simp only [bind, Except.bind] at hres
  by_cases hD : D.prod = 0
  · rw [reshapeInfer] at hres
    simp [hD] at hres
  obtain ⟨m2, h2, h2s, h2g⟩ := reshapeInfer_flat m T D hms hD
  rw [h2] at hres
  simp only [h2s] at hres
  have e1 : ([T.prod, D.prod] : List Nat).getD 1 0 = D.prod := rfl
  rw [e1] at hres
  cases hc : mapE (fun c => bootVec (m2.col c) n reps conf skip (draw c)) (List.range D.prod) with
  | error e => rw [hc] at hres; cases hres
  | ok cols =>
    rw [hc] at hres
    simp only at hres
    set inter : NDArr (Fl K) := ofFn [3, D.prod] fun idx =>
      (cols.getD (idx.getD 1 0) []).getD (idx.getD 0 0) none with hinter
    -- reshape(-1, *keep)
    have hres' : inter.reshapeInfer [] D = .ok res := hres
    have : inter.shape.prod / (([] : List Nat).prod * D.prod) = 3 := by
      simp [hinter]
      exact Nat.mul_div_cancel _ (Nat.pos_of_ne_zero hD)
    unfold reshapeInfer at hres'
    simp only at hres'
    rw [if_neg (by simpa using hD), this] at hres'
    obtain ⟨b, hb, hbs, hbd⟩ := reshape_ok inter ([] ++ [3] ++ D) (by simp [hinter])
    rw [hb] at hres'
    cases hres'
    refine ⟨by simpa using hbs, ?_⟩
    intro k hk
    have hkl := ravel_lt hk
    obtain ⟨t, ht1, ht2⟩ := mapE_range_get hc hkl
    have hcol : m2.col (ravel D k) = fiber metric A k := by
      unfold col
      rw [h2s]
      have e0 : ([T.prod, D.prod] : List Nat).getD 0 0 = T.prod := rfl
      rw [e0]
      apply map_range_fiber hk
      intro i hi hik
      rw [h2g _ _ (inB_takeAxes A hi) hk, ← hmg i hi, hik]
    rw [hcol] at ht2
    refine ⟨t, ht2, ?_⟩
    intro c hc3
    have hin : InB [3, D.prod] [c, ravel D k] :=
      List.Forall₂.cons hc3 (List.Forall₂.cons hkl List.Forall₂.nil)
    have : res.get (c :: k) = inter.get [c, ravel D k] := by
      apply get_of_ravel_eq hbd
      rw [hbs]
      simp [ravel, hinter]
    rw [this, hinter, get_ofFn _ hin]
    simp [List.getD_eq_getElem?_getD, ht1]

/-- `boot_arr` succeeds when it succeeds on every fiber. -/
theorem bootArr_total {metric : NDArr (Fl K)} {axes : List Int} {n reps : Nat} {conf : K}
    {skip : Bool} {draw : Nat → Nat → Nat → Nat}
    (hg : GoodAxes metric.shape.length axes)
    (hD : (dropAxes (axes.map (axisNum metric.shape.length)) metric.shape).prod ≠ 0)
    (hall : ∀ k, InB (dropAxes (axes.map (axisNum metric.shape.length)) metric.shape) k →
      ∃ t, bootVec (fiber metric (axes.map (axisNum metric.shape.length)) k) n reps conf skip
          (draw (ravel (dropAxes (axes.map (axisNum metric.shape.length)) metric.shape) k)) = .ok t) :
    ∃ res, bootArr metric (some axes) n reps conf skip draw = .ok res := by
  obtain ⟨m, hm, hms, hmg⟩ := moveSampleAxes_spec metric axes hg
  set A := axes.map (axisNum metric.shape.length)
  set T := takeAxes A metric.shape
  set D := dropAxes A metric.shape with hDdef
  obtain ⟨m2, h2, h2s, h2g⟩ := reshapeInfer_flat m T D hms hD
  unfold bootArr
  rw [hm]
  simp only [bind, Except.bind]
  rw [h2]
  simp only [h2s]
  have e1 : ([T.prod, D.prod] : List Nat).getD 1 0 = D.prod := rfl
  rw [e1]
  have hcols : ∀ c ∈ List.range D.prod, ∃ t, bootVec (m2.col c) n reps conf skip (draw c) = .ok t := by
    intro c hc
    rw [← map_ravel_allIdx] at hc
    simp only [List.mem_map] at hc
    obtain ⟨k, hk, rfl⟩ := hc
    rw [mem_allIdx] at hk
    have hcol : m2.col (ravel D k) = fiber metric A k := by
      unfold col
      rw [h2s]
      have e0 : ([T.prod, D.prod] : List Nat).getD 0 0 = T.prod := rfl
      rw [e0]
      apply map_range_fiber hk
      intro i hi hik
      rw [h2g _ _ (inB_takeAxes A hi) hk, ← hmg i hi, hik]
    rw [hcol]
    exact hall k hk
  cases hc : mapE (fun c => bootVec (m2.col c) n reps conf skip (draw c)) (List.range D.prod) with
  | error e =>
    exfalso
    have h3 : mapE (fun c => bootVec (m2.col c) n reps conf skip (draw c)) (List.range D.prod) =
        .ok ((List.range D.prod).map fun c =>
          if h : c ∈ List.range D.prod then (hcols c h).choose else []) := by
      apply mapE_eq_map
      intro c hc
      rw [dif_pos hc]
      exact (hcols c hc).choose_spec
    rw [h3] at hc
    cases hc
  | ok cols =>
    simp only
    unfold reshapeInfer
    simp only
    rw [if_neg (by simpa using hD)]
    obtain ⟨b, hb, _⟩ := reshape_ok (ofFn [3, D.prod] fun idx =>
      (cols.getD (idx.getD 1 0) []).getD (idx.getD 0 0) none : NDArr (Fl K))
      ([] ++ [[3, D.prod].prod / (([] : List Nat).prod * D.prod)] ++ D) (by
        simp
        rw [Nat.mul_div_cancel _ (Nat.pos_of_ne_zero hD)]
        exact Or.inl rfl)
    exact ⟨b, hb⟩

end Lemmas
