import Verif.Lemmas.RelSplit

set_option linter.unusedSectionVars false

namespace Lemmas
open Np NDArr Spec Model

theorem choice_map {α β : Type} [Inhabited α] [Inhabited β] (l : List α) (g : α → β) (n : Nat)
    (draw : Nat → Nat) :
    choice (l.map g) n draw = (choice l n draw).map (List.map g) := by
  unfold choice
  by_cases h : l = [] ∧ n ≠ 0
  · rw [if_pos h, if_pos (by simpa using h)]; rfl
  · rw [if_neg h, if_neg (by simpa using h)]
    simp only [Except.map, List.map_map, Except.ok.injEq]
    apply List.map_congr_left
    intro j hj
    simp only [List.mem_range] at hj
    have hl : l ≠ [] := fun e => h ⟨e, by omega⟩
    have : draw j % l.length < l.length := Nat.mod_lt _ (List.length_pos_iff.2 hl)
    simp [List.getD_eq_getElem?_getD, this]

theorem mapE_choice_isResample {α : Type} [Inhabited α] {pop : List α} {n reps : Nat}
    {draw : Nat → Nat → Nat} {samples : List (List α)}
    (h : mapE (fun r => choice pop n (draw r)) (List.range reps) = .ok samples) :
    IsResampleOf pop n reps samples := by
  refine ⟨by simpa using mapE_length h, ?_⟩
  have := mapE_ok.1 h
  clear h
  intro s hs
  generalize List.range reps = l at this
  induction this with
  | nil => simp at hs
  | cons h1 _ ih =>
    rcases List.mem_cons.1 hs with rfl | h'
    · exact choice_ok h1
    · exact ih h'

theorem mapE_bind_pure {α β γ : Type} (f : α → Except Err β) (g : β → γ) (l : List α) :
    mapE (fun r => do let s ← f r; pure (g s)) l = (mapE f l).map (List.map g) := by
  induction l with
  | nil => rfl
  | cons r l ih =>
    simp only [mapE]
    rw [ih]
    cases f r with
    | error e => rfl
    | ok s =>
      cases mapE f l with
      | error e => rfl
      | ok ss => rfl

theorem filter_range_map {α : Type} [Inhabited α] (P : List α) (q : α → Bool) :
    ((List.range P.length).filter fun i => q (P.getD i default)).map (fun i => P.getD i default) =
      P.filter q := by
  have h : P = (List.range P.length).map fun i => P.getD i default := by
    apply List.ext_getElem
    · simp
    · intro i h1 h2; simp [List.getD_eq_getElem?_getD, h1]
  conv_rhs => rw [h]
  rw [List.filter_map]
  rfl

variable {K : Type} [Field K] [LinearOrder K] [IsStrictOrderedRing K] [FloorSemiring K]

theorem whereEq_map {nbins : Nat} (h : 1 ≤ nbins) (P : List (Fl K × Bool))
    (hP : ∀ p ∈ P, NonNegFl p.1) {b : Nat} (hb : b ≤ nbins) :
    (whereEq (idsOf nbins P) b).map (fun i => P.getD i default) = relGroup nbins b P := by
  rw [← group_eq h hP hb, ← filter_range_map P]
  unfold whereEq
  congr 1
  have : (idsOf nbins P).length = P.length := by simp [idsOf]
  rw [this]
  apply List.filter_congr
  intro i hi
  simp only [List.mem_range] at hi
  simp [idsOf, List.getD_eq_getElem?_getD, hi]

/-- the bootstrap of one bin, in terms of the pairs of that bin -/
theorem relBootBin_spec {nbins : Nat} (h : 1 ≤ nbins) (P : List (Fl K × Bool))
    (hP : ∀ p ∈ P, NonNegFl p.1) {b : Nat} (hb : b ≤ nbins) {n reps : Nat} {conf : K} {skip : Bool}
    {draw : Nat → Nat → Nat} {t : List (Fl K) × List (Fl K)}
    (ht : relBootBin (whereEq (idsOf nbins P) b) (P.map Prod.fst) (P.map Prod.snd) n reps conf skip
      draw = .ok t) :
    ∃ samples : List (List (Fl K × Bool)), IsResampleOf (relGroup nbins b P) n reps samples ∧
      IsSummary (samples.map fun s => meanOf skip (s.map Prod.fst)) (1 - conf) conf t.1 ∧
      IsSummary (samples.map fun s => meanOf skip (s.map fun p => ind p.2)) (1 - conf) conf t.2 := by
  unfold relBootBin at ht
  rw [mapE_bind_pure] at ht
  cases hm : mapE (fun r => choice (whereEq (idsOf nbins P) b) n (draw r)) (List.range reps) with
  | error e => rw [hm] at ht; cases ht
  | ok ixs =>
    rw [hm] at ht
    have hs : mapE (fun r => choice (relGroup nbins b P) n (draw r)) (List.range reps) =
        .ok (ixs.map (List.map fun i => P.getD i default)) := by
      rw [← whereEq_map h P hP hb]
      have : (fun r => choice ((whereEq (idsOf nbins P) b).map fun i => P.getD i default) n (draw r)) =
          fun r => (choice (whereEq (idsOf nbins P) b) n (draw r)).map
            (List.map fun i => P.getD i default) := by
        funext r; exact choice_map _ _ _ _
      rw [this]
      have h2 := mapE_bind_pure (fun r => choice (whereEq (idsOf nbins P) b) n (draw r))
        (List.map fun i => P.getD i default) (List.range reps)
      rw [hm] at h2
      have e : (fun r => (choice (whereEq (idsOf nbins P) b) n (draw r)).map
          (List.map fun i => P.getD i default)) = fun r =>
          (choice (whereEq (idsOf nbins P) b) n (draw r)) >>= fun s =>
            pure (List.map (fun i => P.getD i default) s) := by
        funext r; cases choice (whereEq (idsOf nbins P) b) n (draw r) <;> rfl
      rw [e, h2]; rfl
    refine ⟨_, mapE_choice_isResample hs, ?_⟩
    have hfst : ∀ i, (P.map Prod.fst).getD i none = (P.getD i default).1 := by
      intro i
      simp only [List.getD_eq_getElem?_getD, List.getElem?_map]
      cases P[i]? <;> rfl
    have hsnd : ∀ i, (b2k ((P.map Prod.snd).getD i false) : Fl K) = ind (P.getD i default).2 := by
      intro i
      simp only [List.getD_eq_getElem?_getD, List.getElem?_map]
      cases P[i]? <;> rfl
    simp only [hfst, hsnd, Except.map, bind, Except.bind, List.map_map, Function.comp_def,
      pure, Except.pure] at ht
    unfold IsSummary
    simp only [List.map_map, Function.comp_def]
    cases h1 : quantile (ixs.map fun x => meanOf skip (x.map fun i => (P.getD i default).1)) (1 - conf) with
    | error e => simp only [h1] at ht; cases ht
    | ok lo =>
      cases h2 : quantile (ixs.map fun x => meanOf skip (x.map fun i => (P.getD i default).1)) conf with
      | error e => simp only [h1, h2] at ht; cases ht
      | ok hi =>
        cases h3 : quantile (ixs.map fun x => meanOf skip
            (x.map fun i => (ind (P.getD i default).2 : Fl K))) (1 - conf) with
        | error e => simp only [h1, h2, h3] at ht; cases ht
        | ok lo' =>
          cases h4 : quantile (ixs.map fun x => meanOf skip
              (x.map fun i => (ind (P.getD i default).2 : Fl K))) conf with
          | error e => simp only [h1, h2, h3, h4] at ht; cases ht
          | ok hi' =>
            simp only [h1, h2, h3, h4, Except.ok.injEq] at ht
            subst ht
            exact ⟨⟨lo, hi, rfl, rfl, rfl⟩, ⟨lo', hi', rfl, rfl, rfl⟩⟩

/-- What `_reliability_agg_boot_slice` returns, in terms of the pairs. -/
theorem relBootSlice_spec {nbins : Nat} (h : 1 ≤ nbins) (P : List (Fl K × Bool))
    (hP : ∀ p ∈ P, NonNegFl p.1) {n reps : Nat} {conf : K} {skip : Bool}
    {draw : Nat → Nat → Nat → Nat} {r : RelSlice (List (Fl K))}
    (hr : relBootSlice (idsOf nbins P) (P.map Prod.fst) (P.map Prod.snd) (relBins nbins) n reps conf
      skip draw = .ok r) :
    r.predCount = ((relNonEmpty nbins P).map fun (b : Nat) => ((b : Int), (relGroup nbins b P).length)) ∧
    r.probPred.length = (relNonEmpty nbins P).length ∧
    r.probTrue.length = (relNonEmpty nbins P).length ∧
    ∀ (j b : Nat), (relNonEmpty nbins P)[j]? = some b →
      ∃ (tp tt : List (Fl K)) (samples : List (List (Fl K × Bool))), r.probPred[j]? = some tp ∧ r.probTrue[j]? = some tt ∧
        IsResampleOf (relGroup nbins b P) n reps samples ∧
        IsSummary (samples.map fun s => meanOf skip (s.map Prod.fst)) (1 - conf) conf tp ∧
        IsSummary (samples.map fun s => meanOf skip (s.map fun p => ind p.2)) (1 - conf) conf tt := by
  unfold relBootSlice at hr
  rw [relBins_length h, bincount_ids h hP] at hr
  simp only [bind, Except.bind] at hr
  cases hper : mapE (fun b =>
      if (whereEq (idsOf nbins P) b).length > 0 then
        relBootBin (whereEq (idsOf nbins P) b) (P.map Prod.fst) (P.map Prod.snd) n reps conf skip (draw b)
      else .ok ([], [])) (List.range (nbins + 1)) with
  | error e => rw [hper] at hr; cases hr
  | ok per =>
    rw [hper] at hr
    simp only [pure, Except.pure, Except.ok.injEq] at hr
    have hk : ((List.range (nbins + 1)).filter fun b =>
          ((List.range (nbins + 1)).map fun b => (relGroup nbins b P).length).getD b 0 ≠ 0) =
        relNonEmpty nbins P := by
      simp only [relNonEmpty]
      apply List.filter_congr
      intro b hb
      simp at hb
      simp [List.getD_eq_getElem?_getD, hb]
    rw [hk, valueCounts_ids h hP] at hr
    subst hr
    refine ⟨rfl, by simp, by simp, ?_⟩
    intro j b hj
    have hmem : b ∈ relNonEmpty nbins P := List.mem_of_getElem? hj
    simp only [relNonEmpty, List.mem_filter, List.mem_range, decide_eq_true_eq] at hmem
    obtain ⟨t, ht1, ht2⟩ := mapE_range_get hper hmem.1
    have hpos : (whereEq (idsOf nbins P) b).length > 0 := by
      have := congrArg List.length (whereEq_map h P hP (by omega : b ≤ nbins))
      rw [List.length_map] at this
      rw [this]
      exact List.length_pos_iff.2 hmem.2
    rw [if_pos hpos] at ht2
    obtain ⟨samples, hs1, hs2, hs3⟩ := relBootBin_spec h P hP (by omega) ht2
    refine ⟨t.1, t.2, samples, ?_, ?_, hs1, hs2, hs3⟩
    · simp [hj, List.getD_eq_getElem?_getD, ht1]
    · simp [hj, List.getD_eq_getElem?_getD, ht1]

end Lemmas
