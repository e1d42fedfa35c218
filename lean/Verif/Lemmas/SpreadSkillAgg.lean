import Verif.Lemmas.SpreadSkill

set_option linter.unusedSectionVars false

namespace Lemmas
open Np NDArr Spec Model

variable {K : Type} [Field K] [LinearOrder K] [IsStrictOrderedRing K] [FloorSemiring K]

theorem ssStat_spec (s : K → K) (skip : Bool) {pieces : List (NDArr (Fl K))} {D : List Nat} {n : Nat}
    (hn : n ≠ 0) (hl : pieces.length = n)
    (hsh : ∀ b, b < n → ∃ arr m, pieces[b]? = some arr ∧ arr.shape = [m, 2, D.prod]) (c : Nat) :
    ∃ r, ssStat s skip pieces D c = .ok r ∧ r.shape = D ++ [n] ∧
      ∀ b k arr, pieces[b]? = some arr → InB D k →
        r.get (k ++ [b]) = Fl.sqrt s (meanOf skip (column3 arr c (ravel D k))) := by
  have hcols : ((pieces.head?.map (·.shape)).getD []).getD 2 0 = D.prod := by
    obtain ⟨arr, m, h1, h2⟩ := hsh 0 (by omega)
    rw [List.head?_eq_getElem?, h1]
    simp [h2]
  unfold ssStat
  rw [hcols, hl]
  simp only [ne_eq, not_true_eq_false, if_false]
  set means : NDArr (Fl K) := ofFn [n, D.prod] fun idx =>
    meanOf skip (column3 (pieces.getD (idx.getD 0 0) default) c (idx.getD 1 0)) with hmeans
  obtain ⟨q, hq, hqs, hqd⟩ := reshape_ok (means.map (Fl.sqrt s)) (n :: D) (by simp [hmeans])
  obtain ⟨r, hr, hrs, hrg⟩ := moveaxis_last q n D hqs
  refine ⟨r, ?_, hrs, ?_⟩
  · rw [hq]; exact hr
  · intro b k arr hb hk
    have hbn : b < n := by
      rw [← hl]; exact (List.getElem?_eq_some_iff.1 hb).1
    rw [hrg b k hbn hk]
    have hin : InB [n, D.prod] [b, ravel D k] :=
      List.Forall₂.cons hbn (List.Forall₂.cons (ravel_lt hk) List.Forall₂.nil)
    have : q.get (b :: k) = (means.map (Fl.sqrt s)).get [b, ravel D k] := by
      apply get_of_ravel_eq hqd
      rw [hqs]
      simp [hmeans, ravel]
    rw [this, get_map _ _ (by simpa [hmeans] using hin), hmeans, get_ofFn _ hin]
    simp [List.getD_eq_getElem?_getD, hb]

/-- `spreadSkill` without bootstrapping, with the groups in terms of the sort -/
theorem spreadSkill_groups (argsort : Nat → List (Fl K) → List Nat) (s : K → K) (skip : Bool)
    (v e : NDArr (Fl K)) (nbins : Nat) (axes : List Int) (hsh : v.shape = e.shape)
    (hg : GoodAxes v.shape.length axes) (hargs : ∀ c l, IsArgsort l (argsort c l))
    (hD : (dropAxes (axes.map (axisNum v.shape.length)) v.shape).prod ≠ 0) (hn : nbins ≠ 0)
    (hle : nbins ≤ (takeAxes (axes.map (axisNum v.shape.length)) v.shape).prod) :
    ∃ spread rmse, spreadSkill argsort s skip v e nbins (some axes) = .ok (spread, rmse) ∧
      spread.shape = dropAxes (axes.map (axisNum v.shape.length)) v.shape ++ [nbins] ∧
      rmse.shape = dropAxes (axes.map (axisNum v.shape.length)) v.shape ++ [nbins] ∧
      ∀ k, InB (dropAxes (axes.map (axisNum v.shape.length)) v.shape) k →
        ∀ b g, (groupsOf ((argsort (ravel (dropAxes (axes.map (axisNum v.shape.length)) v.shape) k)
            ((pairsAt v e (axes.map (axisNum v.shape.length)) k).map Prod.fst)).map
            ((pairsAt v e (axes.map (axisNum v.shape.length)) k).getD · default)) nbins)[b]? = some g →
            spread.get (k ++ [b]) = Fl.sqrt s (meanOf skip (g.map Prod.fst)) ∧
            rmse.get (k ++ [b]) = Fl.sqrt s (meanOf skip (g.map Prod.snd)) := by
  obtain ⟨pieces, hp, hpl, hpg⟩ := ssCreateSplit_spec argsort v e nbins axes hsh hg hargs hD hn hle
  set A := axes.map (axisNum v.shape.length)
  set T := takeAxes A v.shape
  set D := dropAxes A v.shape
  have hshp : ∀ b, b < nbins → ∃ arr m, pieces[b]? = some arr ∧ arr.shape = [m, 2, D.prod] := by
    intro b hb
    obtain ⟨arr, h1, h2, -⟩ := hpg b hb
    exact ⟨arr, _, h1, h2⟩
  obtain ⟨spread, hs1, hs2, hs3⟩ := ssStat_spec s skip hn hpl hshp 0
  obtain ⟨rmse, hr1, hr2, hr3⟩ := ssStat_spec s skip hn hpl hshp 1
  refine ⟨spread, rmse, ?_, hs2, hr2, ?_⟩
  · unfold spreadSkill ssAggNoBoot
    simp only [hp, bind, Except.bind, hs1, hr1, pure, Except.pure]
  · intro k hk b g hbg
    have hb : b < nbins := by
      have := (List.getElem?_eq_some_iff.1 hbg).1
      simpa [groupsOf] using this
    obtain ⟨arr, ha1, ha2, ha3⟩ := hpg b hb
    rw [hs3 b k arr ha1 hk, hr3 b k arr ha1 hk]
    simp only [groupsOf, List.getElem?_map, List.getElem?_range hb, Option.map_some,
      Option.some.injEq] at hbg
    have ha := ha3 k hk
    rw [hbg] at ha
    have hgl : g.length = splitSize T.prod nbins b := by
      rw [← hbg, groupOf_length, List.length_map]
      have h1 := (hargs (ravel D k) ((pairsAt v e A k).map Prod.fst)).1.length_eq
      rw [h1, List.length_range, List.length_map]
      congr 1
      have h2 := map_takeAxes_fiberIdx v.shape A k hk
      have h3 := congrArg List.length h2
      rw [List.length_map, length_allIdx] at h3
      simpa [pairsAt] using h3
    have hc : ∀ c (f : Fl K × Fl K → Fl K),
        (∀ r, r < splitSize T.prod nbins b → arr.get [r, c, ravel D k] = f (g.getD r default)) →
        column3 arr c (ravel D k) = g.map f := by
      intro c f hf
      unfold column3
      rw [ha2]
      apply List.ext_getElem
      · simp [hgl]
      · intro i h1 h2
        have hi : i < splitSize T.prod nbins b := by simpa using h1
        have := hf i hi
        simp [this, List.getD_eq_getElem?_getD, show i < g.length by omega]
    rw [hc 0 Prod.fst fun r hr => by rw [← ha r hr], hc 1 Prod.snd fun r hr => by rw [← ha r hr]]
    exact ⟨rfl, rfl⟩

/-- `spreadSkill` without bootstrapping, completely -/
theorem spreadSkill_spec (argsort : Nat → List (Fl K) → List Nat) (s : K → K) (skip : Bool)
    (v e : NDArr (Fl K)) (nbins : Nat) (axes : List Int) (hsh : v.shape = e.shape)
    (hg : GoodAxes v.shape.length axes) (hargs : ∀ c l, IsArgsort l (argsort c l))
    (hD : (dropAxes (axes.map (axisNum v.shape.length)) v.shape).prod ≠ 0) (hn : nbins ≠ 0)
    (hle : nbins ≤ (takeAxes (axes.map (axisNum v.shape.length)) v.shape).prod) :
    ∃ spread rmse, spreadSkill argsort s skip v e nbins (some axes) = .ok (spread, rmse) ∧
      spread.shape = dropAxes (axes.map (axisNum v.shape.length)) v.shape ++ [nbins] ∧
      rmse.shape = dropAxes (axes.map (axisNum v.shape.length)) v.shape ++ [nbins] ∧
      ∀ k, InB (dropAxes (axes.map (axisNum v.shape.length)) v.shape) k →
        ∃ gs, IsGrouping nbins (pairsAt v e (axes.map (axisNum v.shape.length)) k) gs ∧
          ∀ b g, gs[b]? = some g →
            spread.get (k ++ [b]) = Fl.sqrt s (meanOf skip (g.map Prod.fst)) ∧
            rmse.get (k ++ [b]) = Fl.sqrt s (meanOf skip (g.map Prod.snd)) := by
  obtain ⟨sp, rm, h1, h2, h3, h4⟩ := spreadSkill_groups argsort s skip v e nbins axes hsh hg hargs hD hn hle
  exact ⟨sp, rm, h1, h2, h3, fun k hk => ⟨_, isGrouping_of_argsort (hargs _ _) hn, h4 k hk⟩⟩

/-- too many bins -/
theorem ssCreateSplit_too_many (argsort : Nat → List (Fl K) → List Nat)
    (v e : NDArr (Fl K)) (nbins : Nat) (axes : List Int) (hsh : v.shape = e.shape)
    (hg : GoodAxes v.shape.length axes)
    (hD : (dropAxes (axes.map (axisNum v.shape.length)) v.shape).prod ≠ 0)
    (hgt : (takeAxes (axes.map (axisNum v.shape.length)) v.shape).prod < nbins) :
    ssCreateSplit argsort v e nbins (some axes) = .error .assertion := by
  obtain ⟨m, hm, hms, -⟩ := moveSampleAxes_spec v axes hg
  obtain ⟨m', hm', hms', -⟩ := moveSampleAxes_spec e axes (by rw [← hsh]; exact hg)
  rw [← hsh] at hm' hms'
  set A := axes.map (axisNum v.shape.length)
  set T := takeAxes A v.shape
  set D := dropAxes A v.shape with hDdef
  obtain ⟨v2, hv2, hv2s, -⟩ := reshapeInfer_flat m T D hms hD
  obtain ⟨e2, he2, he2s, -⟩ := reshapeInfer_flat m' T D hms' hD
  unfold ssCreateSplit
  rw [if_neg (by simpa using hsh)]
  simp only [resolveAxes, bind, Except.bind, hm, hm', hv2, he2, pure, Except.pure]
  rw [if_pos (by simp [he2s, hgt])]

/-! ### bootstrapped -/

theorem ssBootStat_spec (s : K → K) (rows : List (List (Fl K))) (n : Nat) (D : List Nat)
    (hl : rows.length = D.prod * n) :
    ∃ r, ssBootStat s rows n D = .ok r ∧ r.shape = D ++ [n, 3] ∧
      ∀ b k c, b < n → InB D k → c < 3 →
        r.get (k ++ [b, c]) = Fl.sqrt s ((rows.getD (b * D.prod + ravel D k) []).getD c none) := by
  unfold ssBootStat
  rw [hl]
  simp only [ne_eq, not_true_eq_false, if_false]
  set cis : NDArr (Fl K) := ofFn [D.prod * n, 3] fun idx =>
    (rows.getD (idx.getD 0 0) []).getD (idx.getD 1 0) none with hcis
  obtain ⟨q, hq, hqs, hqd⟩ := reshape_ok (cis.map (Fl.sqrt s)) (n :: D ++ [3])
    (by simp [hcis]; ring)
  obtain ⟨r, hr, hrs, hrg⟩ := moveaxis_last2 q n D hqs
  refine ⟨r, ?_, hrs, ?_⟩
  · rw [hq]; exact hr
  · intro b k c hb hk hc
    rw [hrg b k c hb hk hc]
    have hlt : b * D.prod + ravel D k < D.prod * n := by
      have := ravel_lt hk
      calc b * D.prod + ravel D k < b * D.prod + D.prod := by omega
        _ = (b + 1) * D.prod := by ring
        _ ≤ n * D.prod := Nat.mul_le_mul_right _ hb
        _ = D.prod * n := by ring
    have hin : InB [D.prod * n, 3] [b * D.prod + ravel D k, c] :=
      List.Forall₂.cons hlt (List.Forall₂.cons hc List.Forall₂.nil)
    have : q.get (b :: k ++ [c]) = (cis.map (Fl.sqrt s)).get [b * D.prod + ravel D k, c] := by
      apply get_of_ravel_eq hqd
      rw [hqs]
      simp only [List.cons_append, ravel, ravel_append hk, shape_map, hcis, shape_ofFn]
      simp
      ring
    rw [this, get_map _ _ (by simpa [hcis] using hin), hcis, get_ofFn _ hin]
    rfl

theorem ssBootBin_spec {arr : NDArr (Fl K)} {i n reps : Nat} {conf : K} {skip : Bool}
    {draw : Nat → Nat → Nat} {g : List (Fl K × Fl K)} {t : List (Fl K) × List (Fl K)}
    (hl : arr.shape.getD 0 0 = g.length)
    (hg : ∀ r, r < g.length → (arr.get [r, 0, i], arr.get [r, 1, i]) = g.getD r default)
    (ht : ssBootBin arr i n reps conf skip draw = .ok t) :
    ∃ samples : List (List (Fl K × Fl K)), IsResampleOf g n reps samples ∧
      IsSummary (samples.map fun s => meanOf skip (s.map Prod.fst)) (1 - conf) conf t.1 ∧
      IsSummary (samples.map fun s => meanOf skip (s.map Prod.snd)) (1 - conf) conf t.2 := by
  unfold ssBootBin at ht
  simp only at ht
  rw [hl] at ht
  split at ht
  · cases ht
  rename_i hpop
  have hgr : (List.range g.length).map (fun r => (arr.get [r, 0, i], arr.get [r, 1, i])) = g := by
    apply List.ext_getElem
    · simp
    · intro j h1 h2
      simp only [List.getElem_map, List.getElem_range]
      rw [hg j h2]
      simp [List.getD_eq_getElem?_getD, h2]
  have hch : ∀ r, choice g n (draw r) =
      (choice (List.range g.length) n (draw r)).map
        (List.map fun r => (arr.get [r, 0, i], arr.get [r, 1, i])) := by
    intro r
    conv_lhs => rw [← hgr]
    exact choice_map _ _ _ _
  have hrep : mapE (fun r => do
      let idx ← choice (List.range g.length) n (draw r)
      pure (meanOf skip (idx.map fun j => arr.get [j, 0, i]),
        meanOf skip (idx.map fun j => arr.get [j, 1, i]))) (List.range reps) =
      (mapE (fun r => choice g n (draw r)) (List.range reps)).map
        (List.map fun s => (meanOf skip (s.map Prod.fst), meanOf skip (s.map Prod.snd))) := by
    rw [← mapE_bind_pure]
    apply mapE_congr
    intro r _
    rw [hch]
    cases choice (List.range g.length) n (draw r) with
    | error e => rfl
    | ok idx =>
      simp [Except.map, bind, Except.bind, pure, Except.pure, Function.comp_def]
  rw [hrep] at ht
  cases hm : mapE (fun r => choice g n (draw r)) (List.range reps) with
  | error e => rw [hm] at ht; cases ht
  | ok samples =>
    rw [hm] at ht
    refine ⟨samples, mapE_choice_isResample hm, ?_⟩
    simp only [Except.map, bind, Except.bind, List.map_map, Function.comp_def, pure,
      Except.pure] at ht
    unfold IsSummary
    cases h1 : quantile (samples.map fun s => meanOf skip (s.map Prod.fst)) (1 - conf) with
    | error e => simp only [h1] at ht; cases ht
    | ok lo =>
    cases h2 : quantile (samples.map fun s => meanOf skip (s.map Prod.fst)) conf with
    | error e => simp only [h1, h2] at ht; cases ht
    | ok hi =>
    cases h3 : quantile (samples.map fun s => meanOf skip (s.map Prod.snd)) (1 - conf) with
    | error e => simp only [h1, h2, h3] at ht; cases ht
    | ok lo' =>
    cases h4 : quantile (samples.map fun s => meanOf skip (s.map Prod.snd)) conf with
    | error e => simp only [h1, h2, h3, h4] at ht; cases ht
    | ok hi' =>
    simp only [h1, h2, h3, h4, Except.ok.injEq] at ht
    subst ht
    exact ⟨⟨lo, hi, rfl, rfl, rfl⟩, ⟨lo', hi', rfl, rfl, rfl⟩⟩

theorem spreadSkillBoot_spec (argsort : Nat → List (Fl K) → List Nat) (s : K → K) (skip : Bool)
    (v e : NDArr (Fl K)) (nbins : Nat) (axes : List Int) (n reps : Nat) (conf : K)
    (draw : Nat → Nat → Nat → Nat → Nat) (hsh : v.shape = e.shape)
    (hg : GoodAxes v.shape.length axes) (hargs : ∀ c l, IsArgsort l (argsort c l))
    (hD : (dropAxes (axes.map (axisNum v.shape.length)) v.shape).prod ≠ 0) (hn : nbins ≠ 0)
    (hle : nbins ≤ (takeAxes (axes.map (axisNum v.shape.length)) v.shape).prod)
    {spread rmse : NDArr (Fl K)}
    (hres : spreadSkillBoot argsort s skip v e nbins (some axes) n reps conf draw =
      .ok (spread, rmse)) :
      spread.shape = dropAxes (axes.map (axisNum v.shape.length)) v.shape ++ [nbins, 3] ∧
      rmse.shape = dropAxes (axes.map (axisNum v.shape.length)) v.shape ++ [nbins, 3] ∧
      ∀ k, InB (dropAxes (axes.map (axisNum v.shape.length)) v.shape) k →
        ∃ gs, IsGrouping nbins (pairsAt v e (axes.map (axisNum v.shape.length)) k) gs ∧
          ∀ b g, gs[b]? = some g → ∃ samples tv te, IsResampleOf g n reps samples ∧
            IsSummary (samples.map fun s => meanOf skip (s.map Prod.fst)) (1 - conf) conf tv ∧
            IsSummary (samples.map fun s => meanOf skip (s.map Prod.snd)) (1 - conf) conf te ∧
            ∀ c, c < 3 → spread.get (k ++ [b, c]) = Fl.sqrt s (tv.getD c none) ∧
              rmse.get (k ++ [b, c]) = Fl.sqrt s (te.getD c none) := by
  obtain ⟨pieces, hp, hpl, hpg⟩ := ssCreateSplit_spec argsort v e nbins axes hsh hg hargs hD hn hle
  set A := axes.map (axisNum v.shape.length)
  set T := takeAxes A v.shape
  set D := dropAxes A v.shape
  unfold spreadSkillBoot at hres
  simp only [hp, bind, Except.bind] at hres
  unfold ssAggBoot at hres
  cases hrows : mapE (fun b =>
      mapE (fun i => ssBootBin (pieces.getD b default) i n reps conf skip (draw b i))
      (List.range ((pieces.getD b default).shape.getD 2 0))) (List.range pieces.length) with
  | error e => simp only [hrows, bind, Except.bind] at hres; cases hres
  | ok rows =>
    simp only [hrows, bind, Except.bind] at hres
    have hpget : ∀ b arr, pieces[b]? = some arr → pieces.getD b default = arr := by
      intro b arr h; simp [List.getD_eq_getElem?_getD, h]
    have hrl : rows.length = nbins := by rw [mapE_length hrows]; simp [hpl]
    have hrow : ∀ b, b < nbins → ∃ row, rows[b]? = some row ∧ row.length = D.prod ∧
        mapE (fun i => ssBootBin (pieces.getD b default) i n reps conf skip (draw b i))
          (List.range D.prod) = .ok row := by
      intro b hb
      obtain ⟨row, h1, h2⟩ := mapE_range_get hrows (show b < pieces.length by omega)
      obtain ⟨arr, ha1, ha2, -⟩ := hpg b hb
      rw [hpget b arr ha1, ha2] at h2
      have e2 : ([splitSize T.prod nbins b, 2, D.prod] : List Nat).getD 2 0 = D.prod := rfl
      rw [e2] at h2
      rw [hpget b arr ha1]
      exact ⟨row, h1, by rw [mapE_length h2]; simp, h2⟩
    have hconst : ∀ row ∈ rows, row.length = D.prod := by
      intro row hrow'
      obtain ⟨b, hb⟩ := List.mem_iff_getElem?.1 hrow'
      have hbn : b < nbins := by rw [← hrl]; exact (List.getElem?_eq_some_iff.1 hb).1
      obtain ⟨row', h1, h2, -⟩ := hrow b hbn
      rw [hb] at h1; cases h1; exact h2
    have hflen : rows.flatten.length = D.prod * nbins := by
      have := length_flatMap_const rows id D.prod hconst
      simp only [List.flatMap_id] at this
      rw [this, hrl]; ring
    obtain ⟨sp, hs1, hs2, hs3⟩ := ssBootStat_spec s (rows.flatten.map Prod.fst) nbins D (by rw [List.length_map]; exact hflen)
    obtain ⟨rm, hr1, hr2, hr3⟩ := ssBootStat_spec s (rows.flatten.map Prod.snd) nbins D (by rw [List.length_map]; exact hflen)
    rw [hpl, hs1, hr1] at hres
    simp only [pure, Except.pure, Except.ok.injEq, Prod.mk.injEq] at hres
    obtain ⟨rfl, rfl⟩ := hres
    refine ⟨hs2, hr2, ?_⟩
    intro k hk
    refine ⟨_, isGrouping_of_argsort (hargs (ravel D k) ((pairsAt v e A k).map Prod.fst)) hn, ?_⟩
    intro b g hbg
    have hb : b < nbins := by
      have := (List.getElem?_eq_some_iff.1 hbg).1
      simpa [groupsOf] using this
    obtain ⟨arr, ha1, ha2, ha3⟩ := hpg b hb
    simp only [groupsOf, List.getElem?_map, List.getElem?_range hb, Option.map_some,
      Option.some.injEq] at hbg
    have ha := ha3 k hk
    rw [hbg] at ha
    have hgl : g.length = splitSize T.prod nbins b := by
      rw [← hbg, groupOf_length, List.length_map]
      have h1 := (hargs (ravel D k) ((pairsAt v e A k).map Prod.fst)).1.length_eq
      rw [h1, List.length_range, List.length_map]
      congr 1
      have h2 := map_takeAxes_fiberIdx v.shape A k hk
      have h3 := congrArg List.length h2
      rw [List.length_map, length_allIdx] at h3
      simpa [pairsAt] using h3
    obtain ⟨row, hrow1, hrow2, hrow3⟩ := hrow b hb
    obtain ⟨t, ht1, ht2⟩ := mapE_range_get hrow3 (ravel_lt hk)
    rw [hpget b arr ha1] at ht2
    obtain ⟨samples, hsa, hsb, hsc⟩ := ssBootBin_spec (g := g) (by rw [ha2, hgl]; rfl)
      (fun r hr => ha r (by omega)) ht2
    refine ⟨samples, t.1, t.2, hsa, hsb, hsc, ?_⟩
    intro c hc
    have hft : rows.flatten[b * D.prod + ravel D k]? = some t := by
      have := getElem?_flatMap_const rows id D.prod hconst b (ravel D k) (ravel_lt hk)
      simp only [List.flatMap_id] at this
      rw [this, hrow1]
      simpa using ht1
    have e1 : (rows.flatten.map Prod.fst).getD (b * D.prod + ravel D k) [] = t.1 := by
      rw [List.getD_eq_getElem?_getD, List.getElem?_map, hft]; rfl
    have e2 : (rows.flatten.map Prod.snd).getD (b * D.prod + ravel D k) [] = t.2 := by
      rw [List.getD_eq_getElem?_getD, List.getElem?_map, hft]; rfl
    rw [hs3 b k c hb hk hc, hr3 b k c hb hk hc, e1, e2]
    exact ⟨rfl, rfl⟩

end Lemmas
