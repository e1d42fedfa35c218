import Verif.Lemmas.Reliability

set_option linter.unusedSectionVars false

namespace Lemmas
open Np NDArr Spec Model

variable {K : Type} [Field K] [LinearOrder K] [IsStrictOrderedRing K]

/-- What `_reliability_create_split` produces. -/
theorem relCreateSplit_spec (f : NDArr (Fl K)) (o : NDArr Bool) (nbins : Nat) (axes : List Int)
    (hsh : f.shape = o.shape) (hg : GoodAxes f.shape.length axes)
    (hD : (dropAxes (axes.map (axisNum f.shape.length)) f.shape).prod ≠ 0) :
    ∃ s : RelSplit K, relCreateSplit f o nbins (some axes) = .ok s ∧ s.bins = relBins nbins ∧
      s.binids = s.fProb.map (fun x => (digitize (relBins nbins) x : Int) - 1) ∧
      s.fProb.shape = (takeAxes (axes.map (axisNum f.shape.length)) f.shape).prod ::
        dropAxes (axes.map (axisNum f.shape.length)) f.shape ∧
      s.oBin.shape = s.fProb.shape ∧
      ∀ i, InB f.shape i →
        s.fProb.get (ravel (takeAxes (axes.map (axisNum f.shape.length)) f.shape)
            (takeAxes (axes.map (axisNum f.shape.length)) i) ::
          dropAxes (axes.map (axisNum f.shape.length)) i) = f.get i ∧
        s.oBin.get (ravel (takeAxes (axes.map (axisNum f.shape.length)) f.shape)
            (takeAxes (axes.map (axisNum f.shape.length)) i) ::
          dropAxes (axes.map (axisNum f.shape.length)) i) = o.get i := by
  obtain ⟨m, hm, hms, hmg⟩ := moveSampleAxes_spec f axes hg
  obtain ⟨m', hm', hms', hmg'⟩ := moveSampleAxes_spec o axes (by rw [← hsh]; exact hg)
  rw [← hsh] at hm' hms' hmg'
  set A := axes.map (axisNum f.shape.length)
  set T := takeAxes A f.shape
  set D := dropAxes A f.shape
  obtain ⟨b, hb, hbs, hbg⟩ := reshapeInfer_lead m T D hms hD
  obtain ⟨b', hb', hbs', hbg'⟩ := reshapeInfer_lead m' T D hms' hD
  refine ⟨⟨b.map fun x => (digitize (relBins nbins) x : Int) - 1, b, b', relBins nbins⟩, ?_, rfl, rfl,
    hbs, by simp [hbs, hbs'], ?_⟩
  · unfold relCreateSplit
    rw [if_neg (by simpa using hsh)]
    simp only [resolveAxes, bind, Except.bind, hm, hm', hb, hb', pure, Except.pure]
  · intro i hi
    refine ⟨?_, ?_⟩
    · simp only
      rw [hbg _ _ (inB_takeAxes A hi) (inB_dropAxes A hi)]; exact hmg i hi
    · simp only
      rw [hbg' _ _ (inB_takeAxes A hi) (inB_dropAxes A hi)]; exact hmg' i hi

theorem relFlatten_col {α : Type} [Inhabited α] (b : NDArr α) (N : Nat) (D : List Nat)
    (hs : b.shape = N :: D) (hD : D.prod ≠ 0) :
    ∃ c, relFlatten b = .ok c ∧ c.shape = [N, D.prod] ∧
      ∀ k, InB D k → c.col (ravel D k) = (List.range N).map fun r => b.get (r :: k) := by
  obtain ⟨c, hc, hcs, hcg⟩ := reshapeInfer_flat b [N] D (by simpa using hs) hD
  refine ⟨c, ?_, by simpa using hcs, ?_⟩
  · unfold relFlatten; rw [hs]; exact hc
  · intro k hk
    unfold col
    rw [hcs]
    have e0 : ([[N].prod, D.prod] : List Nat).getD 0 0 = N := by simp
    rw [e0]
    apply List.map_congr_left
    intro r hr
    simp only [List.mem_range] at hr
    have := hcg [r] k (List.Forall₂.cons hr List.Forall₂.nil) hk
    simpa [ravel] using this

theorem pairsAt_fst {α β : Type} [Inhabited α] [Inhabited β] (f : NDArr α) (o : NDArr β)
    (A k : List Nat) : (pairsAt f o A k).map Prod.fst = fiber f A k := by
  unfold pairsAt fiber; rw [List.map_map]; rfl

theorem pairsAt_snd {α β : Type} [Inhabited α] [Inhabited β] (f : NDArr α) (o : NDArr β)
    (h : f.shape = o.shape) (A k : List Nat) : (pairsAt f o A k).map Prod.snd = fiber o A k := by
  unfold pairsAt fiber; rw [List.map_map, h]; rfl

theorem idsOf_eq (nbins : Nat) (P : List (Fl K × Bool)) :
    idsOf nbins P = (P.map Prod.fst).map fun x => (digitize (relBins nbins) x : Int) - 1 := by
  unfold idsOf; rw [List.map_map]; rfl

/-- the whole reliability computation, in terms of the pairs at each kept position: no kept axis -/
theorem relDiag_slice {Q : Type} (f : NDArr (Fl K)) (o : NDArr Bool) (nbins : Nat) (axes : List Int)
    (hsh : f.shape = o.shape) (hg : GoodAxes f.shape.length axes)
    (hD : dropAxes (axes.map (axisNum f.shape.length)) f.shape = [])
    (F : List K → Nat → List Int → List (Fl K) → List Bool → Except Err (RelSlice Q)) :
    (do let s ← relCreateSplit f o nbins (some axes)
        relAgg s (F s.bins)) =
      (F (relBins nbins) 0 (idsOf nbins (pairsAt f o (axes.map (axisNum f.shape.length)) []))
        ((pairsAt f o (axes.map (axisNum f.shape.length)) []).map Prod.fst)
        ((pairsAt f o (axes.map (axisNum f.shape.length)) []).map Prod.snd)).map RelOut.slice := by
  obtain ⟨s, hs, hb, hid, hfs, hos, hget⟩ := relCreateSplit_spec f o nbins axes hsh hg (by simp [hD])
  set A := axes.map (axisNum f.shape.length)
  set T := takeAxes A f.shape
  rw [hs]
  simp only [bind, Except.bind]
  unfold relAgg
  rw [hD] at hfs
  rw [if_pos (by simp [ndim, hos, hfs])]
  have hk : InB (dropAxes A f.shape) [] := by rw [hD]; exact List.Forall₂.nil
  have hrange : ∀ {α : Type} [Inhabited α] (b : NDArr α), b.shape = [T.prod] →
      b.data = (List.range T.prod).map fun r => b.get [r] := by
    intro α _ b hb
    rw [data_eq b, hb, allIdx_singleton, List.map_map]; rfl
  have h1 : s.fProb.data = (pairsAt f o A []).map Prod.fst := by
    rw [pairsAt_fst, hrange _ hfs]
    apply map_range_fiber hk
    intro i hi hik
    have := (hget i hi).1
    rwa [hik] at this
  have h2 : s.oBin.data = (pairsAt f o A []).map Prod.snd := by
    rw [pairsAt_snd f o hsh, hrange _ (hos.trans hfs)]
    have hk' : InB (dropAxes A o.shape) [] := by rw [← hsh]; exact hk
    have := map_range_fiber (a := o) (axes := A) (k := []) hk' (fun r => s.oBin.get [r]) (by
      intro i hi hik
      rw [← hsh] at hi ⊢
      have := (hget i hi).2
      rwa [hik] at this)
    rw [← hsh] at this
    exact this
  have h3 : s.binids.data = idsOf nbins (pairsAt f o A []) := by
    rw [hid, idsOf_eq, ← h1]; rfl
  rw [h1, h2, h3, hb]
  cases F (relBins nbins) 0 (idsOf nbins (pairsAt f o A [])) ((pairsAt f o A []).map Prod.fst)
    ((pairsAt f o A []).map Prod.snd) <;> rfl

/-- the whole reliability computation with kept axes -/
theorem relDiag_multi {Q : Type} (f : NDArr (Fl K)) (o : NDArr Bool) (nbins : Nat) (axes : List Int)
    (hsh : f.shape = o.shape) (hg : GoodAxes f.shape.length axes)
    (hD : dropAxes (axes.map (axisNum f.shape.length)) f.shape ≠ [])
    (hDp : (dropAxes (axes.map (axisNum f.shape.length)) f.shape).prod ≠ 0)
    (F : List K → Nat → List Int → List (Fl K) → List Bool → Except Err (RelSlice Q)) :
    (do let s ← relCreateSplit f o nbins (some axes)
        relAgg s (F s.bins)) =
      (do
        let rs ← mapE (fun k =>
          F (relBins nbins) (ravel (dropAxes (axes.map (axisNum f.shape.length)) f.shape) k)
            (idsOf nbins (pairsAt f o (axes.map (axisNum f.shape.length)) k))
            ((pairsAt f o (axes.map (axisNum f.shape.length)) k).map Prod.fst)
            ((pairsAt f o (axes.map (axisNum f.shape.length)) k).map Prod.snd))
          (allIdx (dropAxes (axes.map (axisNum f.shape.length)) f.shape))
        let pp ← stackRows (rs.map (·.probPred))
        let pt ← stackRows (rs.map (·.probTrue))
        let pc ← stackRows (rs.map fun r => r.predCount.map Prod.snd)
        let tc ← stackRows (rs.map fun r => r.trueCount.map Prod.snd)
        pure (.multi (dropAxes (axes.map (axisNum f.shape.length)) f.shape) pp pt pc tc)) := by
  obtain ⟨s, hs, hb, hid, hfs, hos, hget⟩ := relCreateSplit_spec f o nbins axes hsh hg hDp
  set A := axes.map (axisNum f.shape.length)
  set T := takeAxes A f.shape
  set D := dropAxes A f.shape with hDdef
  rw [hs]
  simp only [bind, Except.bind]
  unfold relAgg
  rw [if_neg (by
    simp only [ndim, hos, hfs, List.length_cons]
    intro h
    exact hD (List.length_eq_zero_iff.1 (by omega)))]
  have hids : s.binids.shape = T.prod :: D := by rw [hid]; simpa using hfs
  obtain ⟨ci, hci, hcis, hcig⟩ := relFlatten_col s.binids T.prod D hids hDp
  obtain ⟨cp, hcp, hcps, hcpg⟩ := relFlatten_col s.fProb T.prod D hfs hDp
  obtain ⟨ct, hct, hcts, hctg⟩ := relFlatten_col s.oBin T.prod D (hos.trans hfs) hDp
  have e1 : ci.shape.getD 1 0 = D.prod := by rw [hcis]; rfl
  have hcols : mapE (fun c => F s.bins c (ci.col c) (cp.col c) (ct.col c)) (List.range D.prod) =
      mapE (fun k => F (relBins nbins) (ravel D k) (idsOf nbins (pairsAt f o A k))
        ((pairsAt f o A k).map Prod.fst) ((pairsAt f o A k).map Prod.snd)) (allIdx D) := by
    rw [← map_ravel_allIdx, mapE_map]
    apply mapE_congr
    intro k hk
    rw [mem_allIdx] at hk
    have h1 : cp.col (ravel D k) = (pairsAt f o A k).map Prod.fst := by
      rw [pairsAt_fst, hcpg k hk]
      apply map_range_fiber (by rw [← hDdef]; exact hk)
      intro i hi hik
      have := (hget i hi).1
      rwa [hik] at this
    have h2 : ct.col (ravel D k) = (pairsAt f o A k).map Prod.snd := by
      rw [pairsAt_snd f o hsh, hctg k hk]
      have hk' : InB (dropAxes A o.shape) k := by rw [← hsh]; exact hk
      have := map_range_fiber (a := o) (axes := A) (k := k) hk' (fun r => s.oBin.get (r :: k)) (by
        intro i hi hik
        rw [← hsh] at hi ⊢
        have := (hget i hi).2
        rwa [hik] at this)
      rw [← hsh] at this
      exact this
    have h3 : ci.col (ravel D k) = idsOf nbins (pairsAt f o A k) := by
      rw [idsOf_eq, ← h1, hcig k hk, hcpg k hk, List.map_map]
      apply List.map_congr_left
      intro r hr
      simp only [List.mem_range] at hr
      rw [hid, get_map]
      · rfl
      · rw [hfs]; exact List.Forall₂.cons hr hk
    rw [h1, h2, h3, hb]
  simp only [bind, Except.bind, hci, hcp, hct, e1]
  rw [hcols]
  have e2 : s.oBin.shape.tail = D := by rw [hos, hfs]; rfl
  rw [e2]

end Lemmas
