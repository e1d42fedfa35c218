import Verif.Lemmas.SpecialBoot
import Verif.Lemmas.Decomp
import Verif.Props.Boot
import Mathlib.Algebra.Order.Ring.Rat
import Mathlib.Data.Rat.Floor

/-!
# Correlation and Brier decomposition: C05, C06, C13, C21, C26
-/

set_option linter.unusedSectionVars false

namespace Props
open Np NDArr Spec Model Lemmas

variable {K : Type} [Field K] [LinearOrder K] [IsStrictOrderedRing K] [FloorSemiring K]

/-- distinct non-negative axes, at least one, in any order, with a non-empty kept part -/
structure SliceAxes (s A : List Nat) : Prop where
  nodup : A.Nodup
  lt : ∀ y ∈ A, y < s.length
  ne : A ≠ []
  kept : (dropAxes A s).prod ≠ 0

theorem funcCorr_length (s : K → K) (skip : Bool) (x y r : List (Fl K))
    (h : funcCorr s skip x y = .ok r) : r.length = 1 := by
  unfold funcCorr at h
  split at h <;> (cases h; rfl)

theorem summary_length {skip : Bool} {ms : List (Fl K)} {conf : K} {r : List (Fl K)}
    (h : summary skip ms conf = .ok r) : r.length = 3 := by
  unfold summary at h
  split at h
  · cases h1 : nanquantile ms (1 - conf) with
    | error e => rw [h1] at h; cases h
    | ok lo =>
      cases h2 : nanquantile ms conf with
      | error e => rw [h1, h2] at h; cases h
      | ok hi => rw [h1, h2] at h; cases h; rfl
  · cases h1 : quantile ms (1 - conf) with
    | error e => rw [h1] at h; cases h
    | ok lo =>
      cases h2 : quantile ms conf with
      | error e => rw [h1, h2] at h; cases h
      | ok hi => rw [h1, h2] at h; cases h; rfl

/-- the replicates that enter the summary -/
def used (skip : Bool) (ms : List (Fl K)) : List (Fl K) :=
  if skip then ms.filter Option.isSome else ms

theorem summary_spec {skip : Bool} {ms : List (Fl K)} {conf : K} {r : List (Fl K)}
    (h : summary skip ms conf = .ok r) : IsSummary (used skip ms) (1 - conf) conf r := by
  unfold summary at h
  cases skip with
  | true =>
    simp only [if_true] at h
    cases h1 : nanquantile ms (1 - conf) with
    | error e => rw [h1] at h; cases h
    | ok lo =>
      cases h2 : nanquantile ms conf with
      | error e => rw [h1, h2] at h; cases h
      | ok hi => rw [h1, h2] at h; cases h; exact ⟨lo, hi, h1, h2, rfl⟩
  | false =>
    simp only [Bool.false_eq_true, if_false] at h
    cases h1 : quantile ms (1 - conf) with
    | error e => rw [h1] at h; cases h
    | ok lo =>
      cases h2 : quantile ms conf with
      | error e => rw [h1, h2] at h; cases h
      | ok hi => rw [h1, h2] at h; cases h; exact ⟨lo, hi, h1, h2, rfl⟩

/-- drawing indices and looking up both series is drawing pairs -/
theorem choice_zip (x y : List (Fl K)) (hl : x.length = y.length) (n : Nat) (draw : Nat → Nat)
    {idx : List Nat} (h : choice (List.range x.length) n draw = .ok idx) :
    choice (x.zip y) n draw = .ok ((idx.map (x.getD · none)).zip (idx.map (y.getD · none))) := by
  have e : x.zip y = (List.range x.length).map fun i => (x.getD i none, y.getD i none) := by
    apply List.ext_getElem
    · simp; omega
    · intro i h1 h2
      have h3 : i < x.length := by simpa using h2
      have h4 : i < y.length := by omega
      simp [List.getD_eq_getElem?_getD, h3, h4]
  rw [e, choice_map, h, List.zip_map']
  rfl

theorem isResampleOf_perm {α : Type} {P Q : List α} (h : P.Perm Q) {n reps : Nat}
    {samples : List (List α)} (hs : IsResampleOf P n reps samples) : IsResampleOf Q n reps samples :=
  ⟨hs.1, fun s hm => ⟨(hs.2 s hm).1, fun x hx => h.mem_iff.1 ((hs.2 s hm).2 x hx)⟩⟩

theorem funcCorrBoot_spec {s : K → K} (hs : IsSqrt s) {skip : Bool} {n reps : Nat} {conf : K}
    {draw : Nat → Nat → Nat} {x y r : List (Fl K)} (hl : x.length = y.length)
    (h : funcCorrBoot s skip n reps conf draw x y = .ok r) :
    ∃ samples cs, IsResampleOf (x.zip y) n reps samples ∧
      List.Forall₂ (fun smp c => IsCorr false smp c) samples cs ∧
      IsSummary (used skip cs) (1 - conf) conf r := by
  unfold funcCorrBoot at h
  rw [mapE_bind_pure (fun r => choice (List.range x.length) n (draw r))
    (fun idx => corrcoef s (idx.map (x.getD · none)) (idx.map (y.getD · none)))] at h
  cases h1 : mapE (fun r => choice (List.range x.length) n (draw r)) (List.range reps) with
  | error e => rw [h1] at h; cases h
  | ok idxs =>
    rw [h1] at h
    simp only [Except.map, bind, Except.bind] at h
    have h2 : mapE (fun r => choice (x.zip y) n (draw r)) (List.range reps) =
        .ok (idxs.map fun idx => (idx.map (x.getD · none)).zip (idx.map (y.getD · none))) := by
      rw [mapE_ok] at h1 ⊢
      clear h
      generalize List.range reps = l at h1
      induction h1 with
      | nil => exact List.Forall₂.nil
      | cons ha _ ih => exact List.Forall₂.cons (choice_zip x y hl n _ ha) ih
    refine ⟨_, _, mapE_choice_isResample h2, ?_, summary_spec h⟩
    rw [List.forall₂_map_left_iff, List.forall₂_map_right_iff, List.forall₂_same]
    intro idx _
    exact (isCorr_of_zip hs _ _ (by simp)).1

/-! ### C05 -/

/-- **C05**, the slicing itself, for every statistic: at each kept position the statistic is applied to
two aligned lists whose pairs are a rearrangement of the pairs of that position. -/
theorem C05_slices (func : Nat → List (Fl K) → List (Fl K) → Except Err (List (Fl K)))
    (w : Nat) (hw : ∀ i x y r, func i x y = .ok r → r.length = w)
    (f o : NDArr (Fl K)) (A : List Nat) (hsh : f.shape = o.shape) (hA : SliceAxes f.shape A)
    {ret : NDArr (Fl K)} (hret : specialWorkflow func f o (some (A.map Int.ofNat)) = .ok ret) :
    ∀ k, InB (dropAxes A f.shape) k →
      ∃ x y r, x.length = y.length ∧ (x.zip y).Perm (pairsAt f o A k) ∧
        func (ravel (dropAxes A f.shape) k) x y = .ok r ∧
        ∀ c, c < w → ret.get (if w = 1 then k else c :: k) = r.getD c none := by
  obtain ⟨fs, os, h1, -, h2⟩ := specialWorkflow_spec func w hw f o A hsh hA.nodup hA.lt hA.ne hA.kept
  intro k hk
  obtain ⟨r, hr1, hr2⟩ := (h2 ret hret).2 k hk
  exact ⟨fs k, os k, r, (h1 k hk).1, (h1 k hk).2, hr1, hr2⟩

/-- **C05**, `corr`: always succeeds; at each kept position the result is the correlation of exactly the
pairs of that position. -/
theorem C05_corr (s : K → K) (hs : IsSqrt s) (skip : Bool) (f o : NDArr (Fl K)) (A : List Nat)
    (hsh : f.shape = o.shape) (hA : SliceAxes f.shape A) :
    ∃ ret, corr s skip f o (some (A.map Int.ofNat)) = .ok ret ∧ ret.shape = dropAxes A f.shape ∧
      ∀ k, InB (dropAxes A f.shape) k → IsCorr skip (pairsAt f o A k) (ret.get k) := by
  obtain ⟨fs, os, h1, h2, h3⟩ := specialWorkflow_spec (fun _ => funcCorr s skip) 1
    (fun _ => funcCorr_length s skip) f o A hsh hA.nodup hA.lt hA.ne hA.kept
  obtain ⟨ret, hret⟩ := h2 (fun k _ => by
    unfold funcCorr
    split <;> exact ⟨_, rfl⟩)
  obtain ⟨h4, h5⟩ := h3 ret hret
  refine ⟨ret, hret, by simpa using h4, ?_⟩
  intro k hk
  obtain ⟨r, hr1, hr2⟩ := h5 k hk
  obtain ⟨hl, hp⟩ := h1 k hk
  have e := hr2 0 (by omega)
  simp only [if_true] at e
  rw [e]
  obtain ⟨c1, c2⟩ := isCorr_of_zip hs (fs k) (os k) hl
  unfold funcCorr at hr1
  cases skip with
  | true => simp only [if_true] at hr1; cases hr1; exact isCorr_perm hp c2
  | false => simp only [Bool.false_eq_true, if_false] at hr1; cases hr1; exact isCorr_perm hp c1

/-- **C05**, bootstrapped `corr`: each triple summarises correlations of resamples of exactly the
pairs of its position. -/
theorem C05_corr_boot (s : K → K) (hs : IsSqrt s) (skip : Bool) (f o : NDArr (Fl K)) (A : List Nat)
    (n reps : Nat) (conf : K) (draw : Nat → Nat → Nat → Nat)
    (hsh : f.shape = o.shape) (hA : SliceAxes f.shape A) {ret : NDArr (Fl K)}
    (hret : corrBoot s skip f o (some (A.map Int.ofNat)) n reps conf draw = .ok ret) :
    ret.shape = 3 :: dropAxes A f.shape ∧
    ∀ k, InB (dropAxes A f.shape) k → ∃ samples cs t,
      IsResampleOf (pairsAt f o A k) n reps samples ∧
      List.Forall₂ (fun smp c => IsCorr false smp c) samples cs ∧
      IsSummary (used skip cs) (1 - conf) conf t ∧
      ∀ c, c < 3 → ret.get (c :: k) = t.getD c none := by
  have hw : ∀ (i : Nat) (x y r : List (Fl K)),
      funcCorrBoot s skip n reps conf (draw i) x y = .ok r → r.length = 3 := by
    intro i x y r h
    unfold funcCorrBoot at h
    cases h1 : mapE _ (List.range reps) with
    | error e => rw [h1] at h; cases h
    | ok cs => rw [h1] at h; exact summary_length h
  obtain ⟨fs, os, h1, -, h3⟩ := specialWorkflow_spec _ 3 hw f o A hsh hA.nodup hA.lt hA.ne hA.kept
  obtain ⟨h4, h5⟩ := h3 ret hret
  refine ⟨by simpa using h4, ?_⟩
  intro k hk
  obtain ⟨r, hr1, hr2⟩ := h5 k hk
  obtain ⟨hl, hp⟩ := h1 k hk
  obtain ⟨samples, cs, g1, g2, g3⟩ := funcCorrBoot_spec hs hl hr1
  exact ⟨samples, cs, r, isResampleOf_perm hp g1, g2, g3, fun c hc => by simpa using hr2 c hc⟩

/-- **C05**/**C06**, `brier_decomp`: three arrays of the kept shape; at each position their entries are
the statistic of an arrangement of exactly the pairs of that position. -/
theorem C05_brier_decomp (skip : Bool) (f o : NDArr (Fl K)) (A : List Nat)
    (hsh : f.shape = o.shape) (hA : SliceAxes f.shape A) {rel res unc : NDArr (Fl K)}
    (hret : brierDecomp skip f o (some (A.map Int.ofNat)) = .ok (rel, res, unc)) :
    (rel.shape = dropAxes A f.shape ∧ res.shape = dropAxes A f.shape ∧
      unc.shape = dropAxes A f.shape) ∧
    ∀ k, InB (dropAxes A f.shape) k → ∃ x y, x.length = y.length ∧
      (x.zip y).Perm (pairsAt f o A k) ∧
      funcBrierDecomp skip 19 x y = .ok [rel.get k, res.get k, unc.get k] := by
  have hw : ∀ (x y r : List (Fl K)), funcBrierDecomp skip 19 x y = .ok r → r.length = 3 := by
    intro x y r h
    unfold funcBrierDecomp at h
    simp only at h
    split at h
    · cases h
    · cases h; rfl
  obtain ⟨fs, os, h1, -, h3⟩ := specialWorkflow_spec (fun _ => funcBrierDecomp skip 19) 3
    (fun _ => hw) f o A hsh hA.nodup hA.lt hA.ne hA.kept
  unfold brierDecomp at hret
  cases hr : specialWorkflow (fun _ => funcBrierDecomp skip 19) f o (some (A.map Int.ofNat)) with
  | error e => rw [hr] at hret; cases hret
  | ok ret =>
    rw [hr] at hret
    obtain ⟨h4, h5⟩ := h3 ret hr
    rw [if_neg (by omega)] at h4
    simp only [bind, Except.bind, h4, List.getD_cons_zero, if_true, pure, Except.pure,
      Except.ok.injEq, Prod.mk.injEq] at hret
    obtain ⟨rfl, rfl, rfl⟩ := hret
    refine ⟨by simp [slice0, h4], ?_⟩
    intro k hk
    obtain ⟨r, hr1, hr2⟩ := h5 k hk
    obtain ⟨hl, hp⟩ := h1 k hk
    refine ⟨fs k, os k, hl, hp, ?_⟩
    have hs : ∀ j, (ret.slice0 j).get k = ret.get (j :: k) := by
      intro j; unfold slice0; rw [get_ofFn _ (by rw [h4]; exact hk)]
    rw [hs, hs, hs]
    have g : ∀ c, c < 3 → ret.get (c :: k) = r.getD c none := fun c hc => by simpa using hr2 c hc
    rw [g 0 (by omega), g 1 (by omega), g 2 (by omega)]
    have hlen := hw _ _ _ hr1
    match r, hlen with
    | [a, b, c], _ => exact hr1

/-- **C06**, bootstrapped `brier_decomp`: three arrays of shape `(3, *kept)` holding, at each position,
the summaries of the three components over resamples of the pairs of that position. -/
theorem C05_brier_decomp_boot (skip : Bool) (f o : NDArr (Fl K)) (A : List Nat)
    (n reps : Nat) (conf : K) (draw : Nat → Nat → Nat → Nat)
    (hsh : f.shape = o.shape) (hA : SliceAxes f.shape A) {rel res unc : NDArr (Fl K)}
    (hret : brierDecompBoot skip f o (some (A.map Int.ofNat)) n reps conf draw =
      .ok (rel, res, unc)) :
    (rel.shape = 3 :: dropAxes A f.shape ∧ res.shape = 3 :: dropAxes A f.shape ∧
      unc.shape = 3 :: dropAxes A f.shape) ∧
    ∀ k, InB (dropAxes A f.shape) k → ∃ samples rets tl ts tu,
      IsResampleOf (pairsAt f o A k) n reps samples ∧
      List.Forall₂ (fun smp r => funcBrierDecomp skip 19 (smp.map Prod.fst) (smp.map Prod.snd) = .ok r)
        samples rets ∧
      IsSummary (used skip (rets.map (·.getD 0 none))) (1 - conf) conf tl ∧
      IsSummary (used skip (rets.map (·.getD 1 none))) (1 - conf) conf ts ∧
      IsSummary (used skip (rets.map (·.getD 2 none))) (1 - conf) conf tu ∧
      ∀ c, c < 3 → rel.get (c :: k) = tl.getD c none ∧ res.get (c :: k) = ts.getD c none ∧
        unc.get (c :: k) = tu.getD c none := by
  -- what one slice computes
  have hfun : ∀ (d : Nat → Nat → Nat) (x y r : List (Fl K)), x.length = y.length →
      funcBrierDecompBoot skip 19 n reps conf d x y = .ok r →
      ∃ samples rets tl ts tu, IsResampleOf (x.zip y) n reps samples ∧
        List.Forall₂ (fun smp r => funcBrierDecomp skip 19 (smp.map Prod.fst) (smp.map Prod.snd) = .ok r)
          samples rets ∧
        IsSummary (used skip (rets.map (·.getD 0 none))) (1 - conf) conf tl ∧
        IsSummary (used skip (rets.map (·.getD 1 none))) (1 - conf) conf ts ∧
        IsSummary (used skip (rets.map (·.getD 2 none))) (1 - conf) conf tu ∧
        r = tl ++ ts ++ tu ∧ tl.length = 3 ∧ ts.length = 3 ∧ tu.length = 3 := by
    intro d x y r hl h
    unfold funcBrierDecompBoot at h
    cases h1 : mapE (fun r => do
      let idx ← choice (List.range x.length) n (d r)
      funcBrierDecomp skip 19 (idx.map (x.getD · none)) (idx.map (y.getD · none))) (List.range reps) with
    | error e => rw [h1] at h; cases h
    | ok rets =>
    rw [h1] at h
    simp only [bind, Except.bind] at h
    have h2 := mapE_ok.1 h1
    have h3 : ∃ samples, mapE (fun r => choice (x.zip y) n (d r)) (List.range reps) = .ok samples ∧
        List.Forall₂ (fun smp r => funcBrierDecomp skip 19 (smp.map Prod.fst) (smp.map Prod.snd) = .ok r)
          samples rets := by
      clear h h1
      generalize List.range reps = l at h2
      induction h2 with
      | nil => exact ⟨[], rfl, List.Forall₂.nil⟩
      | @cons a b l₁ l₂ ha _ ih =>
        obtain ⟨ss, i1, i2⟩ := ih
        cases hc : choice (List.range x.length) n (d a) with
        | error e => rw [hc] at ha; cases ha
        | ok idx =>
          rw [hc] at ha
          simp only [bind, Except.bind] at ha
          refine ⟨((idx.map (x.getD · none)).zip (idx.map (y.getD · none))) :: ss, ?_, ?_⟩
          · simp only [mapE, choice_zip x y hl n _ hc, i1]
          · refine List.Forall₂.cons ?_ i2
            rw [List.map_fst_zip (by simp), List.map_snd_zip (by simp)]
            exact ha
    obtain ⟨samples, g1, g2⟩ := h3
    cases hl1 : summary skip (rets.map (·.getD 0 none)) conf with
    | error e => rw [hl1] at h; cases h
    | ok tl =>
    cases hl2 : summary skip (rets.map (·.getD 1 none)) conf with
    | error e => rw [hl1, hl2] at h; cases h
    | ok ts =>
    cases hl3 : summary skip (rets.map (·.getD 2 none)) conf with
    | error e => rw [hl1, hl2, hl3] at h; cases h
    | ok tu =>
    rw [hl1, hl2, hl3] at h
    cases h
    exact ⟨samples, rets, tl, ts, tu, mapE_choice_isResample g1, g2, summary_spec hl1,
      summary_spec hl2, summary_spec hl3, rfl, summary_length hl1, summary_length hl2,
      summary_length hl3⟩
  have hw : ∀ (i : Nat) (x y r : List (Fl K)),
      funcBrierDecompBoot skip 19 n reps conf (draw i) x y = .ok r → r.length = 9 := by
    intro i x y r h
    unfold funcBrierDecompBoot at h
    cases h1 : mapE _ (List.range reps) with
    | error e => rw [h1] at h; cases h
    | ok rets =>
    rw [h1] at h
    simp only [bind, Except.bind] at h
    cases hl1 : summary skip (rets.map (·.getD 0 none)) conf with
    | error e => rw [hl1] at h; cases h
    | ok tl =>
    cases hl2 : summary skip (rets.map (·.getD 1 none)) conf with
    | error e => rw [hl1, hl2] at h; cases h
    | ok ts =>
    cases hl3 : summary skip (rets.map (·.getD 2 none)) conf with
    | error e => rw [hl1, hl2, hl3] at h; cases h
    | ok tu =>
    rw [hl1, hl2, hl3] at h
    cases h
    simp [summary_length hl1, summary_length hl2, summary_length hl3]
  obtain ⟨fs, os, h1, -, h3⟩ := specialWorkflow_spec _ 9 hw f o A hsh hA.nodup hA.lt hA.ne hA.kept
  unfold brierDecompBoot at hret
  cases hr : specialWorkflow (fun i => funcBrierDecompBoot skip 19 n reps conf (draw i)) f o
      (some (A.map Int.ofNat)) with
  | error e => rw [hr] at hret; cases hret
  | ok ret =>
    rw [hr] at hret
    obtain ⟨h4, h5⟩ := h3 ret hr
    rw [if_neg (by omega)] at h4
    obtain ⟨b, hb1, hb2, hb3⟩ := reshape_ok ret (3 :: 3 :: dropAxes A f.shape) (by
      rw [h4]; simp only [List.prod_cons]; ring)
    simp only [bind, Except.bind, h4, List.getD_cons_zero, if_true, List.tail_cons, hb1, pure,
      Except.pure, Except.ok.injEq, Prod.mk.injEq] at hret
    obtain ⟨rfl, rfl, rfl⟩ := hret
    refine ⟨by simp [slice0, hb2], ?_⟩
    intro k hk
    obtain ⟨r, hr1, hr2⟩ := h5 k hk
    obtain ⟨hl, hp⟩ := h1 k hk
    obtain ⟨samples, rets, tl, ts, tu, g1, g2, g3, g4, g5, g6, l1, l2, l3⟩ := hfun _ _ _ _ hl hr1
    refine ⟨samples, rets, tl, ts, tu, isResampleOf_perm hp g1, g2, g3, g4, g5, ?_⟩
    have hget : ∀ i c, i < 3 → c < 3 → (b.slice0 i).get (c :: k) = r.getD (i * 3 + c) none := by
      intro i c hi hc
      unfold slice0
      rw [get_ofFn _ (by rw [hb2]; exact List.Forall₂.cons hc hk)]
      have e := hr2 (i * 3 + c) (by omega)
      rw [if_neg (by omega)] at e
      rw [← e]
      apply get_of_ravel_eq hb3
      rw [hb2, h4]
      simp only [ravel, List.prod_cons]
      ring
    intro c hc
    rw [hget 0 c (by omega) hc, hget 1 c (by omega) hc, hget 2 c (by omega) hc, g6]
    simp only [List.getD_eq_getElem?_getD]
    refine ⟨?_, ?_, ?_⟩
    · rw [List.append_assoc, List.getElem?_append_left (by omega)]; simp
    · rw [List.append_assoc, List.getElem?_append_right (by omega),
        List.getElem?_append_left (by omega)]
      congr 2; omega
    · rw [List.getElem?_append_right (by simp; omega)]
      congr 2; simp; omega

/-! ### C13 -/

/-- **C13.** Reliability, resolution and uncertainty of a non-empty slice of numbers with binary
observations: the specified averages, adding up to the Brier score up to the within-bin term. -/
theorem C13_decomposition (skip : Bool) (n : Nat) (P : List (K × K)) (hP : P ≠ [])
    (hb : ∀ p ∈ P, p.2 = 0 ∨ p.2 = 1) :
    ∃ rel res unc, funcBrierDecomp skip n (P.map fun p => some p.1) (P.map fun p => some p.2) =
        .ok [some rel, some res, some unc] ∧
      specBrier P = rel - res + unc + specWithin n P ∧
      ((∀ p ∈ P, ∀ q ∈ P, sameBin n p.1 q.1 → p.1 = q.1) → specBrier P = rel - res + unc) ∧
      0 ≤ rel ∧ 0 ≤ res ∧ res ≤ unc ∧ unc ≤ 1 / 4 ∧
      rel = specRel n P ∧ res = specRes n P ∧ unc = specUnc P := by
  have hpos : (0 : K) < P.length := by exact_mod_cast List.length_pos_iff.2 hP
  obtain ⟨e1, e2⟩ := spec_identity n hP hb
  refine ⟨_, _, _, funcBrierDecomp_spec skip n hP, e1, ?_, ?_, ?_, ?_, ?_, rfl, rfl, rfl⟩
  · intro hc
    have : specWithin n P = 0 := by
      have h0 : ∀ p ∈ P, binF n P p = p.1 := by
        intro p hp
        have hm : p ∈ mates n P p := by
          unfold mates
          rw [List.mem_filter]
          exact ⟨hp, by simp [sameBin]⟩
        have hall : (mates n P p).map Prod.fst = (mates n P p).map fun _ => p.1 := by
          apply List.map_congr_left
          intro q hq
          unfold mates at hq
          rw [List.mem_filter] at hq
          exact (hc p hp q hq.1 (by simpa using hq.2)).symm
        unfold binF
        rw [hall, avg, List.map_const', List.sum_replicate, List.length_replicate, nsmul_eq_mul]
        have : ((mates n P p).length : K) ≠ 0 := by
          have : 0 < (mates n P p).length := List.length_pos_of_mem hm
          exact_mod_cast this.ne'
        field_simp
      unfold specWithin avg
      have : (P.map fun p => (p.1 - binF n P p) ^ 2 - 2 * (p.1 - binF n P p) * (p.2 - binO n P p)) =
          P.map fun _ => (0 : K) := by
        apply List.map_congr_left
        intro p hp
        rw [h0 p hp]; ring
      rw [this]; simp
    rw [e1, this, add_zero]
  · exact div_nonneg (sum_map_nonneg _ _ fun p _ => sq_nonneg _) (Nat.cast_nonneg _)
  · exact div_nonneg (sum_map_nonneg _ _ fun p _ => sq_nonneg _) (Nat.cast_nonneg _)
  · have h0 : 0 ≤ (P.length : K) * (specUnc P - specRes n P) := by
      rw [← e2]; exact sum_map_nonneg _ _ fun p _ => sq_nonneg _
    linarith [nonneg_of_mul_nonneg_right h0 hpos]
  · unfold specUnc
    nlinarith [sq_nonneg (avg (P.map Prod.snd) - 1 / 2)]

/-- **C13** at the level of the call: with NaN-free forecasts and binary observations, `brier_decomp`
returns at each kept position the decomposition of the pairs of that position. -/
theorem C13_brier_decomp (skip : Bool) (f o : NDArr (Fl K)) (A : List Nat)
    (hsh : f.shape = o.shape) (hA : SliceAxes f.shape A) {rel res unc : NDArr (Fl K)}
    (hret : brierDecomp skip f o (some (A.map Int.ofNat)) = .ok (rel, res, unc))
    (hf : ∀ i, InB f.shape i → f.get i ≠ none)
    (ho : ∀ i, InB f.shape i → o.get i = some 0 ∨ o.get i = some 1)
    (k : List Nat) (hk : InB (dropAxes A f.shape) k) :
    let P := complete (pairsAt f o A k)
    P.length = (pairsAt f o A k).length ∧
    ∃ a b c, rel.get k = some a ∧ res.get k = some b ∧ unc.get k = some c ∧
      specBrier P = a - b + c + specWithin 19 P ∧
      ((∀ p ∈ P, ∀ q ∈ P, sameBin 19 p.1 q.1 → p.1 = q.1) → specBrier P = a - b + c) ∧
      0 ≤ a ∧ 0 ≤ b ∧ b ≤ c ∧ c ≤ 1 / 4 := by
  intro P
  obtain ⟨-, h⟩ := C05_brier_decomp skip f o A hsh hA hret
  obtain ⟨x, y, hl, hp, hfun⟩ := h k hk
  have hnn : ∀ p ∈ pairsAt f o A k, p.1 ≠ none ∧ (p.2 = some 0 ∨ p.2 = some 1) := by
    intro p hpm
    simp only [pairsAt, List.mem_map] at hpm
    obtain ⟨i, hi, rfl⟩ := hpm
    exact ⟨hf i (mem_fiberIdx.1 hi).1, ho i (mem_fiberIdx.1 hi).1⟩
  have hcomp : ∀ Q : List (Fl K × Fl K), (∀ p ∈ Q, p.1 ≠ none ∧ (p.2 = some 0 ∨ p.2 = some 1)) →
      Q = (complete Q).map fun p => (some p.1, some p.2) := by
    intro Q hQ
    apply eq_complete
    rintro ⟨p, hp, h | h⟩
    · exact (hQ p hp).1 h
    · rcases (hQ p hp).2 with e | e <;> rw [h] at e <;> cases e
  have eP := hcomp _ hnn
  have hz : ∀ p ∈ x.zip y, p.1 ≠ none ∧ (p.2 = some 0 ∨ p.2 = some 1) :=
    fun p hpm => hnn p (hp.mem_iff.1 hpm)
  have eZ := hcomp _ hz
  set Q := complete (x.zip y) with hQ
  have hx : x = Q.map fun p => some p.1 := by
    have h0 : (x.zip y).map Prod.fst = x := List.map_fst_zip (by omega)
    conv_lhs => rw [← h0, eZ, List.map_map]
    rfl
  have hy : y = Q.map fun p => some p.2 := by
    have h0 : (x.zip y).map Prod.snd = y := List.map_snd_zip (by omega)
    conv_lhs => rw [← h0, eZ, List.map_map]
    rfl
  have hQP : Q.Perm P := complete_perm hp
  refine ⟨?_, ?_⟩
  · have := congrArg List.length eP
    rw [List.length_map] at this
    exact this.symm
  by_cases hQ0 : Q = []
  · -- an empty slice raises
    exfalso
    rw [hx, hy, hQ0] at hfun
    simp [funcBrierDecomp] at hfun
  have hQb : ∀ p ∈ Q, p.2 = 0 ∨ p.2 = 1 := by
    intro p hpm
    have : (some p.1, some p.2) ∈ x.zip y := by
      rw [eZ]; exact List.mem_map.2 ⟨p, hpm, rfl⟩
    rcases (hz _ this).2 with e | e
    · exact Or.inl (Option.some.inj e)
    · exact Or.inr (Option.some.inj e)
  obtain ⟨a, b, c, d1, d2, d3, d4, d5, d6, d7, -, -, -⟩ := C13_decomposition skip 19 Q hQ0 hQb
  rw [hx, hy, d1] at hfun
  simp only [Except.ok.injEq, List.cons.injEq, and_true] at hfun
  obtain ⟨-, -, -, s4, s5⟩ := specs_perm 19 hQP
  refine ⟨a, b, c, hfun.1.symm, hfun.2.1.symm, hfun.2.2.symm, ?_, ?_, d4, d5, d6, d7⟩
  · rw [← s4, ← s5]; exact d2
  · intro hc
    rw [← s4]
    exact d3 fun p hp q hq => hc p (hQP.mem_iff.1 hp) q (hQP.mem_iff.1 hq)

/-- `brier_decomp` does return on such data -/
theorem C13_defined (skip : Bool) (f o : NDArr (Fl K)) (A : List Nat)
    (hsh : f.shape = o.shape) (hA : SliceAxes f.shape A)
    (hT : (takeAxes A f.shape).prod ≠ 0) :
    ∃ r, brierDecomp skip f o (some (A.map Int.ofNat)) = .ok r := by
  have hw : ∀ (x y r : List (Fl K)), funcBrierDecomp skip 19 x y = .ok r → r.length = 3 := by
    intro x y r h
    unfold funcBrierDecomp at h
    simp only at h
    split at h
    · cases h
    · cases h; rfl
  obtain ⟨fs, os, h1, h2, h3⟩ := specialWorkflow_spec (fun _ => funcBrierDecomp skip 19) 3
    (fun _ => hw) f o A hsh hA.nodup hA.lt hA.ne hA.kept
  obtain ⟨ret, hret⟩ := h2 (by
    intro k hk
    obtain ⟨hl, hp⟩ := h1 k hk
    have hlen : (fs k).length = (takeAxes A f.shape).prod := by
      have h3 := congrArg List.length (map_takeAxes_fiberIdx f.shape A k hk)
      rw [List.length_map, length_allIdx] at h3
      have h4 := hp.length_eq
      simp only [pairsAt, List.length_map, List.length_zip] at h4
      omega
    unfold funcBrierDecomp
    simp only
    rw [if_neg (by
      intro h0
      rw [List.map_eq_nil_iff] at h0
      rw [h0] at hlen
      exact hT hlen.symm)]
    exact ⟨_, rfl⟩)
  unfold brierDecomp
  rw [hret]
  simp only [bind, Except.bind]
  have h4 := (h3 ret hret).1
  rw [if_neg (by omega : ¬ (3 : Nat) = 1)] at h4
  simp only [h4, List.getD_cons_zero, if_true]
  exact ⟨_, rfl⟩

/-! ### C21 -/

/-- **C21**, bounds: every correlation returned is in `[-1, 1]`, and it is the Pearson correlation of
the complete pairs of the position. -/
theorem C21_bounded (s : K → K) (hs : IsSqrt s) (skip : Bool) (f o : NDArr (Fl K)) (A : List Nat)
    (hsh : f.shape = o.shape) (hA : SliceAxes f.shape A) {ret : NDArr (Fl K)}
    (hret : corr s skip f o (some (A.map Int.ofNat)) = .ok ret) (k : List Nat)
    (hk : InB (dropAxes A f.shape) k) :
    (∀ r, ret.get k = some r → -1 ≤ r ∧ r ≤ 1 ∧ IsPearson (complete (pairsAt f o A k)) r) ∧
    (codev Prod.fst Prod.fst (complete (pairsAt f o A k)) ≠ 0 →
      codev Prod.snd Prod.snd (complete (pairsAt f o A k)) ≠ 0 →
      (skip = true ∨ ∀ p ∈ pairsAt f o A k, p.1 ≠ none ∧ p.2 ≠ none) → ret.get k ≠ none) := by
  obtain ⟨ret', h1, -, h2⟩ := C05_corr s hs skip f o A hsh hA
  rw [hret] at h1
  cases h1
  have := h2 k hk
  unfold IsCorr at this
  split at this
  · rename_i hc
    refine ⟨(fun r hr => by rw [this] at hr; cases hr), ?_⟩
    intro g1 g2 g3
    rcases hc with ⟨rfl, p, hp, hpn⟩ | h | h
    · rcases g3 with h | h
      · cases h
      · rcases hpn with e | e
        · exact absurd e (h p hp).1
        · exact absurd e (h p hp).2
    · exact absurd h g1
    · exact absurd h g2
  · rename_i hc
    obtain ⟨r, hr, hpr⟩ := this
    rw [not_or, not_or] at hc
    obtain ⟨b1, b2⟩ := isPearson_bound hpr hc.2.1 hc.2.2
    refine ⟨?_, fun _ _ _ => by rw [hr]; simp⟩
    intro r' hr'
    rw [hr] at hr'
    cases hr'
    exact ⟨b1, b2, hpr⟩

/-- two results computed from the same pairs (up to order) are equal -/
theorem corr_congr (s : K → K) (hs : IsSqrt s) (skip : Bool) (f o f' o' : NDArr (Fl K)) (A : List Nat)
    (hsh : f.shape = o.shape) (hsh' : f'.shape = o'.shape) (hss : f.shape = f'.shape)
    (hA : SliceAxes f.shape A)
    (hp : ∀ k, InB (dropAxes A f.shape) k → ∀ v, IsCorr skip (pairsAt f o A k) v →
      IsCorr skip (pairsAt f' o' A k) v) :
    corr s skip f o (some (A.map Int.ofNat)) = corr s skip f' o' (some (A.map Int.ofNat)) := by
  obtain ⟨r1, a1, a2, a3⟩ := C05_corr s hs skip f o A hsh hA
  obtain ⟨r2, b1, b2, b3⟩ := C05_corr s hs skip f' o' A hsh' (hss ▸ hA)
  rw [a1, b1]
  congr 1
  rw [← hss] at b2 b3
  apply ext_get (by rw [a2, b2])
  intro k hk
  rw [a2] at hk
  exact isCorr_unique (hp k hk _ (a3 k hk)) (b3 k hk)

/-- **C21**, symmetry -/
theorem C21_symmetric (s : K → K) (hs : IsSqrt s) (skip : Bool) (f o : NDArr (Fl K)) (A : List Nat)
    (hsh : f.shape = o.shape) (hA : SliceAxes f.shape A) :
    corr s skip f o (some (A.map Int.ofNat)) = corr s skip o f (some (A.map Int.ofNat)) := by
  apply corr_congr s hs skip f o o f A hsh hsh.symm hsh hA
  intro k hk v hv
  have e : pairsAt o f A k = (pairsAt f o A k).map Prod.swap := by
    unfold pairsAt
    rw [List.map_map, hsh]; rfl
  have ec : ∀ P : List (Fl K × Fl K), complete (P.map Prod.swap) = (complete P).map Prod.swap := by
    intro P
    induction P with
    | nil => rfl
    | cons p P ih =>
      obtain ⟨x, y⟩ := p
      cases x <;> cases y <;> simp_all [complete]
  have ecd : ∀ (g h : K × K → K) (P : List (K × K)),
      codev g h (P.map Prod.swap) = codev (g ∘ Prod.swap) (h ∘ Prod.swap) P := by
    intro g h P; unfold codev; simp only [List.map_map]; rfl
  rw [e]
  unfold IsCorr IsPearson at *
  simp only [ec, ecd]
  have f1 : ((Prod.fst : K × K → K) ∘ Prod.swap) = Prod.snd := rfl
  have f2 : ((Prod.snd : K × K → K) ∘ Prod.swap) = Prod.fst := rfl
  simp only [f1, f2, codev_comm Prod.snd Prod.fst]
  have hex : (∃ p ∈ (pairsAt f o A k).map Prod.swap, p.1 = none ∨ p.2 = none) ↔
      ∃ p ∈ pairsAt f o A k, p.1 = none ∨ p.2 = none := by
    simp only [List.mem_map, exists_exists_and_eq_and]
    constructor
    · rintro ⟨p, hp, h⟩; exact ⟨p, hp, h.symm⟩
    · rintro ⟨p, hp, h⟩; exact ⟨p, hp, h.symm⟩
  split at hv
  · rename_i hc
    rw [if_pos]
    · exact hv
    · rcases hc with ⟨h1, h2⟩ | h | h
      · exact Or.inl ⟨h1, hex.2 h2⟩
      · exact Or.inr (Or.inr h)
      · exact Or.inr (Or.inl h)
  · rename_i hc
    rw [if_neg]
    · obtain ⟨r, h1, h2, h3⟩ := hv
      exact ⟨r, h1, by rw [mul_comm (codev Prod.snd Prod.snd _)]; exact h2, h3⟩
    · rintro (⟨h1, h2⟩ | h | h)
      · exact hc (Or.inl ⟨h1, hex.1 h2⟩)
      · exact hc (Or.inr (Or.inr h))
      · exact hc (Or.inr (Or.inl h))

/-- **C21**, positive affine rescaling of the forecast (the observation follows by symmetry) -/
theorem C21_affine (s : K → K) (hs : IsSqrt s) (skip : Bool) (f o : NDArr (Fl K)) (A : List Nat)
    (hsh : f.shape = o.shape) (hA : SliceAxes f.shape A) (a b : K) (ha : 0 < a) :
    corr s skip f o (some (A.map Int.ofNat)) =
      corr s skip (f.map fun x => x.map fun v => a * v + b) o (some (A.map Int.ofNat)) := by
  apply corr_congr s hs skip f o _ o A hsh (by simpa using hsh) (by simp) hA
  intro k hk v hv
  set T : Fl K × Fl K → Fl K × Fl K := fun p => (p.1.map fun v => a * v + b, p.2) with hT
  have e : pairsAt (f.map fun x => x.map fun v => a * v + b) o A k = (pairsAt f o A k).map T := by
    unfold pairsAt
    rw [List.map_map]
    apply List.map_congr_left
    intro i hi
    simp only [Function.comp, hT]
    rw [get_map _ _ (by simpa using (mem_fiberIdx.1 hi).1)]
  set U : K × K → K × K := fun p => (a * p.1 + b, p.2) with hU
  have ec : ∀ P : List (Fl K × Fl K), complete (P.map T) = (complete P).map U := by
    intro P
    induction P with
    | nil => rfl
    | cons p P ih =>
      obtain ⟨x, y⟩ := p
      cases x <;> cases y <;> simp_all [complete]
  have hav : ∀ P : List (K × K), P ≠ [] →
      avg (P.map fun p => a * p.1 + b) = a * avg (P.map Prod.fst) + b := by
    intro P hP
    have hpos : (P.length : K) ≠ 0 := by
      have : 0 < P.length := List.length_pos_iff.2 hP
      exact_mod_cast this.ne'
    have : ∀ Q : List (K × K), (Q.map fun p => a * p.1 + b).sum =
        a * (Q.map Prod.fst).sum + (Q.length : K) * b := by
      intro Q
      induction Q with
      | nil => simp
      | cons p Q ih => simp only [List.map_cons, List.sum_cons, List.length_cons, ih]; push_cast; ring
    unfold avg
    rw [this]; simp only [List.length_map]; field_simp
  have cxx : ∀ P : List (K × K), codev Prod.fst Prod.fst (P.map U) = a ^ 2 * codev Prod.fst Prod.fst P := by
    intro P
    by_cases hP : P = []
    · subst hP; simp [codev]
    · unfold codev
      rw [List.map_map, List.map_map, ← List.sum_map_mul_left]
      congr 1
      apply List.map_congr_left
      intro p _
      have := hav P hP
      simp only [Function.comp, hU] at this ⊢
      have e2 : (Prod.fst ∘ fun p : K × K => (a * p.1 + b, p.2)) = fun p => a * p.1 + b := rfl
      rw [e2, this]; ring
  have cxy : ∀ P : List (K × K), codev Prod.fst Prod.snd (P.map U) = a * codev Prod.fst Prod.snd P := by
    intro P
    by_cases hP : P = []
    · subst hP; simp [codev]
    · unfold codev
      rw [List.map_map, List.map_map, List.map_map, ← List.sum_map_mul_left]
      congr 1
      apply List.map_congr_left
      intro p _
      have := hav P hP
      simp only [Function.comp, hU] at this ⊢
      have e2 : (Prod.fst ∘ fun p : K × K => (a * p.1 + b, p.2)) = fun p => a * p.1 + b := rfl
      have e3 : (Prod.snd ∘ fun p : K × K => (a * p.1 + b, p.2)) = Prod.snd := rfl
      rw [e2, e3, this]; ring
  have cyy : ∀ P : List (K × K), codev Prod.snd Prod.snd (P.map U) = codev Prod.snd Prod.snd P := by
    intro P
    unfold codev
    rw [List.map_map, List.map_map]
    rfl
  have hex : (∃ p ∈ (pairsAt f o A k).map T, p.1 = none ∨ p.2 = none) ↔
      ∃ p ∈ pairsAt f o A k, p.1 = none ∨ p.2 = none := by
    simp only [List.mem_map, exists_exists_and_eq_and, hT, Option.map_eq_none_iff]
  rw [e]
  unfold IsCorr IsPearson at *
  have hz : a ^ 2 * codev Prod.fst Prod.fst (complete (pairsAt f o A k)) = 0 ↔
      codev Prod.fst Prod.fst (complete (pairsAt f o A k)) = 0 := by
    rw [mul_eq_zero]
    exact ⟨fun h => h.resolve_left (pow_ne_zero 2 ha.ne'), Or.inr⟩
  simp only [ec, cxx, cyy, cxy]
  split at hv
  · rename_i hc
    rw [if_pos]
    · exact hv
    · rcases hc with ⟨h1, h2⟩ | h | h
      · exact Or.inl ⟨h1, hex.2 h2⟩
      · exact Or.inr (Or.inl (hz.2 h))
      · exact Or.inr (Or.inr h)
  · rename_i hc
    rw [if_neg (by
      rintro (⟨h1, h2⟩ | h | h)
      · exact hc (Or.inl ⟨h1, hex.1 h2⟩)
      · exact hc (Or.inr (Or.inl (hz.1 h)))
      · exact hc (Or.inr (Or.inr h)))]
    obtain ⟨r, hr, h1, h2⟩ := hv
    refine ⟨r, hr, ?_, ?_⟩
    · rw [show r ^ 2 * (a ^ 2 * codev Prod.fst Prod.fst (complete (pairsAt f o A k)) *
        codev Prod.snd Prod.snd (complete (pairsAt f o A k))) = a ^ 2 * (r ^ 2 *
        (codev Prod.fst Prod.fst (complete (pairsAt f o A k)) *
        codev Prod.snd Prod.snd (complete (pairsAt f o A k)))) by ring, h1]; ring
    · rw [show r * (a * codev Prod.fst Prod.snd (complete (pairsAt f o A k))) =
        a * (r * codev Prod.fst Prod.snd (complete (pairsAt f o A k))) by ring]
      exact mul_nonneg ha.le h2

/-- **C21**, positive affine rescaling of the observation -/
theorem C21_affine_obs (s : K → K) (hs : IsSqrt s) (skip : Bool) (f o : NDArr (Fl K)) (A : List Nat)
    (hsh : f.shape = o.shape) (hA : SliceAxes f.shape A) (a b : K) (ha : 0 < a) :
    corr s skip f o (some (A.map Int.ofNat)) =
      corr s skip f (o.map fun x => x.map fun v => a * v + b) (some (A.map Int.ofNat)) := by
  rw [C21_symmetric s hs skip f o A hsh hA,
    C21_symmetric s hs skip f (o.map fun x => x.map fun v => a * v + b) A (by simpa using hsh) hA]
  exact C21_affine s hs skip o f A hsh.symm (hsh ▸ hA) a b ha

/-- **C21**, reordering the samples of each position -/
theorem C21_reorder (s : K → K) (hs : IsSqrt s) (skip : Bool) (f o f' o' : NDArr (Fl K))
    (A : List Nat) (hsh : f.shape = o.shape) (hsh' : f'.shape = o'.shape) (hss : f.shape = f'.shape)
    (hA : SliceAxes f.shape A)
    (hp : ∀ k, InB (dropAxes A f.shape) k → (pairsAt f o A k).Perm (pairsAt f' o' A k)) :
    corr s skip f o (some (A.map Int.ofNat)) = corr s skip f' o' (some (A.map Int.ofNat)) :=
  corr_congr s hs skip f o f' o' A hsh hsh' hss hA fun k hk _ hv => isCorr_perm (hp k hk) hv

/-! ### C26 -/

/-- **C26** is false: with the same replicates (here `0` and `1`, which `boot_vec` draws from the
population `[0, 1]`) and the same confidence 0.95, `boot_vec` and the summaries of reliability,
spread-skill, correlation and Brier decomposition give different intervals, and below confidence one
half the latter are reversed. -/
theorem C26_false :
    (∃ (pop ms : List (Fl ℚ)) (draw : Nat → Nat → Nat) (t t' : List (Fl ℚ)),
      mapE (fun r => do let s ← choice pop 1 (draw r); pure (mean s)) (List.range 2) = .ok ms ∧
      bootVec pop 1 2 (95 / 100) false draw = .ok t ∧ summary false ms (95 / 100) = .ok t' ∧
      t ≠ t') ∧
    (∃ (ms : List (Fl ℚ)) (conf : ℚ) (lo m hi : ℚ), 0 ≤ conf ∧ conf ≤ 1 ∧
      summary false ms conf = .ok [some lo, some m, some hi] ∧ hi < lo) := by
  refine ⟨⟨[some 0, some 1], [some 0, some 1], fun r _ => r,
    [some (1 / 40), some (1 / 2), some (39 / 40)],
    [some (1 / 20), some (1 / 2), some (19 / 20)], ?_, ?_, ?_, by decide +kernel⟩,
    ⟨[some 0, some 1], 4 / 10, 6 / 10, 1 / 2, 4 / 10, by norm_num, by norm_num, ?_, by norm_num⟩⟩
  · decide +kernel
  · decide +kernel
  · decide +kernel
  · decide +kernel

/-- **C26**, what holds: the interval the other metrics report at confidence `c` is the interval of the
averaged metrics at confidence `2c - 1` (so 0.95 gives a 90% interval). -/
theorem C26_relation_partial (ms : List (Fl K)) (c : K) (t : List (Fl K)) :
    IsSummary ms (1 - c) c t ↔
      IsSummary ms ((1 - (2 * c - 1)) / 2) (1 - (1 - (2 * c - 1)) / 2) t := by
  have e1 : (1 - (2 * c - 1)) / 2 = 1 - c := by ring
  have e2 : 1 - (1 - (2 * c - 1)) / 2 = c := by ring
  rw [e2, e1]

/-- **C26**, what holds: for confidence at least one half those intervals are ordered. -/
theorem C26_ordered_partial {ms : List K} (hne : ms ≠ []) {c : K} (h1 : 1 / 2 ≤ c) (h2 : c ≤ 1)
    {t : List (Fl K)} (h : IsSummary (ms.map some) (1 - c) c t) :
    ∃ lo m hi, t = [some lo, some m, some hi] ∧ lo ≤ hi := by
  obtain ⟨lo, hi, q1, q2, rfl⟩ := h
  rw [quantile_some hne (by linarith) (by linarith)] at q1
  rw [quantile_some hne (by linarith) h2] at q2
  cases q1
  cases q2
  rw [mean_some ms hne]
  refine ⟨_, _, _, rfl, ?_⟩
  have b1 := vidx_bounds (K := K) (n := (sortK ms).length - 1) (q := 1 - c) (by linarith) (by linarith)
  have b2 := vidx_bounds (K := K) (n := (sortK ms).length - 1) (q := c) (by linarith) h2
  apply lerpAt_mono (sortK_sorted ms) b1.1 ?_ b2.2 (sortK_ne_nil hne)
  have : (0 : K) ≤ (((sortK ms).length - 1 : Nat) : K) := Nat.cast_nonneg _
  nlinarith

/-! ### examples -/

example : SliceAxes [2, 3, 4] [2, 0] :=
  ⟨by decide, by decide, by decide, by decide⟩

/-- a slice with two forecasts per bin, where the within-bin term does not vanish -/
example : ∃ P : List (ℚ × ℚ), P ≠ [] ∧ (∀ p ∈ P, p.2 = 0 ∨ p.2 = 1) ∧
    ¬ (∀ p ∈ P, ∀ q ∈ P, keyOf 19 p = keyOf 19 q → p.1 = q.1) :=
  ⟨[(1/100, 0), (2/100, 1), (1/2, 1)], by decide, by decide +kernel, by decide +kernel⟩

example : ∃ (f o : NDArr (Fl ℚ)), f.shape = o.shape ∧ SliceAxes f.shape [0] ∧
    okAnd (brierDecomp false f o (some [0])) (fun r => r.1.data = [some (1 / 8), some (1 / 4)]) = true :=
  ⟨⟨[2, 2], [some (1/2), some (1/2), some 0, some 1], rfl⟩,
   ⟨[2, 2], [some 1, some 0, some 0, some (1/2)], rfl⟩, rfl,
   ⟨by decide, by decide, by decide, by decide⟩, by decide +kernel⟩

end Props
