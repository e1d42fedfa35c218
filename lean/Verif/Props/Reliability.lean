import Verif.Lemmas.RelMulti
import Verif.Lemmas.Groups
import Verif.Props.Boot

/-!
# Reliability diagrams: C03, C17, C63
-/

set_option linter.unusedSectionVars false

namespace Props
open Np NDArr Spec Model Lemmas

variable {K : Type} [Field K] [LinearOrder K] [IsStrictOrderedRing K] [FloorSemiring K]

/-- every pair's probability is NaN or not negative -/
def ProbsOK (f : NDArr (Fl K)) : Prop := ∀ i, InB f.shape i → ∀ v, f.get i = some v → 0 ≤ v

theorem pairsAt_ok {f : NDArr (Fl K)} (h : ProbsOK f) (o : NDArr Bool) (A k : List Nat) :
    ∀ p ∈ pairsAt f o A k, NonNegFl p.1 := by
  intro p hp
  simp only [pairsAt, List.mem_map] at hp
  obtain ⟨i, hi, rfl⟩ := hp
  simp only [fiberIdx, List.mem_filter] at hi
  exact h i (mem_allIdx.1 hi.1)

/-- what an aggregated slice must be, for pairs `P`: one entry per non-empty bin -/
def IsRelCurve (nbins : Nat) (P : List (Fl K × Bool)) (pp pt : List (Fl K)) (pc : List Nat) : Prop :=
  pp = (relNonEmpty nbins P).map (fun b => mean ((relGroup nbins b P).map Prod.fst)) ∧
  pt = (relNonEmpty nbins P).map (fun b => mean ((relGroup nbins b P).map fun p => ind p.2)) ∧
  pc = (relNonEmpty nbins P).map (fun b => (relGroup nbins b P).length)

/-- **C03**, all axes sampled: the curve is that of all the pairs. -/
theorem C03_reliability_all (f : NDArr (Fl K)) (o : NDArr Bool) (nbins : Nat) (axes : List Int)
    (hsh : f.shape = o.shape) (hax : PlainAxes f.shape.length axes) (hn : 1 ≤ nbins)
    (hp : ProbsOK f) (hD : dropAxes (axes.map Int.toNat) f.shape = []) :
    ∃ s, reliabilityDiagram f o nbins (some axes) = .ok (.slice s) ∧
      IsRelCurve nbins (pairsAt f o (axes.map Int.toNat) []) s.probPred s.probTrue
        (s.predCount.map Prod.snd) := by
  have hg := goodAxes_nonneg hax.1 hax.2
  have e := axisNum_inj_nonneg (n := f.shape.length) (fun x hx => (hax.1 x hx).1)
  have := relDiag_slice f o nbins axes hsh hg (by rw [e]; exact hD)
    (fun bins _ ids p t => relNoBootSlice ids p t bins)
  rw [e, relNoBootSlice_eq hn _ (pairsAt_ok hp o _ _)] at this
  refine ⟨_, this, rfl, rfl, ?_⟩
  simp [List.map_map, Function.comp_def]

/-- **C03**, kept axes: the row of kept position `k` is the curve of exactly the pairs whose kept
coordinates are `k`. -/
theorem C03_reliability_kept (f : NDArr (Fl K)) (o : NDArr Bool) (nbins : Nat) (axes : List Int)
    (hsh : f.shape = o.shape) (hax : PlainAxes f.shape.length axes) (hn : 1 ≤ nbins)
    (hp : ProbsOK f) (hD : dropAxes (axes.map Int.toNat) f.shape ≠ [])
    (hDp : (dropAxes (axes.map Int.toNat) f.shape).prod ≠ 0)
    {out : RelOut (Fl K)} (hout : reliabilityDiagram f o nbins (some axes) = .ok out) :
    ∃ pp pt pc tc, out = .multi (dropAxes (axes.map Int.toNat) f.shape) pp pt pc tc ∧
      ∀ k, InB (dropAxes (axes.map Int.toNat) f.shape) k →
        ∃ ppk ptk pck, pp[ravel (dropAxes (axes.map Int.toNat) f.shape) k]? = some ppk ∧
          pt[ravel (dropAxes (axes.map Int.toNat) f.shape) k]? = some ptk ∧
          pc[ravel (dropAxes (axes.map Int.toNat) f.shape) k]? = some pck ∧
          IsRelCurve nbins (pairsAt f o (axes.map Int.toNat) k) ppk ptk pck := by
  have hg := goodAxes_nonneg hax.1 hax.2
  have e := axisNum_inj_nonneg (n := f.shape.length) (fun x hx => (hax.1 x hx).1)
  have := relDiag_rows f o nbins axes hsh hg (by rw [e]; exact hD) (by rw [e]; exact hDp)
    (fun bins _ ids p t => relNoBootSlice ids p t bins) hout
  rw [e] at this
  obtain ⟨pp, pt, pc, tc, h1, h2⟩ := this
  refine ⟨pp, pt, pc, tc, h1, ?_⟩
  intro k hk
  obtain ⟨r, hr, h3, h4, h5, -⟩ := h2 k hk
  rw [relNoBootSlice_eq hn _ (pairsAt_ok hp o _ _)] at hr
  cases hr
  exact ⟨_, _, _, h3, h4, h5, rfl, rfl, by simp [List.map_map, Function.comp_def]⟩

/-- what a bootstrapped slice must be, for pairs `P`: the two triples of every non-empty bin
summarise the *same* resamples, drawn from the pairs of that bin -/
def IsRelBootCurve (nbins : Nat) (P : List (Fl K × Bool)) (n reps : Nat) (conf : K) (skip : Bool)
    (pp pt : List (List (Fl K))) (pc : List Nat) : Prop :=
  pc = (relNonEmpty nbins P).map (fun b => (relGroup nbins b P).length) ∧
  pp.length = (relNonEmpty nbins P).length ∧ pt.length = (relNonEmpty nbins P).length ∧
  ∀ (j b : Nat), (relNonEmpty nbins P)[j]? = some b →
    ∃ (tp tt : List (Fl K)) (samples : List (List (Fl K × Bool))),
      pp[j]? = some tp ∧ pt[j]? = some tt ∧ IsResampleOf (relGroup nbins b P) n reps samples ∧
      IsSummary (samples.map fun s => meanOf skip (s.map Prod.fst)) (1 - conf) conf tp ∧
      IsSummary (samples.map fun s => meanOf skip (s.map fun p => ind p.2)) (1 - conf) conf tt

/-- **C03**, bootstrapped, all axes sampled. -/
theorem C03_reliability_boot_all (f : NDArr (Fl K)) (o : NDArr Bool) (nbins : Nat) (axes : List Int)
    (n reps : Nat) (conf : K) (skip : Bool) (draw : Nat → Nat → Nat → Nat → Nat)
    (hsh : f.shape = o.shape) (hax : PlainAxes f.shape.length axes) (hn : 1 ≤ nbins)
    (hp : ProbsOK f) (hD : dropAxes (axes.map Int.toNat) f.shape = [])
    {out : RelOut (List (Fl K))}
    (hout : reliabilityDiagramBoot f o nbins (some axes) n reps conf skip draw = .ok out) :
    ∃ s, out = .slice s ∧
      IsRelBootCurve nbins (pairsAt f o (axes.map Int.toNat) []) n reps conf skip s.probPred
        s.probTrue (s.predCount.map Prod.snd) := by
  have hg := goodAxes_nonneg hax.1 hax.2
  have e := axisNum_inj_nonneg (n := f.shape.length) (fun x hx => (hax.1 x hx).1)
  have := relDiag_slice f o nbins axes hsh hg (by rw [e]; exact hD)
    (fun bins c ids p t => relBootSlice ids p t bins n reps conf skip (draw c))
  rw [e] at this
  have hout' := this.symm.trans hout
  clear this hout
  cases hr : relBootSlice (idsOf nbins (pairsAt f o (axes.map Int.toNat) []))
      ((pairsAt f o (axes.map Int.toNat) []).map Prod.fst)
      ((pairsAt f o (axes.map Int.toNat) []).map Prod.snd) (relBins nbins) n reps conf skip
      (draw 0) with
  | error e => rw [hr] at hout'; cases hout'
  | ok r =>
    rw [hr] at hout'
    cases hout'
    obtain ⟨h1, h2, h3, h4⟩ := relBootSlice_spec hn _ (pairsAt_ok hp o _ _) hr
    exact ⟨r, rfl, by rw [h1]; simp [List.map_map, Function.comp_def], h2, h3, h4⟩

/-- **C03**, bootstrapped, kept axes. -/
theorem C03_reliability_boot_kept (f : NDArr (Fl K)) (o : NDArr Bool) (nbins : Nat)
    (axes : List Int) (n reps : Nat) (conf : K) (skip : Bool) (draw : Nat → Nat → Nat → Nat → Nat)
    (hsh : f.shape = o.shape) (hax : PlainAxes f.shape.length axes) (hn : 1 ≤ nbins)
    (hp : ProbsOK f) (hD : dropAxes (axes.map Int.toNat) f.shape ≠ [])
    (hDp : (dropAxes (axes.map Int.toNat) f.shape).prod ≠ 0)
    {out : RelOut (List (Fl K))}
    (hout : reliabilityDiagramBoot f o nbins (some axes) n reps conf skip draw = .ok out) :
    ∃ pp pt pc tc, out = .multi (dropAxes (axes.map Int.toNat) f.shape) pp pt pc tc ∧
      ∀ k, InB (dropAxes (axes.map Int.toNat) f.shape) k →
        ∃ ppk ptk pck, pp[ravel (dropAxes (axes.map Int.toNat) f.shape) k]? = some ppk ∧
          pt[ravel (dropAxes (axes.map Int.toNat) f.shape) k]? = some ptk ∧
          pc[ravel (dropAxes (axes.map Int.toNat) f.shape) k]? = some pck ∧
          IsRelBootCurve nbins (pairsAt f o (axes.map Int.toNat) k) n reps conf skip ppk ptk pck := by
  have hg := goodAxes_nonneg hax.1 hax.2
  have e := axisNum_inj_nonneg (n := f.shape.length) (fun x hx => (hax.1 x hx).1)
  have := relDiag_rows f o nbins axes hsh hg (by rw [e]; exact hD) (by rw [e]; exact hDp)
    (fun bins c ids p t => relBootSlice ids p t bins n reps conf skip (draw c)) hout
  rw [e] at this
  obtain ⟨pp, pt, pc, tc, h1, h2⟩ := this
  refine ⟨pp, pt, pc, tc, h1, ?_⟩
  intro k hk
  obtain ⟨r, hr, h3, h4, h5, -⟩ := h2 k hk
  obtain ⟨g1, g2, g3, g4⟩ := relBootSlice_spec hn _ (pairsAt_ok hp o _ _) hr
  exact ⟨_, _, _, h3, h4, h5, by rw [g1]; simp [List.map_map, Function.comp_def], g2, g3, g4⟩

/-- how often the event was not observed (under the label 0) and how often it was (under 1), leaving out zeros -/
def obsCounts (P : List (Fl K × Bool)) : List (Int × Nat) :=
  (if (P.filter fun p => !p.2).length = 0 then [] else [(0, (P.filter fun p => !p.2).length)]) ++
  (if (P.filter fun p => p.2).length = 0 then [] else [(1, (P.filter fun p => p.2).length)])

theorem valueCounts_obs (P : List (Fl K × Bool)) : valueCounts ((P.map Prod.snd).map b2i) = obsCounts P := by
  have hc0 : ((P.map Prod.snd).map b2i).count 0 = (P.filter fun p => !p.2).length := by
    induction P with
    | nil => rfl
    | cons p P ih =>
      obtain ⟨a, b⟩ := p
      cases b <;> simp_all [b2i]
  have hc1 : ((P.map Prod.snd).map b2i).count 1 = (P.filter fun p => p.2).length := by
    clear hc0
    induction P with
    | nil => rfl
    | cons p P ih =>
      obtain ⟨a, b⟩ := p
      cases b <;> simp_all [b2i]
  have hm : ∀ v : Int, v ∈ (P.map Prod.snd).map b2i → v = 0 ∨ v = 1 := by
    intro v hv
    obtain ⟨b, -, rfl⟩ := List.mem_map.1 hv
    cases b <;> simp [b2i]
  have h0 : (0 : Int) ∈ (P.map Prod.snd).map b2i ↔ (P.filter fun p => !p.2).length ≠ 0 := by
    rw [← hc0, ← List.count_pos_iff, Nat.pos_iff_ne_zero]
  have h1 : (1 : Int) ∈ (P.map Prod.snd).map b2i ↔ (P.filter fun p => p.2).length ≠ 0 := by
    rw [← hc1, ← List.count_pos_iff, Nat.pos_iff_ne_zero]
  unfold obsCounts
  rw [valueCounts_eq (S := (if (P.filter fun p => !p.2).length = 0 then [] else [0]) ++
    (if (P.filter fun p => p.2).length = 0 then [] else [1]))]
  · rw [List.map_append]
    congr 1
    · split
      · rfl
      · simp only [List.map_cons, List.map_nil, hc0]
    · split
      · rfl
      · simp only [List.map_cons, List.map_nil, hc1]
  · split <;> split <;> simp
  · intro v
    rw [List.mem_append]
    constructor
    · rintro (h | h)
      · split at h
        · cases h
        · rename_i hn
          rw [List.mem_singleton] at h
          subst h
          exact h0.2 hn
      · split at h
        · cases h
        · rename_i hn
          rw [List.mem_singleton] at h
          subst h
          exact h1.2 hn
    · intro h
      rcases hm v h with rfl | rfl
      · exact Or.inl (by rw [if_neg (h0.1 h)]; simp)
      · exact Or.inr (by rw [if_neg (h1.1 h)]; simp)

theorem relBootSlice_true {ids : List Int} {p : List (Fl K)} {t : List Bool} {bins : List K} {n reps : Nat} {conf : K}
    {skip : Bool} {draw : Nat → Nat → Nat → Nat} {r : RelSlice (List (Fl K))}
    (h : relBootSlice ids p t bins n reps conf skip draw = .ok r) : r.trueCount = valueCounts (t.map b2i) := by
  unfold relBootSlice at h
  simp only [bind, Except.bind] at h
  split at h
  · cases h
  · split at h
    · cases h
    · cases h; rfl

/-- **C03**, the counts of observations (the fourth part of the result), all axes sampled: how often the event did not
and did happen, without and with bootstrapping. -/
theorem C03_counts_all (f : NDArr (Fl K)) (o : NDArr Bool) (nbins : Nat) (axes : List Int)
    (hsh : f.shape = o.shape) (hax : PlainAxes f.shape.length axes) (hn : 1 ≤ nbins)
    (hp : ProbsOK f) (hD : dropAxes (axes.map Int.toNat) f.shape = []) :
    (∃ s, reliabilityDiagram f o nbins (some axes) = .ok (.slice s) ∧
      s.trueCount = obsCounts (pairsAt f o (axes.map Int.toNat) [])) ∧
    ∀ n reps conf skip draw out, reliabilityDiagramBoot f o nbins (some axes) n reps conf skip draw = .ok out →
      ∃ s, out = .slice s ∧ s.trueCount = obsCounts (pairsAt f o (axes.map Int.toNat) []) := by
  have hg := goodAxes_nonneg hax.1 hax.2
  have e := axisNum_inj_nonneg (n := f.shape.length) (fun x hx => (hax.1 x hx).1)
  constructor
  · have := relDiag_slice f o nbins axes hsh hg (by rw [e]; exact hD)
      (fun bins _ ids p t => relNoBootSlice ids p t bins)
    rw [e, relNoBootSlice_eq hn _ (pairsAt_ok hp o _ _)] at this
    exact ⟨_, this, valueCounts_obs _⟩
  · intro n reps conf skip draw out hout
    have := relDiag_slice f o nbins axes hsh hg (by rw [e]; exact hD)
      (fun bins c ids p t => relBootSlice ids p t bins n reps conf skip (draw c))
    rw [e] at this
    have hout' := this.symm.trans hout
    clear this hout
    cases hr : relBootSlice (idsOf nbins (pairsAt f o (axes.map Int.toNat) []))
        ((pairsAt f o (axes.map Int.toNat) []).map Prod.fst)
        ((pairsAt f o (axes.map Int.toNat) []).map Prod.snd) (relBins nbins) n reps conf skip
        (draw 0) with
    | error e => rw [hr] at hout'; cases hout'
    | ok r =>
      rw [hr] at hout'
      cases hout'
      exact ⟨r, rfl, by rw [relBootSlice_true hr, valueCounts_obs]⟩

/-- **C03**, the counts of observations of a kept position, without and with bootstrapping.  The labels are lost, see
`C63_counts_false`. -/
theorem C03_counts_kept (f : NDArr (Fl K)) (o : NDArr Bool) (nbins : Nat) (axes : List Int)
    (hsh : f.shape = o.shape) (hax : PlainAxes f.shape.length axes)
    (hD : dropAxes (axes.map Int.toNat) f.shape ≠ [])
    (hDp : (dropAxes (axes.map Int.toNat) f.shape).prod ≠ 0) :
    (∀ out, reliabilityDiagram f o nbins (some axes) = .ok out →
      ∃ pp pt pc tc, out = .multi (dropAxes (axes.map Int.toNat) f.shape) pp pt pc tc ∧
        ∀ k, InB (dropAxes (axes.map Int.toNat) f.shape) k →
          tc[ravel (dropAxes (axes.map Int.toNat) f.shape) k]? =
            some ((obsCounts (pairsAt f o (axes.map Int.toNat) k)).map Prod.snd)) ∧
    ∀ n reps conf skip draw out, reliabilityDiagramBoot f o nbins (some axes) n reps conf skip draw = .ok out →
      ∃ pp pt pc tc, out = .multi (dropAxes (axes.map Int.toNat) f.shape) pp pt pc tc ∧
        ∀ k, InB (dropAxes (axes.map Int.toNat) f.shape) k →
          tc[ravel (dropAxes (axes.map Int.toNat) f.shape) k]? =
            some ((obsCounts (pairsAt f o (axes.map Int.toNat) k)).map Prod.snd) := by
  have hg := goodAxes_nonneg hax.1 hax.2
  have e := axisNum_inj_nonneg (n := f.shape.length) (fun x hx => (hax.1 x hx).1)
  constructor
  · intro out hout
    have := relDiag_rows f o nbins axes hsh hg (by rw [e]; exact hD) (by rw [e]; exact hDp)
      (fun bins _ ids p t => relNoBootSlice ids p t bins) hout
    rw [e] at this
    obtain ⟨pp, pt, pc, tc, h1, h2⟩ := this
    refine ⟨pp, pt, pc, tc, h1, ?_⟩
    intro k hk
    obtain ⟨r, hr, -, -, -, h6⟩ := h2 k hk
    have ht : r.trueCount = valueCounts (((pairsAt f o (axes.map Int.toNat) k).map Prod.snd).map b2i) := by
      unfold relNoBootSlice at hr
      simp only [bind, Except.bind] at hr
      split at hr
      · cases hr
      · split at hr
        · cases hr
        · split at hr
          · cases hr
          · cases hr; rfl
    rw [h6, ht, valueCounts_obs]
  · intro n reps conf skip draw out hout
    have := relDiag_rows f o nbins axes hsh hg (by rw [e]; exact hD) (by rw [e]; exact hDp)
      (fun bins c ids p t => relBootSlice ids p t bins n reps conf skip (draw c)) hout
    rw [e] at this
    obtain ⟨pp, pt, pc, tc, h1, h2⟩ := this
    refine ⟨pp, pt, pc, tc, h1, ?_⟩
    intro k hk
    obtain ⟨r, hr, -, -, -, h6⟩ := h2 k hk
    rw [h6, relBootSlice_true hr, valueCounts_obs]

/-- non-vacuity of the kept-axes statements: a 2×2 array sampled over axis 0 -/
example : ∃ (f : NDArr (Fl ℚ)) (o : NDArr Bool), f.shape = o.shape ∧ ProbsOK f ∧
    PlainAxes f.shape.length [0] ∧
    (∃ out, reliabilityDiagram f o 2 (some [0]) = .ok out) ∧
    (∃ out, reliabilityDiagramBoot f o 2 (some [0]) 2 2 (9/10) false (fun c b r j => c + b + r + j)
      = .ok out) := by
  refine ⟨⟨[2, 2], [some (1/10), some (2/10), some (9/10), some (8/10)], rfl⟩,
    ⟨[2, 2], [false, true, true, false], rfl⟩, rfl, ?_, ?_, ?_, ?_⟩
  · intro i hi
    rw [← mem_allIdx] at hi
    revert i
    decide +kernel
  · unfold PlainAxes; decide
  · obtain ⟨r, h, -⟩ := okAnd_iff.1 (show okAnd (reliabilityDiagram
      (⟨[2, 2], [some (1/10), some (2/10), some (9/10), some (8/10)], rfl⟩ : NDArr (Fl ℚ))
      ⟨[2, 2], [false, true, true, false], rfl⟩ 2 (some [0])) (fun _ => true) = true by decide +kernel)
    exact ⟨r, h⟩
  · obtain ⟨r, h, -⟩ := okAnd_iff.1 (show okAnd (reliabilityDiagramBoot
      (⟨[2, 2], [some (1/10), some (2/10), some (9/10), some (8/10)], rfl⟩ : NDArr (Fl ℚ))
      ⟨[2, 2], [false, true, true, false], rfl⟩ 2 (some [0]) 2 2 (9/10) false
      (fun c b r j => c + b + r + j)) (fun _ => true) = true by decide +kernel)
    exact ⟨r, h⟩

/-! ### C63 -/

theorem rel_single_ok {f : NDArr (Fl K)} {o : NDArr Bool} (hsh : f.shape = o.shape)
    (hp : ProbsOK f) {nbins : Nat} (hn : 1 ≤ nbins) (A k : List Nat) : ∃ s,
      reliabilityDiagram (vec (fiber f A k)) (vec (fiber o A k)) nbins none = .ok (.slice s) := by
  have := relDiag_vec (pairsAt f o A k) nbins (fun bins _ ids p t => relNoBootSlice ids p t bins)
  rw [relNoBootSlice_eq hn _ (pairsAt_ok hp o A k), pairsAt_fst, pairsAt_snd f o hsh] at this
  exact ⟨_, this⟩

/-- **C63.** When a call with kept axes succeeds, its rows at each kept position are what the call
on that position's samples alone (1-D arrays, all axes sampled) returns. -/
theorem C63_multi_equals_single_partial (f : NDArr (Fl K)) (o : NDArr Bool) (nbins : Nat)
    (axes : List Int) (hsh : f.shape = o.shape) (hax : PlainAxes f.shape.length axes)
    (hD : dropAxes (axes.map Int.toNat) f.shape ≠ [])
    (hDp : (dropAxes (axes.map Int.toNat) f.shape).prod ≠ 0)
    {out : RelOut (Fl K)} (hout : reliabilityDiagram f o nbins (some axes) = .ok out) :
    ∃ pp pt pc tc, out = .multi (dropAxes (axes.map Int.toNat) f.shape) pp pt pc tc ∧
      ∀ k, InB (dropAxes (axes.map Int.toNat) f.shape) k → ∃ s,
        reliabilityDiagram (vec (fiber f (axes.map Int.toNat) k))
          (vec (fiber o (axes.map Int.toNat) k)) nbins none = .ok (.slice s) ∧
        pp[ravel (dropAxes (axes.map Int.toNat) f.shape) k]? = some s.probPred ∧
        pt[ravel (dropAxes (axes.map Int.toNat) f.shape) k]? = some s.probTrue ∧
        pc[ravel (dropAxes (axes.map Int.toNat) f.shape) k]? = some (s.predCount.map Prod.snd) ∧
        tc[ravel (dropAxes (axes.map Int.toNat) f.shape) k]? = some (s.trueCount.map Prod.snd) := by
  have hg := goodAxes_nonneg hax.1 hax.2
  have e := axisNum_inj_nonneg (n := f.shape.length) (fun x hx => (hax.1 x hx).1)
  have := relDiag_rows f o nbins axes hsh hg (by rw [e]; exact hD) (by rw [e]; exact hDp)
    (fun bins _ ids p t => relNoBootSlice ids p t bins) hout
  rw [e] at this
  obtain ⟨pp, pt, pc, tc, h1, h2⟩ := this
  refine ⟨pp, pt, pc, tc, h1, ?_⟩
  intro k hk
  obtain ⟨r, hr, h3⟩ := h2 k hk
  refine ⟨r, ?_, h3⟩
  have := relDiag_vec (pairsAt f o (axes.map Int.toNat) k) nbins
    (fun bins _ ids p t => relNoBootSlice ids p t bins)
  rw [hr, pairsAt_fst, pairsAt_snd f o hsh] at this
  exact this

/-- **C63**, when the multi-position call succeeds: if every per-position call succeeds and they all
report the same number of non-empty bins and of observed classes. -/
theorem C63_multi_defined_partial (f : NDArr (Fl K)) (o : NDArr Bool) (nbins : Nat)
    (axes : List Int) (hsh : f.shape = o.shape) (hax : PlainAxes f.shape.length axes)
    (hD : dropAxes (axes.map Int.toNat) f.shape ≠ [])
    (hDp : (dropAxes (axes.map Int.toNat) f.shape).prod ≠ 0) (a b c d : Nat)
    (hall : ∀ k, InB (dropAxes (axes.map Int.toNat) f.shape) k → ∃ s,
        reliabilityDiagram (vec (fiber f (axes.map Int.toNat) k))
          (vec (fiber o (axes.map Int.toNat) k)) nbins none = .ok (.slice s) ∧
        s.probPred.length = a ∧ s.probTrue.length = b ∧ s.predCount.length = c ∧
        s.trueCount.length = d) :
    ∃ out, reliabilityDiagram f o nbins (some axes) = .ok out := by
  have hg := goodAxes_nonneg hax.1 hax.2
  have e := axisNum_inj_nonneg (n := f.shape.length) (fun x hx => (hax.1 x hx).1)
  have hm := relDiag_multi f o nbins axes hsh hg (by rw [e]; exact hD) (by rw [e]; exact hDp)
    (fun bins _ ids p t => relNoBootSlice ids p t bins)
  rw [e] at hm
  have hk : ∀ k ∈ allIdx (dropAxes (axes.map Int.toNat) f.shape), ∃ r,
      relNoBootSlice (idsOf nbins (pairsAt f o (axes.map Int.toNat) k))
        ((pairsAt f o (axes.map Int.toNat) k).map Prod.fst)
        ((pairsAt f o (axes.map Int.toNat) k).map Prod.snd) (relBins nbins) = .ok r ∧
      r.probPred.length = a ∧ r.probTrue.length = b ∧ r.predCount.length = c ∧
        r.trueCount.length = d := by
    intro k hk
    obtain ⟨s, hs, h⟩ := hall k (mem_allIdx.1 hk)
    refine ⟨s, ?_, h⟩
    have := relDiag_vec (pairsAt f o (axes.map Int.toNat) k) nbins
      (fun bins _ ids p t => relNoBootSlice ids p t bins)
    rw [pairsAt_fst, pairsAt_snd f o hsh] at this ⊢
    have hs' := this.symm.trans hs
    cases hr : relNoBootSlice (idsOf nbins (pairsAt f o (axes.map Int.toNat) k))
        (fiber f (axes.map Int.toNat) k) (fiber o (axes.map Int.toNat) k) (relBins nbins) with
    | error e => rw [hr] at hs'; cases hs'
    | ok r => rw [hr] at hs'; cases hs'; rfl
  obtain ⟨rs, hrs, hlen⟩ : ∃ rs, mapE (fun k =>
      relNoBootSlice (idsOf nbins (pairsAt f o (axes.map Int.toNat) k))
        ((pairsAt f o (axes.map Int.toNat) k).map Prod.fst)
        ((pairsAt f o (axes.map Int.toNat) k).map Prod.snd) (relBins nbins))
        (allIdx (dropAxes (axes.map Int.toNat) f.shape)) = .ok rs ∧
      ∀ r ∈ rs, r.probPred.length = a ∧ r.probTrue.length = b ∧ r.predCount.length = c ∧
        r.trueCount.length = d := by
    generalize allIdx (dropAxes (axes.map Int.toNat) f.shape) = l at hk
    clear hm hall
    induction l with
    | nil => exact ⟨[], rfl, by simp⟩
    | cons x l ih =>
      obtain ⟨rs, h1, h2⟩ := ih fun k h => hk k (by simp [h])
      obtain ⟨r, h3, h4⟩ := hk x (by simp)
      refine ⟨r :: rs, by simp only [mapE, h3, h1], ?_⟩
      intro q hq
      rcases List.mem_cons.1 hq with rfl | h'
      · exact h4
      · exact h2 q h'
  rw [hrs] at hm
  have key : ∀ {P : Type} (g : RelSlice (Fl K) → List P) (m : Nat), (∀ r ∈ rs, (g r).length = m) →
      stackRows (rs.map g) = .ok (rs.map g) := by
    intro P g m hgm
    apply stackRows_eq
    intro x hx y hy
    simp only [List.mem_map] at hx hy
    obtain ⟨x', hx', rfl⟩ := hx
    obtain ⟨y', hy', rfl⟩ := hy
    rw [hgm _ hx', hgm _ hy']
  simp only [bind, Except.bind] at hm
  rw [key (·.probPred) a fun r hr => (hlen r hr).1,
    key (·.probTrue) b fun r hr => (hlen r hr).2.1,
    key (fun r => r.predCount.map Prod.snd) c fun r hr => by simpa using (hlen r hr).2.2.1,
    key (fun r => r.trueCount.map Prod.snd) d fun r hr => by simpa using (hlen r hr).2.2.2] at hm
  exact ⟨_, hm⟩

/-- **C63** is false as stated: two positions that fill different numbers of bins make the
multi-position call raise although each position alone succeeds. -/
theorem C63_false : ∃ (f : NDArr (Fl ℚ)) (o : NDArr Bool), f.shape = o.shape ∧
    reliabilityDiagram f o 2 (some [0]) = .error .value ∧
    ∀ k, InB (dropAxes [0] f.shape) k → ∃ s,
      reliabilityDiagram (vec (fiber f [0] k)) (vec (fiber o [0] k)) 2 none = .ok (.slice s) := by
  refine ⟨⟨[2, 2], [some (1/10), some (2/10), some (9/10), some (3/10)], rfl⟩,
    ⟨[2, 2], [false, true, true, true], rfl⟩, rfl, ?_, ?_⟩
  · have : (match reliabilityDiagram (⟨[2, 2], [some (1/10), some (2/10), some (9/10), some (3/10)],
        rfl⟩ : NDArr (Fl ℚ)) ⟨[2, 2], [false, true, true, true], rfl⟩ 2 (some [0]) with
        | .error .value => true
        | _ => false) = true := by decide +kernel
    revert this
    cases reliabilityDiagram (⟨[2, 2], [some (1/10), some (2/10), some (9/10), some (3/10)],
        rfl⟩ : NDArr (Fl ℚ)) ⟨[2, 2], [false, true, true, true], rfl⟩ 2 (some [0]) with
    | ok r => simp
    | error e => cases e <;> simp
  · intro k hk
    refine rel_single_ok rfl ?_ (by omega) _ _
    intro i hi
    rw [← mem_allIdx] at hi
    revert i
    decide +kernel

/-- Counts of observations lose their labels when axes are kept: here the event always happened in the first column and
never in the second, and both counts read 2.  The call on one column alone labels them with 1 and with 0. -/
theorem C63_counts_false : ∃ (f : NDArr (Fl ℚ)) (o : NDArr Bool) (pp pt : List (List (Fl ℚ))) (pc : List (List Nat))
    (s s' : RelSlice (Fl ℚ)), reliabilityDiagram f o 1 (some [0]) = .ok (.multi [2] pp pt pc [[2], [2]]) ∧
    reliabilityDiagram (vec (fiber f [0] [0])) (vec (fiber o [0] [0])) 1 none = .ok (.slice s) ∧ s.trueCount = [(1, 2)] ∧
    reliabilityDiagram (vec (fiber f [0] [1])) (vec (fiber o [0] [1])) 1 none = .ok (.slice s') ∧
    s'.trueCount = [(0, 2)] := by
  have hm : ∀ (x : Except Err (RelOut (Fl ℚ))) (q : List (List Nat)), okAnd x (fun r => match r with
      | .multi keep _ _ _ tc => decide (keep = [2] ∧ tc = q)
      | _ => false) = true → ∃ pp pt pc, x = .ok (.multi [2] pp pt pc q) := by
    intro x q hx
    obtain ⟨r, rfl, hr⟩ := okAnd_iff.1 hx
    cases r with
    | slice s => simp at hr
    | multi keep pp pt pc tc =>
      simp only [decide_eq_true_eq] at hr
      obtain ⟨rfl, rfl⟩ := hr
      exact ⟨pp, pt, pc, rfl⟩
  have hs : ∀ (x : Except Err (RelOut (Fl ℚ))) (q : List (Int × Nat)), okAnd x (fun r => match r with
      | .slice s => decide (s.trueCount = q)
      | _ => false) = true → ∃ s, x = .ok (.slice s) ∧ s.trueCount = q := by
    intro x q hx
    obtain ⟨r, rfl, hr⟩ := okAnd_iff.1 hx
    cases r with
    | slice s => exact ⟨s, rfl, by simpa using hr⟩
    | multi keep pp pt pc tc => simp at hr
  let f : NDArr (Fl ℚ) := ⟨[2, 2], [some (1/2), some (1/2), some (1/2), some (1/2)], rfl⟩
  let o : NDArr Bool := ⟨[2, 2], [true, false, true, false], rfl⟩
  obtain ⟨pp, pt, pc, h1⟩ := hm (reliabilityDiagram f o 1 (some [0])) [[2], [2]] (by decide +kernel)
  obtain ⟨s, h2, h3⟩ := hs (reliabilityDiagram (vec (fiber f [0] [0])) (vec (fiber o [0] [0])) 1 none) [(1, 2)]
    (by decide +kernel)
  obtain ⟨s', h4, h5⟩ := hs (reliabilityDiagram (vec (fiber f [0] [1])) (vec (fiber o [0] [1])) 1 none) [(0, 2)]
    (by decide +kernel)
  exact ⟨f, o, pp, pt, pc, s, s', h1, h2, h3, h4, h5⟩

/-! ### C17 -/

/-- the probabilities of the pairs are numbers in `[0,1]` -/
def UnitProbs (P : List (Fl K × Bool)) : Prop := ∀ p ∈ P, ∃ v : K, p.1 = some v ∧ 0 ≤ v ∧ v ≤ 1

/-- **C17**, part 1: a probability in `[0,1]` lies in exactly one of the `nbins` bins
`edge b ≤ x < edge (b+1)`, `edge j = j (1 + 1e-8) / nbins`. -/
theorem C17_exactly_one_bin {nbins : Nat} (hn : 1 ≤ nbins) {x : K} (h0 : 0 ≤ x) (h1 : x ≤ 1) :
    ∃! b, b < nbins ∧ relEdge nbins b ≤ x ∧ x < relEdge nbins (b + 1) := by
  have hx : NonNegFl (some x : Fl K) := by rintro v ⟨⟩; exact h0
  obtain ⟨d0, d1⟩ := digit_range hn hx
  have hlast : x < relEdge nbins nbins := by
    unfold relEdge
    have hpos : (0 : K) < nbins := by exact_mod_cast hn
    rw [mul_div_cancel₀ _ hpos.ne']
    have : (0 : K) < 1 / 10 ^ 8 := by positivity
    linarith
  obtain ⟨b, hb⟩ : ∃ b : Nat, (digitize (relBins nbins) (some x : Fl K) : Int) - 1 = (b : Int) :=
    ⟨_, (Int.toNat_of_nonneg d0).symm⟩
  have hbin := (digit_iff hn hx b).1 hb
  simp only [inRelBin, Bool.and_eq_true, Bool.or_eq_true, decide_eq_true_eq] at hbin
  have hmono := relEdge_strictMono (K := K) hn
  refine ⟨b, ⟨?_, hbin.2.1, ?_⟩, ?_⟩
  · rcases Nat.lt_or_ge b nbins with h | h
    · exact h
    · exact absurd (lt_of_le_of_lt ((hmono.monotone h).trans hbin.2.1) hlast) (lt_irrefl _)
  · rcases hbin.2.2 with rfl | h
    · exact absurd (lt_of_le_of_lt hbin.2.1 hlast) (lt_irrefl _)
    · exact h
  · rintro c ⟨hc, hc1, hc2⟩
    have h2 : b < c + 1 := hmono.lt_iff_lt.1 (lt_of_le_of_lt hbin.2.1 hc2)
    have h3 : c < b + 1 := by
      rcases hbin.2.2 with rfl | h
      · omega
      · exact hmono.lt_iff_lt.1 (lt_of_le_of_lt hc1 h)
    omega

/-- **C17**, part 2: the diagram of a list of pairs, with the number of each non-empty bin (`bs`),
the counts (`cs`), the mean probabilities (`ps`) and the observed frequencies (`ts`). -/
theorem C17_partition (P : List (Fl K × Bool)) (nbins : Nat) (hn : 1 ≤ nbins) (hP : UnitProbs P) :
    ∃ (s : RelSlice (Fl K)) (bs cs : List Nat) (ps ts : List K),
      reliabilityDiagram (vec (P.map Prod.fst)) (vec (P.map Prod.snd)) nbins none = .ok (.slice s) ∧
      s.predCount = bs.zipWith (fun (b c : Nat) => ((b : Int), c)) cs ∧
      s.probPred = ps.map some ∧ s.probTrue = ts.map some ∧
      -- one entry per non-empty bin, in increasing order
      cs.length = bs.length ∧ ps.length = bs.length ∧ ts.length = bs.length ∧
      bs.Pairwise (· < ·) ∧
      (∀ b, b ∈ bs ↔ b < nbins ∧ ∃ p ∈ P, ∃ v, p.1 = some v ∧ relEdge nbins b ≤ v ∧
        v < relEdge nbins (b + 1)) ∧
      -- the counts sum to the number of samples
      cs.sum = P.length ∧
      -- each mean is inside its bin, each frequency is in [0,1], each count is positive
      (∀ (j b c : Nat) (p t : K), bs[j]? = some b → cs[j]? = some c → ps[j]? = some p →
        ts[j]? = some t →
        relEdge nbins b ≤ p ∧ p < relEdge nbins (b + 1) ∧ 0 ≤ t ∧ t ≤ 1 ∧ 0 < c) ∧
      -- the count-weighted means reproduce the overall sums
      ∃ xs : List K, P.map Prod.fst = xs.map some ∧
        (cs.zipWith (fun (c : Nat) (p : K) => (c : K) * p) ps).sum = xs.sum ∧
        (cs.zipWith (fun (c : Nat) (t : K) => (c : K) * t) ts).sum =
          ((P.countP fun p => p.2 : Nat) : K) := by
  have hok : ∀ p ∈ P, NonNegFl p.1 := by
    intro p hp v hv
    obtain ⟨w, hw, h0, -⟩ := hP p hp
    rw [hw] at hv; cases hv; exact h0
  have hrun := relDiag_vec P nbins (fun bins _ ids p t => relNoBootSlice ids p t bins)
  rw [relNoBootSlice_eq hn P hok] at hrun
  -- values of the pairs
  let val : Fl K × Bool → K := fun p => p.1.getD 0
  have hval : ∀ p ∈ P, p.1 = some (val p) := by
    intro p hp
    obtain ⟨w, hw, -⟩ := hP p hp
    simp [val, hw]
  have hg : ∀ b, ∀ p ∈ relGroup nbins b P, p ∈ P := fun b p hp => (List.mem_filter.1 hp).1
  have hne : ∀ b ∈ relNonEmpty nbins P, b ≤ nbins ∧ relGroup nbins b P ≠ [] := by
    intro b hb
    simp only [relNonEmpty, List.mem_filter, List.mem_range, decide_eq_true_eq] at hb
    exact ⟨by omega, hb.2⟩
  have hin : ∀ b ≤ nbins, ∀ p ∈ relGroup nbins b P,
      b < nbins ∧ relEdge nbins b ≤ val p ∧ val p < relEdge nbins (b + 1) := by
    intro b hb p hp
    obtain ⟨w, hw, h0, h1⟩ := hP p (hg b p hp)
    obtain ⟨c, ⟨hc, hc1, hc2⟩, -⟩ := C17_exactly_one_bin hn h0 h1
    have h2 := (List.mem_filter.1 hp).2
    rw [hw] at h2
    simp only [inRelBin, Bool.and_eq_true, Bool.or_eq_true, decide_eq_true_eq] at h2
    have hmono := relEdge_strictMono (K := K) hn
    have h3 : b < c + 1 := hmono.lt_iff_lt.1 (lt_of_le_of_lt h2.1 hc2)
    have h4 : b < nbins := by omega
    refine ⟨h4, by simp [val, hw, h2.1], ?_⟩
    rcases h2.2 with h | h
    · omega
    · simpa [val, hw] using h
  have hfst : ∀ b ∈ relNonEmpty nbins P, mean ((relGroup nbins b P).map Prod.fst) =
      some (((relGroup nbins b P).map val).sum / ((relGroup nbins b P).length : K)) := by
    intro b hb
    have : (relGroup nbins b P).map Prod.fst = ((relGroup nbins b P).map val).map some := by
      rw [List.map_map]
      exact List.map_congr_left fun p hp => hval p (hg b p hp)
    rw [this, mean_some _ (by simpa using (hne b hb).2), List.length_map]
  let iv : Fl K × Bool → K := fun p => if p.2 then 1 else 0
  have hsnd : ∀ b ∈ relNonEmpty nbins P, mean ((relGroup nbins b P).map fun p => (ind p.2 : Fl K)) =
      some (((relGroup nbins b P).map iv).sum / ((relGroup nbins b P).length : K)) := by
    intro b hb
    have : (relGroup nbins b P).map (fun p => (ind p.2 : Fl K)) =
        ((relGroup nbins b P).map iv).map some := by
      rw [List.map_map]; rfl
    rw [this, mean_some _ (by simpa using (hne b hb).2), List.length_map]
  have hpart : ∀ {M : Type} [AddCommMonoid M] (g : Fl K × Bool → M),
      ((relNonEmpty nbins P).map fun b => ((relGroup nbins b P).map g).sum).sum = (P.map g).sum := by
    intro M _ g
    exact sum_relGroups hn hok g
  refine ⟨_, relNonEmpty nbins P, (relNonEmpty nbins P).map fun b => (relGroup nbins b P).length,
    (relNonEmpty nbins P).map fun b => ((relGroup nbins b P).map val).sum / ((relGroup nbins b P).length : K),
    (relNonEmpty nbins P).map fun b => ((relGroup nbins b P).map iv).sum / ((relGroup nbins b P).length : K),
    hrun, ?_, ?_, ?_, by simp, by simp, by simp, relNonEmpty_sorted nbins P, ?_, ?_, ?_,
    P.map val, ?_, ?_, ?_⟩
  · simp only [List.zipWith_map_right, List.zipWith_self]
  · exact (List.map_congr_left hfst).trans (by rw [List.map_map]; rfl)
  · exact (List.map_congr_left hsnd).trans (by rw [List.map_map]; rfl)
  · intro b
    constructor
    · intro hb
      obtain ⟨h1, h2⟩ := hne b hb
      obtain ⟨p, hp⟩ := List.exists_mem_of_ne_nil _ h2
      obtain ⟨h3, h4, h5⟩ := hin b h1 p hp
      exact ⟨h3, p, hg b p hp, val p, hval p (hg b p hp), h4, h5⟩
    · rintro ⟨h1, p, hp, v, hv, h2, h3⟩
      simp only [relNonEmpty, List.mem_filter, List.mem_range, decide_eq_true_eq]
      refine ⟨by omega, List.ne_nil_of_mem (a := p) ?_⟩
      simp only [relGroup, List.mem_filter]
      refine ⟨hp, ?_⟩
      rw [hv]
      simp [inRelBin, h2, h3]
  · have := hpart (fun _ => (1 : Nat))
    simpa using this
  · intro j b c p t hb hc hp ht
    simp only [List.getElem?_map, hb, Option.map_some, Option.some.injEq] at hc hp ht
    subst hc hp ht
    have hmem := List.mem_of_getElem? hb
    obtain ⟨h1, h2⟩ := hne b hmem
    have hpos : 0 < (relGroup nbins b P).length := List.length_pos_iff.2 h2
    have hposK : (0 : K) < (relGroup nbins b P).length := by exact_mod_cast hpos
    obtain ⟨m1, -⟩ := mean_bounds (l := (relGroup nbins b P).map val) (by simpa using h2)
      (lo := relEdge nbins b) (hi := relEdge nbins (b + 1)) (by
        intro x hx
        obtain ⟨p, hp, rfl⟩ := List.mem_map.1 hx
        obtain ⟨-, h4, h5⟩ := hin b h1 p hp
        exact ⟨h4, h5.le⟩)
    obtain ⟨m2, m3⟩ := mean_bounds (l := (relGroup nbins b P).map iv) (by simpa using h2)
      (lo := 0) (hi := 1) (by
        intro x hx
        obtain ⟨p, hp, rfl⟩ := List.mem_map.1 hx
        simp only [iv]; split <;> simp)
    rw [List.length_map] at m1 m2 m3
    refine ⟨m1, ?_, m2, m3, hpos⟩
    rw [div_lt_iff₀ hposK]
    have := sum_lt_of_forall_lt (l := (relGroup nbins b P).map val) (by simpa using h2)
      (hi := relEdge nbins (b + 1)) (by
        intro x hx
        obtain ⟨p, hp, rfl⟩ := List.mem_map.1 hx
        exact (hin b h1 p hp).2.2)
    rw [List.length_map] at this
    linarith [mul_comm (relEdge nbins (b + 1) : K) ((relGroup nbins b P).length : K)]
  · rw [List.map_map]; exact List.map_congr_left fun p hp => hval p hp
  · rw [← hpart val, List.zipWith_map_left, List.zipWith_map_right, List.zipWith_self]
    congr 1
    apply List.map_congr_left
    intro b hb
    have hposK : ((relGroup nbins b P).length : K) ≠ 0 := by
      have := List.length_pos_iff.2 (hne b hb).2
      exact_mod_cast this.ne'
    field_simp
  · have h1 : (P.map iv).sum = ((P.countP fun p => p.2 : Nat) : K) := by
      simp only [iv]
      clear * -
      induction P with
      | nil => simp
      | cons p P ih =>
        rw [List.map_cons, List.sum_cons, ih, List.countP_cons]
        cases p.2 <;> simp [add_comm]
    rw [← h1, ← hpart iv, List.zipWith_map_left, List.zipWith_map_right, List.zipWith_self]
    congr 1
    apply List.map_congr_left
    intro b hb
    have hposK : ((relGroup nbins b P).length : K) ≠ 0 := by
      have := List.length_pos_iff.2 (hne b hb).2
      exact_mod_cast this.ne'
    field_simp

/-- **C17** for a general call: with all axes sampled the result is that of the list of pairs, so
`C17_partition` applies; with kept axes use `C63_multi_equals_single_partial`. -/
theorem C17_general_call (f : NDArr (Fl K)) (o : NDArr Bool) (nbins : Nat) (axes : List Int)
    (hsh : f.shape = o.shape) (hax : PlainAxes f.shape.length axes)
    (hD : dropAxes (axes.map Int.toNat) f.shape = []) :
    reliabilityDiagram f o nbins (some axes) =
      reliabilityDiagram (vec ((pairsAt f o (axes.map Int.toNat) []).map Prod.fst))
        (vec ((pairsAt f o (axes.map Int.toNat) []).map Prod.snd)) nbins none := by
  have hg := goodAxes_nonneg hax.1 hax.2
  have e := axisNum_inj_nonneg (n := f.shape.length) (fun x hx => (hax.1 x hx).1)
  have h1 := relDiag_slice f o nbins axes hsh hg (by rw [e]; exact hD)
    (fun bins _ ids p t => relNoBootSlice ids p t bins)
  have h2 := relDiag_vec (pairsAt f o (axes.map Int.toNat) []) nbins
    (fun bins _ ids p t => relNoBootSlice ids p t bins)
  rw [e] at h1
  exact h1.trans h2.symm

example : UnitProbs ([(some (1/10), false), (some 1, true)] : List (Fl ℚ × Bool)) := by
  intro p hp
  simp only [List.mem_cons, List.not_mem_nil, or_false] at hp
  rcases hp with rfl | rfl
  · exact ⟨1/10, rfl, by norm_num, by norm_num⟩
  · exact ⟨1, rfl, by norm_num, by norm_num⟩

end Props
