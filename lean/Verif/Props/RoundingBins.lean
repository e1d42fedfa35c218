import Verif.Lemmas.RoundingBins
import Verif.Lemmas.RelMulti
import Verif.Props.RoundingError
import Verif.Props.Reliability

/-!
# Reliability diagrams in rounded arithmetic: C104
-/

set_option linter.unusedSectionVars false

namespace Props
open Np NDArr Spec Model Lemmas

variable {K : Type} [Field K] [LinearOrder K] [IsStrictOrderedRing K] [FloorSemiring K] {R : Rounding K} {u : K}

/-- how often the event did not happen (label 0) and how often it did (label 1), leaving out zeros -/
def obsTable (P : List (Nat × Bool)) : List (Int × Nat) :=
  (if P.length - hits P = 0 then [] else [(0, P.length - hits P)]) ++ (if hits P = 0 then [] else [(1, hits P)])

/-- what the diagram of the forecasts `P` by `m` members must be: one entry for every bin `(b/n, (b+1)/n]` in use; the
counts are exact, the frequencies are the nearest machine numbers, and the mean forecasts are in `[0,1]` and accurate -/
def IsFracCurve (R : Rounding K) (u : K) (n m : Nat) (P : List (Nat × Bool)) (s : RelSlice (Fl K)) : Prop :=
  s.predCount = ((fracNonEmpty n m P).map fun (b : Nat) => ((b : Int), (fracGroup n m b P).length)) ∧
  s.probTrue = ((fracNonEmpty n m P).map fun b =>
    some (R.rnd ((hits (fracGroup n m b P) : K) / ((fracGroup n m b P).length : K)))) ∧
  s.trueCount = obsTable P ∧
  List.Forall₂ (fun b w => ∃ v, w = some v ∧ 0 ≤ v ∧ v ≤ 1 ∧
    |v - (((fracGroup n m b P).map fun p => (p.1 : K) / m).sum) / ((fracGroup n m b P).length : K)| ≤
      ((1 + u) ^ ((fracGroup n m b P).length + 1) - 1) + 8 * u) (fracNonEmpty n m P) s.probPred

/-- `x` is the machine number of the probability given by `k` of `m` members -/
def IsMemberProb (u : K) (m k : Nat) (x : Fl K) : Prop :=
  k ≤ m ∧ ∃ v, x = some v ∧ 0 ≤ v ∧ v ≤ 1 ∧ |v - (k : K) / m| ≤ 8 * u

theorem obsTable_eq {ι : Type} (L : List ι) (k : ι → Nat) (e : ι → Bool) (x : ι → Fl K) :
    obsCounts (L.map fun i => (x i, e i)) = obsTable (L.map fun i => (k i, e i)) := by
  have h1 : ((L.map fun i => (x i, e i)).filter fun p => p.2).length = hits (L.map fun i => (k i, e i)) := by
    simp only [hits, ← List.countP_eq_length_filter, List.countP_map]
    rfl
  have h2 : ((L.map fun i => (x i, e i)).filter fun p => !p.2).length =
      (L.map fun i => (k i, e i)).length - hits (L.map fun i => (k i, e i)) := by
    have h := List.length_eq_countP_add_countP (fun p : Fl K × Bool => p.2) (l := L.map fun i => (x i, e i))
    have h3 : (L.map fun i => (x i, e i)).countP (fun p => decide ¬ p.2 = true) =
        ((L.map fun i => (x i, e i)).filter fun p => !p.2).length := by
      rw [← List.countP_eq_length_filter]
      apply List.countP_congr
      intro p _
      simp
    rw [h3, List.countP_eq_length_filter, h1] at h
    simp only [List.length_map] at h ⊢
    omega
  unfold obsCounts obsTable
  rw [h1, h2]

/-- the bins in use -/
def inUse {ι : Type} (L : List ι) (B : ι → Nat → Prop) [∀ i c, Decidable (B i c)] (n : Nat) : List Nat :=
  (List.range n).filter fun b => (L.filter fun i => B i b) ≠ []

/-- what a diagram is for the samples `L` when `B i b` says that sample `i` is in bin `b`: samples observed `e i`, with
the forecast `a i` up to `δ` -/
def IsCurve {ι : Type} (R : Rounding K) (u : K) (n : Nat) (L : List ι) (B : ι → Nat → Prop) [∀ i c, Decidable (B i c)]
    (e : ι → Bool) (a : ι → K) (δ : K) (s : RelSlice (Fl K)) : Prop :=
  s.predCount = ((inUse L B n).map fun (b : Nat) => ((b : Int), (L.filter fun i => B i b).length)) ∧
  s.probTrue = ((inUse L B n).map fun b =>
    some (R.rnd (((L.filter fun i => B i b).countP e : K) / ((L.filter fun i => B i b).length : K)))) ∧
  List.Forall₂ (fun b w => ∃ v, w = some v ∧ 0 ≤ v ∧ v ≤ 1 ∧
    |v - ((L.filter fun i => B i b).map a).sum / ((L.filter fun i => B i b).length : K)| ≤
      ((1 + u) ^ ((L.filter fun i => B i b).length + 1) - 1) + δ) (inUse L B n) s.probPred

/-- a slice, in terms of the edges -/
theorem curve_slice (hR : Accurate R u) {n : Nat} (hF : Fine u n) {ι : Type} (L : List ι) (hsz : L.length ≤ R.size)
    (B : ι → Nat → Prop) [∀ i c, Decidable (B i c)] (e : ι → Bool) (x : ι → Fl K) (a : ι → K) (δ : K)
    (h : ∀ i ∈ L, ∃ v, x i = some v ∧ 0 ≤ v ∧ v ≤ 1 ∧ |v - a i| ≤ δ ∧
      ∀ c, c < n → (B i c ↔ edgeR R n c ≤ v ∧ v < edgeR R n (c + 1))) :
    ∃ s, relSliceR R n (L.map x) (L.map e) = .ok s ∧ IsCurve R u n L B e a δ s ∧
      s.trueCount = valueCounts ((L.map e).map b2i) := by
  set Q : List (Fl K × Bool) := L.map fun i => (x i, e i) with hQ
  set β : Fl K × Bool → Nat := fun q =>
    match digitizeR (relBinsR R n) q.1 with
    | .ok c => c - 1
    | .error _ => 0 with hβdef
  have hbin : ∀ i ∈ L, β (x i, e i) < n ∧ digitizeR (relBinsR R n) (x i) = .ok (β (x i, e i) + 1) ∧
      ∀ c, c < n → (B i c ↔ β (x i, e i) = c) := by
    intro i hi
    obtain ⟨v, hx, h0, h1, hv, hB⟩ := h i hi
    obtain ⟨b, hb, hd, hiff⟩ := digitizeR_bin hR hF h0 h1
    have hβ : β (x i, e i) = b := by simp [hβdef, hx, hd]
    rw [hβ]
    refine ⟨hb, by rw [hx]; exact hd, fun c hc => ?_⟩
    rw [hB c hc, hiff c hc.le, ← not_le, hiff (c + 1) hc]
    omega
  have hβ : ∀ q ∈ Q, β q < n := by
    intro q hq
    obtain ⟨i, hi, rfl⟩ := List.mem_map.1 hq
    exact (hbin i hi).1
  have hd : ∀ q ∈ Q, digitizeR (relBinsR R n) q.1 = .ok (β q + 1) := by
    intro q hq
    obtain ⟨i, hi, rfl⟩ := List.mem_map.1 hq
    exact (hbin i hi).2.1
  have hs := relSliceR_grp hF.1 hβ hd
  have eQ1 : Q.map Prod.fst = L.map x := by rw [hQ, List.map_map]; rfl
  have eQ2 : Q.map Prod.snd = L.map e := by rw [hQ, List.map_map]; rfl
  -- the groups correspond
  have hG : ∀ b, b < n → binGrp β Q b = (L.filter fun i => B i b).map fun i => (x i, e i) := by
    intro b hb
    simp only [binGrp, hQ, List.filter_map]
    congr 1
    apply List.filter_congr
    intro i hi
    simp only [Function.comp_apply, (hbin i hi).2.2 b hb]
  have hlen : ∀ b, b < n → (binGrp β Q b).length = (L.filter fun i => B i b).length := by
    intro b hb; rw [hG b hb]; simp
  have hU : usedBins β Q n = inUse L B n := by
    unfold usedBins inUse
    apply List.filter_congr
    intro b hb
    simp only [List.mem_range] at hb
    have := hlen b hb
    simp only [ne_eq, ← List.length_eq_zero_iff, this]
  have hmemU : ∀ b ∈ inUse L B n, b < n ∧ (L.filter fun i => B i b) ≠ [] := by
    intro b hb
    simpa only [inUse, List.mem_filter, List.mem_range, decide_eq_true_eq] using hb
  rw [eQ1, eQ2] at hs
  refine ⟨_, hs, ⟨?_, ?_, ?_⟩, rfl⟩
  · simp only [hU]
    apply List.map_congr_left
    intro b hb
    rw [hlen b (hmemU b hb).1]
  · simp only [hU]
    apply List.map_congr_left
    intro b hb
    have hb' := (hmemU b hb).1
    have hle : (binGrp β Q b).length ≤ R.size := by
      refine le_trans (List.length_filter_le _ _) ?_
      simpa [hQ] using hsz
    have h1 := foldl_hits (R := R) ((binGrp β Q b).map Prod.snd) 0 (by simpa using hle)
    rw [List.map_map, Nat.cast_zero, Nat.zero_add] at h1
    rw [h1, hlen b hb']
    simp only [rop]
    congr 4
    rw [hG b hb', List.map_map, List.countP_map]
    rfl
  · simp only [hU]
    rw [List.forall₂_map_right_iff, List.forall₂_same]
    intro b hb
    obtain ⟨hb', hne⟩ := hmemU b hb
    have e1 : (binGrp β Q b).map Prod.fst = (L.filter fun i => B i b).map x := by rw [hG b hb', List.map_map]; rfl
    rw [e1, hlen b hb']
    have hIL : ∀ i ∈ L.filter (fun i => B i b), i ∈ L := fun i hi => (List.mem_filter.1 hi).1
    have hIl : (L.filter fun i => B i b).length ≤ R.size := (List.length_filter_le _ _).trans hsz
    generalize (L.filter fun i => B i b) = I at hne hIL hIl
    have hIne : I.length ≠ 0 := by simpa using hne
    have hIpos : (0 : K) < I.length := by exact_mod_cast Nat.pos_of_ne_zero hIne
    have hval : ∀ i ∈ I, ∃ v, x i = some v ∧ 0 ≤ v ∧ v ≤ 1 ∧ |v - a i| ≤ δ := fun i hi => by
      obtain ⟨v, h1, h2, h3, h4, -⟩ := h i (hIL i hi)
      exact ⟨v, h1, h2, h3, h4⟩
    have hx : I.map x = (I.map fun i => (x i).getD 0).map some := by
      rw [List.map_map]
      apply List.map_congr_left
      intro i hi
      obtain ⟨v, hv, -⟩ := hval i hi
      simp [hv]
    obtain ⟨w, w1, w2, w3, w4⟩ := foldl_unit hR (L := I.map fun i => (x i).getD 0) (by
      intro y hy
      obtain ⟨i, hi, rfl⟩ := List.mem_map.1 hy
      obtain ⟨v, hv, h0, h1, -⟩ := hval i hi
      rw [hv]; exact ⟨h0, h1⟩) 0 0 0 0 ⟨by simp, by simp⟩ le_rfl (by simp) (by simpa using hIl)
    rw [hx, w1]
    simp only [List.length_map, zero_add] at w3 w4
    have hq0 : 0 ≤ w / I.length := div_nonneg w2 hIpos.le
    have hq1 : w / I.length ≤ 1 := (div_le_one hIpos).2 (by simpa using w3)
    have hsz0 : 0 < R.size := by omega
    have hunit := rnd_unit R hsz0 hq0 hq1
    refine ⟨R.rnd (w / I.length), rfl, hunit.1, hunit.2, ?_⟩
    have hc := ((w4.div hIpos).rnd hR)
    have hsum : (I.map fun i => (x i).getD 0).sum / (I.length : K) ≤ 1 := by
      rw [div_le_one hIpos]
      have : ∀ y ∈ I.map (fun i => (x i).getD 0), y ≤ (1 : K) := by
        intro y hy
        obtain ⟨i, hi, rfl⟩ := List.mem_map.1 hy
        obtain ⟨v, hv, h0, h1, -⟩ := hval i hi
        rw [hv]; exact h1
      have := List.sum_le_card_nsmul _ _ this
      simpa using this
    have hdiff : |(I.map fun i => (x i).getD 0).sum / (I.length : K) - (I.map a).sum / I.length| ≤ δ := by
      rw [← sub_div, abs_div, abs_of_pos hIpos, div_le_iff₀ hIpos]
      have key : ∀ J : List ι, (∀ i ∈ J, i ∈ I) →
          |(J.map fun i => (x i).getD 0).sum - (J.map a).sum| ≤ δ * J.length := by
        intro J hJ
        induction J with
        | nil => simp
        | cons i J ih =>
          have h1 := ih fun j hj => hJ j (by simp [hj])
          obtain ⟨v, hv, -, -, h2⟩ := hval i (hJ i (by simp))
          simp only [List.map_cons, List.sum_cons, List.length_cons, Nat.cast_add, Nat.cast_one, hv, Option.getD_some]
          rw [abs_le] at h1 h2 ⊢
          constructor <;> linarith [h1.1, h1.2, h2.1, h2.2]
      exact key I fun _ hi => hi
    have hc2 : |R.rnd (w / I.length) - (I.map fun i => (x i).getD 0).sum / (I.length : K)| ≤ (1 + u) ^ (I.length + 1) - 1 := by
      refine hc.2.trans ?_
      have : 0 ≤ (1 + u) ^ (I.length + 1) - 1 := by linarith [one_le hR.1 (I.length + 1)]
      calc _ ≤ ((1 + u) ^ (I.length + 1) - 1) * 1 := mul_le_mul_of_nonneg_left hsum this
        _ = _ := mul_one _
    rw [abs_le] at hdiff hc2 ⊢
    constructor <;> linarith [hdiff.1, hdiff.2, hc2.1, hc2.2]

/-- the slice of forecasts by `m` members -/
theorem frac_slice (hR : Accurate R u) {n m : Nat} (hF : Fine u n) (hm : 1 ≤ m) (hmn : m * n ≤ 10 ^ 7) {ι : Type}
    (L : List ι) (hsz : L.length ≤ R.size) (k : ι → Nat) (e : ι → Bool) (x : ι → Fl K)
    (h : ∀ i ∈ L, IsMemberProb u m (k i) (x i)) :
    ∃ s, relSliceR R n (L.map x) (L.map e) = .ok s ∧ IsFracCurve R u n m (L.map fun i => (k i, e i)) s := by
  obtain ⟨s, h1, ⟨h2, h3, h4⟩, h5⟩ := curve_slice hR hF L hsz (fun i b => FracBin n m (k i) b) e x
    (fun i => (k i : K) / m) (8 * u) (by
      intro i hi
      obtain ⟨hk, v, hx, h0, h1, hv⟩ := h i hi
      refine ⟨v, hx, h0, h1, hv, ?_⟩
      obtain ⟨b, hb, -, hiff⟩ := digitizeR_bin hR hF h0 h1
      intro c hc
      rw [bin_frac hk hb (fun j hj => (edge_frac hR hF hm hmn h0 hv hj).symm.trans (hiff j hj)) c hc,
        hiff c hc.le, ← not_le, hiff (c + 1) hc]
      omega)
  have hH : ∀ b, fracGroup n m b (L.map fun i => (k i, e i)) =
      (L.filter fun i => FracBin n m (k i) b).map fun i => (k i, e i) := by
    intro b
    simp only [fracGroup, List.filter_map]
    rfl
  have hU : inUse L (fun i b => FracBin n m (k i) b) n = fracNonEmpty n m (L.map fun i => (k i, e i)) := by
    unfold inUse fracNonEmpty
    apply List.filter_congr
    intro b _
    rw [hH b]
    simp
  have hlen : ∀ b, (fracGroup n m b (L.map fun i => (k i, e i))).length = (L.filter fun i => FracBin n m (k i) b).length := by
    intro b; rw [hH b, List.length_map]
  refine ⟨s, h1, ?_, ?_, ?_, ?_⟩
  · rw [h2, hU]
    simp only [hlen]
  · rw [h3, hU]
    apply List.map_congr_left
    intro b _
    rw [hlen b, hH b]
    simp only [hits, List.countP_map]
    rfl
  · rw [h5]
    have := valueCounts_obs (L.map fun i => (x i, e i))
    rw [← obsTable_eq L k e x, ← this]
    simp only [List.map_map]
    rfl
  · rw [hU] at h4
    refine h4.imp ?_
    intro b w hw
    rw [hlen b, hH b, List.map_map]
    exact hw

/-- **C104**, all axes sampled: the rounded diagram of the probabilities given by `m` members. -/
theorem C104_all (hR : Accurate R u) {n m : Nat} (hF : Fine u n) (hm : 1 ≤ m) (hmn : m * n ≤ 10 ^ 7)
    (f : NDArr (Fl K)) (o : NDArr Bool) (axes : List Int) (hsh : f.shape = o.shape)
    (hax : PlainAxes f.shape.length axes) (hD : dropAxes (axes.map Int.toNat) f.shape = []) (hsz : f.shape.prod ≤ R.size)
    (k : List Nat → Nat) (hf : ∀ i, InB f.shape i → IsMemberProb u m (k i) (f.get i)) :
    ∃ s, reliabilityDiagramR R f o n (some axes) = .ok (.slice s) ∧
      IsFracCurve R u n m ((fiberIdx f.shape (axes.map Int.toNat) []).map fun i => (k i, o.get i)) s := by
  have hg := goodAxes_nonneg hax.1 hax.2
  have e := axisNum_inj_nonneg (n := f.shape.length) (fun x hx => (hax.1 x hx).1)
  have := relDiag_slice f o n axes hsh hg (by rw [e]; exact hD) (fun _ _ _ p t => relSliceR R n p t)
  rw [e] at this
  have hsz' : (fiberIdx f.shape (axes.map Int.toNat) []).length ≤ R.size := by
    refine (List.length_filter_le _ _).trans ?_
    rw [length_allIdx]; exact hsz
  obtain ⟨s, h1, h2⟩ := frac_slice hR hF hm hmn (fiberIdx f.shape (axes.map Int.toNat) []) hsz' k o.get f.get
    fun i hi => hf i (mem_allIdx.1 (List.mem_filter.1 hi).1)
  have e1 : (pairsAt f o (axes.map Int.toNat) []).map Prod.fst = (fiberIdx f.shape (axes.map Int.toNat) []).map f.get := by
    unfold pairsAt; rw [List.map_map]; rfl
  have e2 : (pairsAt f o (axes.map Int.toNat) []).map Prod.snd = (fiberIdx f.shape (axes.map Int.toNat) []).map o.get := by
    unfold pairsAt; rw [List.map_map]; rfl
  rw [e1, e2, h1] at this
  exact ⟨s, this, h2⟩

/-- **C104**, kept axes: the row of a kept position is the diagram of the forecasts there. -/
theorem C104_kept (hR : Accurate R u) {n m : Nat} (hF : Fine u n) (hm : 1 ≤ m) (hmn : m * n ≤ 10 ^ 7)
    (f : NDArr (Fl K)) (o : NDArr Bool) (axes : List Int) (hsh : f.shape = o.shape)
    (hax : PlainAxes f.shape.length axes) (hD : dropAxes (axes.map Int.toNat) f.shape ≠ [])
    (hDp : (dropAxes (axes.map Int.toNat) f.shape).prod ≠ 0) (hsz : f.shape.prod ≤ R.size)
    (k : List Nat → Nat) (hf : ∀ i, InB f.shape i → IsMemberProb u m (k i) (f.get i)) {out : RelOut (Fl K)}
    (hout : reliabilityDiagramR R f o n (some axes) = .ok out) :
    ∃ pp pt pc tc, out = .multi (dropAxes (axes.map Int.toNat) f.shape) pp pt pc tc ∧
      ∀ j, InB (dropAxes (axes.map Int.toNat) f.shape) j → ∃ s : RelSlice (Fl K),
        pp[ravel (dropAxes (axes.map Int.toNat) f.shape) j]? = some s.probPred ∧
        pt[ravel (dropAxes (axes.map Int.toNat) f.shape) j]? = some s.probTrue ∧
        pc[ravel (dropAxes (axes.map Int.toNat) f.shape) j]? = some (s.predCount.map Prod.snd) ∧
        tc[ravel (dropAxes (axes.map Int.toNat) f.shape) j]? = some (s.trueCount.map Prod.snd) ∧
        IsFracCurve R u n m ((fiberIdx f.shape (axes.map Int.toNat) j).map fun i => (k i, o.get i)) s := by
  have hg := goodAxes_nonneg hax.1 hax.2
  have e := axisNum_inj_nonneg (n := f.shape.length) (fun x hx => (hax.1 x hx).1)
  have := relDiag_rows f o n axes hsh hg (by rw [e]; exact hD) (by rw [e]; exact hDp)
    (fun _ _ _ p t => relSliceR R n p t) hout
  rw [e] at this
  obtain ⟨pp, pt, pc, tc, h1, h2⟩ := this
  refine ⟨pp, pt, pc, tc, h1, fun j hj => ?_⟩
  obtain ⟨r, hr, h3, h4, h5, h6⟩ := h2 j hj
  have hsz' : (fiberIdx f.shape (axes.map Int.toNat) j).length ≤ R.size := by
    refine (List.length_filter_le _ _).trans ?_
    rw [length_allIdx]; exact hsz
  obtain ⟨s, g1, g2⟩ := frac_slice hR hF hm hmn (fiberIdx f.shape (axes.map Int.toNat) j) hsz' k o.get f.get
    fun i hi => hf i (mem_allIdx.1 (List.mem_filter.1 hi).1)
  have e1 : (pairsAt f o (axes.map Int.toNat) j).map Prod.fst = (fiberIdx f.shape (axes.map Int.toNat) j).map f.get := by
    unfold pairsAt; rw [List.map_map]; rfl
  have e2 : (pairsAt f o (axes.map Int.toNat) j).map Prod.snd = (fiberIdx f.shape (axes.map Int.toNat) j).map o.get := by
    unfold pairsAt; rw [List.map_map]; rfl
  rw [e1, e2, g1] at hr
  obtain rfl : s = r := Except.ok.inj hr
  exact ⟨s, h3, h4, h5, h6, g2⟩

/-- **C104**: any probabilities in `[0,1]`.  The rounded edges increase from zero to above one and are within seven
roundings of the equidistant ones, so that `np.digitize` never raises and every probability has its bin; the counts are
those of the bins, the frequencies are the nearest machine numbers, and the mean forecasts stay in `[0,1]`. -/
theorem C104_general (hR : Accurate R u) {n : Nat} (hF : Fine u n) (f : NDArr (Fl K)) (o : NDArr Bool) (axes : List Int)
    (hsh : f.shape = o.shape) (hax : PlainAxes f.shape.length axes) (hD : dropAxes (axes.map Int.toNat) f.shape = [])
    (hsz : f.shape.prod ≤ R.size) (v : List Nat → K)
    (hf : ∀ i, InB f.shape i → f.get i = some (v i) ∧ 0 ≤ v i ∧ v i ≤ 1) :
    ∃ (E : Nat → K) (s : RelSlice (Fl K)), E 0 = 0 ∧ (∀ i, i < n → E i < E (i + 1)) ∧ 1 < E n ∧
      (∀ i, i ≤ n → |E i - relEdge n i| ≤ 7 * u) ∧
      reliabilityDiagramR R f o n (some axes) = .ok (.slice s) ∧
      IsCurve R u n (fiberIdx f.shape (axes.map Int.toNat) []) (fun i b => E b ≤ v i ∧ v i < E (b + 1)) o.get v 0 s := by
  have hg := goodAxes_nonneg hax.1 hax.2
  have e := axisNum_inj_nonneg (n := f.shape.length) (fun x hx => (hax.1 x hx).1)
  have := relDiag_slice f o n axes hsh hg (by rw [e]; exact hD) (fun _ _ _ p t => relSliceR R n p t)
  rw [e] at this
  have hsz' : (fiberIdx f.shape (axes.map Int.toNat) []).length ≤ R.size := by
    refine (List.length_filter_le _ _).trans ?_
    rw [length_allIdx]; exact hsz
  obtain ⟨s, h1, h2, -⟩ := curve_slice hR hF (fiberIdx f.shape (axes.map Int.toNat) []) hsz'
    (fun i b => edgeR R n b ≤ v i ∧ v i < edgeR R n (b + 1)) o.get f.get v 0 (by
      intro i hi
      obtain ⟨g1, g2, g3⟩ := hf i (mem_allIdx.1 (List.mem_filter.1 hi).1)
      exact ⟨v i, g1, g2, g3, by simp, fun c _ => Iff.rfl⟩)
  have e1 : (pairsAt f o (axes.map Int.toNat) []).map Prod.fst = (fiberIdx f.shape (axes.map Int.toNat) []).map f.get := by
    unfold pairsAt; rw [List.map_map]; rfl
  have e2 : (pairsAt f o (axes.map Int.toNat) []).map Prod.snd = (fiberIdx f.shape (axes.map Int.toNat) []).map o.get := by
    unfold pairsAt; rw [List.map_map]; rfl
  rw [e1, e2, h1] at this
  exact ⟨edgeR R n, s, edgeR_zero hF.1, fun i hi => edgeR_lt hR hF hi, edgeR_top hR hF,
    fun i hi => edgeR_near hR hF.1 hi (hF.small hR.1), this, h2⟩

/-! ### no rounding at all -/

/-- the rounding that changes nothing -/
def idR (N : Nat) : Rounding K where
  rnd := id
  mono := monotone_id
  size := N
  exact_int := fun _ _ => rfl
  part_pos := fun n hn _ => by
    have : (0 : K) < n := by exact_mod_cast hn
    simp only [id]; positivity
  part_lt := fun n hn _ => by
    have : (0 : K) < n := by exact_mod_cast hn
    simp only [id]
    rw [div_lt_one this]; linarith

theorem idR_accurate (N : Nat) : Accurate (idR N : Rounding K) 0 := ⟨le_rfl, fun x => by simp [idR]⟩

theorem idR_fine {n : Nat} (hn : 1 ≤ n) : Fine (0 : K) n := ⟨hn, by rw [zero_mul]; positivity⟩

theorem rop_id_add (N : Nat) : rop (idR N : Rounding K) (· + ·) = Fl.add := by
  funext x y
  cases x <;> cases y <;> rfl

theorem foldl_fsum (l : List (Fl K)) : l.foldl Fl.add (some 0) = fsum l := by
  have key : ∀ (l : List (Fl K)) (a : Fl K), l.foldl Fl.add a = Fl.add a (fsum l) := by
    intro l
    induction l with
    | nil => intro a; cases a <;> simp [fsum, Fl.add, Fl.lift2]
    | cons x l ih =>
      intro a
      rw [List.foldl_cons, ih]
      unfold fsum
      rw [List.foldr_cons]
      generalize l.foldr Fl.add (some 0) = b
      cases a <;> cases x <;> cases b <;> simp [Fl.add, Fl.lift2, add_assoc]
  rw [key]
  cases fsum l <;> simp [Fl.add, Fl.lift2]

theorem relBinsR_id (N n : Nat) : relBinsR (idR N : Rounding K) n = relBins n := by
  unfold relBinsR relBins linspaceR linspace
  by_cases h : n + 1 ≤ 1
  · rw [if_pos h, if_pos h]
  · rw [if_neg h, if_neg h]
    apply List.map_congr_left
    intro i _
    simp only [idR, id, sub_zero, add_zero, zero_add]

theorem relBins_sorted (n : Nat) : (relBins n : List K).Pairwise (· ≤ ·) := by
  rcases Nat.eq_zero_or_pos n with rfl | hn
  · unfold relBins linspace; simp
  · rw [relBins_eq hn, List.pairwise_map]
    exact List.pairwise_lt_range.imp fun h => ((relEdge_strictMono hn) h).le

theorem relSliceR_id (N n : Nat) (P : List (Fl K × Bool)) :
    relSliceR (idR N : Rounding K) n (P.map Prod.fst) (P.map Prod.snd) =
      relNoBootSlice (idsOf n P) (P.map Prod.fst) (P.map Prod.snd) (relBins n) := by
  unfold relSliceR
  rw [relBinsR_id]
  have h1 : mapE (digitizeR (relBins n : List K)) (P.map Prod.fst) = .ok ((P.map Prod.fst).map (digitize (relBins n))) := by
    rw [← mapE_pure]
    apply mapE_congr
    intro x _
    unfold digitizeR
    rw [if_pos (relBins_sorted n)]
  rw [h1]
  simp only [bind, Except.bind]
  have h2 : (((P.map Prod.fst).map (digitize (relBins n : List K))).map fun (i : Nat) => (i : Int) - 1) = idsOf n P := by
    rw [idsOf_eq, List.map_map]; rfl
  rw [h2]
  have h3 : ∀ (ids : List Int) (w : List (Fl K)) (m : Nat), bincountWR (idR N) ids w m = bincountW ids w m := by
    intro ids w m
    unfold bincountWR bincountW
    simp only [rop_id_add, foldl_fsum]
  unfold relNoBootSliceR relNoBootSlice
  simp only [h3]
  cases bincountW (idsOf n P) (P.map Prod.fst) (relBins n : List K).length with
  | error => rfl
  | ok s =>
  cases bincountW (idsOf n P) ((P.map Prod.snd).map (b2k : Bool → Fl K)) (relBins n : List K).length with
  | error => rfl
  | ok t =>
  cases bincount (idsOf n P) (relBins n : List K).length with
  | error => rfl
  | ok c =>
    simp only [bind, Except.bind, pure, Except.pure, Except.ok.injEq]
    have h4 : ∀ l : List (Fl K), (((List.range c.length).filter fun b => c.getD b 0 ≠ 0).map fun b =>
        rop (idR N : Rounding K) (· / ·) (l.getD b none) (some (c.getD b 0 : K))) =
        ((List.range c.length).filter fun b => c.getD b 0 ≠ 0).map fun b => Fl.div (l.getD b none) (some (c.getD b 0 : K)) := by
      intro l
      apply List.map_congr_left
      intro b hb
      have hne : ((c.getD b 0 : Nat) : K) ≠ 0 := by
        have := (List.mem_filter.1 hb).2
        simp only [decide_eq_true_eq] at this
        exact_mod_cast this
      cases l.getD b none with
      | none => rfl
      | some x => simp only [rop, Fl.div, if_neg hne, idR, id]
    rw [h4 s, h4 t]

/-- **C104**: without rounding, this model is the model of exact arithmetic. -/
theorem C104_exact (N n : Nat) (f : NDArr (Fl K)) (o : NDArr Bool) (axes : List Int) (hsh : f.shape = o.shape)
    (hax : PlainAxes f.shape.length axes) (hDp : (dropAxes (axes.map Int.toNat) f.shape).prod ≠ 0) :
    reliabilityDiagramR (idR N) f o n (some axes) = reliabilityDiagram f o n (some axes) := by
  have hg := goodAxes_nonneg hax.1 hax.2
  have e := axisNum_inj_nonneg (n := f.shape.length) (fun x hx => (hax.1 x hx).1)
  by_cases hD : dropAxes (axes.map Int.toNat) f.shape = []
  · have h1 := relDiag_slice f o n axes hsh hg (by rw [e]; exact hD) (fun _ _ _ p t => relSliceR (idR N : Rounding K) n p t)
    have h2 := relDiag_slice f o n axes hsh hg (by rw [e]; exact hD) (fun bins _ ids p t => relNoBootSlice ids p t bins)
    simp only [relSliceR_id] at h1
    exact h1.trans h2.symm
  · have h1 := relDiag_multi f o n axes hsh hg (by rw [e]; exact hD) (by rw [e]; exact hDp)
      (fun _ _ _ p t => relSliceR (idR N : Rounding K) n p t)
    have h2 := relDiag_multi f o n axes hsh hg (by rw [e]; exact hD) (by rw [e]; exact hDp)
      (fun bins _ ids p t => relNoBootSlice ids p t bins)
    simp only [relSliceR_id] at h1
    exact h1.trans h2.symm

/-- **C104**: in exact arithmetic too, the bins of the fractions of up to 10⁷/n members are closed on the right: a forecast
of exactly `b/n` belongs to the bin below that edge (the edges are stretched by 1e-8). -/
theorem C104_closed {n m : Nat} (hn : 1 ≤ n) (hm : 1 ≤ m) (hmn : m * n ≤ 10 ^ 7) (f : NDArr (Fl K)) (o : NDArr Bool)
    (axes : List Int) (hsh : f.shape = o.shape) (hax : PlainAxes f.shape.length axes)
    (hD : dropAxes (axes.map Int.toNat) f.shape = []) (k : List Nat → Nat)
    (hf : ∀ i, InB f.shape i → k i ≤ m ∧ f.get i = some ((k i : K) / m)) :
    ∃ s, reliabilityDiagram f o n (some axes) = .ok (.slice s) ∧
      IsFracCurve (idR f.shape.prod) 0 n m ((fiberIdx f.shape (axes.map Int.toNat) []).map fun i => (k i, o.get i)) s := by
  have hmpos : (0 : K) < m := by exact_mod_cast hm
  obtain ⟨s, s1, s2⟩ := C104_all (idR_accurate (K := K) f.shape.prod) (idR_fine hn) hm hmn f o axes hsh hax hD le_rfl k (by
    intro i hi
    obtain ⟨h1, h2⟩ := hf i hi
    refine ⟨h1, _, h2, by positivity, (div_le_one hmpos).2 (by exact_mod_cast h1), by simp⟩)
  rw [C104_exact (K := K) f.shape.prod n f o axes hsh hax (by rw [hD]; simp)] at s1
  exact ⟨s, s1, s2⟩

/-! ### from an ensemble -/

open Classical in
/-- the number of members that predict the event: those at or below the threshold, or the others -/
noncomputable def votes (over : Bool) (t : Thr K) (f : NDArr (Fl K)) (ax : Int) (i : List Nat) : Nat :=
  if over then ((membersAt f ax i).filter fun x => decide (¬ LeP x (thrAt t i))).length
  else ((membersAt f ax i).filter fun x => decide (LeP x (thrAt t i))).length

open Classical in
theorem votes_count (over : Bool) (t : Thr K) (f : NDArr (Fl K)) (ax : Int) (i : List Nat) :
    votes over t f ax i = if over then (membersAt f ax i).length - (membersAt f ax i).countP (fun x => Fl.le x (thrAt t i))
      else (membersAt f ax i).countP fun x => Fl.le x (thrAt t i) := by
  have h1 : ((membersAt f ax i).filter fun x => decide (LeP x (thrAt t i))).length =
      (membersAt f ax i).countP fun x => Fl.le x (thrAt t i) := by
    rw [← List.countP_eq_length_filter]
    apply List.countP_congr
    intro x _
    rw [le_iff_LeP]; simp
  have h2 : ((membersAt f ax i).filter fun x => decide (¬ LeP x (thrAt t i))).length =
      (membersAt f ax i).length - (membersAt f ax i).countP (fun x => Fl.le x (thrAt t i)) := by
    rw [← h1, List.length_eq_length_filter_add (l := membersAt f ax i) fun x => decide (LeP x (thrAt t i))]
    simp
  unfold votes
  rw [h1, h2]

/-- **C104**: the probabilities of an ensemble are those given by its members, up to rounding. -/
theorem C104_probability (hR : Accurate R u) (over : Bool) (workers : Nat) (f : NDArr (Fl K)) {ax : Int} (t : Thr K)
    (hax : AxisOK f.shape.length ax) (ht : ThrOK t (posShape f.shape ax)) (h0 : 0 ∉ f.shape)
    (hsz : f.shape.getD (axisNum f.shape.length ax) 0 ≤ R.size) :
    ∃ c, ensCdfR R workers f ax (if over then some t else none) (if over then none else some t) = .ok c ∧
      c.shape = posShape f.shape ax ∧ ∀ i, InB (posShape f.shape ax) i →
        IsMemberProb u (f.shape.getD (axisNum f.shape.length ax) 0) (votes over t f ax i) (c.get i) := by
  have hpos : 0 ∉ posShape f.shape ax := fun h => h0 (List.eraseIdx_subset h)
  have hne : (posShape f.shape ax).prod ≠ 0 := by simpa [List.prod_eq_zero_iff] using hpos
  have hmem : f.shape.getD (axisNum f.shape.length ax) 0 ≠ 0 := by
    have hlt := axisNum_lt hax
    rw [getD_lt hlt]
    exact fun h => h0 (h ▸ List.getElem_mem hlt)
  obtain ⟨p, p1, p2, p3⟩ := ensToProbBelow_spec workers .kde (momentsColR R) f t hax ht (by decide) hne
  set m := f.shape.getD (axisNum f.shape.length ax) 0 with hm
  have hmpos : (0 : K) < m := by exact_mod_cast Nat.pos_of_ne_zero hmem
  have hsz0 : 0 < R.size := by omega
  have base : ∀ i, InB (posShape f.shape ax) i → ∃ c : Nat, c ≤ m ∧
      c = (membersAt f ax i).countP (fun x => Fl.le x (thrAt t i)) ∧ p.get i = some (R.rnd ((c : K) / m)) := by
    intro i hi
    have hlen := membersAt_length f hax hi
    refine ⟨_, ?_, rfl, ?_⟩
    · rw [hm, ← hlen]; exact List.countP_le_length
    · rw [p3 i hi]
      change momentsColR R (thrAt t i :: membersAt f ax i) = _
      rw [hm, ← hlen]
      have hl : (membersAt f ax i).length ≠ 0 := by rw [hlen]; exact hmem
      simp only [momentsColR, List.tail_cons, List.getD_cons_zero, List.length_cons, Nat.add_sub_cancel, if_neg hl]
  have hnear : ∀ c : Nat, c ≤ m → 0 ≤ R.rnd ((c : K) / m) ∧ R.rnd ((c : K) / m) ≤ 1 ∧
      |R.rnd ((c : K) / m) - (c : K) / m| ≤ u := by
    intro c hc
    have h1 : (0 : K) ≤ (c : K) / m := by positivity
    have h2 : (c : K) / m ≤ 1 := (div_le_one hmpos).2 (by exact_mod_cast hc)
    refine ⟨(rnd_unit R hsz0 h1 h2).1, (rnd_unit R hsz0 h1 h2).2, (hR.2 _).trans ?_⟩
    rw [abs_of_nonneg h1]
    have := mul_le_mul_of_nonneg_left h2 hR.1
    rwa [mul_one] at this
  have hu := hR.1
  cases over with
  | false =>
    refine ⟨p, by simp only [Bool.false_eq_true, if_false, ensCdfR, ensToProbBelowR]; exact p1, p2, fun i hi => ?_⟩
    obtain ⟨c, hc, hcd, hpi⟩ := base i hi
    obtain ⟨n1, n2, n3⟩ := hnear c hc
    rw [votes_count]
    simp only [Bool.false_eq_true, if_false, ← hcd]
    exact ⟨hc, _, hpi, n1, n2, n3.trans (by linarith)⟩
  | true =>
    refine ⟨p.map fun x => rop R (· - ·) (some 1) x, by simp only [if_true, ensCdfR, ensToProbBelowR, p1]; rfl, p2,
      fun i hi => ?_⟩
    obtain ⟨c, hc, hcd, hpi⟩ := base i hi
    obtain ⟨n1, n2, n3⟩ := hnear c hc
    rw [votes_count]
    simp only [if_true, ← hcd, membersAt_length f hax hi, ← hm]
    have hu1 := rnd_unit R hsz0 (x := 1 - R.rnd ((c : K) / m)) (by linarith) (by linarith)
    refine ⟨Nat.sub_le _ _, R.rnd (1 - R.rnd ((c : K) / m)), ?_, hu1.1, hu1.2, ?_⟩
    · rw [get_map _ p (by rw [p2]; exact hi), hpi]; rfl
    · have h1 := hR.2 (1 - R.rnd ((c : K) / m))
      rw [abs_of_nonneg (by linarith : (0 : K) ≤ 1 - R.rnd ((c : K) / m))] at h1
      have h2 : ((m - c : Nat) : K) / m = 1 - (c : K) / m := by
        rw [Nat.cast_sub hc, sub_div, div_self hmpos.ne']
      rw [h2]
      have h3 : u * (1 - R.rnd ((c : K) / m)) ≤ u := by nlinarith
      rw [abs_le] at h1 n3 ⊢
      constructor <;> linarith [h1.1, h1.2, n3.1, n3.2]

theorem binarize_event (o : NDArr (Fl K)) (t : Thr K) (over : Bool) (ht : ThrOK t o.shape) :
    ∃ b, binarizeObs o (if over then some t else none) (if over then none else some t) = .ok b ∧ b.shape = o.shape ∧
      ∀ i, InB o.shape i → (b.get i = true ↔ Event over t o i) := by
  cases over with
  | false =>
    obtain ⟨b, b1, b2, b3⟩ := cmpThr_spec Fl.lt o t ht
    refine ⟨b, by simp only [Bool.false_eq_true, if_false, binarizeObs, b1], b2, fun i hi => ?_⟩
    rw [b3 i hi]
    simp only [Event, Bool.false_eq_true, if_false]
    cases o.get i <;> cases thrAt t i <;> simp [Fl.lt, LtP]
  | true =>
    obtain ⟨b, b1, b2, b3⟩ := cmpThr_spec (fun x v => Fl.lt v x) o t ht
    refine ⟨b, by simp only [if_true, binarizeObs, b1], b2, fun i hi => ?_⟩
    rw [b3 i hi]
    simp only [Event, if_true]
    cases o.get i <;> cases thrAt t i <;> simp [Fl.lt, LtP]

theorem plainAxes_all (n : Nat) : PlainAxes n ((List.range n).map Int.ofNat) := by
  constructor
  · intro x hx
    obtain ⟨i, hi, rfl⟩ := List.mem_map.1 hx
    simp only [List.mem_range] at hi
    simp only [Int.ofNat_eq_natCast]
    omega
  · exact List.nodup_range.map fun a b h => by simpa using h

theorem fiberIdx_range (s : List Nat) : fiberIdx s (List.range s.length) [] = allIdx s := by
  unfold fiberIdx
  rw [List.filter_eq_self]
  intro i hi
  have := (mem_allIdx.1 hi).length
  rw [← this, dropAxes_all]
  simp

/-- **C104**, end to end: the reliability diagram of an ensemble of `m` members in rounded arithmetic.  The bins are
those of the exact fractions of members, so rounding moves no forecast to another bin. -/
theorem C104_ensemble (hR : Accurate R u) {n : Nat} (hF : Fine u n) (over : Bool) (workers : Nat) (f o : NDArr (Fl K))
    {ax : Int} (t : Thr K) (hax : AxisOK f.shape.length ax) (ho : o.shape = posShape f.shape ax) (ht : ThrOK t o.shape)
    (h0 : 0 ∉ f.shape) (hmn : f.shape.getD (axisNum f.shape.length ax) 0 * n ≤ 10 ^ 7) (hsz : f.shape.prod ≤ R.size) :
    ∃ c b s, ensCdfR R workers f ax (if over then some t else none) (if over then none else some t) = .ok c ∧
      binarizeObs o (if over then some t else none) (if over then none else some t) = .ok b ∧
      reliabilityDiagramR R c b n none = .ok (.slice s) ∧
      IsFracCurve R u n (f.shape.getD (axisNum f.shape.length ax) 0)
        ((allIdx o.shape).map fun i => (votes over t f ax i, @decide (Event over t o i) (Classical.propDecidable _))) s := by
  classical
  have hlt := axisNum_lt hax
  have hmem : f.shape.getD (axisNum f.shape.length ax) 0 ≠ 0 := by
    rw [getD_lt hlt]
    exact fun h => h0 (h ▸ List.getElem_mem hlt)
  have hprod : f.shape.getD (axisNum f.shape.length ax) 0 * o.shape.prod = f.shape.prod := by
    rw [ho, posShape, getD_lt hlt]
    exact List.mul_prod_eraseIdx hlt fun _ _ => Commute.all _ _
  have hone : o.shape.prod ≠ 0 := by
    intro h
    rw [h, mul_zero] at hprod
    exact h0 (List.prod_eq_zero_iff.1 hprod.symm)
  obtain ⟨c, c1, c2, c3⟩ := C104_probability hR over workers f t hax (by rw [← ho]; exact ht) h0
    (le_trans (by rw [← hprod]; exact Nat.le_mul_of_pos_right _ (Nat.pos_of_ne_zero hone)) hsz)
  obtain ⟨b, b1, b2, b3⟩ := binarize_event o t over ht
  have hsh : c.shape = b.shape := by rw [c2, b2, ho]
  have hax' : PlainAxes c.shape.length ((List.range c.shape.length).map Int.ofNat) := plainAxes_all _
  have hto : ((List.range c.shape.length).map Int.ofNat).map Int.toNat = List.range c.shape.length := by
    rw [List.map_map]
    have : Int.toNat ∘ Int.ofNat = id := by funext x; rfl
    rw [this, List.map_id]
  have hD : dropAxes (((List.range c.shape.length).map Int.ofNat).map Int.toNat) c.shape = [] := by
    rw [hto]; exact dropAxes_all c.shape
  obtain ⟨s, s1, s2⟩ := C104_all hR hF (Nat.one_le_iff_ne_zero.2 hmem) hmn c b _ hsh hax' hD (by
    rw [c2, ← ho]
    refine le_trans ?_ hsz
    rw [← hprod]
    exact Nat.le_mul_of_pos_left _ (Nat.pos_of_ne_zero hmem)) (votes over t f ax) (by rw [c2]; exact c3)
  refine ⟨c, b, s, c1, b1, ?_, ?_⟩
  · have : reliabilityDiagramR R c b n none = reliabilityDiagramR R c b n (some ((List.range c.shape.length).map Int.ofNat)) := by
      unfold reliabilityDiagramR
      rw [relCreateSplit_none, hsh]
    rw [this]; exact s1
  · convert s2 using 1
    rw [hto, fiberIdx_range, c2, ← ho]
    apply List.map_congr_left
    intro i hi
    congr 1
    rw [Bool.eq_iff_iff, decide_eq_true_eq, b3 i (mem_allIdx.1 hi)]

theorem ensCdfR_id (N workers : Nat) (over : Bool) (kde : List (Fl K) → Fl K) (f : NDArr (Fl K)) {ax : Int} (t : Thr K)
    (hax : AxisOK f.shape.length ax) (ht : ThrOK t (posShape f.shape ax)) (hne : (posShape f.shape ax).prod ≠ 0) :
    ensCdfR (idR N) workers f ax (if over then some t else none) (if over then none else some t) =
      ensCdf workers .moments kde f ax (if over then some t else none) (if over then none else some t) := by
  obtain ⟨p, p1, p2, p3⟩ := ensToProbBelow_spec workers .kde (momentsColR (idR N : Rounding K)) f t hax ht (by decide) hne
  obtain ⟨q, q1, q2, q3⟩ := ensToProbBelow_spec workers .moments kde f t hax ht (by decide) hne
  have hpq : p = q := by
    apply ext_get (p2.trans q2.symm)
    intro k hk
    rw [p2] at hk
    rw [p3 k hk, q3 k hk]
    change momentsColR (idR N) _ = momentsCol _
    generalize thrAt t k :: fiber f [axisNum f.shape.length ax] k = col
    unfold momentsColR momentsCol
    by_cases h : col.length - 1 = 0
    · rw [if_pos h, h]
      simp [Fl.div]
    · rw [if_neg h]
      have : ((col.length - 1 : Nat) : K) ≠ 0 := by exact_mod_cast h
      simp only [Fl.div, if_neg this]
      rfl
  subst hpq
  cases over with
  | false =>
    simp only [Bool.false_eq_true, if_false, ensCdfR, ensCdf, ensToProbBelowR, ensToProb, p1, q1]
  | true =>
    simp only [if_true, ensCdfR, ensCdf, ensToProbBelowR, ensToProb, p1, q1, bind, Except.bind, pure, Except.pure]
    congr 2

/-- **C104**: rounding changes no count.  The reliability diagram of an ensemble in rounded arithmetic has the bins and
counts of the exact one; its frequencies are the exact ones rounded once, and its mean forecasts are accurate. -/
theorem C104_same (hR : Accurate R u) {n : Nat} (hF : Fine u n) (over : Bool) (workers : Nat) (kde : List (Fl K) → Fl K)
    (f o : NDArr (Fl K)) {ax : Int} (t : Thr K) (hax : AxisOK f.shape.length ax) (ho : o.shape = posShape f.shape ax)
    (ht : ThrOK t o.shape) (h0 : 0 ∉ f.shape) (hmn : f.shape.getD (axisNum f.shape.length ax) 0 * n ≤ 10 ^ 7)
    (hsz : f.shape.prod ≤ R.size) :
    ∃ c c' b s s', ensCdfR R workers f ax (if over then some t else none) (if over then none else some t) = .ok c ∧
      ensCdf workers .moments kde f ax (if over then some t else none) (if over then none else some t) = .ok c' ∧
      binarizeObs o (if over then some t else none) (if over then none else some t) = .ok b ∧
      reliabilityDiagramR R c b n none = .ok (.slice s) ∧ reliabilityDiagram c' b n none = .ok (.slice s') ∧
      s.predCount = s'.predCount ∧ s.trueCount = s'.trueCount ∧
      s.probTrue = s'.probTrue.map (Option.map R.rnd) ∧
      List.Forall₂ (fun w w' => ∃ v v', w = some v ∧ w' = some v' ∧ 0 ≤ v ∧ v ≤ 1 ∧
        |v - v'| ≤ ((1 + u) ^ (o.shape.prod + 1) - 1) + 8 * u) s.probPred s'.probPred := by
  obtain ⟨c, b, s, c1, b1, s1, s2, s3, s4, s5⟩ := C104_ensemble hR hF over workers f o t hax ho ht h0 hmn hsz
  obtain ⟨c', b', s', c1', b1', s1', s2', s3', s4', s5'⟩ := C104_ensemble (idR_accurate (K := K) f.shape.prod)
    (idR_fine hF.1) over workers f o t hax ho ht h0 hmn le_rfl
  rw [b1] at b1'
  cases b1'
  have hne : (posShape f.shape ax).prod ≠ 0 := by
    have : 0 ∉ posShape f.shape ax := fun h => h0 (List.eraseIdx_subset h)
    simpa [List.prod_eq_zero_iff] using this
  rw [ensCdfR_id _ workers over kde f t hax (by rw [← ho]; exact ht) hne] at c1'
  obtain ⟨d, d1, d2, -⟩ := C104_probability (idR_accurate (K := K) f.shape.prod) over workers f t hax (by rw [← ho]; exact ht)
    h0 (by
      have hlt := axisNum_lt hax
      have hprod : f.shape.getD (axisNum f.shape.length ax) 0 * (posShape f.shape ax).prod = f.shape.prod := by
        rw [posShape, getD_lt hlt]
        exact List.mul_prod_eraseIdx hlt fun _ _ => Commute.all _ _
      change _ ≤ f.shape.prod
      rw [← hprod]; exact Nat.le_mul_of_pos_right _ (Nat.pos_of_ne_zero hne))
  rw [ensCdfR_id _ workers over kde f t hax (by rw [← ho]; exact ht) hne, c1'] at d1
  cases d1
  obtain ⟨b₀, e1, e2, -⟩ := binarize_event o t over ht
  rw [b1] at e1
  cases e1
  have hsh : c'.shape = b.shape := by rw [d2, e2, ho]
  have hex : reliabilityDiagram c' b n none = .ok (.slice s') := by
    rw [← s1']
    have h1 := C104_exact (K := K) f.shape.prod n c' b ((List.range c'.shape.length).map Int.ofNat) hsh (plainAxes_all _) (by
      have hto : ((List.range c'.shape.length).map Int.ofNat).map Int.toNat = List.range c'.shape.length := by
        rw [List.map_map]
        have : Int.toNat ∘ Int.ofNat = id := by funext x; rfl
        rw [this, List.map_id]
      rw [hto, dropAxes_all]
      simp)
    unfold reliabilityDiagram reliabilityDiagramR at h1 ⊢
    rw [relCreateSplit_none]
    rw [hsh] at h1
    exact h1.symm
  refine ⟨c, c', b, s, s', c1, c1', b1, s1, hex, s2.trans s2'.symm, s4.trans s4'.symm, ?_, ?_⟩
  · rw [s3, s3', List.map_map]
    rfl
  · have key : ∀ (N : List Nat) (F : Nat → K) (g : Nat → Nat) (W W' : List (Fl K)), (∀ b ∈ N, g b ≤ o.shape.prod) →
        List.Forall₂ (fun b w => ∃ v, w = some v ∧ 0 ≤ v ∧ v ≤ 1 ∧ |v - F b| ≤ ((1 + u) ^ (g b + 1) - 1) + 8 * u) N W →
        List.Forall₂ (fun b w => ∃ v, w = some v ∧ 0 ≤ v ∧ v ≤ 1 ∧
          |v - F b| ≤ ((1 + (0 : K)) ^ (g b + 1) - 1) + 8 * 0) N W' →
        List.Forall₂ (fun w w' => ∃ v v', w = some v ∧ w' = some v' ∧ 0 ≤ v ∧ v ≤ 1 ∧
          |v - v'| ≤ ((1 + u) ^ (o.shape.prod + 1) - 1) + 8 * u) W W' := by
      intro N F g W W' hg h1 h2
      induction N generalizing W W' with
      | nil => cases h1; cases h2; exact .nil
      | cons b N ih =>
        cases h1 with
        | cons a1 t1 =>
        cases h2 with
        | cons a2 t2 =>
          refine .cons ?_ (ih _ _ (fun b hb => hg b (by simp [hb])) t1 t2)
          obtain ⟨v, rfl, v0, v1, hv⟩ := a1
          obtain ⟨v', rfl, -, -, hv'⟩ := a2
          refine ⟨v, v', rfl, rfl, v0, v1, ?_⟩
          have : v' = F b := by
            simp only [add_zero, one_pow, sub_self, mul_zero, abs_nonpos_iff] at hv'
            linarith [sub_eq_zero.1 hv']
          rw [this]
          refine hv.trans ?_
          have : (1 + u) ^ (g b + 1) ≤ (1 + u) ^ (o.shape.prod + 1) :=
            pow_le_pow_right₀ (by linarith [hR.1]) (by have := hg b (by simp); omega)
          linarith
    refine key _ _ (fun b => (fracGroup n _ b _).length) _ _ ?_ s5 s5'
    intro b _
    refine (List.length_filter_le _ _).trans ?_
    rw [List.length_map, length_allIdx]

/-! ### examples -/

/-- one of ten members belongs to the first of ten bins, not to the second; half of the members to the fifth -/
example : FracBin 10 10 1 0 ∧ ¬ FracBin 10 10 1 1 ∧ FracBin 10 10 5 4 ∧ FracBin 10 10 10 9 ∧ FracBin 10 10 0 0 := by decide

example : Fine (1 / 2 ^ 53 : ℚ) 90000 := by unfold Fine; norm_num

/-- two members at three positions, in double precision with ten bins: the probability one half is in the fifth bin -/
example : ∃ c b s, ensCdfR float64 1 (⟨[2, 3], [some 1, some 5, some 1, some 3, some 6, some 2], rfl⟩ : NDArr (Fl ℚ)) 0 none
      (some (.scalar (some 2))) = .ok c ∧
    binarizeObs (⟨[3], [some 1, some 7, some 0], rfl⟩ : NDArr (Fl ℚ)) none (some (.scalar (some 2))) = .ok b ∧
    reliabilityDiagramR float64 c b 10 none = .ok (.slice s) ∧ s.predCount.map Prod.snd = [1, 1, 1] := by
  obtain ⟨c, b, s, h1, h2, h3, h4, -⟩ := C104_ensemble (n := 10) C89_float64 (by unfold Fine; norm_num) false 1
    (⟨[2, 3], [some 1, some 5, some 1, some 3, some 6, some 2], rfl⟩ : NDArr (Fl ℚ))
    (⟨[3], [some 1, some 7, some 0], rfl⟩ : NDArr (Fl ℚ)) (ax := 0) (.scalar (some 2)) (by constructor <;> decide) rfl trivial
    (by decide) (by decide) (by
      change 6 ≤ 2 ^ 53
      norm_num)
  refine ⟨c, b, s, h1, h2, h3, ?_⟩
  have hv : ∀ i, votes false (.scalar (some 2)) (⟨[2, 3], [some 1, some 5, some 1, some 3, some 6, some 2], rfl⟩ : NDArr (Fl ℚ))
      0 i = (membersAt (⟨[2, 3], [some 1, some 5, some 1, some 3, some 6, some 2], rfl⟩ : NDArr (Fl ℚ)) 0 i).countP
        fun x => Fl.le x (some 2) := fun i => votes_count _ _ _ _ _
  rw [h4]
  simp only [hv]
  have key : ∀ e0 e1 e2 : Bool, (List.map (fun (b : Nat) => ((b : Int), (fracGroup 10 2 b [(1, e0), (0, e1), (2, e2)]).length))
    (fracNonEmpty 10 2 [(1, e0), (0, e1), (2, e2)])).map Prod.snd = [1, 1, 1] := by decide
  exact key _ _ _

end Props
