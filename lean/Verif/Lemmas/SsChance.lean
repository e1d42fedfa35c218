import Verif.Lemmas.SpreadSkillAgg
import Verif.Lemmas.RandomEns
import Verif.Lemmas.Decomp
import Verif.Spec.SsChance
import Mathlib.Probability.Moments.Variance

set_option linter.unusedSectionVars false

namespace Lemmas
open Np NDArr Spec Model MeasureTheory

theorem groupOf_map {α β : Type} [Inhabited α] [Inhabited β] (f : α → β) (l : List α) {n b : Nat} (hn : n ≠ 0) (hb : b < n) :
    groupOf (l.map f) n b = (groupOf l n b).map f := by
  unfold groupOf
  rw [List.map_map, List.length_map]
  refine List.map_congr_left fun r hr => ?_
  have hr := List.mem_range.1 hr
  have hle : splitStart l.length n b + splitSize l.length n b ≤ l.length := by
    rw [← splitStart_succ]
    exact (splitStart_mono _ _ hb).trans (splitStart_last hn).le
  have : splitStart l.length n b + r < l.length := by omega
  simp [List.getD_eq_getElem?_getD, this]

theorem groupsOf_map {α β : Type} [Inhabited α] [Inhabited β] (f : α → β) (l : List α) {n : Nat} (hn : n ≠ 0) :
    groupsOf (l.map f) n = (groupsOf l n).map (List.map f) := by
  unfold groupsOf
  rw [List.map_map]
  exact List.map_congr_left fun b hb => groupOf_map f l hn (List.mem_range.1 hb)

theorem pick_map {α β : Type} [Inhabited α] [Inhabited β] (f : α → β) (L : List α) {idx : List Nat}
    (h : idx.Perm (List.range L.length)) :
    idx.map ((L.map f).getD · default) = (idx.map (L.getD · default)).map f := by
  rw [List.map_map]
  refine List.map_congr_left fun r hr => ?_
  have : r < L.length := List.mem_range.1 (h.subset hr)
  simp [List.getD_eq_getElem?_getD, this]

theorem dropAxes_subset {A sh : List Nat} {x : Nat} (h : x ∈ dropAxes A sh) : x ∈ sh := by
  obtain ⟨a, ha, rfl⟩ := List.mem_map.1 h
  have : a < sh.length := List.mem_range.1 (List.mem_filter.1 ha).1
  simp [List.getD_eq_getElem?_getD, this]

/-- the groups of positions behind the groups of pairs -/
def posGroups (argsort : Nat → List (Fl ℝ) → List Nat) (sh A : List Nat) (nbins : Nat) (V : List Nat → ℝ) (k : List Nat) :
    List (List (List Nat)) :=
  groupsOf ((argsort (ravel (dropAxes A sh) k) ((fiberIdx sh A k).map fun i => some (V i))).map
    ((fiberIdx sh A k).getD · default)) nbins

theorem posGroups_spec {argsort : Nat → List (Fl ℝ) → List Nat} (hargs : ∀ c l, IsArgsort l (argsort c l)) {sh A : List Nat}
    {nbins : Nat} (hn : nbins ≠ 0) (V : List Nat → ℝ) {k : List Nat} (hle : nbins ≤ (fiberIdx sh A k).length) :
    PosGroups nbins (fiberIdx sh A k) V (posGroups argsort sh A nbins V k) := by
  have h := hargs (ravel (dropAxes A sh) k) ((fiberIdx sh A k).map fun i => some (V i))
  unfold posGroups
  set L := fiberIdx sh A k
  set idx := argsort (ravel (dropAxes A sh) k) (L.map fun i => some (V i))
  have hp : idx.Perm (List.range L.length) := by simpa using h.1
  refine ⟨by simp [groupsOf], ?_, ?_, groups_balanced _ _, ?_⟩
  · rw [groups_flatten _ hn]
    exact argsort_perm hp
  · rw [groups_flatten _ hn]
    have h2 := h.2
    have e : idx.map ((L.map fun i => some (V i)).getD · none) =
        ((idx.map (L.getD · default)).map V).map some := by
      have := pick_map (fun i => (some (V i) : Fl ℝ)) L hp
      rw [List.map_map]
      exact this
    rw [e, List.pairwise_map] at h2
    exact h2.imp fun h => by simpa [leNan] using h
  · intro g hg
    obtain ⟨b, hb, rfl⟩ := List.mem_map.1 hg
    rw [← List.length_pos_iff, groupOf_length, List.length_map, hp.length_eq, List.length_range]
    have : 0 < L.length / nbins := Nat.div_pos hle (by omega)
    unfold splitSize
    omega

/-- without missing values, in terms of positions -/
theorem spreadSkill_positions {argsort : Nat → List (Fl ℝ) → List Nat} (hargs : ∀ c l, IsArgsort l (argsort c l))
    {s : ℝ → ℝ} (hs : IsSqrt s) (skip : Bool) {v e : NDArr (Fl ℝ)} {nbins : Nat} {axes : List Int} {sh : List Nat}
    (hv : v.shape = sh) (he : e.shape = sh) (hg : GoodAxes sh.length axes) (h0 : 0 ∉ sh) (hn : nbins ≠ 0)
    (hle : nbins ≤ (takeAxes (axes.map (axisNum sh.length)) sh).prod) {V Q : List Nat → ℝ}
    (hV : ∀ i, InB sh i → v.get i = some (V i) ∧ 0 ≤ V i) (hQ : ∀ i, InB sh i → e.get i = some (Q i) ∧ 0 ≤ Q i) :
    ∃ spread rmse, spreadSkill argsort s skip v e nbins (some axes) = .ok (spread, rmse) ∧
      ∀ k, InB (dropAxes (axes.map (axisNum sh.length)) sh) k →
        PosGroups nbins (fiberIdx sh (axes.map (axisNum sh.length)) k) V
          (posGroups argsort sh (axes.map (axisNum sh.length)) nbins V k) ∧
        ∀ b g, (posGroups argsort sh (axes.map (axisNum sh.length)) nbins V k)[b]? = some g →
          spread.get (k ++ [b]) = some (Real.sqrt (avg (g.map V))) ∧
          rmse.get (k ++ [b]) = some (Real.sqrt (avg (g.map Q))) := by
  have hD : (dropAxes (axes.map (axisNum sh.length)) sh).prod ≠ 0 := by
    rw [Ne, List.prod_eq_zero_iff]
    exact fun h => h0 (dropAxes_subset h)
  obtain ⟨sp, rm, h1, -, -, h4⟩ := spreadSkill_groups argsort s skip v e nbins axes (hv.trans he.symm) (by rw [hv]; exact hg)
    hargs (by rw [hv]; exact hD) hn (by rw [hv]; exact hle)
  rw [hv] at h4
  set A := axes.map (axisNum sh.length)
  refine ⟨sp, rm, h1, fun k hk => ?_⟩
  set L := fiberIdx sh A k
  have hLen : L.length = (takeAxes A sh).prod := by
    have h3 := congrArg List.length (map_takeAxes_fiberIdx sh A k hk)
    rwa [List.length_map, length_allIdx] at h3
  have hpos := posGroups_spec hargs hn V (k := k) (A := A) (sh := sh) (by rw [hLen]; exact hle)
  refine ⟨hpos, fun b g hbg => ?_⟩
  have hL : ∀ i ∈ L, InB sh i := fun i hi => (mem_fiberIdx.1 hi).1
  have hpairs : pairsAt v e A k = L.map fun i => (some (V i), some (Q i)) := by
    unfold pairsAt
    rw [hv]
    exact List.map_congr_left fun i hi => by rw [(hV i (hL i hi)).1, (hQ i (hL i hi)).1]
  have hfst : (pairsAt v e A k).map Prod.fst = L.map fun i => some (V i) := by
    rw [hpairs, List.map_map]; rfl
  have hp : (argsort (ravel (dropAxes A sh) k) (L.map fun i => some (V i))).Perm (List.range L.length) := by
    simpa using (hargs (ravel (dropAxes A sh) k) (L.map fun i => some (V i))).1
  have hgr := h4 k hk b (g.map fun i => (some (V i), some (Q i))) (by
    rw [hfst, hpairs, pick_map _ L hp, groupsOf_map _ _ hn, List.getElem?_map]
    show Option.map _ ((posGroups argsort sh A nbins V k)[b]?) = _
    rw [hbg]; rfl)
  have hgm : g ∈ posGroups argsort sh A nbins V k := List.mem_of_getElem? hbg
  have hgL : ∀ i ∈ g, InB sh i := fun i hi =>
    hL i (hpos.complete.subset (List.mem_flatten.2 ⟨g, hgm, hi⟩))
  have hgne : g ≠ [] := hpos.filled g hgm
  have key : ∀ W : List Nat → ℝ, (∀ i ∈ g, 0 ≤ W i) →
      Fl.sqrt s (meanOf skip (g.map fun i => some (W i))) = some (Real.sqrt (avg (g.map W))) := by
    intro W hW
    have e : (g.map fun i => some (W i)) = (g.map W).map some := by rw [List.map_map]; rfl
    rw [e, meanOf_some_list skip (by simpa using hgne)]
    have hnn : 0 ≤ avg (g.map W) := div_nonneg (List.sum_nonneg fun x hx => by
      obtain ⟨i, hi, rfl⟩ := List.mem_map.1 hx
      exact hW i hi) (by simp)
    simp only [Fl.sqrt, if_pos hnn]
    congr 1
    exact ((Real.sqrt_eq_iff_mul_self_eq hnn (hs.nonneg _ hnn)).2 (hs.sq _ hnn).symm).symm
  rw [hgr.1, hgr.2, List.map_map, List.map_map]
  exact ⟨key V fun i hi => (hV i (hgL i hi)).2, key Q fun i hi => (hQ i (hgL i hi)).2⟩

variable {Ω : Type} [MeasurableSpace Ω] {P : Measure Ω} [IsProbabilityMeasure P]

theorem sq_bias_variance {Y : Ω → ℝ} (hY : MemLp Y 2 P) {μ w : ℝ} (h1 : ∫ ω, Y ω ∂P = μ) (h2 : ∫ ω, (Y ω - μ) ^ 2 ∂P = w)
    (m : ℝ) : Integrable (fun ω => (m - Y ω) ^ 2) P ∧ ∫ ω, (m - Y ω) ^ 2 ∂P = (m - μ) ^ 2 + w := by
  have hi : Integrable Y P := hY.integrable one_le_two
  have hs : Integrable (fun ω => (Y ω - μ) ^ 2) P := (hY.sub (memLp_const μ)).integrable_sq
  have hl : Integrable (fun ω => 2 * (m - μ) * (Y ω - μ)) P := (hi.sub (integrable_const μ)).const_mul _
  have e : (fun ω => (m - Y ω) ^ 2) = fun ω => ((m - μ) ^ 2 - 2 * (m - μ) * (Y ω - μ)) + (Y ω - μ) ^ 2 := by
    funext ω; ring
  have hc : Integrable (fun ω => (m - μ) ^ 2 - 2 * (m - μ) * (Y ω - μ)) P := (integrable_const _).sub hl
  rw [e]
  refine ⟨hc.add hs, ?_⟩
  rw [integral_add hc hs, integral_sub (integrable_const _) hl, integral_const_mul, integral_sub hi (integrable_const μ), h1,
    h2]
  simp

theorem expectedSkill {g : List (List Nat)} {m μ w : List Nat → ℝ} {Y : List Nat → Ω → ℝ}
    (hY : ∀ i ∈ g, MemLp (Y i) 2 P ∧ ∫ ω, Y i ω ∂P = μ i ∧ ∫ ω, (Y i ω - μ i) ^ 2 ∂P = w i) :
    ExpectedSkill P g (fun i => m i - μ i) w fun ω => Real.sqrt (avg (g.map fun i => (m i - Y i ω) ^ 2)) := by
  have hq := mean_avg (P := P) g (g := fun i ω => (m i - Y i ω) ^ 2) (e := fun i => (m i - μ i) ^ 2 + w i) fun i hi =>
    sq_bias_variance (hY i hi).1 (hY i hi).2.1 (hY i hi).2.2 (m i)
  have hnn : ∀ ω, 0 ≤ avg (g.map fun i => (m i - Y i ω) ^ 2) := fun ω => div_nonneg (List.sum_nonneg fun x hx => by
    obtain ⟨i, hi, rfl⟩ := List.mem_map.1 hx
    exact sq_nonneg _) (by simp)
  have hsq : (fun ω => Real.sqrt (avg (g.map fun i => (m i - Y i ω) ^ 2)) ^ 2) =
      fun ω => avg (g.map fun i => (m i - Y i ω) ^ 2) := by
    funext ω
    exact Real.sq_sqrt (hnn ω)
  have hmeas : AEStronglyMeasurable (fun ω => Real.sqrt (avg (g.map fun i => (m i - Y i ω) ^ 2))) P :=
    (Real.continuous_sqrt.comp_aestronglyMeasurable hq.1.aestronglyMeasurable)
  have hL2 : MemLp (fun ω => Real.sqrt (avg (g.map fun i => (m i - Y i ω) ^ 2))) 2 P :=
    (memLp_two_iff_integrable_sq hmeas).2 (by rw [hsq]; exact hq.1)
  have hmsq : ∫ ω, Real.sqrt (avg (g.map fun i => (m i - Y i ω) ^ 2)) ^ 2 ∂P = avg (g.map fun i => (m i - μ i) ^ 2 + w i) := by
    rw [hsq, hq.2]
  refine ⟨fun ω => Real.sqrt_nonneg _, hL2.integrable one_le_two, by rw [hsq]; exact hq.1, hmsq, ?_⟩
  have hv := ProbabilityTheory.variance_eq_sub hL2
  have hv0 := ProbabilityTheory.variance_nonneg (fun ω => Real.sqrt (avg (g.map fun i => (m i - Y i ω) ^ 2))) P
  have hmsq' : ∫ ω, ((fun ω => Real.sqrt (avg (g.map fun i => (m i - Y i ω) ^ 2))) ^ 2) ω ∂P =
      avg (g.map fun i => (m i - μ i) ^ 2 + w i) := hmsq
  rw [hv, hmsq'] at hv0
  exact Real.le_sqrt_of_sq_le (by linarith)

theorem avg_eq_of_map {g : List (List Nat)} {a b : List Nat → ℝ} (h : ∀ i ∈ g, a i = b i) : avg (g.map a) = avg (g.map b) := by
  rw [List.map_congr_left h]

theorem skillPoint {g : List (List Nat)} {V bias w : List Nat → ℝ} {R : Ω → ℝ} (hg : g ≠ []) (hV : ∀ i ∈ g, 0 ≤ V i)
    (h : ExpectedSkill P g bias w R) : SkillPoint P g V bias w (Real.sqrt (avg (g.map V))) R := by
  have hnn : 0 ≤ avg (g.map V) := div_nonneg (List.sum_nonneg fun x hx => by
    obtain ⟨i, hi, rfl⟩ := List.mem_map.1 hx
    exact hV i hi) (by simp)
  refine { h with spread := ⟨Real.sqrt_nonneg _, Real.sq_sqrt hnn⟩, diagonal := fun hd => ?_, biased := fun hw e => ?_ }
  · have e : avg (g.map fun i => bias i ^ 2 + w i) = avg (g.map V) := avg_eq_of_map fun i hi => by
      rw [(hd i hi).1, (hd i hi).2]; ring
    refine ⟨by rw [h.mean_sq, e, Real.sq_sqrt hnn], ?_⟩
    have := h.mean
    rwa [e] at this
  · rw [h.mean_sq, Real.sq_sqrt hnn, avg, avg, List.length_map, List.length_map, List.sum_map_add] at e
    have hl : (0 : ℝ) < g.length := by exact_mod_cast List.length_pos_iff.2 hg
    rw [div_left_inj' hl.ne', List.map_congr_left hw] at e
    have hz : (g.map fun i => bias i ^ 2).sum = 0 := by linarith
    intro i hi
    have h1 : bias i ^ 2 ≤ (g.map fun i => bias i ^ 2).sum := List.single_le_sum (fun x hx => by
      obtain ⟨i, -, rfl⟩ := List.mem_map.1 hx
      exact sq_nonneg _) _ (List.mem_map.2 ⟨i, hi, rfl⟩)
    exact pow_eq_zero_iff (two_ne_zero) |>.1 (le_antisymm (h1.trans hz.le) (sq_nonneg _))

end Lemmas
