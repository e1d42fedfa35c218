import Verif.Lemmas.SpreadSkillAgg
import Verif.Props.Boot

/-!
# Binned spread-skill: C04, C18 (and its part of C06)
-/

set_option linter.unusedSectionVars false

namespace Props
open Np NDArr Spec Model Lemmas

variable {K : Type} [Field K] [LinearOrder K] [IsStrictOrderedRing K] [FloorSemiring K]

/-- **C04.** For every tie-breaking of the sort, the bins of each kept position are computed from an
arrangement into groups of exactly the (variance, squared error) pairs of that position. -/
theorem C04_pairs_kept_together (argsort : Nat → List (Fl K) → List Nat) (s : K → K) (skip : Bool)
    (v e : NDArr (Fl K)) (nbins : Nat) (axes : List Int)
    (hargs : ∀ c l, IsArgsort l (argsort c l))
    (hsh : v.shape = e.shape) (hax : PlainAxes v.shape.length axes)
    (hD : (dropAxes (axes.map Int.toNat) v.shape).prod ≠ 0) (hn : nbins ≠ 0)
    (hle : nbins ≤ (takeAxes (axes.map Int.toNat) v.shape).prod) :
    ∃ spread rmse, spreadSkill argsort s skip v e nbins (some axes) = .ok (spread, rmse) ∧
      ∀ k, InB (dropAxes (axes.map Int.toNat) v.shape) k →
        ∃ gs, IsGrouping nbins (pairsAt v e (axes.map Int.toNat) k) gs ∧
          ∀ b g, gs[b]? = some g →
            spread.get (k ++ [b]) = Fl.sqrt s (meanOf skip (g.map Prod.fst)) ∧
            rmse.get (k ++ [b]) = Fl.sqrt s (meanOf skip (g.map Prod.snd)) := by
  have hg := goodAxes_nonneg hax.1 hax.2
  have en := axisNum_inj_nonneg (n := v.shape.length) (fun x hx => (hax.1 x hx).1)
  have := spreadSkill_spec argsort s skip v e nbins axes hsh hg hargs
  rw [en] at this
  obtain ⟨sp, rm, h1, -, -, h2⟩ := this hD hn hle
  exact ⟨sp, rm, h1, h2⟩

/-- **C04**, bootstrapped: the triples of a bin summarise common resamples of the pairs of its
group. -/
theorem C04_pairs_kept_together_boot (argsort : Nat → List (Fl K) → List Nat) (s : K → K)
    (skip : Bool) (v e : NDArr (Fl K)) (nbins : Nat) (axes : List Int) (n reps : Nat) (conf : K)
    (draw : Nat → Nat → Nat → Nat → Nat)
    (hargs : ∀ c l, IsArgsort l (argsort c l))
    (hsh : v.shape = e.shape) (hax : PlainAxes v.shape.length axes)
    (hD : (dropAxes (axes.map Int.toNat) v.shape).prod ≠ 0) (hn : nbins ≠ 0)
    (hle : nbins ≤ (takeAxes (axes.map Int.toNat) v.shape).prod)
    {spread rmse : NDArr (Fl K)}
    (hres : spreadSkillBoot argsort s skip v e nbins (some axes) n reps conf draw =
      .ok (spread, rmse)) :
      ∀ k, InB (dropAxes (axes.map Int.toNat) v.shape) k →
        ∃ gs, IsGrouping nbins (pairsAt v e (axes.map Int.toNat) k) gs ∧
          ∀ b g, gs[b]? = some g → ∃ samples tv te, IsResampleOf g n reps samples ∧
            IsSummary (samples.map fun s => meanOf skip (s.map Prod.fst)) (1 - conf) conf tv ∧
            IsSummary (samples.map fun s => meanOf skip (s.map Prod.snd)) (1 - conf) conf te ∧
            ∀ c, c < 3 → spread.get (k ++ [b, c]) = Fl.sqrt s (tv.getD c none) ∧
              rmse.get (k ++ [b, c]) = Fl.sqrt s (te.getD c none) := by
  have hg := goodAxes_nonneg hax.1 hax.2
  have en := axisNum_inj_nonneg (n := v.shape.length) (fun x hx => (hax.1 x hx).1)
  have := spreadSkillBoot_spec argsort s skip v e nbins axes n reps conf draw hsh hg hargs
  rw [en] at this
  exact (this hD hn hle hres).2.2

/-- **C06**, spread-skill: result shapes `(*kept, nbins)`. -/
theorem C06_spread_skill_shape (argsort : Nat → List (Fl K) → List Nat) (s : K → K) (skip : Bool)
    (v e : NDArr (Fl K)) (nbins : Nat) (axes : List Int)
    (hargs : ∀ c l, IsArgsort l (argsort c l))
    (hsh : v.shape = e.shape) (hax : PlainAxes v.shape.length axes)
    (hD : (dropAxes (axes.map Int.toNat) v.shape).prod ≠ 0) (hn : nbins ≠ 0)
    (hle : nbins ≤ (takeAxes (axes.map Int.toNat) v.shape).prod) :
    ∃ spread rmse, spreadSkill argsort s skip v e nbins (some axes) = .ok (spread, rmse) ∧
      spread.shape = dropAxes (axes.map Int.toNat) v.shape ++ [nbins] ∧
      rmse.shape = dropAxes (axes.map Int.toNat) v.shape ++ [nbins] := by
  have hg := goodAxes_nonneg hax.1 hax.2
  have en := axisNum_inj_nonneg (n := v.shape.length) (fun x hx => (hax.1 x hx).1)
  have := spreadSkill_spec argsort s skip v e nbins axes hsh hg hargs
  rw [en] at this
  obtain ⟨sp, rm, h1, h2, h3, -⟩ := this hD hn hle
  exact ⟨sp, rm, h1, h2, h3⟩

/-- **C06**, bootstrapped spread-skill: result shapes `(*kept, nbins, 3)`. -/
theorem C06_spread_skill_boot_shape (argsort : Nat → List (Fl K) → List Nat) (s : K → K)
    (skip : Bool) (v e : NDArr (Fl K)) (nbins : Nat) (axes : List Int) (n reps : Nat) (conf : K)
    (draw : Nat → Nat → Nat → Nat → Nat)
    (hargs : ∀ c l, IsArgsort l (argsort c l))
    (hsh : v.shape = e.shape) (hax : PlainAxes v.shape.length axes)
    (hD : (dropAxes (axes.map Int.toNat) v.shape).prod ≠ 0) (hn : nbins ≠ 0)
    (hle : nbins ≤ (takeAxes (axes.map Int.toNat) v.shape).prod)
    {spread rmse : NDArr (Fl K)}
    (hres : spreadSkillBoot argsort s skip v e nbins (some axes) n reps conf draw =
      .ok (spread, rmse)) :
    spread.shape = dropAxes (axes.map Int.toNat) v.shape ++ [nbins, 3] ∧
      rmse.shape = dropAxes (axes.map Int.toNat) v.shape ++ [nbins, 3] := by
  have hg := goodAxes_nonneg hax.1 hax.2
  have en := axisNum_inj_nonneg (n := v.shape.length) (fun x hx => (hax.1 x hx).1)
  have := spreadSkillBoot_spec argsort s skip v e nbins axes n reps conf draw hsh hg hargs
  rw [en] at this
  obtain ⟨h1, h2, -⟩ := this hD hn hle hres
  exact ⟨h1, h2⟩

/-! ### C18 -/

/-- every variance of an earlier group is at most every variance of a later group -/
theorem grouping_le {nbins : Nat} {P : List (Fl K × Fl K)} {gs : List (List (Fl K × Fl K))}
    (h : IsGrouping nbins P gs) {b c : Nat} (hbc : b < c) {g g' : List (Fl K × Fl K)}
    (hg : gs[b]? = some g) (hg' : gs[c]? = some g') : ∀ p ∈ g, ∀ q ∈ g', leNan p.1 q.1 := by
  have h1 := h.ordered
  rw [List.pairwise_map, List.pairwise_flatten] at h1
  have h2 := List.pairwise_iff_getElem.1 h1.2
  obtain ⟨hb, rfl⟩ := List.getElem?_eq_some_iff.1 hg
  obtain ⟨hc, rfl⟩ := List.getElem?_eq_some_iff.1 hg'
  exact h2 b c hb hc hbc

theorem meanOf_some {skip : Bool} {l : List (Fl K)} {m : K} (h : meanOf skip l = some m) :
    l.filterMap id ≠ [] ∧ m = (l.filterMap id).sum / ((l.filterMap id).length : K) := by
  cases skip with
  | true =>
    have h : nanmean l = some m := h
    by_cases hl : l.filterMap id = []
    · rw [nanmean_nil hl] at h; cases h
    · rw [nanmean_eq l hl] at h
      exact ⟨hl, by cases h; rfl⟩
  | false =>
    have h : mean l = some m := h
    by_cases hn : none ∈ l
    · rw [mean_none hn] at h; cases h
    · obtain ⟨w, rfl⟩ := exists_map_some hn
      rw [filterMap_id_map_some]
      by_cases hw : w = []
      · subst hw; cases h
      · rw [mean_some w hw] at h
        exact ⟨hw, by cases h; rfl⟩

theorem mean_le_mean {l m : List K} (hl : l ≠ []) (hm : m ≠ []) (h : ∀ x ∈ l, ∀ y ∈ m, x ≤ y) :
    l.sum / (l.length : K) ≤ m.sum / (m.length : K) := by
  -- compare both with the largest element of `l`
  obtain ⟨x, hx, hmax⟩ : ∃ x ∈ l, ∀ y ∈ l, y ≤ x := by
    clear h
    induction l with
    | nil => exact absurd rfl hl
    | cons a l ih =>
      by_cases hl' : l = []
      · subst hl'; exact ⟨a, by simp, by simp⟩
      · obtain ⟨x, hx, hmax⟩ := ih hl'
        rcases le_total a x with h | h
        · exact ⟨x, by simp [hx], by simpa [h] using hmax⟩
        · refine ⟨a, by simp, ?_⟩
          intro y hy
          rcases List.mem_cons.1 hy with rfl | hy
          · exact le_rfl
          · exact (hmax y hy).trans h
  have hl0 : (0 : K) < l.length := by exact_mod_cast List.length_pos_iff.2 hl
  have hm0 : (0 : K) < m.length := by exact_mod_cast List.length_pos_iff.2 hm
  have h1 : l.sum / (l.length : K) ≤ x := by
    rw [div_le_iff₀ hl0]
    have : l.sum ≤ (l.length : K) * x := by
      have : ∀ l' : List K, (∀ y ∈ l', y ≤ x) → l'.sum ≤ (l'.length : K) * x := by
        intro l' hl'
        induction l' with
        | nil => simp
        | cons a l' ih =>
          have := ih fun y hy => hl' y (by simp [hy])
          have := hl' a (by simp)
          rw [List.sum_cons, List.length_cons]; push_cast; linarith
      exact this l hmax
    linarith [mul_comm (l.length : K) x]
  have h2 : x ≤ m.sum / (m.length : K) := by
    rw [le_div_iff₀ hm0]
    have : ∀ l' : List K, (∀ y ∈ l', x ≤ y) → (l'.length : K) * x ≤ l'.sum := by
      intro l' hl'
      induction l' with
      | nil => simp
      | cons a l' ih =>
        have := ih fun y hy => hl' y (by simp [hy])
        have := hl' a (by simp)
        rw [List.sum_cons, List.length_cons]; push_cast; linarith
    linarith [this m (h x hx), mul_comm (m.length : K) x]
  exact h1.trans h2

theorem sqrt_mono {s : K → K} (hs : IsSqrt s) {x y : K} (hx : 0 ≤ x) (hxy : x ≤ y) : s x ≤ s y := by
  by_contra hc
  have h := lt_of_not_ge hc
  have h1 := hs.sq x hx
  have h2 := hs.sq y (hx.trans hxy)
  have h3 := hs.nonneg y (hx.trans hxy)
  nlinarith

/-- **C18.** Whatever the tie-breaking, the groups are complete, balanced, ordered by variance
(`IsGrouping`, and every variance of a group ≤ every variance of a later group), and the reported
spread is non-decreasing over bins. -/
theorem C18_bins_balanced_ordered (argsort : Nat → List (Fl K) → List Nat) (s : K → K) (hs : IsSqrt s)
    (skip : Bool) (v e : NDArr (Fl K)) (nbins : Nat) (axes : List Int)
    (hargs : ∀ c l, IsArgsort l (argsort c l))
    (hsh : v.shape = e.shape) (hax : PlainAxes v.shape.length axes)
    (hD : (dropAxes (axes.map Int.toNat) v.shape).prod ≠ 0) (hn : nbins ≠ 0)
    (hle : nbins ≤ (takeAxes (axes.map Int.toNat) v.shape).prod) :
    ∃ spread rmse, spreadSkill argsort s skip v e nbins (some axes) = .ok (spread, rmse) ∧
      ∀ k, InB (dropAxes (axes.map Int.toNat) v.shape) k →
        (∃ gs, IsGrouping nbins (pairsAt v e (axes.map Int.toNat) k) gs ∧
          (∀ (b c : Nat) g g', b < c → gs[b]? = some g → gs[c]? = some g' →
            ∀ p ∈ g, ∀ q ∈ g', leNan p.1 q.1) ∧
          ∀ b g, gs[b]? = some g →
            spread.get (k ++ [b]) = Fl.sqrt s (meanOf skip (g.map Prod.fst))) ∧
        ∀ b c x y, b ≤ c → c < nbins → spread.get (k ++ [b]) = some x →
          spread.get (k ++ [c]) = some y → x ≤ y := by
  obtain ⟨sp, rm, h1, h2⟩ := C04_pairs_kept_together argsort s skip v e nbins axes hargs hsh hax hD
    hn hle
  refine ⟨sp, rm, h1, ?_⟩
  intro k hk
  obtain ⟨gs, hgs, hval⟩ := h2 k hk
  refine ⟨⟨gs, hgs, fun b c g g' hbc hg hg' => grouping_le hgs hbc hg hg',
    fun b g hg => (hval b g hg).1⟩, ?_⟩
  intro b c x y hbc hc hx hy
  rcases Nat.eq_or_lt_of_le hbc with rfl | hlt
  · rw [hx] at hy; cases hy; exact le_rfl
  have hbl : b < gs.length := by rw [hgs.count]; omega
  have hcl : c < gs.length := by rw [hgs.count]; omega
  have hb' := List.getElem?_eq_getElem hbl
  have hc' := List.getElem?_eq_getElem hcl
  rw [(hval b _ hb').1] at hx
  rw [(hval c _ hc').1] at hy
  have key : ∀ {z : Fl K} {w : K}, Fl.sqrt s z = some w → ∃ u, z = some u ∧ 0 ≤ u ∧ w = s u := by
    intro z w h
    cases z with
    | none => cases h
    | some u =>
      simp only [Fl.sqrt] at h
      split at h
      · cases h; exact ⟨u, rfl, by assumption, rfl⟩
      · cases h
  obtain ⟨u, hu, hu0, rfl⟩ := key hx
  obtain ⟨w, hw, hw0, rfl⟩ := key hy
  apply sqrt_mono hs hu0
  obtain ⟨n1, rfl⟩ := meanOf_some hu
  obtain ⟨n2, rfl⟩ := meanOf_some hw
  apply mean_le_mean n1 n2
  intro a ha a' ha'
  simp only [List.mem_filterMap, List.mem_map, id] at ha ha'
  obtain ⟨_, ⟨p, hp, rfl⟩, hpa⟩ := ha
  obtain ⟨_, ⟨q, hq, rfl⟩, hqa⟩ := ha'
  have := grouping_le hgs hlt hb' hc' p hp q hq
  rw [hpa, hqa] at this
  exact this

/-- **C18**, definedness: with non-negative variances and no NaN every reported spread is a number. -/
theorem C18_spread_defined (argsort : Nat → List (Fl K) → List Nat) (s : K → K)
    (skip : Bool) (v e : NDArr (Fl K)) (nbins : Nat) (axes : List Int)
    (hargs : ∀ c l, IsArgsort l (argsort c l))
    (hsh : v.shape = e.shape) (hax : PlainAxes v.shape.length axes)
    (hD : (dropAxes (axes.map Int.toNat) v.shape).prod ≠ 0) (hn : nbins ≠ 0)
    (hle : nbins ≤ (takeAxes (axes.map Int.toNat) v.shape).prod)
    (hv : ∀ i, InB v.shape i → ∃ x, v.get i = some x ∧ 0 ≤ x) :
    ∃ spread rmse, spreadSkill argsort s skip v e nbins (some axes) = .ok (spread, rmse) ∧
      ∀ k b, InB (dropAxes (axes.map Int.toNat) v.shape) k → b < nbins →
        ∃ x, spread.get (k ++ [b]) = some x := by
  obtain ⟨sp, rm, h1, h2⟩ := C04_pairs_kept_together argsort s skip v e nbins axes hargs hsh hax hD
    hn hle
  refine ⟨sp, rm, h1, ?_⟩
  intro k b hk hb
  obtain ⟨gs, hgs, hval⟩ := h2 k hk
  have hbl : b < gs.length := by rw [hgs.count]; omega
  have hb' := List.getElem?_eq_getElem hbl
  rw [(hval b _ hb').1]
  set g := gs[b] with hgdef
  have hPl : (pairsAt v e (axes.map Int.toNat) k).length = (takeAxes (axes.map Int.toNat) v.shape).prod := by
    have h3 := congrArg List.length (map_takeAxes_fiberIdx v.shape (axes.map Int.toNat) k hk)
    rw [List.length_map, length_allIdx] at h3
    simpa [pairsAt] using h3
  -- the group is not empty
  have hgne : g ≠ [] := by
    intro h0
    -- all groups then have at most one element, those after `b` none: too few elements
    have hsz : gs.flatten.length = (takeAxes (axes.map Int.toNat) v.shape).prod := by
      rw [hgs.complete.length_eq, hPl]
    have hall : ∀ h ∈ gs, h.length ≤ 1 := by
      intro h hh
      obtain ⟨j, hj, rfl⟩ := List.getElem_of_mem hh
      rcases Nat.lt_trichotomy j b with hjb | rfl | hjb
      · have := (List.pairwise_iff_getElem.1 hgs.balanced j b hj hbl hjb).2
        rw [← hgdef, h0] at this; simpa using this
      · rw [← hgdef, h0]; simp
      · have := (List.pairwise_iff_getElem.1 hgs.balanced b j hbl hj hjb).1
        rw [← hgdef, h0] at this
        simp only [List.length_nil, Nat.le_zero] at this
        omega
    have hlt : gs.flatten.length < gs.length := by
      rw [List.length_flatten]
      have : ∀ (l : List (List (Fl K × Fl K))), (∀ h ∈ l, h.length ≤ 1) → [] ∈ l →
          (l.map List.length).sum < l.length := by
        intro l hl h0
        induction l with
        | nil => simp at h0
        | cons a l ih =>
          have hle' : ∀ (l : List (List (Fl K × Fl K))), (∀ h ∈ l, h.length ≤ 1) →
              (l.map List.length).sum ≤ l.length := by
            intro l hl
            induction l with
            | nil => simp
            | cons a l ih =>
              have := ih fun h hh => hl h (by simp [hh])
              have := hl a (by simp)
              simp only [List.map_cons, List.sum_cons, List.length_cons]; omega
          rcases List.mem_cons.1 h0 with h | h
          · subst h
            have := hle' l fun h hh => hl h (by simp [hh])
            simp only [List.map_cons, List.sum_cons, List.length_cons, List.length_nil]; omega
          · have := ih (fun h hh => hl h (by simp [hh])) h
            have := hl a (by simp)
            simp only [List.map_cons, List.sum_cons, List.length_cons]; omega
      apply this gs hall
      rw [← h0, hgdef]; exact List.getElem_mem _
    rw [hsz, hgs.count] at hlt
    omega
  have hmem : ∀ p ∈ g, ∃ x, p.1 = some x ∧ 0 ≤ x := by
    intro p hp
    have : p ∈ pairsAt v e (axes.map Int.toNat) k :=
      hgs.complete.mem_iff.1 (List.mem_flatten.2 ⟨g, List.getElem_mem _, hp⟩)
    simp only [pairsAt, List.mem_map] at this
    obtain ⟨i, hi, rfl⟩ := this
    exact hv i (mem_fiberIdx.1 hi).1
  obtain ⟨w, hw⟩ := exists_map_some (l := g.map Prod.fst) (by
    intro h0
    obtain ⟨p, hp, hp0⟩ := List.mem_map.1 h0
    obtain ⟨x, hx, -⟩ := hmem p hp
    rw [hp0] at hx; cases hx)
  have hwne : w ≠ [] := by
    intro h0; rw [h0] at hw; simp at hw; exact hgne hw
  have hw0 : ∀ x ∈ w, 0 ≤ x := by
    intro x hx
    have : some x ∈ g.map Prod.fst := by rw [hw]; exact List.mem_map_of_mem hx
    obtain ⟨p, hp, hpx⟩ := List.mem_map.1 this
    obtain ⟨y, hy, hy0⟩ := hmem p hp
    rw [hpx] at hy; cases hy; exact hy0
  have hm : meanOf skip (g.map Prod.fst) = some (w.sum / (w.length : K)) := by
    rw [hw]
    cases skip with
    | true =>
      show nanmean _ = _
      rw [nanmean_eq _ (by rw [filterMap_id_map_some]; exact hwne), filterMap_id_map_some]
    | false => exact mean_some w hwne
  rw [hm]
  simp only [Fl.sqrt]
  rw [if_pos (div_nonneg (List.sum_nonneg hw0) (Nat.cast_nonneg _))]
  exact ⟨_, rfl⟩

/-- **C18**, error: more bins than samples is an `AssertionError`. -/
theorem C18_too_many_bins (argsort : Nat → List (Fl K) → List Nat) (s : K → K) (skip : Bool)
    (v e : NDArr (Fl K)) (nbins : Nat) (axes : List Int)
    (hsh : v.shape = e.shape) (hax : PlainAxes v.shape.length axes)
    (hD : (dropAxes (axes.map Int.toNat) v.shape).prod ≠ 0)
    (hgt : (takeAxes (axes.map Int.toNat) v.shape).prod < nbins) :
    spreadSkill argsort s skip v e nbins (some axes) = .error .assertion := by
  have hg := goodAxes_nonneg hax.1 hax.2
  have en := axisNum_inj_nonneg (n := v.shape.length) (fun x hx => (hax.1 x hx).1)
  have := ssCreateSplit_too_many argsort v e nbins axes hsh hg
  rw [en] at this
  unfold spreadSkill
  rw [this hD hgt]; rfl

/-- an `argsort` exists (insertion sort of the positions), so the hypotheses are satisfiable -/
theorem exists_argsort : ∃ argsort : Nat → List (Fl K) → List Nat,
    ∀ c l, IsArgsort l (argsort c l) := by
  refine ⟨fun _ l => (List.range l.length).insertionSort fun i j =>
    leNan (l.getD i none) (l.getD j none), ?_⟩
  intro c l
  have htot : ∀ a b : Fl K, leNan a b ∨ leNan b a := by
    intro a b; cases a <;> cases b <;> simp [leNan, le_total]
  have htr : ∀ a b c : Fl K, leNan a b → leNan b c → leNan a c := by
    intro a b c; cases a <;> cases b <;> cases c <;> simp [leNan]
    exact fun h1 h2 => h1.trans h2
  have : Std.Total (fun i j : Nat => leNan (l.getD i none) (l.getD j none)) :=
    ⟨fun i j => htot _ _⟩
  have : IsTrans Nat (fun i j : Nat => leNan (l.getD i none) (l.getD j none)) :=
    ⟨fun i j k => htr _ _ _⟩
  refine ⟨List.perm_insertionSort _ _, ?_⟩
  rw [List.pairwise_map]
  exact List.pairwise_insertionSort (fun i j => leNan (l.getD i none) (l.getD j none)) _

example : ∃ (v e : NDArr (Fl ℚ)), v.shape = e.shape ∧ PlainAxes v.shape.length [0] ∧
    (dropAxes ([0] : List Nat) v.shape).prod ≠ 0 ∧ 2 ≤ (takeAxes ([0] : List Nat) v.shape).prod :=
  ⟨⟨[3, 2], [some 1, some 2, some 3, none, some 5, some 6], rfl⟩,
    ⟨[3, 2], [some 1, some 1, some 2, some 2, some 1, some 6], rfl⟩, rfl, by unfold PlainAxes; decide,
    by decide, by decide⟩

end Props
