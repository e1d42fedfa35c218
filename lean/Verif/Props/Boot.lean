import Verif.Lemmas.Boot
import Mathlib.Algebra.Order.Ring.Rat
import Mathlib.Data.Rat.Floor

/-!
# Bootstrap properties of `boot_arr`: C01, C02, C24, C25 (and the shape part of C06)
-/

set_option linter.unusedSectionVars false

namespace Props
open Np NDArr Spec Model Lemmas

variable {K : Type} [Field K] [LinearOrder K] [IsStrictOrderedRing K] [FloorSemiring K]

/-- Distinct non-negative in-range axes. -/
def PlainAxes (n : Nat) (axes : List Int) : Prop :=
  (∀ x ∈ axes, 0 ≤ x ∧ x < n) ∧ axes.Nodup

/-- **C01.** Every triple in a successful `boot_arr` result is a bootstrap summary of resamples of
exactly the entries over its kept position. -/
theorem C01_boot_population (metric : NDArr (Fl K)) (axes : List Int) (n reps : Nat) (conf : K)
    (skip : Bool) (draw : Nat → Nat → Nat → Nat) (res : NDArr (Fl K))
    (hax : PlainAxes metric.shape.length axes)
    (hres : bootArr metric (some axes) n reps conf skip draw = .ok res) :
    res.shape = 3 :: dropAxes (axes.map Int.toNat) metric.shape ∧
    ∀ k, InB (dropAxes (axes.map Int.toNat) metric.shape) k →
      ∃ samples, IsResample (fiber metric (axes.map Int.toNat) k) n reps samples ∧
        IsBootSummary samples conf skip [res.get (0 :: k), res.get (1 :: k), res.get (2 :: k)] := by
  have hg := goodAxes_nonneg hax.1 hax.2
  have e := axisNum_inj_nonneg (n := metric.shape.length) (fun x hx => (hax.1 x hx).1)
  obtain ⟨h1, h2⟩ := bootArr_layout hg hres
  rw [e] at h1 h2
  refine ⟨h1, ?_⟩
  intro k hk
  obtain ⟨t, ht, htg⟩ := h2 k hk
  obtain ⟨samples, hs, hb⟩ := bootVec_ok.1 ht
  refine ⟨samples, bootVec_isResample hs, ?_⟩
  obtain ⟨lo, hi, h3, h4, rfl⟩ := hb
  refine ⟨lo, hi, h3, h4, ?_⟩
  rw [htg 0 (by omega), htg 1 (by omega), htg 2 (by omega)]
  rfl

/-- **C01**, converse: every choice of resamples from the right populations is produced by some
random outcome, so no entry of the population is excluded. -/
theorem C01_boot_population_reach (metric : NDArr (Fl K)) (axes : List Int) (n reps : Nat) (conf : K)
    (skip : Bool) (hax : PlainAxes metric.shape.length axes)
    (hconf : -1 ≤ conf ∧ conf ≤ 1)
    (hD : (dropAxes (axes.map Int.toNat) metric.shape).prod ≠ 0)
    (samples : List Nat → List (List (Fl K)))
    (hs : ∀ k, InB (dropAxes (axes.map Int.toNat) metric.shape) k →
      IsResample (fiber metric (axes.map Int.toNat) k) n reps (samples k)) :
    ∃ draw res, bootArr metric (some axes) n reps conf skip draw = .ok res ∧
      ∀ k, InB (dropAxes (axes.map Int.toNat) metric.shape) k →
        IsBootSummary (samples k) conf skip
          [res.get (0 :: k), res.get (1 :: k), res.get (2 :: k)] := by
  have hg := goodAxes_nonneg hax.1 hax.2
  have e := axisNum_inj_nonneg (n := metric.shape.length) (fun x hx => (hax.1 x hx).1)
  set D := dropAxes (axes.map Int.toNat) metric.shape with hDdef
  let draw : Nat → Nat → Nat → Nat := fun c r j =>
    (fiber metric (axes.map Int.toNat) ((allIdx D).getD c [])).idxOf
      (((samples ((allIdx D).getD c [])).getD r []).getD j none)
  have hidx : ∀ k, InB D k → (allIdx D).getD (ravel D k) [] = k := by
    intro k hk; rw [List.getD_eq_getElem?_getD, getElem?_allIdx hk]; rfl
  have hsum : ∀ k, InB D k → ∃ t, IsBootSummary (samples k) conf skip t := by
    intro k _
    have hq : ∀ (ms : List (Fl K)) (q : K), 0 ≤ q ∧ q ≤ 1 → ∃ x, quantile ms q = .ok x := by
      intro ms q hq; unfold quantile; rw [if_pos hq]; split <;> exact ⟨_, rfl⟩
    obtain ⟨lo, hlo⟩ := hq ((samples k).map (meanOf skip)) ((1 - conf) / 2)
      ⟨by linarith [hconf.2], by linarith [hconf.1]⟩
    obtain ⟨hi, hhi⟩ := hq ((samples k).map (meanOf skip)) (1 - (1 - conf) / 2)
      ⟨by linarith [hconf.1], by linarith [hconf.2]⟩
    exact ⟨_, lo, hi, hlo, hhi, rfl⟩
  have hvec : ∀ k, InB D k → ∀ t, IsBootSummary (samples k) conf skip t →
      bootVec (fiber metric (axes.map Int.toNat) k) n reps conf skip (draw (ravel D k)) = .ok t := by
    intro k hk t ht
    rw [bootVec_ok]
    refine ⟨samples k, ?_, ht⟩
    have := bootVec_reach (hs k hk)
    simpa only [draw, hidx k hk] using this
  obtain ⟨res, hres⟩ := bootArr_total (n := n) (reps := reps) (conf := conf) (skip := skip)
    (draw := draw) hg (by rw [e]; exact hD) (by
      rw [e]; intro k hk
      obtain ⟨t, ht⟩ := hsum k hk
      exact ⟨t, hvec k hk t ht⟩)
  refine ⟨draw, res, hres, ?_⟩
  intro k hk
  obtain ⟨_, h2⟩ := bootArr_layout hg hres
  rw [e] at h2
  obtain ⟨t, ht, htg⟩ := h2 k hk
  obtain ⟨t', ht'⟩ := hsum k hk
  have := hvec k hk t' ht'
  rw [← hDdef] at ht
  rw [this] at ht
  cases ht
  obtain ⟨lo, hi, h3, h4, rfl⟩ := ht'
  refine ⟨lo, hi, h3, h4, ?_⟩
  rw [htg 0 (by omega), htg 1 (by omega), htg 2 (by omega)]
  rfl

/-- `sample_axis=None` is the list of all axes. -/
theorem C01_boot_none (metric : NDArr (Fl K)) (n reps : Nat) (conf : K) (skip : Bool)
    (draw : Nat → Nat → Nat → Nat) :
    bootArr metric none n reps conf skip draw =
      bootArr metric (some ((List.range metric.shape.length).map Int.ofNat)) n reps conf skip draw :=
  rfl

/-- An empty kept dimension makes numpy's `reshape(-1, 0)` raise. -/
theorem C01_boot_empty_kept (metric : NDArr (Fl K)) (axes : List Int) (n reps : Nat) (conf : K)
    (skip : Bool) (draw : Nat → Nat → Nat → Nat) (hax : PlainAxes metric.shape.length axes)
    (h0 : (dropAxes (axes.map Int.toNat) metric.shape).prod = 0) :
    bootArr metric (some axes) n reps conf skip draw = .error .value := by
  have hg := goodAxes_nonneg hax.1 hax.2
  have e := axisNum_inj_nonneg (n := metric.shape.length) (fun x hx => (hax.1 x hx).1)
  obtain ⟨m, hm, _⟩ := moveSampleAxes_spec metric axes hg
  unfold bootArr
  rw [hm, e]
  simp [bind, Except.bind, reshapeInfer, h0]

/-- example: a 2x2 array, bootstrapping over axis 1. -/
example : PlainAxes 2 [1] ∧ ∃ res,
    bootArr (K := ℚ) ⟨[2, 2], [some 1, some 2, some 3, none], rfl⟩ (some [1]) 2 3 (1 / 2) false
      (fun c r j => c + r + j) = .ok res ∧
    (decide (res.get [1, 0] = some (3 / 2)) && decide (res.get [1, 1] = none)) = true :=
  ⟨⟨by decide, by decide⟩, okAnd_iff.1 (by decide +kernel)⟩

/-! ## C02 -/

/-- **C02 (partial).** If all axes are written non-negatively, or all negatively - more generally
whenever sorting the spellings also sorts the axis numbers (`GoodAxes`) - the result is the same as
for the non-negative spelling, for the same random outcome.  Missing: lists mixing signs. -/
theorem C02_negative_axes_partial (metric : NDArr (Fl K)) (axes : List Int) (n reps : Nat) (conf : K)
    (skip : Bool) (draw : Nat → Nat → Nat → Nat)
    (hax : (∀ x ∈ axes, -(metric.shape.length : Int) ≤ x ∧ x < 0) ∧ axes.Nodup ∨
      GoodAxes metric.shape.length axes) :
    bootArr metric (some axes) n reps conf skip draw =
      bootArr metric (some (axes.map fun x => (axisNum metric.shape.length x : Int))) n reps conf skip
        draw := by
  have hg : GoodAxes metric.shape.length axes := by
    rcases hax with h | h
    · exact goodAxes_neg h.1 h.2
    · exact h
  have hnum : (axes.map fun x => (axisNum metric.shape.length x : Int)).map
      (axisNum metric.shape.length) = axes.map (axisNum metric.shape.length) := by
    rw [List.map_map]; apply List.map_congr_left; intro x hx; simp [axisNum]; omega
  have hg' : GoodAxes metric.shape.length
      (axes.map fun x => (axisNum metric.shape.length x : Int)) := by
    apply goodAxes_nonneg
    · intro y hy
      simp only [List.mem_map] at hy
      obtain ⟨x, hx, rfl⟩ := hy
      have := axisNum_lt (hg.1 x hx)
      omega
    · have h1 : (axes.map (axisNum metric.shape.length)).Nodup :=
        ((npSortInt_perm axes).map _).nodup_iff.1 (hg.2.imp fun h => Nat.ne_of_lt h)
      have h2 : (axes.map fun x => (axisNum metric.shape.length x : Int)) =
          (axes.map (axisNum metric.shape.length)).map Int.ofNat := by simp
      rw [h2]
      exact h1.map (fun a b h => by simpa using h)
  unfold bootArr
  rw [moveSampleAxes_congr metric hg hg' (by rw [hnum])]

example : GoodAxes 3 [-1, -3] := goodAxes_neg (by decide) (by decide)

/-- **C02 is false in general**: on a 2x2x2 array, bootstrapping over `(1, -1)` differs from
bootstrapping over `(1, 2)`, for the same (trivial) random outcome. -/
theorem C02_false : ∃ (metric : NDArr (Fl ℚ)) (draw : Nat → Nat → Nat → Nat),
    (∃ r, bootArr metric (some [1, 2]) 1 1 (1 / 2) false draw = .ok r ∧
      decide (r.data = [some 0, some 1, some 0, some 1, some 0, some 1]) = true) ∧
    bootArr metric (some [1, -1]) 1 1 (1 / 2) false draw ≠
      bootArr metric (some [1, 2]) 1 1 (1 / 2) false draw := by
  refine ⟨⟨[2, 2, 2], [some 0, some 0, some 0, some 0, some 1, some 1, some 1, some 1], rfl⟩,
    fun _ _ _ => 0, okAnd_iff.1 (by decide +kernel), ?_⟩
  have h : (bootArr (K := ℚ) ⟨[2, 2, 2], [some 0, some 0, some 0, some 0, some 1, some 1, some 1,
      some 1], rfl⟩ (some [1, -1]) 1 1 (1 / 2) false (fun _ _ _ => 0)).toOption.map (·.data) ≠
    (bootArr (K := ℚ) ⟨[2, 2, 2], [some 0, some 0, some 0, some 0, some 1, some 1, some 1,
      some 1], rfl⟩ (some [1, 2]) 1 1 (1 / 2) false (fun _ _ _ => 0)).toOption.map (·.data) := by
    decide +kernel
  intro e
  exact h (by rw [e])

/-! ## C24 -/

/-- **C24.** The three numbers of a bootstrap are either all NaN or all numbers; in the latter case
low ≤ high and all three lie between any bounds of the (non-NaN) values over the kept position. -/
theorem C24_boot_interval (metric : NDArr (Fl K)) (axes : List Int) (n reps : Nat) (conf : K)
    (skip : Bool) (draw : Nat → Nat → Nat → Nat) (res : NDArr (Fl K))
    (hax : PlainAxes metric.shape.length axes) (hconf : 0 ≤ conf ∧ conf ≤ 1)
    (hres : bootArr metric (some axes) n reps conf skip draw = .ok res)
    (k : List Nat) (hk : InB (dropAxes (axes.map Int.toNat) metric.shape) k)
    (lo hi : K) (hb : ∀ x, some x ∈ fiber metric (axes.map Int.toNat) k → lo ≤ x ∧ x ≤ hi) :
    (res.get (0 :: k) = none ∧ res.get (1 :: k) = none ∧ res.get (2 :: k) = none) ∨
    ∃ l m h, res.get (0 :: k) = some l ∧ res.get (1 :: k) = some m ∧ res.get (2 :: k) = some h ∧
      l ≤ h ∧ (lo ≤ l ∧ l ≤ hi) ∧ (lo ≤ m ∧ m ≤ hi) ∧ (lo ≤ h ∧ h ≤ hi) := by
  obtain ⟨_, h2⟩ := C01_boot_population metric axes n reps conf skip draw res hax hres
  obtain ⟨samples, ⟨hlen, hsam⟩, l, h, hl, hh, ht⟩ := h2 k hk
  simp only [List.cons.injEq, and_true] at ht
  obtain ⟨e0, e1, e2⟩ := ht
  set ms := samples.map (meanOf skip) with hms
  have q1 : 0 ≤ (1 - conf) / 2 ∧ (1 - conf) / 2 ≤ 1 := ⟨by linarith, by linarith⟩
  have q2 : 0 ≤ 1 - (1 - conf) / 2 ∧ 1 - (1 - conf) / 2 ≤ 1 := ⟨by linarith, by linarith⟩
  have q3 : (1 - conf) / 2 ≤ 1 - (1 - conf) / 2 := by linarith
  by_cases hbad : ms = [] ∨ none ∈ ms
  · left
    unfold quantile at hl hh
    rw [if_pos q1, if_pos hbad] at hl
    rw [if_pos q2, if_pos hbad] at hh
    cases hl; cases hh
    refine ⟨e0, ?_, e2⟩
    rw [e1]
    rcases hbad with h' | h'
    · rw [h']; rfl
    · exact mean_none h'
  · right
    push Not at hbad
    obtain ⟨vs, hvs⟩ := exists_map_some hbad.2
    have hvne : vs ≠ [] := fun h => hbad.1 (by rw [hvs, h]; rfl)
    -- every replicate mean is within the bounds
    have hvb : ∀ v ∈ vs, lo ≤ v ∧ v ≤ hi := by
      intro v hv
      have : some v ∈ ms := by rw [hvs]; exact List.mem_map_of_mem hv
      rw [hms, List.mem_map] at this
      obtain ⟨s, hs, hmean⟩ := this
      obtain ⟨_, hsub⟩ := hsam s hs
      have hnum : ∀ (xs : List K), (∀ x ∈ xs, some x ∈ s) → xs ≠ [] →
          lo ≤ xs.sum / (xs.length : K) ∧ xs.sum / (xs.length : K) ≤ hi := by
        intro xs hxs hne
        exact mean_bounds hne fun x hx => hb x (hsub _ (hxs x hx))
      unfold meanOf at hmean
      split at hmean
      · by_cases hne : s.filterMap id = []
        · rw [nanmean_nil hne] at hmean; cases hmean
        · rw [nanmean_eq s hne] at hmean
          cases hmean
          exact hnum _ (fun x hx => by simpa using hx) hne
      · by_cases hn : none ∈ s
        · rw [mean_none hn] at hmean; cases hmean
        · obtain ⟨xs, rfl⟩ := exists_map_some hn
          by_cases hne : xs = []
          · subst hne; simp [mean] at hmean
          · rw [mean_some xs hne] at hmean
            cases hmean
            exact hnum xs (fun x hx => List.mem_map_of_mem hx) hne
    rw [hvs] at hl hh e1
    rw [quantile_some hvne q1.1 q1.2] at hl
    rw [quantile_some hvne q2.1 q2.2] at hh
    cases hl; cases hh
    rw [mean_some vs hvne] at e1
    have hsort := sortK_sorted vs
    have hsne := sortK_ne_nil hvne
    have hsb : ∀ x ∈ sortK vs, lo ≤ x ∧ x ≤ hi := fun x hx => hvb x ((sortK_perm vs).mem_iff.1 hx)
    have v1 := vidx_bounds (n := (sortK vs).length - 1) q1.1 q1.2
    have v2 := vidx_bounds (n := (sortK vs).length - 1) q2.1 q2.2
    refine ⟨_, _, _, e0, e1, e2, ?_, ?_, ?_, ?_⟩
    · apply lerpAt_mono hsort v1.1 _ v2.2 hsne
      have : (0 : K) ≤ (((sortK vs).length - 1 : Nat) : K) := Nat.cast_nonneg _
      nlinarith
    · exact lerpAt_range hsort v1.1 v1.2 hsne hsb
    · exact mean_bounds hvne hvb
    · exact lerpAt_range hsort v2.1 v2.2 hsne hsb

/-- **C24**, totality: with data free of NaN, a non-empty population, at least one sample and one
repeat, the three numbers are not NaN. -/
theorem C24_boot_defined (metric : NDArr (Fl K)) (axes : List Int) (n reps : Nat) (conf : K)
    (skip : Bool) (draw : Nat → Nat → Nat → Nat) (res : NDArr (Fl K))
    (hax : PlainAxes metric.shape.length axes) (hconf : 0 ≤ conf ∧ conf ≤ 1)
    (hn : 1 ≤ n) (hr : 1 ≤ reps)
    (hres : bootArr metric (some axes) n reps conf skip draw = .ok res)
    (k : List Nat) (hk : InB (dropAxes (axes.map Int.toNat) metric.shape) k)
    (hnan : none ∉ fiber metric (axes.map Int.toNat) k) :
    ∃ l m h, res.get (0 :: k) = some l ∧ res.get (1 :: k) = some m ∧ res.get (2 :: k) = some h := by
  obtain ⟨_, h2⟩ := C01_boot_population metric axes n reps conf skip draw res hax hres
  obtain ⟨samples, ⟨hlen, hsam⟩, l, h, hl, hh, ht⟩ := h2 k hk
  simp only [List.cons.injEq, and_true] at ht
  obtain ⟨e0, e1, e2⟩ := ht
  have q1 : 0 ≤ (1 - conf) / 2 ∧ (1 - conf) / 2 ≤ 1 := ⟨by linarith, by linarith⟩
  have q2 : 0 ≤ 1 - (1 - conf) / 2 ∧ 1 - (1 - conf) / 2 ≤ 1 := ⟨by linarith, by linarith⟩
  have hok : none ∉ samples.map (meanOf skip) := by
    intro hmem
    rw [List.mem_map] at hmem
    obtain ⟨s, hs, hmean⟩ := hmem
    obtain ⟨h3, h4⟩ := hsam s hs
    have hns : none ∉ s := fun h => hnan (h4 _ h)
    obtain ⟨xs, rfl⟩ := exists_map_some hns
    have hne : xs ≠ [] := by rintro rfl; simp at h3; omega
    unfold meanOf at hmean
    split at hmean
    · rw [nanmean_eq _ (by rwa [filterMap_id_map_some])] at hmean; cases hmean
    · rw [mean_some xs hne] at hmean; cases hmean
  obtain ⟨vs, hvs⟩ := exists_map_some hok
  have hvne : vs ≠ [] := by
    rintro rfl
    have := congrArg List.length hvs
    simp at this
    rw [this] at hlen
    simp at hlen
    omega
  rw [hvs] at hl hh e1
  rw [quantile_some hvne q1.1 q1.2] at hl
  rw [quantile_some hvne q2.1 q2.2] at hh
  cases hl; cases hh
  rw [mean_some vs hvne] at e1
  exact ⟨_, _, _, e0, e1, e2⟩

/-- **C24**, constants: if every value over the position is `c`, so are low, mean and high. -/
theorem C24_boot_constant (metric : NDArr (Fl K)) (axes : List Int) (n reps : Nat) (conf : K)
    (skip : Bool) (draw : Nat → Nat → Nat → Nat) (res : NDArr (Fl K))
    (hax : PlainAxes metric.shape.length axes) (hconf : 0 ≤ conf ∧ conf ≤ 1)
    (hn : 1 ≤ n) (hr : 1 ≤ reps)
    (hres : bootArr metric (some axes) n reps conf skip draw = .ok res)
    (k : List Nat) (hk : InB (dropAxes (axes.map Int.toNat) metric.shape) k)
    (c : K) (hc : ∀ x ∈ fiber metric (axes.map Int.toNat) k, x = some c) :
    res.get (0 :: k) = some c ∧ res.get (1 :: k) = some c ∧ res.get (2 :: k) = some c := by
  have hnan : none ∉ fiber metric (axes.map Int.toNat) k := fun h => by cases hc _ h
  obtain ⟨l, m, h, e0, e1, e2⟩ := C24_boot_defined metric axes n reps conf skip draw res hax hconf hn hr
    hres k hk hnan
  rcases C24_boot_interval metric axes n reps conf skip draw res hax hconf hres k hk c c
    (fun x hx => by cases hc _ hx; exact ⟨le_rfl, le_rfl⟩) with h' | ⟨l', m', h', e0', e1', e2', _, a, b, d⟩
  · rw [h'.1] at e0; cases e0
  · rw [e0', e1', e2', le_antisymm a.2 a.1, le_antisymm b.2 b.1, le_antisymm d.2 d.1]
    exact ⟨rfl, rfl, rfl⟩

/-! ## C25 -/

/-- **C25 is false**: the reported mean can lie strictly above the interval. -/
theorem C25_false : ∃ (metric : NDArr (Fl ℚ)) (draw : Nat → Nat → Nat → Nat) (res : NDArr (Fl ℚ)),
    bootArr metric none 1 5 (1 / 2) false draw = .ok res ∧
      res.get [0] = some 0 ∧ res.get [1] = some 1 ∧ res.get [2] = some 0 := by
  obtain ⟨res, h1, h2⟩ := okAnd_iff.1 (show okAnd (bootArr (K := ℚ) ⟨[2], [some 0, some 5], rfl⟩ none
    1 5 (1 / 2) false (fun _ r _ => if r = 4 then 1 else 0)) (fun res => decide (res.get [0] = some 0 ∧
      res.get [1] = some 1 ∧ res.get [2] = some 0)) = true by decide +kernel)
  exact ⟨_, _, res, h1, of_decide_eq_true h2⟩

/-- **C25 (partial).** At confidence one (the interval from the smallest to the largest replicate)
the mean is inside.  Missing: every other confidence level, where the claim is false. -/
theorem C25_mean_inside_partial (metric : NDArr (Fl K)) (axes : List Int) (n reps : Nat)
    (skip : Bool) (draw : Nat → Nat → Nat → Nat) (res : NDArr (Fl K))
    (hax : PlainAxes metric.shape.length axes)
    (hres : bootArr metric (some axes) n reps 1 skip draw = .ok res)
    (k : List Nat) (hk : InB (dropAxes (axes.map Int.toNat) metric.shape) k)
    (l m h : K) (e0 : res.get (0 :: k) = some l) (e1 : res.get (1 :: k) = some m)
    (e2 : res.get (2 :: k) = some h) : l ≤ m ∧ m ≤ h := by
  obtain ⟨_, h2⟩ := C01_boot_population metric axes n reps 1 skip draw res hax hres
  obtain ⟨samples, ⟨hlen, hsam⟩, l', h', hl, hh, ht⟩ := h2 k hk
  simp only [List.cons.injEq, and_true] at ht
  obtain ⟨f0, f1, f2⟩ := ht
  rw [f0] at e0; rw [f1] at e1; rw [f2] at e2
  subst e0; subst e2
  set ms := samples.map (meanOf skip)
  have hbad : ¬ (ms = [] ∨ none ∈ ms) := by
    rintro (h | h)
    · rw [h] at e1; simp [mean] at e1
    · rw [mean_none h] at e1; cases e1
  push Not at hbad
  obtain ⟨vs, hvs⟩ := exists_map_some hbad.2
  have hvne : vs ≠ [] := fun h => hbad.1 (by rw [hvs, h]; rfl)
  rw [hvs] at hl hh e1
  have z : (1 - 1 : K) / 2 = 0 := by simp
  rw [z] at hl hh
  rw [quantile_some hvne le_rfl zero_le_one] at hl
  rw [quantile_some hvne (by simp) (by simp)] at hh
  rw [mean_some vs hvne] at e1
  simp only [Except.ok.injEq, Option.some.injEq] at hl hh e1
  have hsne := sortK_ne_nil hvne
  have hpos : 0 < (sortK vs).length := List.length_pos_iff.2 hsne
  have hsort := sortK_sorted vs
  have a0 : lerpAt (sortK vs) (0 * (((sortK vs).length - 1 : Nat) : K)) = (sortK vs).getD 0 0 := by
    simp [lerpAt]
  have a1 : lerpAt (sortK vs) ((1 - 0) * (((sortK vs).length - 1 : Nat) : K)) =
      (sortK vs).getD ((sortK vs).length - 1) 0 := by
    simp [lerpAt]
  rw [a0] at hl
  rw [a1] at hh
  have hb : ∀ x ∈ vs, l ≤ x ∧ x ≤ h := by
    intro x hx
    have hx' : x ∈ sortK vs := (sortK_perm vs).mem_iff.2 hx
    obtain ⟨i, hi, rfl⟩ := List.mem_iff_getElem.1 hx'
    have e : (sortK vs)[i] = (sortK vs).getD i 0 := by
      rw [List.getD_eq_getElem?_getD, List.getElem?_eq_getElem hi]; rfl
    rw [e, ← hl, ← hh]
    exact ⟨getD_mono hsort (by omega) hi, getD_mono hsort (by omega) (by omega)⟩
  have := mean_bounds hvne hb
  rw [e1] at this
  exact this

end Props
