import Verif.Props.Boot
import Verif.Lemmas.Uniform
import Verif.Lemmas.Reduce

/-! C74: what the bootstrap mean estimates, averaged over all equally likely random outcomes. -/

set_option linter.unusedSectionVars false

namespace Props
open Np NDArr Spec Model Lemmas

variable {K : Type} [Field K] [LinearOrder K] [IsStrictOrderedRing K] [FloorSemiring K]

/-- an outcome of the random numbers of column `c` (the other columns are as given by `rest`): `d (r, j)` is the
position drawn in repeat `r`, sample `j` -/
def withDraws {reps n p : ℕ} (c : ℕ) (rest : ℕ → ℕ → ℕ → ℕ) (d : Fin reps × Fin n → Fin p) : ℕ → ℕ → ℕ → ℕ :=
  fun c' r j => if c' = c then (if h : r < reps ∧ j < n then (d (⟨r, h.1⟩, ⟨j, h.2⟩) : ℕ) else 0) else rest c' r j

theorem meanOf_num (skip : Bool) (l : List K) (h : l ≠ []) : meanOf skip (l.map some) = some (l.sum / (l.length : K)) := by
  unfold meanOf
  cases skip
  · exact mean_some l h
  · simp only [if_true]
    rw [nanmean_eq _ (by rwa [filterMap_id_map_some]), filterMap_id_map_some]

theorem sum_range_fin (n : ℕ) (f : ℕ → K) : ((List.range n).map f).sum = ∑ j : Fin n, f j := by
  rw [← Finset.sum_range f]
  rfl

/-- the middle number of one column -/
theorem bootVec_middle {reps n : ℕ} (hn : 1 ≤ n) (hr : 1 ≤ reps) (pop : List K) (hp : pop ≠ []) (conf : K) (skip : Bool)
    (d : Fin reps × Fin n → Fin pop.length) (c : ℕ) (rest : ℕ → ℕ → ℕ → ℕ) (t : List (Fl K))
    (ht : bootVec (pop.map some) n reps conf skip (withDraws c rest d c) = .ok t) :
    t.getD 1 none = some ((∑ q, pop.get (d q)) / (Fintype.card (Fin reps × Fin n) : K)) := by
  have hlen : 0 < pop.length := List.length_pos_iff.2 hp
  -- the resamples
  have hch : ∀ r, r < reps → choice (pop.map some) n (withDraws c rest d c r) =
      .ok (((List.range n).map fun j => if h : r < reps ∧ j < n then pop.get (d (⟨r, h.1⟩, ⟨j, h.2⟩)) else 0).map
        some) := by
    intro r hr'
    unfold choice
    rw [if_neg (by simp [hp]), List.map_map]
    congr 1
    refine List.map_congr_left fun j hj => ?_
    have hj := List.mem_range.1 hj
    simp only [withDraws, if_true, Function.comp, dif_pos (And.intro hr' hj), List.length_map]
    rw [Nat.mod_eq_of_lt (d (⟨r, hr'⟩, ⟨j, hj⟩)).2, List.getD_eq_getElem?_getD, List.getElem?_map,
      List.getElem?_eq_getElem (d (⟨r, hr'⟩, ⟨j, hj⟩)).2]
    rfl
  obtain ⟨samples, hs, lo, hi, -, -, rfl⟩ := bootVec_ok.1 ht
  have hs' : samples = (List.range reps).map fun r =>
      ((List.range n).map fun j => if h : r < reps ∧ j < n then pop.get (d (⟨r, h.1⟩, ⟨j, h.2⟩)) else 0).map some := by
    rw [mapE_eq_map (g := fun r =>
      ((List.range n).map fun j => if h : r < reps ∧ j < n then pop.get (d (⟨r, h.1⟩, ⟨j, h.2⟩)) else 0).map some)
      (fun r hr' => hch r (List.mem_range.1 hr'))] at hs
    injection hs with hs
    exact hs.symm
  have hms : samples.map (meanOf skip) = ((List.range reps).map fun r =>
      ((List.range n).map fun j => if h : r < reps ∧ j < n then pop.get (d (⟨r, h.1⟩, ⟨j, h.2⟩)) else 0).sum / (n : K)).map
      some := by
    rw [hs', List.map_map, List.map_map]
    refine List.map_congr_left fun r _ => ?_
    simp only [Function.comp]
    rw [meanOf_num _ _ (by simp; omega)]
    simp
  change mean (samples.map (meanOf skip)) = _
  rw [hms, mean_some _ (by simp; omega)]
  congr 1
  simp only [List.length_map, List.length_range, Fintype.card_prod, Fintype.card_fin]
  rw [sum_range_fin, Fintype.sum_prod_type]
  have : ∀ r : Fin reps, ((List.range n).map fun j => if h : (r : ℕ) < reps ∧ j < n then
      pop.get (d (⟨r, h.1⟩, ⟨j, h.2⟩)) else 0).sum = ∑ j : Fin n, pop.get (d (r, j)) := by
    intro r
    rw [sum_range_fin]
    refine Finset.sum_congr rfl fun j _ => ?_
    rw [dif_pos ⟨r.2, j.2⟩]
  simp only [this]
  rw [← Finset.sum_div, div_div]
  push_cast
  rw [mul_comm (reps : K)]

theorem listMean_expect (l : List K) (f : K → K) : listMean (l.map f) = expect (fun a : Fin l.length => f (l.get a)) := by
  unfold listMean expect
  rw [List.length_map, Fintype.card_fin]
  congr 1
  rw [← List.sum_ofFn]
  congr 1
  apply List.ext_getElem
  · simp
  · intro i h1 h2
    simp

/-- **C74** (the experiment is well defined): for populations free of NaN every outcome of the random numbers gives a
result, whose middle entry is a number. -/
theorem C74_defined (metric : NDArr (Fl K)) (axes : List Int) (n reps : ℕ) (conf : K) (skip : Bool)
    (hax : PlainAxes metric.shape.length axes) (hconf : 0 ≤ conf ∧ conf ≤ 1) (hn : 1 ≤ n) (hr : 1 ≤ reps)
    (hne : metric.shape.prod ≠ 0) (k : List ℕ) (hk : InB (dropAxes (axes.map Int.toNat) metric.shape) k)
    (hnan : none ∉ fiber metric (axes.map Int.toNat) k) (draw : ℕ → ℕ → ℕ → ℕ) :
    ∃ res m, bootArr metric (some axes) n reps conf skip draw = .ok res ∧ res.get (1 :: k) = some m := by
  have hg := goodAxes_nonneg hax.1 hax.2
  have e := axisNum_inj_nonneg (n := metric.shape.length) (fun x hx => (hax.1 x hx).1)
  have hprod : (dropAxes (axes.map Int.toNat) metric.shape).prod ≠ 0 ∧
      (takeAxes (axes.map Int.toNat) metric.shape).prod ≠ 0 := by
    have := prod_take_drop metric.shape (axes.map Int.toNat)
    rw [this] at hne
    exact mul_ne_zero_iff.1 hne
  have hvec : ∀ k', InB (dropAxes (axes.map Int.toNat) metric.shape) k' → ∀ dr,
      ∃ t, bootVec (fiber metric (axes.map Int.toNat) k') n reps conf skip dr = .ok t := by
    intro k' hk' dr
    have hl : fiber metric (axes.map Int.toNat) k' ≠ [] := by
      intro h
      have h1 : (fiber metric (axes.map Int.toNat) k').length = 0 := by rw [h]; rfl
      rw [fiber, List.length_map, length_fiberIdx hk'] at h1
      exact hprod.2 h1
    have hch : ∀ r, ∃ s, choice (fiber metric (axes.map Int.toNat) k') n (dr r) = .ok s := by
      intro r
      unfold choice
      rw [if_neg (by simp [hl])]
      exact ⟨_, rfl⟩
    choose f hf using hch
    have hq : ∀ (ms : List (Fl K)) (q : K), 0 ≤ q ∧ q ≤ 1 → ∃ x, quantile ms q = .ok x := by
      intro ms q hq; unfold quantile; rw [if_pos hq]; split <;> exact ⟨_, rfl⟩
    obtain ⟨lo, hlo⟩ := hq (((List.range reps).map f).map (meanOf skip)) ((1 - conf) / 2)
      ⟨by linarith [hconf.2], by linarith [hconf.1]⟩
    obtain ⟨hi, hhi⟩ := hq (((List.range reps).map f).map (meanOf skip)) (1 - (1 - conf) / 2)
      ⟨by linarith [hconf.1], by linarith [hconf.2]⟩
    exact ⟨_, bootVec_ok.2 ⟨_, mapE_eq_map fun r _ => hf r, lo, hi, hlo, hhi, rfl⟩⟩
  obtain ⟨res, hres⟩ := bootArr_total (n := n) (reps := reps) (conf := conf) (skip := skip) (draw := draw) hg
    (by rw [e]; exact hprod.1) (by rw [e]; exact fun k' hk' => hvec k' hk' _)
  obtain ⟨-, m, -, -, hm, -⟩ := C24_boot_defined metric axes n reps conf skip draw res hax hconf hn hr hres k hk hnan
  exact ⟨res, m, hres, hm⟩

/-- the middle entry of the result at a kept position, as a function of the outcome -/
theorem boot_middle (metric : NDArr (Fl K)) (axes : List Int) (n reps : ℕ) (conf : K) (skip : Bool)
    (hax : PlainAxes metric.shape.length axes) (hn : 1 ≤ n) (hr : 1 ≤ reps) (k : List ℕ)
    (hk : InB (dropAxes (axes.map Int.toNat) metric.shape) k) (pop : List K) (hp : pop ≠ [])
    (hpop : fiber metric (axes.map Int.toNat) k = pop.map some) (rest : ℕ → ℕ → ℕ → ℕ)
    (d : Fin reps × Fin n → Fin pop.length) (res : NDArr (Fl K))
    (hres : bootArr metric (some axes) n reps conf skip
      (withDraws (ravel (dropAxes (axes.map Int.toNat) metric.shape) k) rest d) = .ok res) :
    res.get (1 :: k) = some ((∑ q, pop.get (d q)) / (Fintype.card (Fin reps × Fin n) : K)) := by
  have hg := goodAxes_nonneg hax.1 hax.2
  have e := axisNum_inj_nonneg (n := metric.shape.length) (fun x hx => (hax.1 x hx).1)
  obtain ⟨-, h2⟩ := bootArr_layout hg hres
  rw [e] at h2
  obtain ⟨t, ht, htg⟩ := h2 k hk
  rw [hpop] at ht
  rw [htg 1 (by omega)]
  exact bootVec_middle hn hr pop hp conf skip d _ rest t ht

/-- **C74** (no bias): averaged over all equally likely outcomes of the random numbers, the mean reported by the
bootstrap is the mean of the data over that position. -/
theorem C74_unbiased (metric : NDArr (Fl K)) (axes : List Int) (n reps : ℕ) (conf : K) (skip : Bool)
    (hax : PlainAxes metric.shape.length axes) (hn : 1 ≤ n) (hr : 1 ≤ reps) (k : List ℕ)
    (hk : InB (dropAxes (axes.map Int.toNat) metric.shape) k) (pop : List K) (hp : pop ≠ [])
    (hpop : fiber metric (axes.map Int.toNat) k = pop.map some) (rest : ℕ → ℕ → ℕ → ℕ)
    (m : (Fin reps × Fin n → Fin pop.length) → K)
    (hm : ∀ d, ∃ res, bootArr metric (some axes) n reps conf skip
      (withDraws (ravel (dropAxes (axes.map Int.toNat) metric.shape) k) rest d) = .ok res ∧
        res.get (1 :: k) = some (m d)) :
    expect m = listMean pop := by
  have hmd : m = fun d => (∑ q, pop.get (d q)) / (Fintype.card (Fin reps × Fin n) : K) := by
    funext d
    obtain ⟨res, h1, h2⟩ := hm d
    rw [boot_middle metric axes n reps conf skip hax hn hr k hk pop hp hpop rest d res h1] at h2
    injection h2 with h2
    exact h2.symm
  have hι : Nonempty (Fin reps × Fin n) := ⟨(⟨0, hr⟩, ⟨0, hn⟩)⟩
  have := (expect_average (K := K) hι (List.length_pos_iff.2 hp) pop.get).1
  rw [hmd, this]
  have h := listMean_expect pop (fun x => x)
  rw [List.map_id'] at h
  rw [h]

/-- **C74** (spread): and its variance over the outcomes is the variance of the data divided by the number of draws
`n_samples * repeats`. -/
theorem C74_variance (metric : NDArr (Fl K)) (axes : List Int) (n reps : ℕ) (conf : K) (skip : Bool)
    (hax : PlainAxes metric.shape.length axes) (hn : 1 ≤ n) (hr : 1 ≤ reps) (k : List ℕ)
    (hk : InB (dropAxes (axes.map Int.toNat) metric.shape) k) (pop : List K) (hp : pop ≠ [])
    (hpop : fiber metric (axes.map Int.toNat) k = pop.map some) (rest : ℕ → ℕ → ℕ → ℕ)
    (m : (Fin reps × Fin n → Fin pop.length) → K)
    (hm : ∀ d, ∃ res, bootArr metric (some axes) n reps conf skip
      (withDraws (ravel (dropAxes (axes.map Int.toNat) metric.shape) k) rest d) = .ok res ∧
        res.get (1 :: k) = some (m d)) :
    expect (fun d => (m d - listMean pop) ^ 2) = listVar pop / ((reps : K) * (n : K)) := by
  have hmd : m = fun d => (∑ q, pop.get (d q)) / (Fintype.card (Fin reps × Fin n) : K) := by
    funext d
    obtain ⟨res, h1, h2⟩ := hm d
    rw [boot_middle metric axes n reps conf skip hax hn hr k hk pop hp hpop rest d res h1] at h2
    injection h2 with h2
    exact h2.symm
  have hι : Nonempty (Fin reps × Fin n) := ⟨(⟨0, hr⟩, ⟨0, hn⟩)⟩
  have := (expect_average (K := K) hι (List.length_pos_iff.2 hp) pop.get).2
  have h := listMean_expect pop (fun x => x)
  rw [List.map_id'] at h
  rw [listVar, listMean_expect, hmd, h]
  simp only [Fintype.card_prod, Fintype.card_fin, Nat.cast_mul] at this ⊢
  exact this

/-- a case that meets the hypotheses: averaging `[[1, 2], [3, 5]]` over axis 0 -/
example : expect (fun d : Fin 2 × Fin 2 → Fin 2 =>
    match bootArr (⟨[2, 2], [some 1, some 2, some 3, some 5], rfl⟩ : NDArr (Fl ℚ)) (some [0]) 2 2 (9 / 10) false
      (withDraws 1 (fun _ _ _ => 0) d) with
    | .ok res => (res.get [1, 1]).getD 0
    | .error _ => 0) = 7 / 2 := by
  refine C74_unbiased (⟨[2, 2], [some 1, some 2, some 3, some 5], rfl⟩ : NDArr (Fl ℚ)) [0] 2 2 (9 / 10) false
    ⟨by decide, by decide⟩ (by decide) (by decide) [1] (by decide) [2, 5] (by decide) (by decide +kernel)
    (fun _ _ _ => 0) _ (fun d => ?_) |>.trans (by norm_num [listMean])
  obtain ⟨res, m, hres, hm⟩ := C74_defined (⟨[2, 2], [some 1, some 2, some 3, some 5], rfl⟩ : NDArr (Fl ℚ)) [0] 2 2
    (9 / 10) false ⟨by decide, by decide⟩ (by norm_num) (by decide) (by decide) (by decide) [1] (by decide)
    (by decide +kernel) (withDraws 1 (fun _ _ _ => 0) d)
  refine ⟨res, hres, ?_⟩
  simp only [hres, hm, Option.getD_some]

end Props
