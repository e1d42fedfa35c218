import Verif.Spec.Stable
import Verif.Spec.EnsCrps
import Verif.Lemmas.Members

/-! How averages, root mean squares, ranges and the energy score react to small changes. -/

set_option linter.unusedSectionVars false

namespace Lemmas
open Np Spec

variable {K : Type} [Field K] [LinearOrder K] [IsStrictOrderedRing K] {α : Type}

theorem avg_const {L : List α} (hL : L ≠ []) (c : K) : avg (L.map fun _ => c) = c := by
  have hN : (L.length : K) ≠ 0 := Nat.cast_ne_zero.2 fun h => hL (List.length_eq_zero_iff.1 h)
  simp [avg, hN]

/-- averages of close numbers are close -/
theorem avg_near {L : List α} (hL : L ≠ []) {g h : α → K} {B : K} (hgh : ∀ i ∈ L, |g i - h i| ≤ B) :
    |avg (L.map g) - avg (L.map h)| ≤ B := by
  have up : ∀ {g h : α → K}, (∀ i ∈ L, g i ≤ h i + B) → avg (L.map g) ≤ avg (L.map h) + B := by
    intro g h hh
    have := avg_le_avg hh
    rwa [avg_add, avg_const hL] at this
  rw [abs_sub_le_iff]
  constructor
  · have := up (g := g) (h := h) fun i hi => by have := (abs_sub_le_iff.1 (hgh i hi)).1; linarith
    linarith
  · have := up (g := h) (h := g) fun i hi => by have := (abs_sub_le_iff.1 (hgh i hi)).2; linarith
    linarith

/-- root mean squares of close numbers are close -/
theorem rms_near {s : K → K} (hs : IsSqrt s) {L : List α} (hL : L ≠ []) {u v : α → K} {B : K}
    (huv : ∀ i ∈ L, |u i - v i| ≤ B) :
    |s (avg (L.map fun i => u i ^ 2)) - s (avg (L.map fun i => v i ^ 2))| ≤ B := by
  have hB : 0 ≤ B := by
    obtain ⟨i, hi⟩ := List.exists_mem_of_ne_nil L hL
    exact (abs_nonneg _).trans (huv i hi)
  have up : ∀ {u v : α → K}, (∀ i ∈ L, |u i - v i| ≤ B) →
      s (avg (L.map fun i => u i ^ 2)) ≤ s (avg (L.map fun i => v i ^ 2)) + B := by
    intro u v h
    have hu : 0 ≤ avg (L.map fun i => u i ^ 2) := avg_nonneg' L fun i _ => sq_nonneg _
    have hv : 0 ≤ avg (L.map fun i => v i ^ 2) := avg_nonneg' L fun i _ => sq_nonneg _
    have h1 : avg (L.map fun i => u i ^ 2) ≤ avg (L.map fun i => v i ^ 2) + (2 * B * avg (L.map fun i => |v i|) + B ^ 2) := by
      have e : avg (L.map fun i => v i ^ 2) + (2 * B * avg (L.map fun i => |v i|) + B ^ 2) =
          avg (L.map fun i => v i ^ 2 + (2 * B * |v i| + B ^ 2)) := by
        rw [avg_add, avg_add, avg_const hL]
        congr 2
        unfold avg
        rw [List.sum_map_mul_left, List.length_map, List.length_map]
        ring
      rw [e]
      refine avg_le_avg fun i hi => ?_
      have h2 : |u i| ≤ |v i| + B := by
        have := abs_sub_abs_le_abs_sub (u i) (v i)
        linarith [h i hi]
      have h3 : u i ^ 2 ≤ (|v i| + B) ^ 2 := by
        rw [← sq_abs (u i)]
        exact pow_le_pow_left₀ (abs_nonneg _) h2 2
      have h4 : (|v i| + B) ^ 2 = v i ^ 2 + (2 * B * |v i| + B ^ 2) := by
        rw [add_sq, sq_abs]; ring
      rwa [h4] at h3
    have h5 : avg (L.map fun i => |v i|) ≤ s (avg (L.map fun i => v i ^ 2)) := by
      have h6 := avg_mul_le hs L (fun i => |v i|) fun _ => 1
      simp only [sq_abs, mul_one, one_pow] at h6
      rw [avg_const hL] at h6
      have h7 : s (1 : K) = 1 := by
        have a := hs.sq 1 zero_le_one
        have b := hs.nonneg 1 zero_le_one
        rcases mul_self_eq_one_iff.1 a with h | h
        · exact h
        · rw [h] at b; linarith
      rwa [h7, mul_one] at h6
    have p1 := hs.nonneg _ hv
    have p2 := hs.nonneg _ hu
    refine le_of_abs_le (abs_le_of_sq_le_sq ?_ (add_nonneg p1 hB))
    have e1 := hs.sq _ hu
    have e2 := hs.sq _ hv
    nlinarith [mul_le_mul_of_nonneg_left h5 hB]
  rw [abs_sub_le_iff]
  constructor
  · have := up huv
    linarith
  · have := up (u := v) (v := u) fun i hi => by rw [abs_sub_comm]; exact huv i hi
    linarith

/-- half of what two steps to `y` exceed the direct step is the distance of `y` from the interval -/
theorem gap_eq (a b y : K) : (|a - y| + |b - y| - |a - b|) / 2 = gap a b y := by
  unfold gap
  rcases le_total a b with h | h
  · rw [min_eq_left h, max_eq_right h, abs_of_nonpos (sub_nonpos.2 h)]
    rcases le_total y a with h1 | h1
    · rw [abs_of_nonneg (sub_nonneg.2 h1), abs_of_nonneg (sub_nonneg.2 (h1.trans h)),
        max_eq_left (by linarith : y - b ≤ a - y), max_eq_right (by linarith)]
      ring
    · rw [abs_of_nonpos (sub_nonpos.2 h1)]
      rcases le_total y b with h2 | h2
      · rw [abs_of_nonneg (sub_nonneg.2 h2), max_eq_left (max_le (by linarith) (by linarith))]
        ring
      · rw [abs_of_nonpos (sub_nonpos.2 h2), max_eq_right (by linarith : a - y ≤ y - b), max_eq_right (by linarith)]
        ring
  · rw [min_eq_right h, max_eq_left h, abs_of_nonneg (sub_nonneg.2 h)]
    rcases le_total y b with h1 | h1
    · rw [abs_of_nonneg (sub_nonneg.2 h1), abs_of_nonneg (sub_nonneg.2 (h1.trans h)),
        max_eq_left (by linarith : y - a ≤ b - y), max_eq_right (by linarith)]
      ring
    · rw [abs_of_nonpos (sub_nonpos.2 h1)]
      rcases le_total y a with h2 | h2
      · rw [abs_of_nonneg (sub_nonneg.2 h2), max_eq_left (max_le (by linarith) (by linarith))]
        ring
      · rw [abs_of_nonpos (sub_nonpos.2 h2), max_eq_right (by linarith : b - y ≤ y - a), max_eq_right (by linarith)]
        ring

theorem gap_near {a b y a' b' y' δ ε : K} (ha : |a - a'| ≤ δ) (hb : |b - b'| ≤ δ) (hy : |y - y'| ≤ ε) :
    |gap a b y - gap a' b' y'| ≤ δ + ε := by
  have up : ∀ {a b y a' b' y' : K}, |a - a'| ≤ δ → |b - b'| ≤ δ → |y - y'| ≤ ε → gap a b y ≤ gap a' b' y' + (δ + ε) := by
    intro a b y a' b' y' ha hb hy
    have d0 := (abs_nonneg _).trans ha
    have e0 := (abs_nonneg _).trans hy
    obtain ⟨a1, a2⟩ := abs_sub_le_iff.1 ha
    obtain ⟨b1, b2⟩ := abs_sub_le_iff.1 hb
    obtain ⟨y1, y2⟩ := abs_sub_le_iff.1 hy
    have g0 : 0 ≤ gap a' b' y' := le_max_left _ _
    have g1 : min a' b' - y' ≤ gap a' b' y' := (le_max_left _ _).trans (le_max_right _ _)
    have g2 : y' - max a' b' ≤ gap a' b' y' := (le_max_right _ _).trans (le_max_right _ _)
    have m1 : min a b ≤ min a' b' + δ := by
      rw [← min_add_add_right]
      exact min_le_min (by linarith) (by linarith)
    have m2 : max a' b' - δ ≤ max a b := by
      rw [sub_le_iff_le_add, ← max_add_add_right]
      exact max_le_max (by linarith) (by linarith)
    refine max_le (by linarith) (max_le (by linarith) (by linarith))
  rw [abs_sub_le_iff]
  constructor
  · have := up ha hb hy
    linarith
  · have := up (a := a') (b := b') (y := y') (a' := a) (b' := b) (y' := y) (by rwa [abs_sub_comm]) (by rwa [abs_sub_comm])
      (by rwa [abs_sub_comm])
    linarith

/-- the range of numbers that moved by at most `δ` changes by at most `2 δ` -/
theorem range_near {Q : List (K × K)} {δ hi lo hi' lo' : K} (hQ : ∀ p ∈ Q, |p.1 - p.2| ≤ δ)
    (h1 : hi ∈ Q.map Prod.fst) (h2 : lo ∈ Q.map Prod.fst) (h3 : ∀ x ∈ Q.map Prod.fst, lo ≤ x ∧ x ≤ hi)
    (h1' : hi' ∈ Q.map Prod.snd) (h2' : lo' ∈ Q.map Prod.snd) (h3' : ∀ x ∈ Q.map Prod.snd, lo' ≤ x ∧ x ≤ hi') :
    |(hi - lo) - (hi' - lo')| ≤ 2 * δ := by
  obtain ⟨p, hp, rfl⟩ := List.mem_map.1 h1
  obtain ⟨q, hq, rfl⟩ := List.mem_map.1 h2
  obtain ⟨p', hp', rfl⟩ := List.mem_map.1 h1'
  obtain ⟨q', hq', rfl⟩ := List.mem_map.1 h2'
  have m : ∀ r ∈ Q, r.1 ∈ Q.map Prod.fst ∧ r.2 ∈ Q.map Prod.snd := fun r hr => ⟨List.mem_map_of_mem hr, List.mem_map_of_mem hr⟩
  have a1 := (h3' _ (m p hp).2).2
  have a2 := (h3' _ (m q hq).2).1
  have a3 := (h3 _ (m p' hp').1).2
  have a4 := (h3 _ (m q' hq').1).1
  have b1 := abs_sub_le_iff.1 (hQ p hp)
  have b2 := abs_sub_le_iff.1 (hQ q hq)
  have b3 := abs_sub_le_iff.1 (hQ p' hp')
  have b4 := abs_sub_le_iff.1 (hQ q' hq')
  rw [abs_sub_le_iff]
  constructor <;> linarith

/-- mean distance from `y` minus half the mean distance between members is the mean distance of `y` from the interval between two members -/
theorem score_gap (ms : List K) (hm : ms ≠ []) (y : K) :
    avg (ms.map fun x => |x - y|) - avg (ms.map fun x => avg (ms.map fun x' => |x - x'|)) / 2 = avg (ms.map fun a => avg (ms.map fun b => gap a b y)) := by
  have e : ∀ a b : K, gap a b y = |a - y| / 2 + (|b - y| / 2 + -(|a - b| / 2)) := fun a b => by rw [← gap_eq]; ring
  have d : ∀ g : K → K, avg (ms.map fun a => g a / 2) = avg (ms.map g) / 2 := fun g => by
    unfold avg; rw [sum_map_div, List.length_map, List.length_map]; ring
  have n : ∀ g : K → K, avg (ms.map fun a => -g a) = -avg (ms.map g) := fun g => by
    unfold avg
    have : (ms.map fun a => -g a).sum = -(ms.map g).sum := by
      have := List.sum_map_mul_left ms g (-1)
      simpa using this
    rw [this, List.length_map, List.length_map]; ring
  simp only [e]
  have inner : ∀ a, avg (ms.map fun b => |a - y| / 2 + (|b - y| / 2 + -(|a - b| / 2))) =
      |a - y| / 2 + (avg (ms.map fun b => |b - y|) / 2 + -(avg (ms.map fun b => |a - b|) / 2)) := by
    intro a
    rw [avg_add, avg_const hm, avg_add, n, d, d]
  simp only [inner]
  rw [avg_add, avg_add, avg_const hm, n, d, d]
  ring

theorem energyScore_gap (ms : List ℝ) (hm : ms ≠ []) (y : ℝ) :
    energyScore ms y = avg (ms.map fun a => avg (ms.map fun b => gap a b y)) := score_gap ms hm y

theorem energyScore_near {Q : List (ℝ × ℝ)} (hQ : Q ≠ []) {δ ε y y' : ℝ} (h : ∀ p ∈ Q, |p.1 - p.2| ≤ δ)
    (hy : |y - y'| ≤ ε) : |energyScore (Q.map Prod.fst) y - energyScore (Q.map Prod.snd) y'| ≤ δ + ε := by
  rw [energyScore_gap _ (by simpa using hQ), energyScore_gap _ (by simpa using hQ)]
  simp only [List.map_map]
  exact avg_near hQ fun p hp => avg_near hQ fun q hq => gap_near (h p hp) (h q hq) hy

end Lemmas
