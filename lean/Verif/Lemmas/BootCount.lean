import Verif.Lemmas.Coverage
import Verif.Spec.BootCoverage
import Verif.Spec.DmLimit
import Verif.Props.Unbiased
import Verif.Lemmas.BinLimits

/-! The ends of a bootstrap interval and the replicates on either side of a number. -/

namespace Lemmas
open Np Model Spec Props

/-- the interpolated quantile, and the counts that decide on which side of a number it is -/
theorem quantile_side {vs : List ℝ} (hv : vs ≠ []) {q : ℝ} (h0 : 0 ≤ q) (h1 : q ≤ 1) (μ : ℝ) :
    ∃ v, quantile (vs.map some) q = .ok (some v) ∧
      (v ≤ μ → q * ((vs.length : ℝ) - 1) < (vs.countP fun x => decide (x ≤ μ) : ℕ)) ∧
      (q * ((vs.length : ℝ) - 1) + 1 ≤ (vs.countP fun x => decide (x ≤ μ) : ℕ) → v ≤ μ) ∧
      (μ ≤ v → (1 - q) * ((vs.length : ℝ) - 1) < (vs.countP fun x => decide (μ ≤ x) : ℕ)) ∧
      ((1 - q) * ((vs.length : ℝ) - 1) + 1 ≤ (vs.countP fun x => decide (μ ≤ x) : ℕ) → μ ≤ v) := by
  have hl : (sortK vs).length = vs.length := (sortK_perm vs).length_eq
  have hpos : 1 ≤ vs.length := List.length_pos_iff.2 hv
  have hN : ((vs.length - 1 : Nat) : ℝ) = (vs.length : ℝ) - 1 := by rw [Nat.cast_sub hpos]; simp
  have hsne : sortK vs ≠ [] := by
    intro h
    rw [h] at hl
    exact hv (List.length_eq_zero_iff.1 hl.symm)
  refine ⟨_, quantile_some hv h0 h1, ?_⟩
  obtain ⟨c1, c2, -⟩ := lerpAt_counts (sortK_sorted vs) hsne (vidx_bounds h0 h1).1
    (vidx_bounds (n := (sortK vs).length - 1) h0 h1).2
  set v := lerpAt (sortK vs) (q * (((sortK vs).length - 1 : Nat) : ℝ)) with hvdef
  rw [(sortK_perm vs).countP_eq, hl, hN] at c1 c2
  have split : ∀ p : ℝ → Prop, ∀ [DecidablePred p],
      ((vs.countP fun x => decide (p x) : ℕ) : ℝ) + ((vs.countP fun x => decide (¬ p x) : ℕ) : ℝ) = vs.length := by
    intro p _
    have := List.length_eq_countP_add_countP (p := fun x => decide (p x)) (l := vs)
    have e : (vs.countP fun x => ¬ (decide (p x)) = true) = vs.countP fun x => decide (¬ p x) := by
      congr 1; funext x; simp
    rw [e] at this
    exact_mod_cast this.symm
  have mono : ∀ {p q : ℝ → Prop} [DecidablePred p] [DecidablePred q], (∀ x, p x → q x) →
      ((vs.countP fun x => decide (p x) : ℕ) : ℝ) ≤ ((vs.countP fun x => decide (q x) : ℕ) : ℝ) := by
    intro p q _ _ h
    exact_mod_cast List.countP_mono_left fun x _ hx => by simpa using h x (by simpa using hx)
  refine ⟨fun h => ?_, fun h => ?_, fun h => ?_, fun h => ?_⟩
  · have a := split fun x => x ≤ μ
    have b := mono (p := fun x => ¬ x ≤ μ) (q := fun x => v < x) fun x hx => h.trans_lt (not_le.1 hx)
    linarith
  · by_contra hc
    have b := mono (p := fun x => x ≤ μ) (q := fun x => x < v) fun x hx => lt_of_le_of_lt hx (not_le.1 hc)
    linarith
  · have a := split fun x => μ ≤ x
    have b := mono (p := fun x => ¬ μ ≤ x) (q := fun x => x < v) fun x hx => (not_le.1 hx).trans_le h
    linarith
  · by_contra hc
    have b := mono (p := fun x => μ ≤ x) (q := fun x => v < x) fun x hx => (not_le.1 hc).trans_le hx
    linarith

theorem countP_eq_avg {R : ℕ} (hR : 0 < R) (p : ℕ → Prop) [DecidablePred p] (f : ℕ → ℝ) (s : ℝ → Prop) [DecidablePred s]
    (h : ∀ r, p r ↔ s (f r)) :
    ((((List.range R).map f).countP fun x => decide (s x) : ℕ) : ℝ) =
      avg ((List.range R).map fun r => (indicator (p r) : ℝ)) * R := by
  have hR' : (R : ℝ) ≠ 0 := by exact_mod_cast hR.ne'
  unfold avg
  rw [List.length_map, List.length_range, div_mul_cancel₀ _ hR']
  rw [List.countP_map]
  generalize List.range R = L
  induction L with
  | nil => simp
  | cons a L ih =>
    rw [List.countP_cons, List.map_cons, List.sum_cons, ← ih]
    by_cases hp : s (f a)
    · simp [indicator, (h a).2 hp, hp, add_comm]
    · have : ¬ p a := fun hc => hp ((h a).1 hc)
      simp [indicator, this, hp]

variable {x : ℕ → ℝ} {N n R : ℕ} {conf : ℝ} {skip : Bool} {draw : ℕ → ℕ → ℕ}

/-- the result of `boot_vec` on numbers -/
theorem bootVec_numbers (hN : 0 < N) (hn : 0 < n) (hR : 0 < R) (h0 : 0 ≤ conf) (h1 : conf ≤ 1) :
    ∃ lo m hi, bootVec ((List.range N).map fun i => some (x i)) n R conf skip draw = .ok [some lo, some m, some hi] ∧
      quantile (((List.range R).map fun r => drawMean x N n (draw r)).map some) ((1 - conf) / 2) = .ok (some lo) ∧
      quantile (((List.range R).map fun r => drawMean x N n (draw r)).map some) (1 - (1 - conf) / 2) = .ok (some hi) := by
  have hne : ((List.range R).map fun r => drawMean x N n (draw r)) ≠ [] := by
    simp; omega
  obtain ⟨lo, hlo, -⟩ := quantile_side hne (q := (1 - conf) / 2) (by linarith) (by linarith) 0
  obtain ⟨hi, hhi, -⟩ := quantile_side hne (q := 1 - (1 - conf) / 2) (by linarith) (by linarith) 0
  refine ⟨lo, ((List.range R).map fun r => drawMean x N n (draw r)).sum /
    (((List.range R).map fun r => drawMean x N n (draw r)).length : ℝ), hi, ?_, hlo, hhi⟩
  have hch : ∀ r, choice ((List.range N).map fun i => (some (x i) : Fl ℝ)) n (draw r) =
      .ok (((List.range n).map fun j => x (draw r j % N)).map some) := by
    intro r
    rw [choice_total (by simp; omega), List.map_map]
    congr 1
    refine List.map_congr_left fun j _ => ?_
    have hlt : draw r j % N < N := Nat.mod_lt _ hN
    simp only [List.length_map, List.length_range, Function.comp]
    rw [List.getD_eq_getElem _ _ (by simpa using hlt)]
    simp
  refine bootVec_ok.2 ⟨(List.range R).map fun r => ((List.range n).map fun j => x (draw r j % N)).map some, ?_, ?_⟩
  · exact mapE_eq_map fun r _ => hch r
  · have hms : ((List.range R).map fun r => ((List.range n).map fun j => x (draw r j % N)).map some).map (meanOf skip) =
        ((List.range R).map fun r => drawMean x N n (draw r)).map some := by
      rw [List.map_map, List.map_map]
      refine List.map_congr_left fun r _ => ?_
      simp only [Function.comp]
      rw [meanOf_num _ _ (by simp; omega)]
      unfold drawMean
      rw [List.length_map, List.length_range]
      rfl
    refine ⟨lo, hi, ?_, ?_, ?_⟩
    · rw [hms]; exact hlo
    · rw [hms]; exact hhi
    · rw [hms, mean_some _ hne]

/-- the counts that decide whether the interval holds a number -/
theorem bootVec_covers (hN : 0 < N) (hn : 0 < n) (hR : 0 < R) (h0 : 0 ≤ conf) (h1 : conf ≤ 1) (μ : ℝ) :
    (Covers μ (bootVec ((List.range N).map fun i => some (x i)) n R conf skip draw) →
      (1 - conf) / 2 * ((R : ℝ) - 1) < avg ((List.range R).map fun r => (indicator (drawMean x N n (draw r) ≤ μ) : ℝ)) * R ∧
      (1 - conf) / 2 * ((R : ℝ) - 1) < avg ((List.range R).map fun r => (indicator (μ ≤ drawMean x N n (draw r)) : ℝ)) * R) ∧
    ((1 - conf) / 2 * ((R : ℝ) - 1) + 1 ≤ avg ((List.range R).map fun r => (indicator (drawMean x N n (draw r) ≤ μ) : ℝ)) * R →
      (1 - conf) / 2 * ((R : ℝ) - 1) + 1 ≤ avg ((List.range R).map fun r => (indicator (μ ≤ drawMean x N n (draw r)) : ℝ)) * R →
      Covers μ (bootVec ((List.range N).map fun i => some (x i)) n R conf skip draw)) := by
  have hne : ((List.range R).map fun r => drawMean x N n (draw r)) ≠ [] := by
    simp; omega
  obtain ⟨lo, m, hi, e, q1, q2⟩ := bootVec_numbers (x := x) (skip := skip) (draw := draw) hN hn hR h0 h1
  obtain ⟨lo', e1, a1, a2, -⟩ := quantile_side hne (q := (1 - conf) / 2) (by linarith) (by linarith) μ
  obtain ⟨hi', e2, -, -, b1, b2⟩ := quantile_side hne (q := 1 - (1 - conf) / 2) (by linarith) (by linarith) μ
  rw [e1] at q1
  rw [e2] at q2
  simp only [Except.ok.injEq, Option.some.injEq] at q1 q2
  subst q1 q2
  rw [List.length_map, List.length_range] at a1 a2 b1 b2
  rw [countP_eq_avg hR (fun r => drawMean x N n (draw r) ≤ μ) _ (fun y => y ≤ μ) fun _ => Iff.rfl] at a1 a2
  rw [countP_eq_avg hR (fun r => μ ≤ drawMean x N n (draw r)) _ (fun y => μ ≤ y) fun _ => Iff.rfl, sub_sub_cancel] at b1 b2
  constructor
  · rintro ⟨lo, m', hi, e', c1, c2⟩
    rw [e] at e'
    simp only [Except.ok.injEq, List.cons.injEq, Option.some.injEq, and_true] at e'
    obtain ⟨rfl, -, rfl⟩ := e'
    exact ⟨a1 c1, b1 c2⟩
  · intro c1 c2
    exact ⟨_, _, _, e, a2 c1, b2 c2⟩

/-- without missing numbers the two ways to average agree -/
theorem covers_skip (hN : 0 < N) (hn : 0 < n) (hR : 0 < R) (h0 : 0 ≤ conf) (h1 : conf ≤ 1) (b b' : Bool) (μ : ℝ) :
    Covers μ (bootVec ((List.range N).map fun i => some (x i)) n R conf b draw) ↔
      Covers μ (bootVec ((List.range N).map fun i => some (x i)) n R conf b' draw) := by
  obtain ⟨lo, m, hi, e, q1, q2⟩ := bootVec_numbers (x := x) (skip := b) (draw := draw) hN hn hR h0 h1
  obtain ⟨lo', m', hi', e', q1', q2'⟩ := bootVec_numbers (x := x) (skip := b') (draw := draw) hN hn hR h0 h1
  have a1 : lo = lo' := by simpa using q1.symm.trans q1'
  have a2 : hi = hi' := by simpa using q2.symm.trans q2'
  subst a1 a2
  unfold Covers
  rw [e, e']
  constructor
  · rintro ⟨a, b, d, h, h'⟩
    simp only [Except.ok.injEq, List.cons.injEq, Option.some.injEq, and_true] at h
    exact ⟨lo, m', hi, rfl, by rw [h.1, h.2.2]; exact h'⟩
  · rintro ⟨a, b, d, h, h'⟩
    simp only [Except.ok.injEq, List.cons.injEq, Option.some.injEq, and_true] at h
    exact ⟨lo, m, hi, rfl, by rw [h.1, h.2.2]; exact h'⟩

end Lemmas
