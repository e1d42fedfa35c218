import Verif.Lemmas.RandomEns
import Verif.Lemmas.Proper
import Verif.Lemmas.Members
import Mathlib.Probability.Independence.Integration
import Mathlib.MeasureTheory.Function.L2Space

/-! Expected squared error of the mean of a random ensemble, and its expected variance. -/

set_option linter.unusedSectionVars false

namespace Lemmas
open Spec MeasureTheory Set Np NDArr ProbabilityTheory

variable {Ω : Type} [MeasurableSpace Ω] {P : Measure Ω} [IsProbabilityMeasure P]

/-- a random number with mean `a` and variance `s` -/
theorem second_moment {X : Ω → ℝ} (hX : MemLp X 2 P) {a s : ℝ} (ha : ∫ ω, X ω ∂P = a) (hs : ∫ ω, (X ω - a) ^ 2 ∂P = s) :
    Integrable X P ∧ Integrable (fun ω => X ω * X ω) P ∧ ∫ ω, X ω * X ω ∂P = s + a ^ 2 := by
  have h1 : Integrable X P := hX.integrable (by norm_num)
  have h2 : Integrable (fun ω => X ω * X ω) P := hX.integrable_mul hX
  refine ⟨h1, h2, ?_⟩
  have e : ∀ ω, (X ω - a) ^ 2 = X ω * X ω - (2 * a * X ω - a ^ 2) := fun ω => by ring
  simp only [e] at hs
  have h3 : Integrable (fun ω => 2 * a * X ω - a ^ 2) P := (h1.const_mul _).sub (integrable_const _)
  rw [integral_sub h2 h3, integral_sub (h1.const_mul _) (integrable_const _),
    integral_const_mul, ha, integral_const] at hs
  simp only [probReal_univ, one_smul] at hs
  linarith

theorem mixed_moment {X Y : Ω → ℝ} (hX : MemLp X 2 P) (hY : MemLp Y 2 P) {a b : ℝ} (ha : ∫ ω, X ω ∂P = a)
    (hb : ∫ ω, Y ω ∂P = b) (hi : IndepFun X Y P) :
    Integrable (fun ω => X ω * Y ω) P ∧ ∫ ω, X ω * Y ω ∂P = a * b := by
  refine ⟨hX.integrable_mul hY, ?_⟩
  rw [hi.integral_fun_mul_eq_mul_integral hX.1 hY.1, ha, hb]

variable {n : Nat} {X : Nat → Ω → ℝ} {Y : Ω → ℝ} {a b s t : ℝ}

/-- the products of members -/
theorem members_moment (hX : ∀ j, j < n → MemLp (X j) 2 P) (ha : ∀ j, j < n → ∫ ω, X j ω ∂P = a)
    (hs : ∀ j, j < n → ∫ ω, (X j ω - a) ^ 2 ∂P = s) (hx : ∀ j l, j < n → l < n → j ≠ l → IndepFun (X j) (X l) P)
    {j l : Nat} (hj : j < n) (hl : l < n) :
    Integrable (fun ω => X j ω * X l ω) P ∧ ∫ ω, X j ω * X l ω ∂P = a ^ 2 + s - if j = l then 0 else s := by
  split_ifs with e
  · subst e
    obtain ⟨-, h2, h3⟩ := second_moment (hX j hj) (ha j hj) (hs j hj)
    refine ⟨h2, ?_⟩
    rw [h3]
    ring
  · obtain ⟨h1, h2⟩ := mixed_moment (hX j hj) (hX l hl) (ha j hj) (ha l hl) (hx j l hj hl e)
    refine ⟨h1, ?_⟩
    rw [h2]
    ring

theorem avg_const_sub {n : Nat} (hn : 0 < n) (c : ℝ) (g : Nat → ℝ) :
    avg ((List.range n).map fun j => c - g j) = c - avg ((List.range n).map g) := by
  have hne : List.range n ≠ [] := by simpa using hn.ne'
  have h := avg_add (List.range n) (fun _ => c) fun j => -g j
  simp only [← sub_eq_add_neg, avg_same hne] at h
  rw [h, sub_eq_add_neg]
  congr 1
  have := avg_add (List.range n) g fun j => -g j
  simp only [add_neg_cancel, avg_same hne] at this
  linarith

/-- the square of the mean of the members -/
theorem mean_sq (hn : 0 < n) (hX : ∀ j, j < n → MemLp (X j) 2 P) (ha : ∀ j, j < n → ∫ ω, X j ω ∂P = a)
    (hs : ∀ j, j < n → ∫ ω, (X j ω - a) ^ 2 ∂P = s) (hx : ∀ j l, j < n → l < n → j ≠ l → IndepFun (X j) (X l) P) :
    Integrable (fun ω => avg ((List.range n).map fun j => X j ω) ^ 2) P ∧
      ∫ ω, avg ((List.range n).map fun j => X j ω) ^ 2 ∂P = a ^ 2 + s / n := by
  have h0 : (n : ℝ) ≠ 0 := by exact_mod_cast hn.ne'
  have hne : List.range n ≠ [] := by simpa using hn.ne'
  obtain ⟨b1, b2⟩ := mean_avg (P := P) (List.range n) (g := fun j ω => avg ((List.range n).map fun l => X j ω * X l ω))
    (e := fun _ => a ^ 2 + s - (s - s / n)) fun j hj => by
      have hj := List.mem_range.1 hj
      rw [← avg_diag hj, ← avg_const_sub hn]
      exact mean_avg (P := P) (List.range n) (g := fun l ω => X j ω * X l ω) fun l hl =>
        members_moment hX ha hs hx hj (List.mem_range.1 hl)
  rw [avg_same hne] at b2
  simp only [← avg_mul_avg, ← sq] at b1 b2
  refine ⟨b1, ?_⟩
  rw [b2]
  ring

/-- expected squared error of the mean of the members -/
theorem expected_sq_error (hn : 0 < n) (hX : ∀ j, j < n → MemLp (X j) 2 P) (hY : MemLp Y 2 P)
    (ha : ∀ j, j < n → ∫ ω, X j ω ∂P = a) (hs : ∀ j, j < n → ∫ ω, (X j ω - a) ^ 2 ∂P = s)
    (hb : ∫ ω, Y ω ∂P = b) (ht : ∫ ω, (Y ω - b) ^ 2 ∂P = t)
    (hi : ∀ j, j < n → IndepFun (X j) Y P) (hx : ∀ j l, j < n → l < n → j ≠ l → IndepFun (X j) (X l) P) :
    Integrable (fun ω => (avg ((List.range n).map fun j => X j ω) - Y ω) ^ 2) P ∧
      ∫ ω, (avg ((List.range n).map fun j => X j ω) - Y ω) ^ 2 ∂P = (a - b) ^ 2 + t + s / n := by
  have hne : List.range n ≠ [] := by simpa using hn.ne'
  obtain ⟨m1, m2⟩ := mean_sq hn hX ha hs hx
  obtain ⟨-, y1, y2⟩ := second_moment hY hb ht
  obtain ⟨c1, c2⟩ := mean_avg (P := P) (List.range n) (g := fun j ω => X j ω * Y ω) (e := fun _ => a * b) fun j hj =>
    mixed_moment (hX j (List.mem_range.1 hj)) hY (ha j (List.mem_range.1 hj)) hb (hi j (List.mem_range.1 hj))
  rw [avg_same hne] at c2
  have e : ∀ ω, (avg ((List.range n).map fun j => X j ω) - Y ω) ^ 2 =
      avg ((List.range n).map fun j => X j ω) ^ 2 - 2 * avg ((List.range n).map fun j => X j ω * Y ω) + Y ω * Y ω := by
    intro ω
    have : avg ((List.range n).map fun j => X j ω * Y ω) = avg ((List.range n).map fun j => X j ω) * Y ω := by
      simp only [avg, List.length_map, List.sum_map_mul_right]
      ring
    rw [this]
    ring
  simp only [e]
  have d1 : Integrable (fun ω => avg ((List.range n).map fun j => X j ω) ^ 2 -
      2 * avg ((List.range n).map fun j => X j ω * Y ω)) P := m1.sub (c1.const_mul 2)
  refine ⟨d1.add y1, ?_⟩
  rw [integral_add d1 y1, integral_sub m1 (c1.const_mul 2), integral_const_mul, m2, c2, y2]
  ring

theorem expected_error (hn : 0 < n) (hX : ∀ j, j < n → Integrable (X j) P) (hY : Integrable Y P)
    (ha : ∀ j, j < n → ∫ ω, X j ω ∂P = a) (hb : ∫ ω, Y ω ∂P = b) :
    Integrable (fun ω => avg ((List.range n).map fun j => X j ω) - Y ω) P ∧
      ∫ ω, (avg ((List.range n).map fun j => X j ω) - Y ω) ∂P = a - b := by
  have hne : List.range n ≠ [] := by simpa using hn.ne'
  obtain ⟨m1, m2⟩ := mean_avg (P := P) (List.range n) (g := fun j ω => X j ω) (e := fun _ => a) fun j hj =>
    ⟨hX j (List.mem_range.1 hj), ha j (List.mem_range.1 hj)⟩
  rw [avg_same hne] at m2
  refine ⟨m1.sub hY, ?_⟩
  rw [integral_sub m1 hY, m2, hb]

/-- expected variance of the members -/
theorem expected_variance (hn : 0 < n) (hX : ∀ j, j < n → MemLp (X j) 2 P)
    (ha : ∀ j, j < n → ∫ ω, X j ω ∂P = a) (hs : ∀ j, j < n → ∫ ω, (X j ω - a) ^ 2 ∂P = s)
    (hx : ∀ j l, j < n → l < n → j ≠ l → IndepFun (X j) (X l) P) :
    Integrable (fun ω => avg ((List.range n).map fun j => (X j ω - avg ((List.range n).map fun j => X j ω)) ^ 2)) P ∧
      ∫ ω, avg ((List.range n).map fun j => (X j ω - avg ((List.range n).map fun j => X j ω)) ^ 2) ∂P = s - s / n := by
  have hne : List.range n ≠ [] := by simpa using hn.ne'
  obtain ⟨m1, m2⟩ := mean_sq hn hX ha hs hx
  obtain ⟨c1, c2⟩ := mean_avg (P := P) (List.range n) (g := fun j ω => X j ω * X j ω) (e := fun _ => s + a ^ 2) fun j hj =>
    (second_moment (hX j (List.mem_range.1 hj)) (ha j (List.mem_range.1 hj)) (hs j (List.mem_range.1 hj))).2
  rw [avg_same hne] at c2
  have e : ∀ ω, avg ((List.range n).map fun j => (X j ω - avg ((List.range n).map fun j => X j ω)) ^ 2) =
      avg ((List.range n).map fun j => X j ω * X j ω) - avg ((List.range n).map fun j => X j ω) ^ 2 := by
    intro ω
    have h := avg_sq_split hne (fun j => X j ω) 0
    have e1 : ∀ x : ℝ, (0 - x) ^ 2 = x * x := fun x => by ring
    simp only [e1] at h
    rw [h, sq, add_sub_cancel_left]
    congr 2
    funext j
    ring
  simp only [e]
  refine ⟨c1.sub m1, ?_⟩
  rw [integral_sub c1 m1, c2, m2]
  ring

end Lemmas
