import Verif.Spec.CorrPooled
import Verif.Props.OverAxes

/-!
# Root mean square errors over the days and other axes: C148
-/

set_option linter.unusedSectionVars false

namespace Props
open Np NDArr Model Spec Lemmas MeasureTheory ProbabilityTheory Filter Topology

variable {A : Type} {I : ArgInfo A} {c : Cfg ℝ} {emb : A → Arg ℝ} {mids : FS (PyVal ℝ) → Model.Path → List (FS (PyVal ℝ))}
variable {Ω : Type} [MeasurableSpace Ω] {P : Measure Ω} [IsProbabilityMeasure P] {s : List Nat} {t : Nat}
  {Y : List Nat → Ω → ℝ}
variable {X : Type} {C : Cls} {Q : Prims X (PyVal ℝ) A} {obs : X → NDArr (Fl ℝ)}

/-- **C148**, `rmse()` of a verifier of any class whose `f_determ()` gives the forecasts `D`, over the days and any other axes:
each of its numbers settles at the root of the expected squared error at a place drawn at random from those it averages. -/
theorem C148_rmse (hQ : Shared c obs emb Q) (hs : IsSqrt c.sqrt) {o : Nat → Ω → Obj X} {w w1 : Nat → Ω → World (PyVal ℝ)}
    {f : Nat → Ω → NDArr (Fl ℝ)} {D : List Nat → Ω → ℝ}
    (hf : ∀ n ω, result C I Q mids (.slot .fDeterm) (unsaved (o n ω)) (w n ω) = .ok (some (.num (f n ω))))
    (hD : Recorded s t f D) (hy : Recorded s t (fun n ω => obs (o n ω).ext) Y) {axes : Option (List Int)}
    (ha : ∀ n ω, axisArg (o n ω).avg = .ok axes) (hb : ∀ n ω, (o n ω).boot = .none) (h0 : 0 ∉ s) (ht : t ≤ s.length)
    (hok : OptOK (s.length + 1) axes) (hn : t ∈ nums (s.length + 1) axes) :
    ∃ r : Nat → Ω → NDArr (Fl ℝ),
      (∀ n ω, result C I Q mids .rmse (unsaved (o n ω)) (w1 n ω) = .ok (some (.num (r n ω))) ∧
        (r n ω).shape = dropAxes (nums (s.length + 1) axes) (s.insertIdx t 0)) ∧
      ∀ k, InB (dropAxes (nums (s.length + 1) axes) (s.insertIdx t 0)) k →
        let ks := placesOf s t (nums (s.length + 1) axes) k
        let Z := fun (p : List Nat) ω => D (p.insertIdx t 0) ω - Y (p.insertIdx t 0) ω
        (∀ p ∈ ks, SameDays P (fun d ω => (D (p.insertIdx t d) ω, Y (p.insertIdx t d) ω))) →
        (∀ p ∈ ks, Integrable (fun ω => Z p ω ^ 2) P) →
        ∃ S : Nat → Ω → ℝ, (∀ n ω, (r n ω).get k = some (S n ω)) ∧
          Settles P S (Real.sqrt (expectOver P ks fun p ω => Z p ω ^ 2)) := by
  have hsq : ∀ x, 0 ≤ x → c.sqrt x = Real.sqrt x := fun x hx => by
    rw [eq_comm, Real.sqrt_eq_iff_mul_self_eq hx (hs.1 x hx)]
    exact (hs.2 x hx).symm
  have main : ∀ n ω, _ := fun n ω => C75_errors (mids := mids) hQ (hb n ω) (ha n ω) (hf n ω)
    ((hD.shape n ω).trans (hy.shape n ω).symm) (by rw [hD.shape, days_length ht]; exact hok) (w1 n ω)
  choose e a q r r1 r2 r3 r4 r5 r6 using main
  have hsh : ∀ n ω, (e n ω).shape = dropAxes (nums (s.length + 1) axes) (s.insertIdx t 0) := fun n ω => by
    rw [(r5 n ω).1, hD.shape, days_length ht, dropAxes_day hn]
  have val : ∀ n ω k, InB (dropAxes (nums (s.length + 1) axes) (s.insertIdx t 0)) k →
      (r n ω).get k = some (Real.sqrt (avg ((fiberIdx (s.insertIdx t (n + 1)) (nums (s.length + 1) axes) k).map
        fun i => (D i ω - Y i ω) ^ 2))) := by
    intro n ω k hk
    obtain ⟨-, -, g3, g4⟩ := r6 n ω k (by rw [hsh]; exact hk)
    simp only [pairsAt, hD.shape, days_length ht, List.map_map] at g3
    have hL : fiberIdx (s.insertIdx t (n + 1)) (nums (s.length + 1) axes) k ≠ [] :=
      fiberIdx_ne (zero_notMem_days h0 t n) (by rw [dropAxes_day hn]; exact hk)
    have hq := isAvg_some hL (h := fun i => (D i ω - Y i ω) ^ 2) (fun i hi => by
      have hin := (mem_fiberIdx.1 hi).1
      simp only [Function.comp, hD.value n ω i hin, hy.value n ω i hin, both]) g3
    have hnn : 0 ≤ avg ((fiberIdx (s.insertIdx t (n + 1)) (nums (s.length + 1) axes) k).map fun i => (D i ω - Y i ω) ^ 2) := by
      refine div_nonneg (List.sum_nonneg fun x hx => ?_) (Nat.cast_nonneg _)
      obtain ⟨i, -, rfl⟩ := List.mem_map.1 hx
      exact sq_nonneg _
    rw [g4, hq, Option.map_some, hsq _ hnn]
  refine ⟨r, fun n ω => ⟨r4 n ω, (r5 n ω).2.2.2.trans (hsh n ω)⟩, fun k hk => ?_⟩
  intro ks Z rep hi
  refine ⟨_, fun n ω => val n ω k hk, ?_⟩
  have := settles_fiber_avg (P := P) (R := fun i ω => (D i ω, Y i ω)) (k := k) ht hn rep (g := fun p => (p.1 - p.2) ^ 2)
    (by fun_prop) hi
  filter_upwards [this] with ω hω
  simp only [List.map_map, Function.comp_def] at hω
  exact (Real.continuous_sqrt.tendsto _).comp hω

theorem avg_sq_le (L : List ℝ) : avg L ^ 2 ≤ avg (L.map fun x => x ^ 2) ∧
    (∀ x ∈ L, x ≠ avg L → avg L ^ 2 < avg (L.map fun x => x ^ 2)) := by
  rcases eq_or_ne L [] with rfl | hL
  · simp [avg]
  have hl : (0 : ℝ) < L.length := by exact_mod_cast List.length_pos_iff.2 hL
  have e : (L.map fun x => (x - avg L) ^ 2).sum = L.length * (avg (L.map fun x => x ^ 2) - avg L ^ 2) := by
    have h1 : ∀ m : ℝ, (L.map fun x => (x - m) ^ 2).sum = (L.map fun x => x ^ 2).sum - 2 * m * L.sum + L.length * m ^ 2 := by
      intro m
      clear hl hL
      induction L with
      | nil => simp
      | cons x L ih =>
        simp only [List.map_cons, List.sum_cons, List.length_cons, ih]
        push_cast
        ring
    rw [h1]
    simp only [avg, List.length_map]
    field_simp
    ring
  have hnn : ∀ x ∈ L.map fun x => (x - avg L) ^ 2, 0 ≤ x := fun x hx => by
    obtain ⟨y, -, rfl⟩ := List.mem_map.1 hx
    exact sq_nonneg _
  refine ⟨?_, fun x hx hne => ?_⟩
  · have := List.sum_nonneg hnn
    rw [e] at this
    exact sub_nonneg.1 (nonneg_of_mul_nonneg_right this hl)
  · have h2 : (x - avg L) ^ 2 ≤ (L.map fun x => (x - avg L) ^ 2).sum :=
      List.single_le_sum hnn _ (List.mem_map.2 ⟨x, hx, rfl⟩)
    have h3 : 0 < (x - avg L) ^ 2 := by
      have := sub_ne_zero.2 hne
      positivity
    rw [e] at h2
    exact sub_pos.1 ((mul_pos_iff_of_pos_left hl).1 (h3.trans_le h2))

/-- **C148**: the root mean square error of many places is at least the average of those of the places, and more when one of
these is not the average. -/
theorem C148_average {κ : Type} (ks : List κ) (Z : κ → Ω → ℝ) :
    let E := fun k => Real.sqrt (∫ ω, Z k ω ^ 2 ∂P)
    avg (ks.map E) ≤ Real.sqrt (expectOver P ks fun k ω => Z k ω ^ 2) ∧
    ∀ k ∈ ks, E k ≠ avg (ks.map E) → avg (ks.map E) < Real.sqrt (expectOver P ks fun k ω => Z k ω ^ 2) := by
  intro E
  have e : expectOver P ks (fun k ω => Z k ω ^ 2) = avg ((ks.map E).map fun x => x ^ 2) := by
    rw [List.map_map]
    refine congrArg avg (List.map_congr_left fun k _ => ?_)
    exact (Real.sq_sqrt (integral_nonneg fun ω => sq_nonneg _)).symm
  obtain ⟨h1, h2⟩ := avg_sq_le (ks.map E)
  rw [e]
  refine ⟨Real.le_sqrt_of_sq_le h1, fun k hk hne => Real.lt_sqrt_of_sq_lt (h2 _ (List.mem_map.2 ⟨k, hk, rfl⟩) hne)⟩

end Props
