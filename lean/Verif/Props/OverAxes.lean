import Verif.Lemmas.OverAxes
import Verif.Props.BinLimits

/-!
# Averages over the days and other axes: C145
-/

set_option linter.unusedSectionVars false

namespace Props
open Np NDArr Model Spec Lemmas MeasureTheory ProbabilityTheory Filter Topology

variable {A : Type} {I : ArgInfo A} {c : Cfg ℝ} {emb : A → Arg ℝ} {mids : FS (PyVal ℝ) → Model.Path → List (FS (PyVal ℝ))}
variable {Ω : Type} [MeasurableSpace Ω] {P : Measure Ω} [IsProbabilityMeasure P] {s : List Nat} {t : Nat}
  {Y : List Nat → Ω → ℝ} {E : Type} [MeasurableSpace E]
variable {X : Type} {C : Cls} {Q : Prims X (PyVal ℝ) A} {obs : X → NDArr (Fl ℝ)}

theorem avg_minus {α : Type} (L : List α) (f g : α → ℝ) :
    Spec.avg (L.map f) - Spec.avg (L.map g) = Spec.avg (L.map fun x => f x - g x) := by
  simp only [Spec.avg, List.length_map, ← sub_div]
  congr 1
  induction L with
  | nil => simp
  | cons x L ih =>
    simp only [List.map_cons, List.sum_cons, ← ih]
    ring

/-- **C145**, `brier(...)` of a verifier of any class that gives the probabilities `D` and averages over the days and any other
axes: each number of the result settles at the average, over the places it averages, of the expected scores there. -/
theorem C145_brier (hQ : Shared c obs emb Q) {o : Nat → Ω → Obj X} {w : Nat → Ω → World (PyVal ℝ)} {isOver : Bool} {a : A}
    {D : List Nat → Ω → ℝ} {axes : Option (List Int)}
    (hp : ∀ n ω, Says (s.insertIdx t (n + 1)) (fun i => Y i ω) C I Q mids obs (o n ω) (w n ω) isOver a (fun i => D i ω) axes)
    (hD : ∀ i ω, 0 ≤ D i ω ∧ D i ω ≤ 1) {τ : ℝ} (hemb : emb a = .thr (.scalar (some τ))) (h0 : 0 ∉ s) (ht : t ≤ s.length)
    (hok : OptOK (s.length + 1) axes) (hn : t ∈ nums (s.length + 1) axes) :
    ∃ r : Nat → Ω → NDArr (Fl ℝ),
      (∀ n ω, result C I Q mids (.slot (.brier (overArg isOver a) (belowArg isOver a))) (unsaved (o n ω)) (w n ω) =
        .ok (some (.num (r n ω))) ∧ (r n ω).shape = dropAxes (nums (s.length + 1) axes) (s.insertIdx t 0)) ∧
      ∀ k, InB (dropAxes (nums (s.length + 1) axes) (s.insertIdx t 0)) k →
        let ks := placesOf s t (nums (s.length + 1) axes) k
        (∀ p ∈ ks, SameDays P (fun d ω => (D (p.insertIdx t d) ω, Y (p.insertIdx t d) ω))) →
        ∃ S : Nat → Ω → ℝ, (∀ n ω, (r n ω).get k = some (S n ω)) ∧ Settles P S (Spec.avg (ks.map fun p =>
          ∫ ω, (D (p.insertIdx t 0) ω - (indicator (Beyond isOver τ (Y (p.insertIdx t 0)) ω) : ℝ)) ^ 2 ∂P)) := by
  have main := fun n ω => brier_values hQ (says_iff.1 (hp n ω)) hemb trivial (τ := fun _ => τ) (fun _ _ => rfl)
    (by rw [days_length ht]; exact hok) (zero_notMem_days h0 t n) ()
  choose r r1 r2 r3 using main
  simp only [days_length ht, dropAxes_day hn] at r2 r3
  refine ⟨r, fun n ω => ⟨r1 n ω, r2 n ω⟩, fun k hk => ?_⟩
  intro ks rep
  refine ⟨_, fun n ω => r3 n ω k hk, ?_⟩
  have hg : Measurable fun p : ℝ × ℝ => (p.1 - (indicator (Beyond isOver τ (fun y : ℝ => y) p.2) : ℝ)) ^ 2 :=
    (measurable_fst.sub ((measurable_event isOver τ).comp measurable_snd)).pow_const 2
  have := settles_fiber_avg (P := P) (R := fun i ω => (D i ω, Y i ω)) (k := k) ht hn rep hg fun p hp => by
    refine Integrable.of_bound (C := 1) (hg.comp ((rep p hp).meas 0)).aestronglyMeasurable (.of_forall fun ω => ?_)
    show ‖(D (p.insertIdx t 0) ω - (indicator (Beyond isOver τ (Y (p.insertIdx t 0)) ω) : ℝ)) ^ 2‖ ≤ 1
    rw [Real.norm_of_nonneg (sq_nonneg _)]
    have := hD (p.insertIdx t 0) ω
    rcases indicator_or (Beyond isOver τ (Y (p.insertIdx t 0)) ω) with e | e <;> rw [e] <;> nlinarith
  simp only [List.map_map, Function.comp_def] at this
  exact this

/-- **C145**, `brier_decomp(...)` of a verifier of any class that gives the probabilities `D` and averages over the days and any
other axes `B`: each of the numbers settles at reliability, resolution and uncertainty of all the places it averages together. -/
theorem C145_decomp (hQ : Shared c obs emb Q) {o : Nat → Ω → Obj X} {w : Nat → Ω → World (PyVal ℝ)} {isOver : Bool} {a : A}
    {D : List Nat → Ω → ℝ} {B : List Nat}
    (hp : ∀ n ω, Says (s.insertIdx t (n + 1)) (fun i => Y i ω) C I Q mids obs (o n ω) (w n ω) isOver a (fun i => D i ω)
      (some (B.map Int.ofNat)))
    (hD : ∀ i ω, 0 ≤ D i ω ∧ D i ω ≤ 1) {τ : ℝ} (hemb : emb a = .thr (.scalar (some τ))) (h0 : 0 ∉ s) (ht : t ≤ s.length)
    (hB : B.Nodup) (hlt : ∀ b ∈ B, b ≤ s.length) (hn : t ∈ B) :
    ∃ rel res unc : Nat → Ω → NDArr (Fl ℝ),
      (∀ n ω, result C I Q mids (.slot (.brierDecomp (overArg isOver a) (belowArg isOver a))) (unsaved (o n ω)) (w n ω) =
        .ok (some (.triple (rel n ω) (res n ω) (unc n ω)))) ∧
      ∀ k, InB (dropAxes B (s.insertIdx t 0)) k →
        let ks := placesOf s t B k
        let S := fun p => {ω | Beyond isOver τ (Y (p.insertIdx t 0)) ω}
        (∀ p ∈ ks, SameDays P (fun d ω => (D (p.insertIdx t d) ω, Y (p.insertIdx t d) ω))) →
        ∃ R V U : Nat → Ω → ℝ,
          (∀ n ω, (rel n ω).get k = some (R n ω) ∧ (res n ω).get k = some (V n ω) ∧ (unc n ω).get k = some (U n ω)) ∧
          Settles P R (relOver P ks 19 (fun p => D (p.insertIdx t 0)) S) ∧
          Settles P V (resOver P ks 19 (fun p => D (p.insertIdx t 0)) S) ∧
          Settles P U (shareOver P ks S * (1 - shareOver P ks S)) := by
  classical
  have hsl : ∀ n, SliceAxes (s.insertIdx t (n + 1)) B := fun n =>
    ⟨hB, fun b hb => by rw [days_length ht]; exact Nat.lt_succ_of_le (hlt b hb), List.ne_nil_of_mem hn, fun h => by
      have := prod_take_drop (s.insertIdx t (n + 1)) B
      rw [h, zero_mul] at this
      exact zero_notMem_days h0 t n (List.prod_eq_zero_iff.1 this)⟩
  have main := fun n ω => decomp_values (mids := mids) (w1 := fun _ => w n ω) hQ (says_iff.1 (hp n ω)).observed hemb
    trivial (τ := fun _ => τ) (fun _ _ => rfl) isOver (says_iff.1 (hp n ω)).cdf (says_iff.1 (hp n ω)).boot
    (B := B) (says_iff.1 (hp n ω)).avg (hsl n) (zero_notMem_days h0 t n) ()
  choose rel res unc r1 r2 using main
  refine ⟨rel, res, unc, r1, fun k hk => ?_⟩
  intro ks S rep
  have hval := fun n ω => r2 n ω k (by rw [dropAxes_day hn]; exact hk)
  simp only at hval
  have hS : ∀ p ∈ ks, MeasurableSet (S p) := fun p hp => measurableSet_beyond isOver τ (measurable_snd.comp ((rep p hp).meas 0))
  have hBm : ∀ p ∈ ks, ∀ b, MeasurableSet {ω | InDecompBin 19 b (D (p.insertIdx t 0) ω)} := fun p hp b =>
    (rep p hp).meas 0 (measurable_decompBin 19 b)
  have hind : ∀ {T : Set Ω} (f : Ω → ℝ), MeasurableSet T → ∫ ω, (indicator (ω ∈ T) : ℝ) * f ω ∂P = ∫ ω in T, f ω ∂P := by
    intro T f hT
    rw [← integral_indicator hT]
    refine integral_congr_ae (.of_forall fun ω => ?_)
    by_cases h : ω ∈ T <;> simp [indicator, h]
  have hone : ∀ {T : Set Ω}, MeasurableSet T → ∫ ω, (indicator (ω ∈ T) : ℝ) ∂P = P.real T := by
    intro T hT
    have := hind (fun _ => 1) hT
    simpa using this
  have rep' : ∀ p ∈ placesOf s t B k, SameDays P fun d =>
      (fun i ω => (D i ω, (indicator (Beyond isOver τ (Y i) ω) : ℝ))) (p.insertIdx t d) := fun p hp =>
    repeats_comp (rep p hp) (g := fun p : ℝ × ℝ => (p.1, (indicator (Beyond isOver τ (fun y : ℝ => y) p.2) : ℝ)))
      (measurable_fst.prodMk ((measurable_event isOver τ).comp measurable_snd))
  have hqB : ∀ b, ∀ p ∈ ks, ∫ ω in {ω | InDecompBin 19 b (D (p.insertIdx t 0) ω)},
      (indicator (Beyond isOver τ (Y (p.insertIdx t 0)) ω) : ℝ) ∂P =
        P.real ({ω | InDecompBin 19 b (D (p.insertIdx t 0) ω)} ∩ S p) := fun b p hp => integral_event (P := P) (hS p hp) (hBm p hp b)
  have i1 : ∀ p ∈ ks, Integrable (fun ω => D (p.insertIdx t 0) ω) P := fun p hp => Integrable.of_bound (C := 1)
    (measurable_fst.comp ((rep p hp).meas 0)).aestronglyMeasurable (.of_forall fun ω => by
      rw [Real.norm_of_nonneg (hD _ ω).1]; exact (hD _ ω).2)
  have i2 : ∀ p ∈ ks, Integrable (fun ω => (indicator (Beyond isOver τ (Y (p.insertIdx t 0)) ω) : ℝ)) P := fun p hp =>
    Integrable.of_bound (C := 1) (measurable_snd.comp ((rep' p hp).meas 0)).aestronglyMeasurable
      (.of_forall fun ω => by rw [Real.norm_of_nonneg (indicator_unit _).1]; exact (indicator_unit _).2)
  let T := fun (b : Nat) (p : List Nat) => {ω | InDecompBin 19 b (D (p.insertIdx t 0) ω)}
  obtain ⟨l1, l2, l3⟩ := settles_decomp_over 19 (P := P) (k := k) ht hn
    (R := fun i ω => (D i ω, (indicator (Beyond isOver τ (Y i) ω) : ℝ))) rep' (fun i ω => ⟨hD i ω, indicator_unit _⟩)
    (F := fun b => shareOver P ks (T b))
    (G := fun b => Spec.avg (ks.map fun p => ∫ ω in T b p, D (p.insertIdx t 0) ω ∂P) - shareOver P ks fun p => T b p ∩ S p)
    (H := fun b => shareOver P ks fun p => T b p ∩ S p) (q := shareOver P ks S)
    (fun b => congrArg Spec.avg (List.map_congr_left fun p hp => (hone (hBm p hp b)).symm))
    (fun b => by
      have e : ∀ p ∈ ks, ∫ ω, (indicator (InDecompBin 19 b (D (p.insertIdx t 0) ω)) : ℝ) *
          (D (p.insertIdx t 0) ω - (indicator (Beyond isOver τ (Y (p.insertIdx t 0)) ω) : ℝ)) ∂P =
          (∫ ω in T b p, D (p.insertIdx t 0) ω ∂P) - P.real (T b p ∩ S p) := by
        intro p hp
        rw [← hqB b p hp, ← integral_sub (i1 p hp).integrableOn (i2 p hp).integrableOn]
        exact hind _ (hBm p hp b)
      refine Eq.trans ?_ (congrArg Spec.avg (List.map_congr_left e)).symm
      exact avg_minus ..)
    (fun b => congrArg Spec.avg (List.map_congr_left fun p hp => by
      rw [← hqB b p hp]
      exact (hind _ (hBm p hp b)).symm))
    (congrArg Spec.avg (List.map_congr_left fun p hp => (hone (hS p hp)).symm))
  have hmean : ∀ b, shareOver P ks (T b) ≠ 0 → meanOver P ks (T b) (fun p => D (p.insertIdx t 0)) =
      Spec.avg (ks.map fun p => ∫ ω in T b p, D (p.insertIdx t 0) ω ∂P) / shareOver P ks (T b) := by
    intro b hb
    have hlen : ((ks.length : ℕ) : ℝ) ≠ 0 := by
      intro h'
      refine hb ?_
      rw [shareOver, Spec.avg, List.length_map, h', div_zero]
    simp only [meanOver, shareOver, Spec.avg, List.length_map]
    rw [div_div_div_cancel_right₀ hlen]
  refine ⟨_, _, _, hval, settles_to l1 (Finset.sum_congr rfl fun b _ => ?_), settles_to l2 (Finset.sum_congr rfl fun b _ => ?_), l3⟩
  · show shareOver P ks (T b) * (meanOver P ks (T b) (fun p => D (p.insertIdx t 0)) -
      shareOver P ks (fun p => T b p ∩ S p) / shareOver P ks (T b)) ^ 2 = _
    by_cases h : shareOver P ks (T b) = 0
    · simp only [h, zero_mul, div_zero]
    · rw [hmean b h]
      field_simp
  · show shareOver P ks (T b) * (shareOver P ks (fun p => T b p ∩ S p) / shareOver P ks (T b) - shareOver P ks S) ^ 2 = _
    by_cases h : shareOver P ks (T b) = 0
    · simp only [h, zero_mul, div_zero]
    · field_simp

end Props
