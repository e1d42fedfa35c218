import Verif.Spec.CorrPooled
import Verif.Props.OverAxes

/-!
# Correlations over the days and other axes: C147
-/

set_option linter.unusedSectionVars false

namespace Props
open Np NDArr Model Spec Lemmas MeasureTheory ProbabilityTheory Filter Topology

variable {A : Type} {I : ArgInfo A} {c : Cfg ℝ} {emb : A → Arg ℝ} {mids : FS (PyVal ℝ) → Model.Path → List (FS (PyVal ℝ))}
variable {Ω : Type} [MeasurableSpace Ω] {P : Measure Ω} [IsProbabilityMeasure P] {s : List Nat} {t : Nat}
  {Y : List Nat → Ω → ℝ}
variable {X : Type} {C : Cls} {Q : Prims X (PyVal ℝ) A} {obs : X → NDArr (Fl ℝ)}

/-- the correlation of complete pairs is computed from five averages -/
theorem corr_of_averages {skip : Bool} {Z : List (ℝ × ℝ)} {v : Fl ℝ} (hZ : Z ≠ [])
    (h : IsCorr skip (Z.map fun p => (some p.1, some p.2)) v) {m : (ℝ × ℝ → ℝ) → (ℝ × ℝ → ℝ) → ℝ}
    (hm : ∀ g h, m g h = avg (Z.map fun p => g p * h p) - avg (Z.map g) * avg (Z.map h))
    (h1 : 0 < m Prod.fst Prod.fst) (h2 : 0 < m Prod.snd Prod.snd) :
    v = some (m Prod.fst Prod.snd / Real.sqrt (m Prod.fst Prod.fst * m Prod.snd Prod.snd)) := by
  have hcomp : complete (Z.map fun p => ((some p.1 : Fl ℝ), (some p.2 : Fl ℝ))) = Z := by
    unfold complete
    rw [List.filterMap_map]
    exact (List.filterMap_congr fun _ _ => rfl).trans List.filterMap_some
  have hco : ∀ g h, codev g h Z = (Z.length : ℝ) * m g h := fun g h => by rw [codev_avg g h hZ, hm]
  have hpos : (0 : ℝ) < Z.length := by exact_mod_cast List.length_pos_iff.2 hZ
  have c1 : 0 < codev Prod.fst Prod.fst Z := by rw [hco]; exact mul_pos hpos h1
  have c2 : 0 < codev Prod.snd Prod.snd Z := by rw [hco]; exact mul_pos hpos h2
  rw [IsCorr, hcomp, if_neg (by
    rintro (⟨-, p, hp, h⟩ | h | h)
    · obtain ⟨q, -, rfl⟩ := List.mem_map.1 hp
      simp at h
    · exact c1.ne' h
    · exact c2.ne' h)] at h
  obtain ⟨x, x1, x2⟩ := h
  rw [x1, pearson_eq x2 c1 c2, hco, hco, hco]
  congr 1
  rw [show (Z.length : ℝ) * m Prod.fst Prod.fst * ((Z.length : ℝ) * m Prod.snd Prod.snd) =
    (Z.length : ℝ) ^ 2 * (m Prod.fst Prod.fst * m Prod.snd Prod.snd) by ring, Real.sqrt_mul (sq_nonneg _),
    Real.sqrt_sq hpos.le, mul_div_mul_left _ _ hpos.ne']

/-- **C147**, `corr()` of a verifier of any class whose `f_determ()` gives the forecasts `D`, over the days and any other axes:
with probability one each of its numbers is present from some day on and settles at the correlation of forecast and observation
at a place drawn at random from those it averages. -/
theorem C147_corr (hQ : Shared c obs emb Q) (hs : IsSqrt c.sqrt) {o : Nat → Ω → Obj X} {w w1 : Nat → Ω → World (PyVal ℝ)}
    {f : Nat → Ω → NDArr (Fl ℝ)} {D : List Nat → Ω → ℝ} {B : List Nat}
    (hf : ∀ n ω, result C I Q mids (.slot .fDeterm) (unsaved (o n ω)) (w n ω) = .ok (some (.num (f n ω))))
    (hD : Recorded s t f D) (hy : Recorded s t (fun n ω => obs (o n ω).ext) Y)
    (ha : ∀ n ω, axisArg (o n ω).avg = .ok (some (B.map Int.ofNat))) (hb : ∀ n ω, (o n ω).boot = .none) (h0 : 0 ∉ s)
    (ht : t ≤ s.length) (hB : B.Nodup) (hlt : ∀ b ∈ B, b ≤ s.length) (hn : t ∈ B) :
    ∃ r : Nat → Ω → NDArr (Fl ℝ),
      (∀ n ω, result C I Q mids (.slot .corr) (unsaved (o n ω)) (w1 n ω) = .ok (some (.num (r n ω))) ∧
        (r n ω).shape = dropAxes B (s.insertIdx t 0)) ∧
      ∀ k, InB (dropAxes B (s.insertIdx t 0)) k →
        let ks := placesOf s t B k
        let V := fun p : List Nat => D (p.insertIdx t 0)
        let W := fun p : List Nat => Y (p.insertIdx t 0)
        (∀ p ∈ ks, SameDays P (fun d ω => (D (p.insertIdx t d) ω, Y (p.insertIdx t d) ω))) →
        (∀ p ∈ ks, MemLp (V p) 2 P ∧ MemLp (W p) 2 P) → 0 < covOver P ks V V → 0 < covOver P ks W W →
        ∃ S : Nat → Ω → ℝ, (∀ᵐ ω ∂P, ∃ N, ∀ n, N ≤ n → (r n ω).get k = some (S n ω)) ∧ Settles P S (corrOver P ks V W) := by
  classical
  have hsl : ∀ n, SliceAxes (s.insertIdx t (n + 1)) B := fun n =>
    ⟨hB, fun b hb => by rw [days_length ht]; exact Nat.lt_succ_of_le (hlt b hb), List.ne_nil_of_mem hn, fun h => by
      have := prod_take_drop (s.insertIdx t (n + 1)) B
      rw [h, zero_mul] at this
      exact zero_notMem_days h0 t n (List.prod_eq_zero_iff.1 this)⟩
  have main := fun n ω => C75_corr (mids := mids) (B := B) hQ hs (hb n ω) (ha n ω) (hf n ω)
    ((hD.shape n ω).trans (hy.shape n ω).symm) (by rw [hD.shape]; exact hsl n) (w1 n ω)
  choose r r1 r2 r3 using main
  simp only [hD.shape, dropAxes_day hn] at r2 r3
  refine ⟨r, fun n ω => ⟨r1 n ω, r2 n ω⟩, fun k hk => ?_⟩
  intro ks V W rep hM pV pW
  let R : List Nat → Ω → ℝ × ℝ := fun i ω => (D i ω, Y i ω)
  let Z := fun n ω => (fiberIdx (s.insertIdx t (n + 1)) B k).map fun i => R i ω
  have hval : ∀ n ω, IsCorr c.skipNan ((Z n ω).map fun p => (some p.1, some p.2)) ((r n ω).get k) := by
    intro n ω
    have := r3 n ω k hk
    rw [pairsAt, hD.shape] at this
    simp only [Z, List.map_map]
    convert this using 1
    refine List.map_congr_left fun i hi => ?_
    have hin := (mem_fiberIdx.1 hi).1
    simp only [Function.comp, R, hD.value n ω _ hin, hy.value n ω _ hin]
  have hZ : ∀ n ω, Z n ω ≠ [] := by
    intro n ω hnil
    have hlen := length_fiberIdx (s := s.insertIdx t (n + 1)) (A := B) (k := k) (by rw [dropAxes_day hn]; exact hk)
    rw [List.map_eq_nil_iff.1 hnil] at hlen
    have := prod_take_drop (s.insertIdx t (n + 1)) B
    rw [← hlen, List.length_nil, mul_zero] at this
    exact zero_notMem_days h0 t n (List.prod_eq_zero_iff.1 this)
  have step : ∀ g : ℝ × ℝ → ℝ, Measurable g → (∀ p ∈ ks, Integrable (fun ω => g (V p ω, W p ω)) P) →
      Settles P (fun n ω => avg ((Z n ω).map g)) (expectOver P ks fun p ω => g (V p ω, W p ω)) := fun g hg hi =>
    settles_fiber_avg (P := P) (R := R) (k := k) ht hn rep hg hi
  have a1 := step (fun p => p.1) measurable_fst fun p hp => (hM p hp).1.integrable one_le_two
  have a2 := step (fun p => p.2) measurable_snd fun p hp => (hM p hp).2.integrable one_le_two
  have a3 := step (fun p => p.1 * p.1) (by fun_prop) fun p hp => (hM p hp).1.integrable_mul (hM p hp).1
  have a4 := step (fun p => p.2 * p.2) (by fun_prop) fun p hp => (hM p hp).2.integrable_mul (hM p hp).2
  have a5 := step (fun p => p.1 * p.2) (by fun_prop) fun p hp => (hM p hp).1.integrable_mul (hM p hp).2
  let m := fun n ω (g h : ℝ × ℝ → ℝ) => avg ((Z n ω).map fun p => g p * h p) - avg ((Z n ω).map g) * avg ((Z n ω).map h)
  have l1 : Settles P (fun n ω => m n ω Prod.fst Prod.fst) (covOver P ks V V) := by
    filter_upwards [a1, a3] with ω h1 h3
    exact h3.sub (h1.mul h1)
  have l2 : Settles P (fun n ω => m n ω Prod.snd Prod.snd) (covOver P ks W W) := by
    filter_upwards [a2, a4] with ω h1 h3
    exact h3.sub (h1.mul h1)
  have l3 : Settles P (fun n ω => m n ω Prod.fst Prod.snd) (covOver P ks V W) := by
    filter_upwards [a1, a2, a5] with ω h1 h2 h3
    exact h3.sub (h1.mul h2)
  refine ⟨fun n ω => m n ω Prod.fst Prod.snd / Real.sqrt (m n ω Prod.fst Prod.fst * m n ω Prod.snd Prod.snd), ?_, ?_⟩
  · filter_upwards [l1, l2] with ω h1 h2
    obtain ⟨N, hN⟩ := eventually_atTop.1 ((h1.eventually_const_lt pV).and (h2.eventually_const_lt pW))
    exact ⟨N, fun n hn => corr_of_averages (hZ n ω) (hval n ω) (m := m n ω) (fun _ _ => rfl) (hN n hn).1 (hN n hn).2⟩
  · filter_upwards [l1, l2, l3] with ω h1 h2 h3
    exact h3.div ((Real.continuous_sqrt.tendsto _).comp (h1.mul h2)) (Real.sqrt_pos.2 (mul_pos pV pW)).ne'

/-- **C147**: for one place, this is the correlation there -/
theorem C147_one {κ : Type} (k : κ) (V W : κ → Ω → ℝ) : corrOver P [k] V W = trueCorr P (V k) (W k) := by
  simp only [corrOver, covOver, expectOver, trueCorr, avg, List.map_cons, List.map_nil, List.sum_cons, List.sum_nil, add_zero,
    List.length_cons, List.length_nil, zero_add, Nat.cast_one, div_one, pow_two]

end Props
