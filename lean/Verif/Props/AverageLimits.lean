import Verif.Lemmas.OverAxes
import Verif.Props.Unaveraged

/-!
# What averages of any metric over the days and other axes settle at: C146
-/

set_option linter.unusedSectionVars false

namespace Props
open Np NDArr Model Spec Lemmas MeasureTheory ProbabilityTheory Filter Topology

variable {A X : Type} {I : ArgInfo A} {c : Cfg ℝ} {emb : A → Arg ℝ} {mids : FS (PyVal ℝ) → Model.Path → List (FS (PyVal ℝ))}
  {C : Cls} {Q : Prims X (PyVal ℝ) A} {obs : X → NDArr (Fl ℝ)}
variable {Ω : Type} [MeasurableSpace Ω] {P : Measure Ω} [IsProbabilityMeasure P] {s : List Nat} {t : Nat}

theorem isAvg_present {skip : Bool} {l : List ℝ} {v : Fl ℝ} (hl : l ≠ []) (h : IsAvg skip (l.map some) v) : v = some (avg l) := by
  have e : present (l.map some) = l := by simp [present]
  unfold IsAvg at h
  rw [e, if_neg (by rintro (⟨-, h'⟩ | h') <;> simp_all)] at h
  exact h

/-- **C146**. Let a metric that averages, called with `avg_axis=()` on the archive of the first `n + 1` days, return the numbers
`Z`. Called with axes among which are the days, each number of its result settles at the average, over the places it averages,
of the expected numbers there. -/
theorem C146_average (hQ : Shared c obs emb Q) {sl : Slot A} (hs : Averaged sl) {o : Nat → Ω → Obj X}
    {w : Nat → Ω → World (PyVal ℝ)} {Z : List Nat → Ω → ℝ}
    (hm : ∀ n ω, ∃ m, result C I Q mids (.slot sl) (unsaved (plain (o n ω))) (w n ω) = .ok (some (.num m)) ∧
      m.shape = s.insertIdx t (n + 1) ∧ ∀ i, InB m.shape i → m.get i = some (Z i ω))
    {a : PyAxis} {axes : Option (List Int)} (hax : axisArg a = .ok axes) (h0 : 0 ∉ s) (ht : t ≤ s.length)
    (hok : OptOK (s.length + 1) axes) (hn : t ∈ nums (s.length + 1) axes) :
    ∃ r : Nat → Ω → NDArr (Fl ℝ),
      (∀ n ω, result C I Q mids (.slot sl) (unsaved (withAvg (o n ω) a .none)) (w n ω) = .ok (some (.num (r n ω))) ∧
        (r n ω).shape = dropAxes (nums (s.length + 1) axes) (s.insertIdx t 0)) ∧
      ∀ k, InB (dropAxes (nums (s.length + 1) axes) (s.insertIdx t 0)) k →
        let ks := placesOf s t (nums (s.length + 1) axes) k
        (∀ p ∈ ks, SameDays P (fun d => Z (p.insertIdx t d))) → (∀ p ∈ ks, Integrable (Z (p.insertIdx t 0)) P) →
        ∃ S : Nat → Ω → ℝ, (∀ n ω, (r n ω).get k = some (S n ω)) ∧
          Settles P S (avg (ks.map fun p => ∫ ω, Z (p.insertIdx t 0) ω ∂P)) := by
  have main : ∀ n ω, ∃ r, result C I Q mids (.slot sl) (unsaved (withAvg (o n ω) a .none)) (w n ω) = .ok (some (.num r)) ∧
      r.shape = dropAxes (nums (s.length + 1) axes) (s.insertIdx t 0) ∧
      ∀ k, InB (dropAxes (nums (s.length + 1) axes) (s.insertIdx t 0)) k →
        r.get k = some (avg ((fiberIdx (s.insertIdx t (n + 1)) (nums (s.length + 1) axes) k).map fun i => Z i ω)) := by
    intro n ω
    obtain ⟨m, h1, h2, h3⟩ := hm n ω
    obtain ⟨m', e, h⟩ := C139_average hQ hs h1
    cases e
    have hl : m.shape.length = s.length + 1 := by rw [h2]; exact days_length ht _
    obtain ⟨r, r1, r2, r3⟩ := h hax (by rw [hl]; exact hok)
    rw [hl, h2, dropAxes_day hn] at r2
    refine ⟨r, r1, r2, fun k hk => ?_⟩
    have := r3 k (by rw [r2]; exact hk)
    rw [hl, fiber, h2] at this
    have e : (fiberIdx (s.insertIdx t (n + 1)) (nums (s.length + 1) axes) k).map m.get =
        ((fiberIdx (s.insertIdx t (n + 1)) (nums (s.length + 1) axes) k).map fun i => Z i ω).map some := by
      rw [List.map_map]
      exact List.map_congr_left fun i hi => h3 i (by rw [h2]; exact (mem_fiberIdx.1 hi).1)
    rw [e] at this
    refine isAvg_present (fun hnil => ?_) this
    have hlen := length_fiberIdx (s := s.insertIdx t (n + 1)) (A := nums (s.length + 1) axes) (k := k)
      (by rw [dropAxes_day hn]; exact hk)
    rw [List.map_eq_nil_iff.1 hnil] at hlen
    have := prod_take_drop (s.insertIdx t (n + 1)) (nums (s.length + 1) axes)
    rw [← hlen, List.length_nil, mul_zero] at this
    exact zero_notMem_days h0 t n (List.prod_eq_zero_iff.1 this)
  choose r r1 r2 r3 using main
  refine ⟨r, fun n ω => ⟨r1 n ω, r2 n ω⟩, fun k hk => ?_⟩
  intro ks rep hi
  refine ⟨_, fun n ω => r3 n ω k hk, ?_⟩
  exact settles_fiber (P := P) (k := k) ht hn (f := Z) (l := fun p => ∫ ω, Z (p.insertIdx t 0) ω ∂P) fun p hp => by
    have := settles_avg (R := fun d => Z (p.insertIdx t d)) (rep p hp) measurable_id (hi p hp)
    simpa using this

end Props
