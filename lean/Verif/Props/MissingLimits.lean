import Verif.Props.AverageLimits

/-!
# Averages of growing archives with missing values: C149
-/

set_option linter.unusedSectionVars false

namespace Props
open Np NDArr Model Spec Lemmas MeasureTheory ProbabilityTheory Filter Topology

variable {A X : Type} {I : ArgInfo A} {c : Cfg ℝ} {emb : A → Arg ℝ} {mids : FS (PyVal ℝ) → Model.Path → List (FS (PyVal ℝ))}
  {C : Cls} {Q : Prims X (PyVal ℝ) A} {obs : X → NDArr (Fl ℝ)}
variable {Ω : Type} [MeasurableSpace Ω] {P : Measure Ω} [IsProbabilityMeasure P] {s : List Nat} {t : Nat}

/-- the numbers that are averaged, `Z` where `M` is true and missing elsewhere -/
theorem missing_fiber (hQ : Shared c obs emb Q) {sl : Slot A} (hs : Averaged sl) {o : Nat → Ω → Obj X}
    {w : Nat → Ω → World (PyVal ℝ)} {Z : List Nat → Ω → ℝ} {M : List Nat → Ω → Bool}
    (hm : ∀ n ω, ∃ m, result C I Q mids (.slot sl) (unsaved (plain (o n ω))) (w n ω) = .ok (some (.num m)) ∧
      m.shape = s.insertIdx t (n + 1) ∧ ∀ i, InB m.shape i → m.get i = if M i ω then some (Z i ω) else none)
    {a : PyAxis} {axes : Option (List Int)} (hax : axisArg a = .ok axes) (ht : t ≤ s.length)
    (hok : OptOK (s.length + 1) axes) (hn : t ∈ nums (s.length + 1) axes) :
    ∃ r : Nat → Ω → NDArr (Fl ℝ), ∀ n ω,
      result C I Q mids (.slot sl) (unsaved (withAvg (o n ω) a .none)) (w n ω) = .ok (some (.num (r n ω))) ∧
      (r n ω).shape = dropAxes (nums (s.length + 1) axes) (s.insertIdx t 0) ∧
      ∀ k, InB (dropAxes (nums (s.length + 1) axes) (s.insertIdx t 0)) k →
        IsAvg c.skipNan ((fiberIdx (s.insertIdx t (n + 1)) (nums (s.length + 1) axes) k).map
          fun i => if M i ω then some (Z i ω) else none) ((r n ω).get k) := by
  have main : ∀ n ω, ∃ r, result C I Q mids (.slot sl) (unsaved (withAvg (o n ω) a .none)) (w n ω) = .ok (some (.num r)) ∧
      r.shape = dropAxes (nums (s.length + 1) axes) (s.insertIdx t 0) ∧
      ∀ k, InB (dropAxes (nums (s.length + 1) axes) (s.insertIdx t 0)) k →
        IsAvg c.skipNan ((fiberIdx (s.insertIdx t (n + 1)) (nums (s.length + 1) axes) k).map
          fun i => if M i ω then some (Z i ω) else none) (r.get k) := by
    intro n ω
    obtain ⟨m, h1, h2, h3⟩ := hm n ω
    obtain ⟨m', e, h⟩ := C139_average hQ hs h1
    cases e
    have hl : m.shape.length = s.length + 1 := by rw [h2]; exact days_length ht _
    obtain ⟨r, r1, r2, r3⟩ := h hax (by rw [hl]; exact hok)
    rw [hl, h2, dropAxes_day hn] at r2
    refine ⟨r, r1, r2, fun k hk => ?_⟩
    have := r3 k (by rw [r2]; exact hk)
    rw [hl, fiber, h2] at this
    rwa [List.map_congr_left fun i hi => h3 i (by rw [h2]; exact (mem_fiberIdx.1 hi).1)] at this
  choose r r1 using main
  exact ⟨r, r1⟩

theorem present_if {α : Type} (L : List α) (M : α → Bool) (g : α → ℝ) :
    present (L.map fun i => if M i then some (g i) else none) = (L.filter fun i => decide (M i = true)).map g := by
  unfold present
  induction L with
  | nil => rfl
  | cons x L ih =>
    rw [List.map_cons, List.filterMap_cons, ih]
    cases h : M x <;> simp [h]

theorem settles_there {B k : List Nat} {Z : List Nat → Ω → ℝ} {M : List Nat → Ω → Bool} (ht : t ≤ s.length) (hn : t ∈ B)
    (rep : ∀ p ∈ placesOf s t B k, SameDays P (fun d ω => (M (p.insertIdx t d) ω, Z (p.insertIdx t d) ω)))
    (hi : ∀ p ∈ placesOf s t B k, Integrable (Z (p.insertIdx t 0)) P) :
    Settles P (fun n ω => avg ((fiberIdx (s.insertIdx t (n + 1)) B k).map fun i => (indicator (M i ω = true) : ℝ) * Z i ω))
      (avg ((placesOf s t B k).map fun p => ∫ ω in {ω | M (p.insertIdx t 0) ω = true}, Z (p.insertIdx t 0) ω ∂P)) := by
  refine settles_fiber (P := P) (k := k) ht hn (f := fun i ω => (indicator (M i ω = true) : ℝ) * Z i ω) fun p hp => ?_
  have hB : MeasurableSet {e : Bool × ℝ | e.1 = true} := measurable_fst (measurableSet_singleton true)
  exact settles_part (g := Prod.snd) (rep p hp) hB measurable_snd (hi p hp)

theorem settles_often {B k : List Nat} {M : List Nat → Ω → Bool} (b : Bool) (ht : t ≤ s.length) (hn : t ∈ B)
    (rep : ∀ p ∈ placesOf s t B k, SameDays P (fun d => M (p.insertIdx t d))) :
    Settles P (fun n ω => avg ((fiberIdx (s.insertIdx t (n + 1)) B k).map fun i => (indicator (M i ω = b) : ℝ)))
      (avg ((placesOf s t B k).map fun p => P.real {ω | M (p.insertIdx t 0) ω = b})) := by
  refine settles_fiber (P := P) (k := k) ht hn (f := fun i ω => (indicator (M i ω = b) : ℝ)) fun p hp => ?_
  exact settles_share (rep p hp) (B := {b}) (measurableSet_singleton b)

/-- what is present in a growing archive -/
theorem settles_present {B k : List Nat} {Z : List Nat → Ω → ℝ} {M : List Nat → Ω → Bool} (ht : t ≤ s.length) (hn : t ∈ B)
    (rep : ∀ p ∈ placesOf s t B k, SameDays P (fun d ω => (M (p.insertIdx t d) ω, Z (p.insertIdx t d) ω)))
    (hi : ∀ p ∈ placesOf s t B k, Integrable (Z (p.insertIdx t 0)) P) {p0 : List Nat} (hp0 : p0 ∈ placesOf s t B k)
    (hpos : P.real {ω | M (p0.insertIdx t 0) ω = true} ≠ 0) :
    (∀ᵐ ω ∂P, ∃ N, ∀ n, N ≤ n → (fiberIdx (s.insertIdx t (n + 1)) B k).filter (fun i => decide (M i ω = true)) ≠ []) ∧
    Settles P (fun n ω => avg (((fiberIdx (s.insertIdx t (n + 1)) B k).filter fun i => decide (M i ω = true)).map fun i => Z i ω))
      (meanOver P (placesOf s t B k) (fun p => {ω | M (p.insertIdx t 0) ω = true}) fun p => Z (p.insertIdx t 0)) := by
  have l1 := settles_there (P := P) ht hn rep hi
  have l2 := settles_often (P := P) (M := M) true ht hn fun p hp => repeats_comp (rep p hp) measurable_fst
  have hlen : (0 : ℝ) < (placesOf s t B k).length := by exact_mod_cast List.length_pos_of_mem hp0
  have hshare : 0 < avg ((placesOf s t B k).map fun p => P.real {ω | M (p.insertIdx t 0) ω = true}) := by
    unfold avg
    rw [List.length_map]
    refine div_pos ((lt_of_le_of_ne measureReal_nonneg (Ne.symm hpos)).trans_le (List.single_le_sum (fun x hx => ?_) _
      (List.mem_map.2 ⟨p0, hp0, rfl⟩))) hlen
    obtain ⟨p, -, rfl⟩ := List.mem_map.1 hx
    exact measureReal_nonneg
  constructor
  · filter_upwards [l2] with ω h2
    obtain ⟨N, hN⟩ := eventually_atTop.1 (h2.eventually_const_lt hshare)
    refine ⟨N, fun n hnN hnil => ?_⟩
    have hz : avg ((fiberIdx (s.insertIdx t (n + 1)) B k).map fun i => (indicator (M i ω = true) : ℝ)) = 0 := by
      unfold avg
      rw [List.sum_eq_zero (fun x hx => ?_), zero_div]
      obtain ⟨i, hi', rfl⟩ := List.mem_map.1 hx
      have := List.filter_eq_nil_iff.1 hnil i hi'
      simp only [decide_eq_true_eq] at this
      simp [indicator, this]
    have := hN n hnN
    rw [hz] at this
    exact lt_irrefl _ this
  · filter_upwards [l1, l2] with ω h1 h2
    have := h1.div h2 hshare.ne'
    have e : avg ((placesOf s t B k).map fun p => ∫ ω in {ω | M (p.insertIdx t 0) ω = true}, Z (p.insertIdx t 0) ω ∂P) /
        avg ((placesOf s t B k).map fun p => P.real {ω | M (p.insertIdx t 0) ω = true}) =
        meanOver P (placesOf s t B k) (fun p => {ω | M (p.insertIdx t 0) ω = true}) fun p => Z (p.insertIdx t 0) := by
      simp only [meanOver, avg, List.length_map]
      rw [div_div_div_cancel_right₀ hlen.ne']
    rw [← e]
    refine this.congr fun n => ?_
    exact (avg_part _ (fun i => M i ω = true) fun i => Z i ω).symm

/-- **C149**, missing values skipped (`pyanen_skip_nan`). Let a metric that averages, called with `avg_axis=()` on the archive of
the first `n + 1` days, return `Z` where `M` is true and missing values elsewhere. Over the days and any other axes, each number
of its result is present from some day on and settles at the expected value of what is present: the places count by how often
they have a value. -/
theorem C149_skip (hQ : Shared c obs emb Q) (hc : c.skipNan = true) {sl : Slot A} (hs : Averaged sl) {o : Nat → Ω → Obj X}
    {w : Nat → Ω → World (PyVal ℝ)} {Z : List Nat → Ω → ℝ} {M : List Nat → Ω → Bool}
    (hm : ∀ n ω, ∃ m, result C I Q mids (.slot sl) (unsaved (plain (o n ω))) (w n ω) = .ok (some (.num m)) ∧
      m.shape = s.insertIdx t (n + 1) ∧ ∀ i, InB m.shape i → m.get i = if M i ω then some (Z i ω) else none)
    {a : PyAxis} {axes : Option (List Int)} (hax : axisArg a = .ok axes) (ht : t ≤ s.length)
    (hok : OptOK (s.length + 1) axes) (hn : t ∈ nums (s.length + 1) axes) :
    ∃ r : Nat → Ω → NDArr (Fl ℝ),
      (∀ n ω, result C I Q mids (.slot sl) (unsaved (withAvg (o n ω) a .none)) (w n ω) = .ok (some (.num (r n ω))) ∧
        (r n ω).shape = dropAxes (nums (s.length + 1) axes) (s.insertIdx t 0)) ∧
      ∀ k, InB (dropAxes (nums (s.length + 1) axes) (s.insertIdx t 0)) k →
        let ks := placesOf s t (nums (s.length + 1) axes) k
        let T := fun p : List Nat => {ω | M (p.insertIdx t 0) ω = true}
        (∀ p ∈ ks, SameDays P (fun d ω => (M (p.insertIdx t d) ω, Z (p.insertIdx t d) ω))) →
        (∀ p ∈ ks, Integrable (Z (p.insertIdx t 0)) P) → (∃ p ∈ ks, P.real (T p) ≠ 0) →
        ∃ S : Nat → Ω → ℝ, (∀ᵐ ω ∂P, ∃ N, ∀ n, N ≤ n → (r n ω).get k = some (S n ω)) ∧
          Settles P S (meanOver P ks T fun p => Z (p.insertIdx t 0)) := by
  obtain ⟨r, hr⟩ := missing_fiber (mids := mids) hQ hs hm hax ht hok hn
  refine ⟨r, fun n ω => ⟨(hr n ω).1, (hr n ω).2.1⟩, fun k hk => ?_⟩
  intro ks T rep hi ⟨p0, hp0, hpos⟩
  obtain ⟨h1, h2⟩ := settles_present (P := P) ht hn rep hi hp0 hpos
  refine ⟨_, ?_, h2⟩
  filter_upwards [h1] with ω hω
  obtain ⟨N, hN⟩ := hω
  refine ⟨N, fun n hnN => ?_⟩
  have h := (hr n ω).2.2 k hk
  have hne : present ((fiberIdx (s.insertIdx t (n + 1)) (nums (s.length + 1) axes) k).map
      fun i => if M i ω then some (Z i ω) else none) ≠ [] := by
    rw [present_if]
    exact fun h' => hN n hnN (List.map_eq_nil_iff.1 h')
  rw [IsAvg, if_neg (by rintro (⟨h', -⟩ | h'); exacts [by simp [hc] at h', hne h']), present_if] at h
  exact h

/-- **C149**, missing values not skipped: as soon as values can be missing at one of the places, each number that averages over it
is, with probability one, missing from some day on. -/
theorem C149_keep (hQ : Shared c obs emb Q) (hc : c.skipNan = false) {sl : Slot A} (hs : Averaged sl) {o : Nat → Ω → Obj X}
    {w : Nat → Ω → World (PyVal ℝ)} {Z : List Nat → Ω → ℝ} {M : List Nat → Ω → Bool}
    (hm : ∀ n ω, ∃ m, result C I Q mids (.slot sl) (unsaved (plain (o n ω))) (w n ω) = .ok (some (.num m)) ∧
      m.shape = s.insertIdx t (n + 1) ∧ ∀ i, InB m.shape i → m.get i = if M i ω then some (Z i ω) else none)
    {a : PyAxis} {axes : Option (List Int)} (hax : axisArg a = .ok axes) (ht : t ≤ s.length)
    (hok : OptOK (s.length + 1) axes) (hn : t ∈ nums (s.length + 1) axes) :
    ∃ r : Nat → Ω → NDArr (Fl ℝ),
      (∀ n ω, result C I Q mids (.slot sl) (unsaved (withAvg (o n ω) a .none)) (w n ω) = .ok (some (.num (r n ω))) ∧
        (r n ω).shape = dropAxes (nums (s.length + 1) axes) (s.insertIdx t 0)) ∧
      ∀ k, InB (dropAxes (nums (s.length + 1) axes) (s.insertIdx t 0)) k →
        let ks := placesOf s t (nums (s.length + 1) axes) k
        (∀ p ∈ ks, SameDays P (fun d => M (p.insertIdx t d))) →
        (∃ p ∈ ks, P.real {ω | M (p.insertIdx t 0) ω = false} ≠ 0) →
        ∀ᵐ ω ∂P, ∃ N, ∀ n, N ≤ n → (r n ω).get k = none := by
  obtain ⟨r, hr⟩ := missing_fiber (mids := mids) hQ hs hm hax ht hok hn
  refine ⟨r, fun n ω => ⟨(hr n ω).1, (hr n ω).2.1⟩, fun k hk => ?_⟩
  intro ks rep ⟨p0, hp0, hpos⟩
  have l2 := settles_often (P := P) (M := M) (k := k) false ht hn rep
  have hlen : (0 : ℝ) < ks.length := by exact_mod_cast List.length_pos_of_mem hp0
  have hsum : 0 < (ks.map fun p => P.real {ω | M (p.insertIdx t 0) ω = false}).sum :=
    (lt_of_le_of_ne measureReal_nonneg (Ne.symm hpos)).trans_le (List.single_le_sum (fun x hx => by
      obtain ⟨p, -, rfl⟩ := List.mem_map.1 hx
      exact measureReal_nonneg) _ (List.mem_map.2 ⟨p0, hp0, rfl⟩))
  have hshare : 0 < avg (ks.map fun p => P.real {ω | M (p.insertIdx t 0) ω = false}) := by
    unfold avg
    rw [List.length_map]
    exact div_pos hsum hlen
  filter_upwards [l2] with ω h2
  obtain ⟨N, hN⟩ := eventually_atTop.1 (h2.eventually_const_lt hshare)
  refine ⟨N, fun n hnN => ?_⟩
  have h := (hr n ω).2.2 k hk
  have hex : ∃ i ∈ fiberIdx (s.insertIdx t (n + 1)) (nums (s.length + 1) axes) k, M i ω = false := by
    by_contra hno
    push Not at hno
    have hz : avg ((fiberIdx (s.insertIdx t (n + 1)) (nums (s.length + 1) axes) k).map
        fun i => (indicator (M i ω = false) : ℝ)) = 0 := by
      unfold avg
      rw [List.sum_eq_zero (fun x hx => ?_), zero_div]
      obtain ⟨i, hi', rfl⟩ := List.mem_map.1 hx
      simp [indicator, hno i hi']
    have := hN n hnN
    rw [hz] at this
    exact lt_irrefl _ this
  obtain ⟨i, hi, hf⟩ := hex
  rw [IsAvg, if_pos (.inl ⟨hc, List.mem_map.2 ⟨i, hi, by rw [hf]; rfl⟩⟩)] at h
  exact h

/-- **C149**: gaps that have nothing to do with the values, equally frequent everywhere, do no harm: the limit with missing values
skipped is that of complete archives (C146). -/
theorem C149_random {κ : Type} {ks : List κ} {M : κ → Ω → Bool} {Z : κ → Ω → ℝ} {q : ℝ} (hq : q ≠ 0)
    (hM : ∀ k ∈ ks, Measurable (M k)) (hZ : ∀ k ∈ ks, Measurable (Z k)) (hind : ∀ k ∈ ks, M k ⟂ᵢ[P] Z k)
    (hp : ∀ k ∈ ks, P.real {ω | M k ω = true} = q) :
    meanOver P ks (fun k => {ω | M k ω = true}) Z = avg (ks.map fun k => ∫ ω, Z k ω ∂P) := by
  have h : ∀ k ∈ ks, ∫ ω in {ω | M k ω = true}, Z k ω ∂P = q * ∫ ω, Z k ω ∂P := by
    intro k hk
    have hS : MeasurableSet {ω | M k ω = true} := hM k hk (measurableSet_singleton true)
    have hg : Measurable fun b : Bool => if b then (1 : ℝ) else 0 := measurable_of_finite _
    have h1 := ((hind k hk).comp hg measurable_id).integral_fun_mul_eq_mul_integral (hg.comp (hM k hk)).aestronglyMeasurable
      (hZ k hk).aestronglyMeasurable
    have e1 : ∫ ω, (if M k ω then (1 : ℝ) else 0) ∂P = q := by
      rw [← hp k hk, ← integral_indicator_one hS]
      refine integral_congr_ae (.of_forall fun ω => ?_)
      by_cases hb : M k ω = true <;> simp [Set.indicator, hb]
    have e2 : ∫ ω, (if M k ω then (1 : ℝ) else 0) * Z k ω ∂P = ∫ ω in {ω | M k ω = true}, Z k ω ∂P := by
      rw [← integral_indicator hS]
      refine integral_congr_ae (.of_forall fun ω => ?_)
      by_cases hb : M k ω = true <;> simp [Set.indicator, hb]
    rw [← e2, ← e1]
    exact h1
  unfold meanOver avg
  rw [List.map_congr_left h, List.map_congr_left hp, List.sum_map_mul_left]
  simp only [List.map_const', List.sum_replicate, nsmul_eq_mul, List.length_map]
  rw [mul_comm _ q, mul_div_mul_left _ _ hq]

end Props
