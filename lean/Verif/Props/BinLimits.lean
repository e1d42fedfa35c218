import Verif.Lemmas.BinLimits
import Verif.Props.LongRun
import Verif.Props.DecompChance
import Verif.Props.EndToEndCurves

/-!
# What diagrams and decompositions of growing archives estimate: C132
-/

set_option linter.unusedSectionVars false

namespace Props
open Np NDArr Model Spec Lemmas MeasureTheory ProbabilityTheory Filter Topology

variable {A : Type} {I : ArgInfo A} {c : Cfg ℝ} {F : ProbFns ℝ} {emb : A → Arg ℝ}
  {mids : FS (PyVal ℝ) → Model.Path → List (FS (PyVal ℝ))}
variable {Ω : Type} [MeasurableSpace Ω] {P : Measure Ω} [IsProbabilityMeasure P] {s : List Nat} {t : Nat}
  {Y : List Nat → Ω → ℝ} {E : Type} [MeasurableSpace E]
variable {X : Type} {C : Cls} {Q : Prims X (PyVal ℝ) A} {obs : X → NDArr (Fl ℝ)}

theorem measurableSet_relBin (nbins b : Nat) : MeasurableSet {p : ℝ × ℝ | InRelBin nbins b p.1} :=
  (measurableSet_le measurable_const measurable_fst).inter (measurableSet_lt measurable_fst measurable_const)

/-- days that are all alike never do what has no chance to happen on the first -/
theorem never_of_null {R : Nat → Ω → E} (h : SameDays P R) {B : Set E} (hB : MeasurableSet B) (h0 : P.real {ω | R 0 ω ∈ B} = 0) :
    ∀ᵐ ω ∂P, ∀ d, R d ω ∉ B := by
  rw [ae_all_iff]
  intro d
  rw [ae_iff]
  simp only [not_not]
  have h1 := (h.same d).measure_mem_eq hB
  have h2 : P {ω | R 0 ω ∈ B} = 0 := by
    rwa [measureReal_def, ENNReal.toReal_eq_zero_iff, or_iff_left (measure_ne_top _ _)] at h0
  exact h1.trans h2

theorem integral_event {S : Set Ω} {p : Ω → Prop} (hp : MeasurableSet {ω | p ω}) (hS : MeasurableSet S) :
    ∫ ω in S, (indicator (p ω) : ℝ) ∂P = P.real (S ∩ {ω | p ω}) := by
  classical
  have e : (fun ω => (indicator (p ω) : ℝ)) = {ω | p ω}.indicator fun _ => 1 := by
    funext ω; exact indicator_set p ω
  rw [e, setIntegral_indicator hp]
  simp

theorem days_slice (h0 : 0 ∉ s) (ht : t ≤ s.length) (n : Nat) : SliceAxes (s.insertIdx t (n + 1)) [t] :=
  ⟨by simp, by simp [days_length ht]; omega, by simp, by
    rw [(dropAxes_insertIdx _ ht).1]
    exact fun h => h0 (List.prod_eq_zero_iff.1 h)⟩

theorem settles_to {S : Nat → Ω → ℝ} {l l' : ℝ} (h : Settles P S l) (e : l' = l) : Settles P S l' := e ▸ h

/-- **C132**, the reliability diagram of a verifier of any class that gives the probabilities `D` for one threshold and
averages over its only axis, the days. A bin that has a chance shows up for good; its count divided by the number of days, its
mean forecast and its observed frequency settle at the probability of the bin, the mean forecast and the probability of the
event where the forecast is in the bin. A bin that has no chance never shows up. -/
theorem C132_reliability (hQ : Shared c obs emb Q) {o : Nat → Ω → Obj X} {w : Nat → Ω → World (PyVal ℝ)} {isOver : Bool} {a : A}
    {D : List Nat → Ω → ℝ} {axes : Option (List Int)}
    (hp : ∀ n ω, Says [n + 1] (fun i => Y i ω) C I Q mids obs (o n ω) (w n ω) isOver a (fun i => D i ω) axes)
    (hD : ∀ i ω, 0 ≤ D i ω ∧ D i ω ≤ 1) {τ : ℝ} (hemb : emb a = .thr (.scalar (some τ)))
    {nb : A} {nbins : Nat} (hnb : emb nb = .num nbins) (hpn : Printable I nb) (hn1 : 1 ≤ nbins)
    (hall : ∀ n, AllAxes [n + 1] axes) (hn : nums 1 axes = [0]) :
    ∃ (sl : Nat → Ω → RelSlice (Fl ℝ)) (bs : Nat → Ω → List Nat) (V T : Nat → Nat → Ω → ℝ) (M : Nat → Nat → Ω → Nat),
      (∀ n ω, result C I Q mids (.slot (.reliability nb (overArg isOver a) (belowArg isOver a))) (unsaved (o n ω)) (w n ω) =
        .ok (some (.rel (.slice (sl n ω))))) ∧
      (∀ n ω, (bs n ω).Pairwise (· < ·) ∧ (∀ b, b ∈ bs n ω ↔ b < nbins ∧ ∃ d ≤ n, InRelBin nbins b (D [d] ω)) ∧
        (sl n ω).probPred = (bs n ω).map (fun b => some (V b n ω)) ∧ (sl n ω).probTrue = (bs n ω).map (fun b => some (T b n ω)) ∧
        (sl n ω).predCount.map Prod.snd = (bs n ω).map fun b => M b n ω) ∧
      (SameDays P (fun d ω => (D [d] ω, Y [d] ω)) → ∀ b, b < nbins →
        let B := {ω | InRelBin nbins b (D [0] ω)}
        Settles P (fun n ω => (M b n ω : ℝ) / (n + 1 : ℕ)) (P.real B) ∧
        (P.real B = 0 → ∀ᵐ ω ∂P, ∀ n, b ∉ bs n ω) ∧
        (P.real B ≠ 0 → (∀ᵐ ω ∂P, ∃ N, ∀ n, N ≤ n → b ∈ bs n ω) ∧ Settles P (V b) (meanOn P B (D [0])) ∧
          Settles P (T b) (P.real (B ∩ {ω | Beyond isOver τ (Y [0]) ω}) / P.real B))) := by
  classical
  have main := fun n ω => rel_values (mids := mids) (w1 := fun _ => w n ω) hQ (says_iff.1 (hp n ω)).observed hnb hpn hn1 hemb
    trivial (τ := fun _ => τ) (fun _ _ => rfl) isOver (says_iff.1 (hp n ω)).cdf (fun i _ => hD i ω) (says_iff.1 (hp n ω)).boot
    (says_iff.1 (hp n ω)).avg (hall n) ()
  choose sl r1 r2 r3 r4 using main
  have hfib : ∀ n, fiberIdx [n + 1] (nums [n + 1].length axes) [] = (List.range (n + 1)).map fun d => [d] := by
    intro n
    have := fiberIdx_days (s := []) (k := []) (t := 0) le_rfl (by decide) (n + 1)
    rw [show [n + 1].length = 1 from rfl, hn]
    exact this
  let days := fun b n ω => (List.range (n + 1)).filter fun d => decide (InRelBin nbins b (D [d] ω))
  have hbin : ∀ b n ω, binPositions nbins b (fun i => D i ω) (fiberIdx [n + 1] (nums [n + 1].length axes) []) =
      (days b n ω).map fun d => [d] := by
    intro b n ω
    rw [hfib, binPositions, List.filter_map]
    refine congrArg (List.map _) (List.filter_congr fun d _ => ?_)
    exact decide_eq_decide.2 Iff.rfl
  simp only [hbin, List.map_map, List.length_map, Function.comp_def, ne_eq, List.map_eq_nil_iff] at r2 r3 r4
  have hmem : ∀ b n ω, days b n ω ≠ [] ↔ ∃ d ≤ n, InRelBin nbins b (D [d] ω) := by
    intro b n ω
    rw [ne_eq, List.filter_eq_nil_iff]
    simp only [List.mem_range, decide_eq_true_eq, not_forall, not_not, exists_prop, Nat.lt_succ_iff]
  refine ⟨sl, fun n ω => (List.range nbins).filter fun b => decide (¬ days b n ω = []),
    fun b n ω => Spec.avg ((days b n ω).map fun d => D [d] ω),
    fun b n ω => Spec.avg ((days b n ω).map fun d => (indicator (Beyond isOver τ (Y [d]) ω) : ℝ)),
    fun b n ω => (days b n ω).length, r1, fun n ω => ⟨List.pairwise_lt_range.filter _, fun b => ?_, ?_, ?_, ?_⟩, fun rep b hb => ?_⟩
  · rw [List.mem_filter, List.mem_range, decide_eq_true_eq, ← hmem]
  · rw [r2]
  · rw [r3]; rfl
  · rw [r4]
  intro B
  have hBm := measurableSet_relBin nbins b
  have i1 : Integrable (fun ω => D [0] ω) P := Integrable.of_bound (C := 1)
    (measurable_fst.comp (rep.meas 0)).aestronglyMeasurable (.of_forall fun ω => by
      rw [Real.norm_of_nonneg (hD [0] ω).1]; exact (hD [0] ω).2)
  have hev : MeasurableSet {ω | Beyond isOver τ (Y [0]) ω} :=
    measurableSet_beyond isOver τ (measurable_snd.comp (rep.meas 0))
  have hlen : ∀ n ω, ((days b n ω).length : ℝ) / (n + 1 : ℕ) =
      Spec.avg ((List.range (n + 1)).map fun d => (indicator (InRelBin nbins b (D [d] ω)) : ℝ)) := by
    intro n ω
    simp only [days, Spec.avg, List.length_map, List.length_range]
    congr 1
    induction List.range (n + 1) with
    | nil => simp
    | cons x L ih =>
      by_cases hx : InRelBin nbins b (D [x] ω)
      · rw [List.filter_cons_of_pos (by simpa using hx)]
        simp only [List.length_cons, Nat.cast_add, Nat.cast_one, ih, List.map_cons, List.sum_cons, indicator, if_pos hx]
        ring
      · rw [List.filter_cons_of_neg (by simpa using hx)]
        simp only [ih, List.map_cons, List.sum_cons, indicator, if_neg hx, zero_add]
  have hshare := settles_share rep hBm
  simp only [Set.mem_ofPred_eq] at hshare
  refine ⟨?_, fun h0 => ?_, fun h0 => ⟨?_, ?_, ?_⟩⟩
  · simp only [hlen]
    exact hshare
  · filter_upwards [never_of_null rep hBm h0] with ω hω n hb'
    obtain ⟨d, -, hd⟩ := (hmem b n ω).1 (by simpa using (List.mem_filter.1 hb').2)
    exact hω d hd
  · filter_upwards [hshare] with ω hω
    have hpos : 0 < P.real B := lt_of_le_of_ne measureReal_nonneg (Ne.symm h0)
    obtain ⟨N, hN⟩ := eventually_atTop.1 (hω.eventually_const_lt hpos)
    refine ⟨N, fun n hn' => ?_⟩
    have := hN n hn'
    rw [← hlen] at this
    rw [List.mem_filter, List.mem_range, decide_eq_true_eq]
    refine ⟨hb, fun h => ?_⟩
    rw [h] at this
    simp at this
  · exact settles_on rep hBm (g := fun p => p.1) measurable_fst i1 h0
  · have hint : Integrable (fun ω => (indicator (Beyond isOver τ (Y [0]) ω) : ℝ)) P := by
      have e : (fun ω => (indicator (Beyond isOver τ (Y [0]) ω) : ℝ)) = {ω | Beyond isOver τ (Y [0]) ω}.indicator fun _ => 1 := by
        funext ω; exact indicator_set _ ω
      rw [e]
      exact (integrable_const 1).indicator hev
    have := settles_on rep hBm (g := fun p => (indicator (Beyond isOver τ (fun y : ℝ => y) p.2) : ℝ))
      ((measurable_event isOver τ).comp measurable_snd) hint h0
    have hBm' : MeasurableSet B := rep.meas 0 hBm
    rw [← integral_event hev hBm']
    exact this

/-- **C132**: the point of a bin settles on the diagonal if the forecast is the probability of the event for someone who
knows `K`. -/
theorem C132_diagonal {K : Ω → E} (hK : Measurable K) {p : E → ℝ} (hp : Measurable p) {S : Set Ω} (h : ProbGiven P K S p)
    (nbins b : Nat) :
    let B := {ω | InRelBin nbins b (p (K ω))}
    P.real (B ∩ S) / P.real B = meanOn P B fun ω => p (K ω) := by
  intro B
  have hm : MeasurableSet {e | InRelBin nbins b (p e)} :=
    (measurableSet_le measurable_const hp).inter (measurableSet_lt hp measurable_const)
  rw [meanOn, show B = K ⁻¹' {e | InRelBin nbins b (p e)} from rfl, ← h {e | InRelBin nbins b (p e)} hm]

/-- **C132**, `brier_decomp(...)` of a verifier of any class that gives the probabilities `D`: reliability, resolution and
uncertainty settle at those of the probabilities of the bins. -/
theorem C132_decomp (hQ : Shared c obs emb Q) {o : Nat → Ω → Obj X} {w : Nat → Ω → World (PyVal ℝ)} {isOver : Bool} {a : A}
    {D : List Nat → Ω → ℝ}
    (hp : ∀ n ω, Says (s.insertIdx t (n + 1)) (fun i => Y i ω) C I Q mids obs (o n ω) (w n ω) isOver a (fun i => D i ω)
      (some [(t : Int)]))
    (hD : ∀ i ω, 0 ≤ D i ω ∧ D i ω ≤ 1) {τ : ℝ} (hemb : emb a = .thr (.scalar (some τ))) (h0 : 0 ∉ s) (ht : t ≤ s.length) :
    ∃ rel res unc : Nat → Ω → NDArr (Fl ℝ),
      (∀ n ω, result C I Q mids (.slot (.brierDecomp (overArg isOver a) (belowArg isOver a))) (unsaved (o n ω)) (w n ω) =
        .ok (some (.triple (rel n ω) (res n ω) (unc n ω)))) ∧
      ∀ k, InB s k → SameDays P (fun d ω => (D (k.insertIdx t d) ω, Y (k.insertIdx t d) ω)) →
        let S := {ω | Beyond isOver τ (Y (k.insertIdx t 0)) ω}
        ∃ R V U : Nat → Ω → ℝ,
          (∀ n ω, (rel n ω).get k = some (R n ω) ∧ (res n ω).get k = some (V n ω) ∧ (unc n ω).get k = some (U n ω)) ∧
          Settles P R (trueRel P 19 (D (k.insertIdx t 0)) S) ∧ Settles P V (trueRes P 19 (D (k.insertIdx t 0)) S) ∧
          Settles P U (P.real S * (1 - P.real S)) := by
  have main := fun n ω => decomp_values (mids := mids) (w1 := fun _ => w n ω) hQ (says_iff.1 (hp n ω)).observed hemb
    trivial (τ := fun _ => τ) (fun _ _ => rfl) isOver (says_iff.1 (hp n ω)).cdf (says_iff.1 (hp n ω)).boot
    (B := [t]) (says_iff.1 (hp n ω)).avg (days_slice h0 ht n) (zero_notMem_days h0 t n) ()
  choose rel res unc r1 r2 using main
  refine ⟨rel, res, unc, r1, fun k hk rep => ?_⟩
  intro S
  have rep' := repeats_comp rep (g := fun p : ℝ × ℝ => (p.1, (indicator (Beyond isOver τ (fun y : ℝ => y) p.2) : ℝ)))
    (measurable_fst.prodMk ((measurable_event isOver τ).comp measurable_snd))
  obtain ⟨l1, l2, l3⟩ := settles_decomp 19 rep' fun d ω => ⟨hD _ ω, indicator_unit _⟩
  have hS : MeasurableSet S := measurableSet_beyond isOver τ (measurable_snd.comp (rep.meas 0))
  have hq : ∫ ω, (indicator (Beyond isOver τ (fun y : ℝ => y) (Y (k.insertIdx t 0) ω)) : ℝ) ∂P = P.real S := by
    have := integral_event (P := P) hS MeasurableSet.univ
    rw [Measure.restrict_univ, Set.univ_inter] at this
    exact this
  have hBm : ∀ b, MeasurableSet {ω | InDecompBin 19 b (D (k.insertIdx t 0) ω)} := fun b =>
    rep.meas 0 (measurable_decompBin 19 b)
  have hqB : ∀ b, ∫ ω in {ω | InDecompBin 19 b (D (k.insertIdx t 0) ω)},
      (indicator (Beyond isOver τ (fun y : ℝ => y) (Y (k.insertIdx t 0) ω)) : ℝ) ∂P =
        P.real ({ω | InDecompBin 19 b (D (k.insertIdx t 0) ω)} ∩ S) := fun b => integral_event (P := P) hS (hBm b)
  have i1 : Integrable (fun ω => D (k.insertIdx t 0) ω) P := Integrable.of_bound (C := 1)
    (measurable_fst.comp (rep.meas 0)).aestronglyMeasurable (.of_forall fun ω => by
      rw [Real.norm_of_nonneg (hD _ ω).1]; exact (hD _ ω).2)
  have i2 : Integrable (fun ω => (indicator (Beyond isOver τ (fun y : ℝ => y) (Y (k.insertIdx t 0) ω)) : ℝ)) P :=
    Integrable.of_bound (C := 1) (((measurable_event isOver τ).comp measurable_snd).comp (rep.meas 0)).aestronglyMeasurable
      (.of_forall fun ω => by rw [Real.norm_of_nonneg (indicator_unit _).1]; exact (indicator_unit _).2)
  have hval := fun n ω => r2 n ω k (by rw [(dropAxes_insertIdx _ ht).1]; exact hk)
  simp only [fiberIdx_days ht hk, List.map_map, Function.comp_def] at hval
  refine ⟨_, _, _, hval, ?_, ?_, ?_⟩
  · refine settles_to l1 (Finset.sum_congr rfl fun b _ => ?_)
    simp only
    rw [integral_sub i1.integrableOn i2.integrableOn, hqB, meanOn]
    by_cases h : P.real {ω | InDecompBin 19 b (D (k.insertIdx t 0) ω)} = 0
    · rw [h]; simp
    · field_simp
  · refine settles_to l2 (Finset.sum_congr rfl fun b _ => ?_)
    simp only
    rw [hqB, hq]
    by_cases h : P.real {ω | InDecompBin 19 b (D (k.insertIdx t 0) ω)} = 0
    · rw [h]; simp
    · field_simp
  · rw [hq] at l3
    exact l3

/-- **C132**: the reliability settles at 0 if the forecast is the probability of the event for someone who knows `K`, and only
if in every bin that has a chance the mean forecast is the probability of the event. -/
theorem C132_rel_zero {D : Ω → ℝ} {S : Set Ω} (n : Nat) :
    (∀ {K : Ω → E} {p : E → ℝ}, Measurable K → Measurable p → ProbGiven P K S p → (D = fun ω => p (K ω)) →
      trueRel P n D S = 0) ∧
    (trueRel P n D S = 0 → ∀ b ≤ n, let B := {ω | InDecompBin n b (D ω)}
      P.real B ≠ 0 → meanOn P B D = P.real (B ∩ S) / P.real B) := by
  constructor
  · intro K p hK hp h hD
    refine Finset.sum_eq_zero fun b _ => ?_
    subst hD
    have hm : MeasurableSet {e | InDecompBin n b (p e)} :=
      ((MeasurableSet.const (b = 0)).union (measurableSet_le measurable_const hp)).inter
        ((MeasurableSet.const (b = n)).union (measurableSet_lt hp measurable_const))
    have := h _ hm
    simp only [meanOn]
    rw [show {ω | InDecompBin n b (p (K ω))} = K ⁻¹' {e | InDecompBin n b (p e)} from rfl, ← this]
    simp
  · intro h b hb B hB
    have := (Finset.sum_eq_zero_iff_of_nonneg (fun b _ => mul_nonneg measureReal_nonneg (sq_nonneg _))).1 h b
      (Finset.mem_range.2 (by omega))
    rcases mul_eq_zero.1 this with h1 | h1
    · exact absurd h1 hB
    · exact sub_eq_zero.1 (pow_eq_zero_iff two_ne_zero |>.1 h1)

/-- **C132**, `corr()` of a verifier of any class whose `f_determ()` gives the forecasts `D`: with probability one it is a
number from some day on and settles at the correlation of forecast and observation. -/
theorem C132_corr (hQ : Shared c obs emb Q) (hs : IsSqrt c.sqrt) {o : Nat → Ω → Obj X} {w w1 : Nat → Ω → World (PyVal ℝ)}
    {f : Nat → Ω → NDArr (Fl ℝ)} {D : List Nat → Ω → ℝ}
    (hf : ∀ n ω, result C I Q mids (.slot .fDeterm) (unsaved (o n ω)) (w n ω) = .ok (some (.num (f n ω))))
    (hD : Recorded s t f D) (hy : Recorded s t (fun n ω => obs (o n ω).ext) Y)
    (ha : ∀ n ω, axisArg (o n ω).avg = .ok (some [(t : Int)])) (hb : ∀ n ω, (o n ω).boot = .none) (h0 : 0 ∉ s)
    (ht : t ≤ s.length) :
    ∃ r : Nat → Ω → NDArr (Fl ℝ),
      (∀ n ω, result C I Q mids (.slot .corr) (unsaved (o n ω)) (w1 n ω) = .ok (some (.num (r n ω)))) ∧
      ∀ k, InB s k →
        let V := D (k.insertIdx t 0)
        let W := Y (k.insertIdx t 0)
        SameDays P (fun d ω => (D (k.insertIdx t d) ω, Y (k.insertIdx t d) ω)) → MemLp V 2 P → MemLp W 2 P →
        Var[V; P] ≠ 0 → Var[W; P] ≠ 0 →
        ∃ S : Nat → Ω → ℝ, (∀ᵐ ω ∂P, ∃ N, ∀ n, N ≤ n → (r n ω).get k = some (S n ω)) ∧ Settles P S (trueCorr P V W) := by
  classical
  have main := fun n ω => C75_corr (mids := mids) (B := [t]) hQ hs (hb n ω) (ha n ω) (hf n ω)
    ((hD.shape n ω).trans (hy.shape n ω).symm) (by rw [hD.shape]; exact days_slice h0 ht n) (w1 n ω)
  choose r r1 r2 r3 using main
  refine ⟨r, r1, fun k hk => ?_⟩
  intro V W rep hV hW vV vW
  let Z := fun n ω => (List.range (n + 1)).map fun d => (D (k.insertIdx t d) ω, Y (k.insertIdx t d) ω)
  have hval : ∀ n ω, IsCorr c.skipNan ((Z n ω).map fun p => (some p.1, some p.2)) ((r n ω).get k) := by
    intro n ω
    have := r3 n ω k (by rw [hD.shape, (dropAxes_insertIdx _ ht).1]; exact hk)
    rw [pairsAt, hD.shape, fiberIdx_days ht hk, List.map_map] at this
    simp only [Z, List.map_map]
    convert this using 1
    refine List.map_congr_left fun d hd => ?_
    have hin : InB (s.insertIdx t (n + 1)) (k.insertIdx t d) := by
      have : k.insertIdx t d ∈ fiberIdx (s.insertIdx t (n + 1)) [t] k := by
        rw [fiberIdx_days ht hk]
        exact List.mem_map.2 ⟨d, hd, rfl⟩
      exact (mem_fiberIdx.1 this).1
    simp only [Function.comp, hD.value n ω _ hin, hy.value n ω _ hin]
  have hcomp : ∀ n ω, complete ((Z n ω).map fun p => (some p.1, some p.2)) = Z n ω := by
    intro n ω
    unfold complete
    rw [List.filterMap_map]
    exact (List.filterMap_congr fun _ _ => rfl).trans List.filterMap_some
  have hmis : ∀ n ω, ¬ (c.skipNan = false ∧ ∃ p ∈ (Z n ω).map fun p => ((some p.1 : Fl ℝ), (some p.2 : Fl ℝ)), p.1 = none ∨ p.2 = none) := by
    rintro n ω ⟨-, p, hp, h⟩
    obtain ⟨q, -, rfl⟩ := List.mem_map.1 hp
    simp at h
  have iV := hV.integrable one_le_two
  have iW := hW.integrable one_le_two
  have a1 := settles_avg rep (g := fun p => p.1) measurable_fst iV
  have a2 := settles_avg rep (g := fun p => p.2) measurable_snd iW
  have a3 := settles_avg rep (g := fun p => p.1 * p.1) (by fun_prop) (by simpa only [pow_two] using hV.integrable_sq)
  have a4 := settles_avg rep (g := fun p => p.2 * p.2) (by fun_prop) (by simpa only [pow_two] using hW.integrable_sq)
  have a5 := settles_avg rep (g := fun p => p.1 * p.2) (by fun_prop) (hV.integrable_mul hW)
  have pV : 0 < ∫ ω, V ω ^ 2 ∂P - (∫ ω, V ω ∂P) ^ 2 := by
    have := variance_eq_sub hV
    have h2 := lt_of_le_of_ne (variance_nonneg V P) (Ne.symm vV)
    rw [this] at h2
    exact h2
  have pW : 0 < ∫ ω, W ω ^ 2 ∂P - (∫ ω, W ω ∂P) ^ 2 := by
    have := variance_eq_sub hW
    have h2 := lt_of_le_of_ne (variance_nonneg W P) (Ne.symm vW)
    rw [this] at h2
    exact h2
  let m := fun (g h : ℝ × ℝ → ℝ) n ω => Spec.avg ((Z n ω).map fun p => g p * h p) - Spec.avg ((Z n ω).map g) * Spec.avg ((Z n ω).map h)
  have hZ : ∀ n ω, Z n ω ≠ [] := by
    intro n ω h
    have := congrArg List.length h
    simp [Z] at this
  have hco : ∀ g h n ω, codev g h (Z n ω) = (n + 1 : ℕ) * m g h n ω := by
    intro g h n ω
    rw [codev_avg g h (hZ n ω)]
    simp [Z, m]
  have l1 : Settles P (m Prod.fst Prod.fst) (∫ ω, V ω ^ 2 ∂P - (∫ ω, V ω ∂P) ^ 2) := by
    filter_upwards [a1, a3] with ω h1 h3
    simp only [m, Z, List.map_map, Function.comp_def, pow_two]
    exact h3.sub (h1.mul h1)
  have l2 : Settles P (m Prod.snd Prod.snd) (∫ ω, W ω ^ 2 ∂P - (∫ ω, W ω ∂P) ^ 2) := by
    filter_upwards [a2, a4] with ω h1 h3
    simp only [m, Z, List.map_map, Function.comp_def, pow_two]
    exact h3.sub (h1.mul h1)
  have l3 : Settles P (m Prod.fst Prod.snd) (∫ ω, V ω * W ω ∂P - (∫ ω, V ω ∂P) * ∫ ω, W ω ∂P) := by
    filter_upwards [a1, a2, a5] with ω h1 h2 h3
    simp only [m, Z, List.map_map, Function.comp_def]
    exact h3.sub (h1.mul h2)
  refine ⟨fun n ω => m Prod.fst Prod.snd n ω / Real.sqrt (m Prod.fst Prod.fst n ω * m Prod.snd Prod.snd n ω), ?_, ?_⟩
  · filter_upwards [l1, l2] with ω h1 h2
    obtain ⟨N, hN⟩ := eventually_atTop.1 ((h1.eventually_const_lt pV).and (h2.eventually_const_lt pW))
    refine ⟨N, fun n hn => ?_⟩
    obtain ⟨q1, q2⟩ := hN n hn
    have hpos : (0 : ℝ) < (n + 1 : ℕ) := by exact_mod_cast Nat.succ_pos n
    have c1 : 0 < codev Prod.fst Prod.fst (Z n ω) := by rw [hco]; exact mul_pos hpos q1
    have c2 : 0 < codev Prod.snd Prod.snd (Z n ω) := by rw [hco]; exact mul_pos hpos q2
    have := hval n ω
    rw [IsCorr, hcomp, if_neg (by
      rintro (h | h | h)
      · exact hmis n ω h
      · exact c1.ne' h
      · exact c2.ne' h)] at this
    obtain ⟨x, x1, x2⟩ := this
    rw [x1, pearson_eq x2 c1 c2, hco, hco, hco]
    congr 1
    rw [show ((n + 1 : ℕ) : ℝ) * m Prod.fst Prod.fst n ω * (((n + 1 : ℕ) : ℝ) * m Prod.snd Prod.snd n ω) =
      ((n + 1 : ℕ) : ℝ) ^ 2 * (m Prod.fst Prod.fst n ω * m Prod.snd Prod.snd n ω) by ring, Real.sqrt_mul (sq_nonneg _),
      Real.sqrt_sq hpos.le, mul_div_mul_left _ _ hpos.ne']
  · filter_upwards [l1, l2, l3] with ω h1 h2 h3
    exact h3.div ((Real.continuous_sqrt.tendsto _).comp (h1.mul h2)) (Real.sqrt_pos.2 (mul_pos pV pW)).ne'

end Props
