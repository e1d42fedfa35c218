import Verif.Lemmas.RankFlat
import Verif.Props.RandomEns

/-!
# The rank histogram of an ensemble that chance does not tell from the observation: C119
-/

set_option linter.unusedSectionVars false

namespace Props
open Np NDArr Model Spec Lemmas MeasureTheory ProbabilityTheory

variable {A : Type} {I : ArgInfo A} {c : Cfg ℝ} {emb : A → Arg ℝ}
  {mids : FS (PyVal ℝ) → Model.Path → List (FS (PyVal ℝ))}
variable {Ω : Type} [MeasurableSpace Ω] {P : Measure Ω} [IsProbabilityMeasure P]
  {sh : List Nat} {n : Nat} {ax : Int} {Z : List Nat → Fin (n + 1) → Ω → ℝ}

theorem numLt_ofFn (z : Fin (n + 1) → ℝ) : numLt (List.ofFn fun j : Fin n => some (z j.succ)) (some (z 0)) = below z 0 := by
  classical
  unfold numLt below
  rw [← List.countP_eq_length_filter, Finset.card_filter, Fin.sum_univ_succ, if_neg (lt_irrefl _), zero_add]
  induction n with
  | zero => simp
  | succ n ih =>
    rw [List.ofFn_succ, List.countP_cons, Fin.sum_univ_succ, add_comm]
    have := ih (fun j : Fin (n + 1) => if j = 0 then z 0 else z j.succ)
    simp only [Fin.succ_ne_zero, if_false, if_true] at this
    rw [this]
    congr 1
    have e : LtP (some (z (Fin.succ 0))) (some (z 0)) ↔ z (Fin.succ 0) < z 0 := by simp [LtP]
    by_cases hz : z (Fin.succ 0) < z 0 <;> simp only [e, hz, decide_true, decide_false, if_true, if_false, Bool.false_eq_true]

/-- the rank when nothing ties the observation -/
theorem chance_rank {oi o : Ω → Obj (EnsX ℝ)} {w w' w1 : Ω → World (PyVal ℝ)}
    (h : ∀ ω, construct (ensPrims c emb) mids (oi ω) (w ω) = (.ok (o ω), w' ω)) (hskip : c.skipNan = false)
    (hs : sh ≠ []) (hmap : MapOK c.workers c.mapAxis sh) (hf : ∀ ω, none ∉ (oi ω).ext.f.data)
    (hax : ∀ ω, (o ω).ext.axis = some ax) (d : Chance sh n (fun ω => (oi ω).ext.o) (fun ω => (oi ω).ext.f) ax Z) (ω : Ω) :
    ∃ r, result .ensemble I (ensPrims c emb) mids (.slot .rankHist) (unsaved (o ω)) (w1 ω) = .ok (some (.ranks r)) ∧
      r.shape = sh ∧ ∀ k, InB sh k → Function.Injective (fun j => Z k j ω) →
        r.get k = some (1 + below (fun j => Z k j ω) 0) := by
  have hsh := d.shape ω
  obtain ⟨ax', r, a1, r1, r2, r3⟩ := C75_ens_rank (I := I) (h ω) hskip (by rw [hsh]; exact hs) (by rw [hsh]; exact hmap)
    (hf ω) (not_none_data (y := fun i => Z i 0 ω) fun i hi => d.value i (by rw [← hsh]; exact hi) ω) (w1 ω)
  rw [hax ω] at a1
  cases a1
  rw [hsh] at r2 r3
  refine ⟨r, r1, r2, fun k hk hinj => ?_⟩
  obtain ⟨m, m1, -, -, -, m2⟩ := r3 k hk
  rw [d.members k hk ω, d.value k hk ω] at m2
  rw [m1, m2 ?_, numLt_ofFn (fun j => Z k j ω)]
  intro y hy e
  rw [List.mem_ofFn] at hy
  obtain ⟨j, rfl⟩ := hy
  exact Fin.succ_ne_zero j (hinj (Option.some.inj e))

/-- ranks that count the smaller numbers, up to ties, of numbers that can be permuted -/
theorem flat_of_below {r : Ω → NDArr (Option Nat)} (hm : ∀ k, InB sh k → ∀ j, Measurable (Z k j))
    (r3 : ∀ ω k, InB sh k → Function.Injective (fun j => Z k j ω) → (r ω).get k = some (1 + below (fun j => Z k j ω) 0)) :
    (∀ k, InB sh k → Distinct P (Z k) → ∀ j, 1 ≤ j →
      {ω | (r ω).get k = some j} =ᵐ[P] {ω | below (fun l => Z k l ω) 0 = j - 1}) ∧
    (∀ k, InB sh k → ExchLaw P (Z k) → Distinct P (Z k) → ∀ j, 1 ≤ j → j ≤ n + 1 →
      P.real {ω | (r ω).get k = some j} = 1 / (n + 1)) ∧
    ∀ L : List (List Nat), (∀ k ∈ L, InB sh k ∧ ExchLaw P (Z k) ∧ Distinct P (Z k)) → ∀ j, 1 ≤ j → j ≤ n + 1 →
      Integrable (fun ω => ((L.map (r ω).get).count (some j) : ℝ)) P ∧
      ∫ ω, ((L.map (r ω).get).count (some j) : ℝ) ∂P = L.length / (n + 1) := by
  have key : ∀ k, InB sh k → Distinct P (Z k) → ∀ j, 1 ≤ j →
      {ω | (r ω).get k = some j} =ᵐ[P] {ω | below (fun l => Z k l ω) 0 = j - 1} := by
    intro k hk hD j hj
    filter_upwards [distinct_ae hD] with ω hω
    have := r3 ω k hk hω
    refine propext ?_
    show (r ω).get k = some j ↔ below (fun l => Z k l ω) 0 = j - 1
    rw [this, Option.some.injEq]
    omega
  have hprob : ∀ k, InB sh k → ExchLaw P (Z k) → Distinct P (Z k) → ∀ j, 1 ≤ j → j ≤ n + 1 →
      P.real {ω | (r ω).get k = some j} = 1 / (n + 1) := by
    intro k hk hE hD j h1 h2
    rw [measureReal_congr (key k hk hD j h1), below_flat (hm k hk) hE hD 0 (by omega)]
    push_cast
    rfl
  refine ⟨key, hprob, fun L hL j h1 h2 => ?_⟩
  induction L with
  | nil => simp
  | cons k L ih =>
    obtain ⟨⟨hk, hE, hD⟩, hL⟩ := List.forall_mem_cons.1 hL
    obtain ⟨i1, i2⟩ := ih hL
    have hms : NullMeasurableSet {ω | (r ω).get k = some j} P := by
      refine NullMeasurableSet.congr ?_ (key k hk hD j h1).symm
      have hZ : Measurable fun ω l => Z k l ω := measurable_pi_iff.2 (hm k hk)
      exact (((measurable_below 0).comp hZ) (measurableSet_singleton (j - 1))).nullMeasurableSet
    have hi : Integrable ({ω | (r ω).get k = some j}.indicator fun _ => (1 : ℝ)) P :=
      (integrable_const (1 : ℝ)).indicator₀ hms
    have e : ∀ ω, (((k :: L).map (r ω).get).count (some j) : ℝ) =
        ((L.map (r ω).get).count (some j) : ℝ) + {ω | (r ω).get k = some j}.indicator (fun _ => (1 : ℝ)) ω := by
      intro ω
      rw [List.map_cons, List.count_cons]
      push_cast
      congr 1
      by_cases hr : (r ω).get k = some j <;> simp [hr]
    simp only [e]
    refine ⟨i1.add hi, ?_⟩
    rw [integral_add i1 hi, i2, integral_indicator₀ hms]
    have := hprob k hk hE hD j h1 h2
    simp only [integral_const, MeasurableSet.univ, measureReal_restrict_apply, Set.univ_inter, smul_eq_mul, mul_one, this,
      List.length_cons]
    push_cast
    ring

/-- **C119**: observation and members can be permuted without changing their joint distribution and almost surely differ.
Then every rank from 1 to `n + 1` has the same probability, and in a histogram over any choice of positions every rank has
the same expected frequency. -/
theorem C119_flat {oi o : Ω → Obj (EnsX ℝ)} {w w' w1 : Ω → World (PyVal ℝ)}
    (h : ∀ ω, construct (ensPrims c emb) mids (oi ω) (w ω) = (.ok (o ω), w' ω)) (hskip : c.skipNan = false)
    (hs : sh ≠ []) (hmap : MapOK c.workers c.mapAxis sh) (hf : ∀ ω, none ∉ (oi ω).ext.f.data)
    (hax : ∀ ω, (o ω).ext.axis = some ax) (d : Chance sh n (fun ω => (oi ω).ext.o) (fun ω => (oi ω).ext.f) ax Z) :
    ∃ r : Ω → NDArr (Option Nat),
      (∀ ω, result .ensemble I (ensPrims c emb) mids (.slot .rankHist) (unsaved (o ω)) (w1 ω) = .ok (some (.ranks (r ω)))) ∧
      (∀ k, InB sh k → ExchLaw P (Z k) → Distinct P (Z k) → ∀ j, 1 ≤ j → j ≤ n + 1 →
        P.real {ω | (r ω).get k = some j} = 1 / (n + 1)) ∧
      ∀ L : List (List Nat), (∀ k ∈ L, InB sh k ∧ ExchLaw P (Z k) ∧ Distinct P (Z k)) → ∀ j, 1 ≤ j → j ≤ n + 1 →
        Integrable (fun ω => ((L.map (r ω).get).count (some j) : ℝ)) P ∧
        ∫ ω, ((L.map (r ω).get).count (some j) : ℝ) ∂P = L.length / (n + 1) := by
  choose r r1 r2 r3 using fun ω => chance_rank (I := I) (w1 := w1) h hskip hs hmap hf hax d ω
  obtain ⟨-, g1, g2⟩ := flat_of_below (P := P) d.meas r3
  exact ⟨r, r1, g1, g2⟩

/-- **C119**: in particular when observation and members are drawn independently from one continuous distribution. -/
theorem C119_iid {oi o : Ω → Obj (EnsX ℝ)} {w w' w1 : Ω → World (PyVal ℝ)}
    (h : ∀ ω, construct (ensPrims c emb) mids (oi ω) (w ω) = (.ok (o ω), w' ω)) (hskip : c.skipNan = false)
    (hs : sh ≠ []) (hmap : MapOK c.workers c.mapAxis sh) (hf : ∀ ω, none ∉ (oi ω).ext.f.data)
    (hax : ∀ ω, (o ω).ext.axis = some ax) (d : Chance sh n (fun ω => (oi ω).ext.o) (fun ω => (oi ω).ext.f) ax Z)
    {G : List Nat → ℝ → ℝ} (hI : ∀ k, InB sh k → iIndepFun (Z k) P)
    (hG : ∀ k, InB sh k → Continuous (G k) ∧ ∀ j x, P.real {ω | Z k j ω ≤ x} = G k x) :
    ∃ r : Ω → NDArr (Option Nat),
      (∀ ω, result .ensemble I (ensPrims c emb) mids (.slot .rankHist) (unsaved (o ω)) (w1 ω) = .ok (some (.ranks (r ω)))) ∧
      ∀ L : List (List Nat), (∀ k ∈ L, InB sh k) → ∀ j, 1 ≤ j → j ≤ n + 1 →
        (∀ k ∈ L, P.real {ω | (r ω).get k = some j} = 1 / (n + 1)) ∧
        ∫ ω, ((L.map (r ω).get).count (some j) : ℝ) ∂P = L.length / (n + 1) := by
  obtain ⟨r, r1, r2, r3⟩ := C119_flat (I := I) (P := P) (w1 := w1) h hskip hs hmap hf hax d
  have hE : ∀ k, InB sh k → ExchLaw P (Z k) := fun k hk => exch_of_iid (d.meas k hk) (hI k hk) (hG k hk).2
  have hD : ∀ k, InB sh k → Distinct P (Z k) := fun k hk => distinct_of_continuous (d.meas k hk)
    (fun j l hjl => (hI k hk).indepFun hjl) (fun j => (hG k hk).2 j) fun _ _ _ => .inl (hG k hk).1
  exact ⟨r, r1, fun L hL j h1 h2 => ⟨fun k hk => r2 k (hL k hk) (hE k (hL k hk)) (hD k (hL k hk)) j h1 h2,
    (r3 L (fun k hk => ⟨hL k hk, hE k (hL k hk), hD k (hL k hk)⟩) j h1 h2).2⟩⟩

/-- **C119**, ties: with a single position there is a single number of ties, so that the loop that breaks ties is not
entered. The first rank is then more likely than `1 / (n + 1)` exactly if the least value occurs twice with positive
probability, as it does for precipitation. -/
theorem C119_ties {oi o : Ω → Obj (EnsX ℝ)} {w w' w1 : Ω → World (PyVal ℝ)}
    (h : ∀ ω, construct (ensPrims c emb) mids (oi ω) (w ω) = (.ok (o ω), w' ω)) (hskip : c.skipNan = false)
    (hs : sh ≠ []) (hw : c.workers = 1) (hf : ∀ ω, none ∉ (oi ω).ext.f.data)
    (hax : ∀ ω, (o ω).ext.axis = some ax) (d : Chance sh n (fun ω => (oi ω).ext.o) (fun ω => (oi ω).ext.f) ax Z)
    (hone : ∀ k k', InB sh k → InB sh k' → k = k') :
    ∃ r : Ω → NDArr (Option Nat),
      (∀ ω, result .ensemble I (ensPrims c emb) mids (.slot .rankHist) (unsaved (o ω)) (w1 ω) = .ok (some (.ranks (r ω)))) ∧
      ∀ k, InB sh k → ExchLaw P (Z k) →
        (1 : ℝ) / (n + 1) ≤ P.real {ω | (r ω).get k = some 1} ∧
        (P.real {ω | (r ω).get k = some 1} = 1 / (n + 1) ↔
          P {ω | ∃ j l, j ≠ l ∧ Z k j ω = Z k l ω ∧ ∀ m, Z k j ω ≤ Z k m ω} = 0) := by
  have main : ∀ ω, ∃ r, result .ensemble I (ensPrims c emb) mids (.slot .rankHist) (unsaved (o ω)) (w1 ω) =
      .ok (some (.ranks r)) ∧ ∀ k, InB sh k → r.get k = some (1 + below (fun j => Z k j ω) 0) := by
    intro ω
    have hsh := d.shape ω
    obtain ⟨ax', fc, h1, -, h3, h4, h5, -, -⟩ := C75_construct_ens (h ω)
    have hax' := h1.axisOK
    have hsh' := h1.shape
    have a1 := h1.axis
    rw [hax ω] at a1
    cases a1
    rw [h3] at hax' hsh'
    rw [h4] at hsh'
    obtain ⟨r, r1, r2⟩ := C15_false c.npFloat c.mapAxis (c.rng ((w1 ω).seed (w1 ω).pos) 0) (oi ω).ext.f (oi ω).ext.o
      hax' hsh' (by rw [hsh]; exact hs) (hf ω)
      (not_none_data (y := fun i => Z i 0 ω) fun i hi => d.value i (by rw [← hsh]; exact hi) ω)
      (fun k k' hk hk' => by rw [hsh] at hk hk'; rw [hone k k' hk hk'])
    obtain ⟨nm, hn⟩ := fixed_ok I (some "rank".toList)
    have hb1 : ∃ w2, (slotBody .ensemble I (ensPrims c emb) (o ω).ext (o ω).avg (o ω).boot .rankHist).run none (w1 ω) =
        (.ok (.ranks r), w2) := by
      simp only [slotBody, Prog.run, ensPrims, EnsX.ax, h1.axis, bind, Except.bind, PyVal.asNum, h3, h4, hskip, hw, r1]
      exact ⟨_, rfl⟩
    obtain ⟨w2, hb1⟩ := hb1
    refine ⟨r, by rw [result_slot (s := .rankHist) rfl hn hb1]; rfl, fun k hk => ?_⟩
    rw [r2 k (by rw [hsh]; exact hk), d.members k hk ω, d.value k hk ω, numLt_ofFn (fun j => Z k j ω)]
  choose r r1 r2 using main
  refine ⟨r, r1, fun k hk hE => ?_⟩
  have e : {ω | (r ω).get k = some 1} = {ω | below (fun j => Z k j ω) 0 = 0} := by
    ext ω
    simp only [Set.mem_ofPred_eq, r2 ω k hk, Option.some.injEq]
    omega
  rw [e]
  have hl := least_count (P := P) (Nat.succ_pos n) (d.meas k hk) hE 0
  push_cast at hl
  refine ⟨hl.1, hl.2.trans ?_⟩
  have hb : ∀ ω j, below (fun l => Z k l ω) j = 0 ↔ ∀ m, Z k j ω ≤ Z k m ω := by
    intro ω j
    simp [below, Finset.filter_eq_empty_iff]
  have e2 : {ω | ∃ j l, j ≠ l ∧ below (fun m => Z k m ω) j = 0 ∧ below (fun m => Z k m ω) l = 0} =
      {ω | ∃ j l, j ≠ l ∧ Z k j ω = Z k l ω ∧ ∀ m, Z k j ω ≤ Z k m ω} := by
    ext ω
    simp only [Set.mem_ofPred_eq, hb]
    constructor
    · rintro ⟨j, l, g, g1, g2⟩
      exact ⟨j, l, g, le_antisymm (g1 l) (g2 j), g1⟩
    · rintro ⟨j, l, g, g1, g2⟩
      exact ⟨j, l, g, g2, fun m => g1 ▸ g2 m⟩
  rw [e2]

end Props
