import Verif.Lemmas.DecompChance
import Verif.Props.RelChance
import Verif.Props.RoundingDecomp
import Verif.Lemmas.Pool

/-!
# The expected Brier decomposition: C129
-/

set_option linter.unusedSectionVars false

namespace Props
open Np NDArr Model Spec Lemmas MeasureTheory ProbabilityTheory

variable {A : Type} {I : ArgInfo A} {mids : FS (PyVal ℝ) → Path → List (FS (PyVal ℝ))} {c : Cfg ℝ} {emb : A → Arg ℝ}
variable {F : ProbFns ℝ} {Ω : Type} [MeasurableSpace Ω] {P : Measure Ω} [IsProbabilityMeasure P]
  {sh : List Nat} {Y : List Nat → Ω → ℝ} {G : List Nat → ℝ → ℝ}

/-- whether independent numbers are beyond thresholds are independent events -/
theorem indep_beyond {Y Z : Ω → ℝ} (h : Y ⟂ᵢ[P] Z) (isOver : Bool) (τ ρ : ℝ) :
    (fun ω => (indicator (Beyond isOver τ Y ω) : ℝ)) ⟂ᵢ[P] fun ω => (indicator (Beyond isOver ρ Z ω) : ℝ) := by
  classical
  have hm : ∀ τ : ℝ, Measurable fun y : ℝ => (indicator (Beyond isOver τ (fun y : ℝ => y) y) : ℝ) := by
    intro τ
    have e : (fun y : ℝ => (indicator (Beyond isOver τ (fun y : ℝ => y) y) : ℝ)) =
        {y | Beyond isOver τ (fun y : ℝ => y) y}.indicator fun _ => 1 := by
      funext y; exact indicator_set _ y
    rw [e]
    exact measurable_const.indicator (measurableSet_beyond isOver τ measurable_id)
  exact h.comp (hm τ) (hm ρ)

/-- the decomposition of any class whose `cdf(...)` gives the probabilities `D`, case by case -/
theorem decomp_values {X : Type} {C : Cls} {Q : Prims X (PyVal ℝ) A} {obs : X → NDArr (Fl ℝ)} (hP : Shared c obs emb Q)
    {o : Ω → Obj X} {w1 : Ω → World (PyVal ℝ)} (d : Observed P sh (fun ω => obs (o ω).ext) Y G)
    {a : A} {t : Thr ℝ} (hemb : emb a = .thr t) (ht : ThrOK t sh) {τ : List Nat → ℝ}
    (hτ : ∀ i, InB sh i → thrAt t i = some (τ i)) (isOver : Bool) {D : List Nat → ℝ}
    (hp : ∀ ω, ∃ p, result C I Q mids (.slot (.cdf (overArg isOver a) (belowArg isOver a))) (unsaved (o ω)) (w1 ω) =
      .ok (some (.num p)) ∧ p.shape = sh ∧ ∀ k, InB sh k → p.get k = some (D k))
    (hb : ∀ ω, (o ω).boot = .none) {B : List Nat} (hax : ∀ ω, axisArg (o ω).avg = .ok (some (B.map Int.ofNat)))
    (hB : SliceAxes sh B) (h0 : 0 ∉ sh) :
    ∀ ω, ∃ rel res unc : NDArr (Fl ℝ),
      result C I Q mids (.slot (.brierDecomp (overArg isOver a) (belowArg isOver a))) (unsaved (o ω)) (w1 ω) =
        .ok (some (.triple rel res unc)) ∧
      ∀ k, InB (dropAxes B sh) k →
        let Z := (fiberIdx sh B k).map fun i => (D i, (indicator (Beyond isOver (τ i) (Y i) ω) : ℝ))
        rel.get k = some (specRel 19 Z) ∧ res.get k = some (specRes 19 Z) ∧ unc.get k = some (specUnc Z) := by
  have htp : (takeAxes B sh).prod ≠ 0 := by
    intro h
    have := prod_take_drop sh B
    rw [h, mul_zero] at this
    exact h0 (List.prod_eq_zero_iff.1 this)
  intro ω
  have hsh := d.shape ω
  obtain ⟨p, p1, p2, p3⟩ := hp ω
  obtain ⟨ob, o1, o2, o3⟩ := binarize_spec (x := (o ω).ext) hP hemb isOver (by rw [hsh]; exact ht)
  have hob : IsEvents isOver t (obs (o ω).ext) ob := ⟨o2, o3⟩
  have ht' : ThrOK t (obs (o ω).ext).shape := by rw [hsh]; exact ht
  obtain ⟨r3, hr3⟩ := C13_defined c.skipNan p (boolNum (K := ℝ) ob) B (p2.trans (hsh.symm.trans o2.symm))
    (by rw [p2]; exact hB) (by rw [p2]; exact htp)
  obtain ⟨nm, hn⟩ := (cdf_runs p1).2.1
  obtain ⟨ps, hps⟩ := obArgs_of_cdf hn
  obtain ⟨nm', hn'⟩ := toName_ok hps none
  have hv : result C I Q mids (.slot (.brierDecomp (overArg isOver a) (belowArg isOver a))) (unsaved (o ω)) (w1 ω) =
      .ok (some (.triple r3.1 r3.2.1 r3.2.2)) := by
    have hbody : (slotBody C I Q (o ω).ext (o ω).avg (o ω).boot
        (.brierDecomp (overArg isOver a) (belowArg isOver a))).run none (w1 ω) = (.ok (.triple r3.1 r3.2.1 r3.2.2), w1 ω) := by
      simp only [slotBody]
      rw [withProb_run p1 (binarize_events hP hemb ht' hob)]
      simp only [hb ω, if_true, Prog.run, hP.brierDecomp, basePrims, PyVal.asNum, PyVal.asBool, hax ω, bind, Except.bind, hr3]
      rfl
    rw [result_slot (s := .brierDecomp (overArg isOver a) (belowArg isOver a)) rfl hn' hbody]
    rfl
  obtain ⟨rel, res, unc, v1, v2⟩ := C75_brier_decomp_values hP hemb isOver (hb ω) (hax ω) p1 ht' (p2.trans hsh.symm)
    (by rw [p2]; exact hB) hob hv
  rw [p2] at v2
  refine ⟨rel, res, unc, by rw [hv, v1], fun k hk => ?_⟩
  have hL : ∀ i ∈ fiberIdx sh B k, InB sh i := fun i hi => (mem_fiberIdx.1 hi).1
  have hZ : complete (pairsAt p (boolNum ob) B k) =
      (fiberIdx sh B k).map fun i => (D i, (indicator (Beyond isOver (τ i) (Y i) ω) : ℝ)) := by
    unfold complete pairsAt
    rw [p2, List.filterMap_map, ← List.filterMap_eq_map]
    refine List.filterMap_congr fun i hi => ?_
    have hi' := hL i hi
    have e1 : (boolNum (K := ℝ) ob).get i = some (if ob.get i then 1 else 0) := by
      have := get_map (b2k (K := ℝ)) ob (i := i) (by rw [o2, hsh]; exact hi')
      rw [boolNum, this]
      rfl
    simp only [Function.comp, p3 i hi', e1]
    congr 2
    have := (hob.2 i (by rw [hsh]; exact hi')).trans (event_beyond (hτ i hi') (d.value i hi' ω) isOver)
    unfold indicator
    by_cases h : Beyond isOver (τ i) (Y i) ω
    · rw [if_pos h, if_pos (this.2 h)]
    · rw [if_neg h, if_neg fun h' => h (this.1 h')]
  obtain ⟨a1, a2, a3, -⟩ := v2 k hk (fun i hi => by rw [p3 i (hL i hi)]; simp) (fiberIdx_ne h0 hk)
  rw [hZ] at a1 a2 a3
  exact ⟨a1, a2, a3⟩

/-- the decomposition of any class whose `cdf(...)` gives the probabilities `D`, which do not depend on chance -/
theorem decomp_random {X : Type} {C : Cls} {Q : Prims X (PyVal ℝ) A} {obs : X → NDArr (Fl ℝ)} (hP : Shared c obs emb Q)
    {o : Ω → Obj X} {w1 : Ω → World (PyVal ℝ)} (d : Observed P sh (fun ω => obs (o ω).ext) Y G)
    (hi : ∀ i j, InB sh i → InB sh j → i ≠ j → Y i ⟂ᵢ[P] Y j)
    {a : A} {t : Thr ℝ} (hemb : emb a = .thr t) (ht : ThrOK t sh) {τ : List Nat → ℝ}
    (hτ : ∀ i, InB sh i → thrAt t i = some (τ i)) (isOver : Bool) {D : List Nat → ℝ}
    (hp : ∀ ω, ∃ p, result C I Q mids (.slot (.cdf (overArg isOver a) (belowArg isOver a))) (unsaved (o ω)) (w1 ω) =
      .ok (some (.num p)) ∧ p.shape = sh ∧ ∀ k, InB sh k → p.get k = some (D k))
    (hb : ∀ ω, (o ω).boot = .none) {B : List Nat} (hax : ∀ ω, axisArg (o ω).avg = .ok (some (B.map Int.ofNat)))
    (hB : SliceAxes sh B) (h0 : 0 ∉ sh) :
    ∃ rel res unc : Ω → NDArr (Fl ℝ),
      (∀ ω, result C I Q mids (.slot (.brierDecomp (overArg isOver a) (belowArg isOver a))) (unsaved (o ω)) (w1 ω) =
        .ok (some (.triple (rel ω) (res ω) (unc ω)))) ∧
      ∀ k, InB (dropAxes B sh) k → ∃ R S U : Ω → ℝ,
        (∀ ω, (rel ω).get k = some (R ω) ∧ (res ω).get k = some (S ω) ∧ (unc ω).get k = some (U ω)) ∧
        ExpectedDecomp P 19 (fiberIdx sh B k) D (fun i => eventChance P isOver (τ i) (Y i)) R S U := by
  choose rel res unc r1 r2 using decomp_values (I := I) (mids := mids) (w1 := w1) hP d hemb ht hτ isOver hp hb hax hB h0
  refine ⟨rel, res, unc, r1, fun k hk => ⟨_, _, _, fun ω => r2 ω k hk, ?_⟩⟩
  have hL : ∀ i ∈ fiberIdx sh B k, InB sh i := fun i hi => (mem_fiberIdx.1 hi).1
  exact expectedDecomp 19 D (nodup_fiberIdx _ _ _) (fiberIdx_ne h0 hk) (Q := fun i => Beyond isOver (τ i) (Y i))
    (fun i hi => measurableSet_beyond isOver (τ i) (d.meas i (hL i hi)))
    fun i h j h' hij => indep_beyond (hi i j (hL i h) (hL j h') hij) isOver (τ i) (τ j)

/-- **C129**, Gaussian class: with independent observations, each slice of `brier_decomp(...)` has on average the
reliability, resolution and uncertainty of the probabilities of the events, plus what chance adds. -/
theorem C129_gauss {oi o : Ω → Obj (ProbX ℝ)} {w w' w1 : Ω → World (PyVal ℝ)}
    (h : ∀ ω, construct (gaussPrims c F emb) mids (oi ω) (w ω) = (.ok (o ω), w' ω))
    (hE : ExactLib F.scipy) (hL : UnitLib F.scipy) (hpool : PoolOK c.workers c.mapAxis sh)
    (d : Observed P sh (fun ω => (oi ω).ext.o) Y G) {tr : Bool} (htr : ∀ ω, (oi ω).ext.truncated = some tr)
    {mu sigma : NDArr (Fl ℝ)} (hmu : ∀ ω, HasPar (oi ω).ext "mu" mu) (hsg : ∀ ω, HasPar (oi ω).ext "sigma" sigma)
    {m sd : List Nat → ℝ} (hv : ∀ i, InB sh i → mu.get i = some (m i) ∧ sigma.get i = some (sd i) ∧ 0 < sd i)
    (hi : ∀ i j, InB sh i → InB sh j → i ≠ j → Y i ⟂ᵢ[P] Y j)
    {a : A} (ha : Printable I a) {t : Thr ℝ} (hemb : emb a = .thr t) (ht : ThrOK t sh) {τ : List Nat → ℝ}
    (hτ : ∀ i, InB sh i → thrAt t i = some (τ i)) (hb : ∀ ω, (oi ω).boot = .none) {av : PyAxis}
    (hav : ∀ ω, (oi ω).avg = av) {B : List Nat} (haB : axesOf av = some (B.map Int.ofNat))
    (hB : SliceAxes sh B) (h0 : 0 ∉ sh) (isOver : Bool) :
    ∃ rel res unc : Ω → NDArr (Fl ℝ),
      (∀ ω, result .gaussian I (gaussPrims c F emb) mids (.slot (.brierDecomp (overArg isOver a) (belowArg isOver a)))
        (unsaved (o ω)) (w1 ω) = .ok (some (.triple (rel ω) (res ω) (unc ω)))) ∧
      ∀ k, InB (dropAxes B sh) k → ∃ R S U : Ω → ℝ,
        (∀ ω, (rel ω).get k = some (R ω) ∧ (res ω).get k = some (S ω) ∧ (unc ω).get k = some (U ω)) ∧
        ExpectedDecomp P 19 (fiberIdx sh B k) (fun i => beyondProb isOver (gaussLaw tr (m i) (sd i) (τ i)))
          (fun i => eventChance P isOver (τ i) (Y i)) R S U := by
  have hc := fun ω => construct_prob (shared_gauss c F emb) (h ω)
  have hx : ∀ ω, (o ω).ext = (oi ω).ext := fun ω => (hc ω).1
  have hp := fun ω => gaussCdf_law (c := c) (F := F) (d.shape ω) hE hL hpool (htr ω) (hmu ω) (hsg ω) hv ht hτ
  simp only [← hx] at hp d
  exact decomp_random (shared_gauss c F emb).base d hi hemb ht hτ isOver
    (fun ω => cdf_result (shared_gauss c F emb) (by decide) ha hemb (d.shape ω) (hp ω) isOver)
    (fun ω => (hc ω).2.2.1.trans (hb ω)) (fun ω => by rw [(hc ω).2.2.2, hav, haB]) hB h0

/-- **C129**, gamma class, thresholds that are not negative. -/
theorem C129_gamma {oi o : Ω → Obj (ProbX ℝ)} {w w' w1 : Ω → World (PyVal ℝ)}
    (h : ∀ ω, construct (gammaPrims c F emb) mids (oi ω) (w ω) = (.ok (o ω), w' ω))
    (hE : ExactLib F.scipy) (hL : UnitLib F.scipy) (hpool : PoolOK c.workers c.mapAxis sh)
    (d : Observed P sh (fun ω => (oi ω).ext.o) Y G) (htr : ∀ ω, (oi ω).ext.truncated = some false)
    {umu sigma shift : NDArr (Fl ℝ)} (humu : ∀ ω, HasPar (oi ω).ext "unshifted_mu" umu)
    (hsigma : ∀ ω, HasPar (oi ω).ext "sigma" sigma) (hshift : ∀ ω, HasPar (oi ω).ext "shift" shift)
    {m sd δ : List Nat → ℝ} (hv : ∀ i, InB sh i → umu.get i = some (m i) ∧ sigma.get i = some (sd i) ∧
      shift.get i = some (δ i) ∧ 0 < m i ∧ 0 < sd i)
    (hi : ∀ i j, InB sh i → InB sh j → i ≠ j → Y i ⟂ᵢ[P] Y j)
    {a : A} (ha : Printable I a) {t : Thr ℝ} (hemb : emb a = .thr t) (ht : ThrOK t sh) {τ : List Nat → ℝ}
    (hτ : ∀ i, InB sh i → thrAt t i = some (τ i) ∧ 0 ≤ τ i) (hb : ∀ ω, (oi ω).boot = .none) {av : PyAxis}
    (hav : ∀ ω, (oi ω).avg = av) {B : List Nat} (haB : axesOf av = some (B.map Int.ofNat))
    (hB : SliceAxes sh B) (h0 : 0 ∉ sh) (isOver : Bool) :
    ∃ rel res unc : Ω → NDArr (Fl ℝ),
      (∀ ω, result .gamma I (gammaPrims c F emb) mids (.slot (.brierDecomp (overArg isOver a) (belowArg isOver a)))
        (unsaved (o ω)) (w1 ω) = .ok (some (.triple (rel ω) (res ω) (unc ω)))) ∧
      ∀ k, InB (dropAxes B sh) k → ∃ R S U : Ω → ℝ,
        (∀ ω, (rel ω).get k = some (R ω) ∧ (res ω).get k = some (S ω) ∧ (unc ω).get k = some (U ω)) ∧
        ExpectedDecomp P 19 (fiberIdx sh B k) (fun i => beyondProb isOver (censoredGammaCdf (m i) (sd i) (δ i) (τ i)))
          (fun i => eventChance P isOver (τ i) (Y i)) R S U := by
  have hc := fun ω => construct_prob (shared_gamma c F emb) (h ω)
  have hx : ∀ ω, (o ω).ext = (oi ω).ext := fun ω => (hc ω).1
  have hp := fun ω => gammaCdf_law (c := c) (F := F) (d.shape ω) hE hL hpool (htr ω) (humu ω) (hsigma ω) (hshift ω) hv ht hτ
  simp only [← hx] at hp d
  exact decomp_random (shared_gamma c F emb).base d hi hemb ht (fun i hi => (hτ i hi).1) isOver
    (fun ω => cdf_result (shared_gamma c F emb) (by decide) ha hemb (d.shape ω) (hp ω) isOver)
    (fun ω => (hc ω).2.2.1.trans (hb ω)) (fun ω => by rw [(hc ω).2.2.2, hav, haB]) hB h0

/-- **C129**, hurdle class, thresholds that are not negative. -/
theorem C129_hurdle {ofNum : ℝ → A} {oi o : Ω → Obj (ProbX ℝ)} {w w' w1 : Ω → World (PyVal ℝ)}
    (h : ∀ ω, construct (hurdlePrims c F emb ofNum) mids (oi ω) (w ω) = (.ok (o ω), w' ω))
    (hE : ExactLib F.scipy) (hL : UnitLib F.scipy) (hpool : PoolOK c.workers c.mapAxis sh)
    (d : Observed P sh (fun ω => (oi ω).ext.o) Y G)
    {pop mu sigma : NDArr (Fl ℝ)} (hpop : ∀ ω, HasPar (oi ω).ext "pop" pop) (hmu : ∀ ω, HasPar (oi ω).ext "mu" mu)
    (hsigma : ∀ ω, HasPar (oi ω).ext "sigma" sigma)
    {p m sd : List Nat → ℝ} (hv : ∀ i, InB sh i → pop.get i = some (p i) ∧ mu.get i = some (m i) ∧
      sigma.get i = some (sd i) ∧ 0 ≤ p i ∧ p i ≤ 1 ∧ 0 < m i ∧ 0 < sd i)
    (hi : ∀ i j, InB sh i → InB sh j → i ≠ j → Y i ⟂ᵢ[P] Y j)
    {a : A} (ha : Printable I a) {t : Thr ℝ} (hemb : emb a = .thr t) (ht : ThrOK t sh) {τ : List Nat → ℝ}
    (hτ : ∀ i, InB sh i → thrAt t i = some (τ i) ∧ 0 ≤ τ i) (hb : ∀ ω, (oi ω).boot = .none) {av : PyAxis}
    (hav : ∀ ω, (oi ω).avg = av) {B : List Nat} (haB : axesOf av = some (B.map Int.ofNat))
    (hB : SliceAxes sh B) (h0 : 0 ∉ sh) (isOver : Bool) :
    ∃ rel res unc : Ω → NDArr (Fl ℝ),
      (∀ ω, result .hurdle I (hurdlePrims c F emb ofNum) mids (.slot (.brierDecomp (overArg isOver a) (belowArg isOver a)))
        (unsaved (o ω)) (w1 ω) = .ok (some (.triple (rel ω) (res ω) (unc ω)))) ∧
      ∀ k, InB (dropAxes B sh) k → ∃ R S U : Ω → ℝ,
        (∀ ω, (rel ω).get k = some (R ω) ∧ (res ω).get k = some (S ω) ∧ (unc ω).get k = some (U ω)) ∧
        ExpectedDecomp P 19 (fiberIdx sh B k) (fun i => beyondProb isOver (hurdleLaw (p i) (m i) (sd i) (τ i)))
          (fun i => eventChance P isOver (τ i) (Y i)) R S U := by
  have hc := fun ω => construct_prob (shared_hurdle c F emb ofNum) (h ω)
  have hx : ∀ ω, (o ω).ext = (oi ω).ext := fun ω => (hc ω).1
  have hp := fun ω => hurdleCdf_law (c := c) (F := F) (d.shape ω) hE hL hpool (hpop ω) (hmu ω) (hsigma ω) hv ht hτ
  simp only [← hx] at hp d
  exact decomp_random (shared_hurdle c F emb ofNum).base d hi hemb ht (fun i hi => (hτ i hi).1) isOver
    (fun ω => cdf_result (shared_hurdle c F emb ofNum) (by decide) ha hemb (d.shape ω) (hp ω) isOver)
    (fun ω => (hc ω).2.2.1.trans (hb ω)) (fun ω => by rw [(hc ω).2.2.2, hav, haB]) hB h0

/-- **C129**, ensemble class with members that do not depend on chance. -/
theorem C129_ens {oi o : Ω → Obj (EnsX ℝ)} {w w' w1 : Ω → World (PyVal ℝ)}
    (h : ∀ ω, construct (ensPrims c emb) mids (oi ω) (w ω) = (.ok (o ω), w' ω)) (hb : ∀ ω, (oi ω).boot = .none)
    (hm : c.method = .moments) {ax : Int} (hax : ∀ ω, (o ω).ext.axis = some ax)
    (d : Observed P sh (fun ω => (oi ω).ext.o) Y G) {M : List Nat → List ℝ}
    (hM : ∀ ω i, InB sh i → membersAt (oi ω).ext.f ax i = (M i).map some ∧ M i ≠ [])
    (hi : ∀ i j, InB sh i → InB sh j → i ≠ j → Y i ⟂ᵢ[P] Y j)
    {a : A} (ha : Printable I a) {t : Thr ℝ} (hemb : emb a = .thr t) (ht : ThrOK t sh) {τ : List Nat → ℝ}
    (hτ : ∀ i, InB sh i → thrAt t i = some (τ i)) {av : PyAxis} (hav : ∀ ω, (oi ω).avg = av)
    {B : List Nat} (haB : axesOf av = some (B.map Int.ofNat))
    (hB : SliceAxes sh B) (h0 : 0 ∉ sh) (isOver : Bool) :
    ∃ rel res unc : Ω → NDArr (Fl ℝ),
      (∀ ω, result .ensemble I (ensPrims c emb) mids (.slot (.brierDecomp (overArg isOver a) (belowArg isOver a)))
        (unsaved (o ω)) (w1 ω) = .ok (some (.triple (rel ω) (res ω) (unc ω)))) ∧
      ∀ k, InB (dropAxes B sh) k → ∃ R S U : Ω → ℝ,
        (∀ ω, (rel ω).get k = some (R ω) ∧ (res ω).get k = some (S ω) ∧ (unc ω).get k = some (U ω)) ∧
        ExpectedDecomp P 19 (fiberIdx sh B k) (fun i => avg ((M i).map fun x => (indicator (Counts isOver (τ i) x) : ℝ)))
          (fun i => eventChance P isOver (τ i) (Y i)) R S U := by
  have hc := fun ω => C75_construct_ens (h ω)
  choose ax' fc h1 h2 h3 h4 h5 h6 h7 using hc
  have hax' : ∀ ω, ax' ω = ax := fun ω => by
    have := hax ω
    rw [(h1 ω).axis] at this
    exact Option.some.inj this
  simp only [← h4] at d
  have hne : sh.prod ≠ 0 := by rw [Ne, List.prod_eq_zero_iff]; exact h0
  refine decomp_random (shared_ens c emb) d hi hemb ht hτ isOver (fun ω => ?_)
    (fun ω => (h5 ω).trans (hb ω)) (fun ω => by rw [axisArg_ready (h1 ω).avg, hav, haB]) hB h0
  obtain ⟨p, p1, p2, p3⟩ := C75_ens_cdf (mids := mids) (I := I) (h1 ω) hm ha hemb (by rw [d.shape ω]; exact ht)
    (by rw [d.shape ω]; exact hne) isOver (w1 ω)
  refine ⟨p, p1, p2.trans (d.shape ω), fun k hk => ?_⟩
  rw [p3 k (by rw [d.shape ω]; exact hk), h3 ω, hax' ω]
  exact ensProb_avg (hM ω k hk).2 (hM ω k hk).1 (hτ k hk) isOver

section consequences

variable {n : Nat} {L : List (List Nat)} {p q : List Nat → ℝ} {R S U : Ω → ℝ}

theorem binMates_self {i : List Nat} (hi : i ∈ L) : i ∈ binMates n p L i := by
  classical
  refine List.mem_filter.2 ⟨hi, ?_⟩
  simp only [decide_eq_true_eq]
  exact fun _ _ _ => Iff.rfl

theorem binMates_pos {i : List Nat} (hi : i ∈ L) : (0 : ℝ) < (binMates n p L i).length := by
  exact_mod_cast List.length_pos_iff.2 (List.ne_nil_of_mem (binMates_self hi))

theorem binMates_le (i : List Nat) : ((binMates n p L i).length : ℝ) ≤ L.length := by
  exact_mod_cast List.length_filter_le _ _

theorem mem_binMates {i j : List Nat} (h : j ∈ binMates n p L i) : j ∈ L := (List.mem_filter.1 h).1

theorem avg_mono' {α : Type} (L : List α) {f g : α → ℝ} (h : ∀ i ∈ L, f i ≤ g i) : avg (L.map f) ≤ avg (L.map g) := by
  rw [avg, avg, List.length_map, List.length_map]
  exact div_le_div_of_nonneg_right (List.sum_le_sum h) (Nat.cast_nonneg _)

theorem avg_nonneg' {α : Type} (L : List α) {f : α → ℝ} (h : ∀ i ∈ L, 0 ≤ f i) : 0 ≤ avg (L.map f) := by
  rw [avg]
  refine div_nonneg (List.sum_nonneg fun x hx => ?_) (Nat.cast_nonneg _)
  obtain ⟨i, hi, rfl⟩ := List.mem_map.1 hx
  exact h i hi

theorem avg_zero_iff {α : Type} {L : List α} {f : α → ℝ} (h : ∀ i ∈ L, 0 ≤ f i) :
    avg (L.map f) = 0 ↔ ∀ i ∈ L, f i = 0 := by
  constructor
  · intro h0 i hi
    have hl : (0 : ℝ) < L.length := by exact_mod_cast List.length_pos_iff.2 (List.ne_nil_of_mem hi)
    rw [avg, List.length_map, div_eq_zero_iff] at h0
    have hs := h0.resolve_right hl.ne'
    have hm : f i ≤ (L.map f).sum := List.single_le_sum (fun x hx => by
      obtain ⟨j, hj, rfl⟩ := List.mem_map.1 hx
      exact h j hj) _ (List.mem_map_of_mem hi)
    exact le_antisymm (hs ▸ hm) (h i hi)
  · intro h0
    rw [avg, List.map_congr_left h0, List.map_const', List.sum_replicate, smul_zero, zero_div]

theorem binMean_nonneg {f : List Nat → ℝ} (h : ∀ i ∈ L, 0 ≤ f i) (i : List Nat) : 0 ≤ binMean n p L f i :=
  avg_nonneg' _ fun j hj => h j (mem_binMates hj)

/-- chance adds at least as much to the frequencies of the bins as to the frequency of all events -/
theorem allNoise_le (hL : L.Nodup) (hq : ∀ i ∈ L, 0 ≤ q i ∧ q i ≤ 1) : 0 ≤ allNoise q L ∧ allNoise q L ≤ binNoise n p q L := by
  have hv : ∀ i ∈ L, 0 ≤ q i * (1 - q i) := fun i hi => mul_nonneg (hq i hi).1 (by linarith [(hq i hi).2])
  refine ⟨div_nonneg (avg_nonneg' L hv) (Nat.cast_nonneg _), ?_⟩
  have e : allNoise q L = avg (L.map fun i => binMean n p L (fun j => q j * (1 - q j)) i / L.length) := by
    rw [allNoise, ← binMean_avg n p hL]
    simp only [div_eq_inv_mul]
    rw [avg_times]
  rw [e]
  refine avg_mono' L fun i hi => ?_
  exact div_le_div_of_nonneg_left (binMean_nonneg hv i) (binMates_pos hi) (binMates_le i)

/-- nothing is added exactly if no event depends on chance -/
theorem binNoise_zero (hL : L.Nodup) (hq : ∀ i ∈ L, 0 ≤ q i ∧ q i ≤ 1) :
    binNoise n p q L = 0 ↔ ∀ i ∈ L, q i = 0 ∨ q i = 1 := by
  have hv : ∀ i ∈ L, 0 ≤ q i * (1 - q i) := fun i hi => mul_nonneg (hq i hi).1 (by linarith [(hq i hi).2])
  have hz : ∀ i, q i * (1 - q i) = 0 ↔ q i = 0 ∨ q i = 1 := fun i => by
    rw [mul_eq_zero, sub_eq_zero, eq_comm (a := (1 : ℝ))]
  constructor
  · intro h i hi
    have h1 := allNoise_le (n := n) (p := p) hL hq
    have h2 : allNoise q L = 0 := le_antisymm (h ▸ h1.2) h1.1
    have hl : (L.length : ℝ) ≠ 0 := by exact_mod_cast (List.length_pos_iff.2 (List.ne_nil_of_mem hi)).ne'
    rw [allNoise, div_eq_zero_iff] at h2
    exact (hz i).1 ((avg_zero_iff hv).1 (h2.resolve_right hl) i hi)
  · intro h
    rw [binNoise, avg_zero_iff fun i hi => div_nonneg (binMean_nonneg hv i) (Nat.cast_nonneg _)]
    intro i hi
    rw [binMean, (avg_zero_iff fun j hj => hv j (mem_binMates hj)).2 fun j hj => (hz j).2 (h j (mem_binMates hj)), zero_div]

/-- what is added is at most a quarter of the number of bins over the number of positions -/
theorem binNoise_le (hL : L.Nodup) : binNoise n p q L ≤ (n + 1) / (4 * L.length) := by
  classical
  have h1 : binNoise n p q L ≤ avg (L.map fun i => 1 / 4 * (1 / ((binMates n p L i).length : ℝ))) := by
    refine avg_mono' L fun i hi => ?_
    rw [← mul_div_assoc, mul_one]
    refine div_le_div_of_nonneg_right ?_ (Nat.cast_nonneg _)
    have hne : binMates n p L i ≠ [] := List.ne_nil_of_mem (binMates_self hi)
    rw [← avg_fixed hne (1 / 4 : ℝ)]
    refine avg_mono' _ fun j _ => ?_
    nlinarith [sq_nonneg (q j - 1 / 2)]
  refine h1.trans ?_
  rw [avg_times]
  let key : List Nat → Nat := fun i => digitize (decompBins n : List ℝ) (some (p i))
  have hkey : ∀ i, key i < n + 1 := fun i => by
    have : key i ≤ (decompBins n : List ℝ).length := List.countP_le_length
    rw [decompBins_eq, List.length_map, List.length_range] at this
    omega
  have hsum : (L.map fun i => 1 / ((binMates n p L i).length : ℝ)).sum ≤ n + 1 := by
    rw [← List.sum_toFinset _ hL, ← Finset.sum_fiberwise_of_maps_to (s := L.toFinset) (t := Finset.range (n + 1)) (g := key)
      fun i _ => Finset.mem_range.2 (hkey i)]
    refine (Finset.sum_le_card_nsmul _ _ 1 fun b _ => ?_).trans (by simp)
    have hm : ∀ i ∈ L.toFinset.filter (fun i => key i = b), (binMates n p L i).length =
        (L.toFinset.filter fun i => key i = b).card := by
      intro i hi
      have hk := (Finset.mem_filter.1 hi).2
      rw [binMates, ← List.toFinset_card_of_nodup (hL.filter _)]
      congr 1
      ext j
      simp only [List.mem_toFinset, List.mem_filter, Finset.mem_filter, decide_eq_true_eq]
      rw [← digitize_eq_iff, ← hk, eq_comm]
    rw [Finset.sum_congr rfl fun i hi => by rw [hm i hi], Finset.sum_const, nsmul_eq_mul]
    rw [mul_one_div]
    exact div_self_le_one _
  rw [avg, List.length_map]
  have : (0 : ℝ) ≤ L.length := Nat.cast_nonneg _
  calc 1 / 4 * ((L.map fun i => 1 / ((binMates n p L i).length : ℝ)).sum / L.length)
      = (L.map fun i => 1 / ((binMates n p L i).length : ℝ)).sum / (4 * L.length) := by ring
    _ ≤ _ := div_le_div_of_nonneg_right hsum (by positivity)

/-- **C129**: the expected reliability and resolution are at least, and the expected uncertainty at most, those of the
probabilities of the events; reliability is too large by at most a quarter of the number of bins over the number of
positions, and exactly right only if no event depends on chance. -/
theorem C129_bias (hL : L.Nodup) (hq : ∀ i ∈ L, 0 ≤ q i ∧ q i ≤ 1) (h : ExpectedDecomp P n L p q R S U) :
    avg (L.map fun i => (binMean n p L p i - binMean n p L q i) ^ 2) ≤ ∫ ω, R ω ∂P ∧
    ∫ ω, R ω ∂P ≤ avg (L.map fun i => (binMean n p L p i - binMean n p L q i) ^ 2) + (n + 1) / (4 * L.length) ∧
    avg (L.map fun i => (binMean n p L q i - avg (L.map q)) ^ 2) ≤ ∫ ω, S ω ∂P ∧
    ∫ ω, S ω ∂P ≤ avg (L.map fun i => (binMean n p L q i - avg (L.map q)) ^ 2) + (n + 1) / (4 * L.length) ∧
    ∫ ω, U ω ∂P ≤ avg (L.map q) * (1 - avg (L.map q)) ∧
    (∫ ω, R ω ∂P = avg (L.map fun i => (binMean n p L p i - binMean n p L q i) ^ 2) ↔ ∀ i ∈ L, q i = 0 ∨ q i = 1) := by
  have h1 := allNoise_le (n := n) (p := p) hL hq
  have h2 := binNoise_le (n := n) (p := p) (q := q) hL
  have h3 := binNoise_zero (n := n) (p := p) hL hq
  rw [h.reliability, h.resolution, h.uncertainty]
  refine ⟨by linarith [h1.1, h1.2], by linarith, by linarith, by linarith, by linarith, ?_⟩
  rw [← h3]
  constructor
  · intro h; linarith
  · intro h; linarith

/-- **C129**: forecasts that are exactly right do not get zero reliability: the expected one is what chance adds, positive
unless no event depends on chance. -/
theorem C129_right (hL : L.Nodup) (hq : ∀ i ∈ L, 0 ≤ q i ∧ q i ≤ 1) (hpq : ∀ i ∈ L, p i = q i)
    (h : ExpectedDecomp P n L p q R S U) :
    ∫ ω, R ω ∂P = binNoise n p q L ∧ ∫ ω, R ω ∂P ≤ (n + 1) / (4 * L.length) ∧
      ((∃ i ∈ L, 0 < q i ∧ q i < 1) → 0 < ∫ ω, R ω ∂P) := by
  have h0 : avg (L.map fun i => (binMean n p L p i - binMean n p L q i) ^ 2) = 0 := by
    rw [avg_zero_iff fun i _ => sq_nonneg _]
    intro i _
    rw [binMean, binMean, List.map_congr_left fun j hj => hpq j (mem_binMates hj), sub_self, zero_pow two_ne_zero]
  have e : ∫ ω, R ω ∂P = binNoise n p q L := by rw [h.reliability, h0, zero_add]
  refine ⟨e, e ▸ binNoise_le hL, fun ⟨i, hi, h1, h2⟩ => ?_⟩
  rw [e]
  have hb := allNoise_le (n := n) (p := p) hL hq
  refine lt_of_le_of_ne (hb.1.trans hb.2) fun hz => ?_
  rcases (binNoise_zero hL hq).1 hz.symm i hi with h | h
  · exact h1.ne' h
  · exact h2.ne h

/-- **C129**: if all events have the same probability no forecast can tell them apart, yet the expected resolution is not
negative and is zero only if all forecasts are in one bin or nothing depends on chance. -/
theorem C129_useless (hne : L ≠ []) {c : ℝ} (hc0 : 0 ≤ c) (hc1 : c ≤ 1) (hq : ∀ i ∈ L, q i = c)
    (h : ExpectedDecomp P n L p q R S U) :
    0 ≤ ∫ ω, S ω ∂P ∧
    (∫ ω, S ω ∂P = 0 ↔ c = 0 ∨ c = 1 ∨ ∀ i ∈ L, ∀ j ∈ L, sameBin n (p i) (p j)) := by
  classical
  have hl : (0 : ℝ) < L.length := by exact_mod_cast List.length_pos_iff.2 hne
  have hv : ∀ j ∈ L, q j * (1 - q j) = c * (1 - c) := fun j hj => by rw [hq j hj]
  have hmean : ∀ {f : List Nat → ℝ} {a : ℝ}, (∀ j ∈ L, f j = a) → ∀ i ∈ L, binMean n p L f i = a := by
    intro f a hf i hi
    rw [binMean, List.map_congr_left fun j hj => hf j (mem_binMates hj),
      avg_fixed (List.ne_nil_of_mem (binMates_self hi))]
  have h0 : avg (L.map fun i => (binMean n p L q i - avg (L.map q)) ^ 2) = 0 := by
    rw [avg_zero_iff fun i _ => sq_nonneg _]
    intro i hi
    rw [hmean hq i hi, List.map_congr_left hq, avg_fixed hne, sub_self, zero_pow two_ne_zero]
  have e : ∫ ω, S ω ∂P = c * (1 - c) * avg (L.map fun i => 1 / ((binMates n p L i).length : ℝ) - 1 / L.length) := by
    have eb : binNoise n p q L = c * (1 - c) * avg (L.map fun i => 1 / ((binMates n p L i).length : ℝ)) := by
      rw [binNoise, ← avg_times, List.map_congr_left fun i hi => by rw [hmean hv i hi, div_eq_mul_one_div]]
    have ea : allNoise q L = c * (1 - c) * (1 / L.length) := by
      rw [allNoise, List.map_congr_left hv, avg_fixed hne, div_eq_mul_one_div]
    have es : avg (L.map fun i => 1 / ((binMates n p L i).length : ℝ) - 1 / L.length) =
        avg (L.map fun i => 1 / ((binMates n p L i).length : ℝ)) - 1 / L.length := by
      simp only [sub_eq_add_neg]
      rw [avg_plus, avg_fixed hne]
    rw [h.resolution, h0, eb, ea, es]
    ring
  have hd : ∀ i ∈ L, 0 ≤ 1 / ((binMates n p L i).length : ℝ) - 1 / L.length := fun i hi =>
    sub_nonneg.2 (one_div_le_one_div_of_le (binMates_pos hi) (binMates_le i))
  rw [e]
  refine ⟨mul_nonneg (mul_nonneg hc0 (by linarith)) (avg_nonneg' L hd), ?_⟩
  rw [mul_eq_zero, mul_eq_zero, avg_zero_iff hd, sub_eq_zero, eq_comm (a := (1 : ℝ)), or_assoc]
  refine or_congr_right (or_congr_right (forall₂_congr fun i hi => ?_))
  rw [sub_eq_zero, one_div, one_div, inv_inj, Nat.cast_inj, binMates, List.length_filter_eq_length_iff]
  simp only [decide_eq_true_eq]

end consequences

end Props
