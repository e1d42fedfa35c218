import Verif.Lemmas.RelChance
import Verif.Props.BrierChance
import Verif.Props.CurveSums
import Verif.Props.RoundingBins

/-!
# The expected reliability curve: C121
-/

set_option linter.unusedSectionVars false

namespace Props
open Np NDArr Model Spec Lemmas MeasureTheory

variable {A : Type} {I : ArgInfo A} {mids : FS (PyVal ℝ) → Path → List (FS (PyVal ℝ))} {c : Cfg ℝ} {emb : A → Arg ℝ}
variable {F : ProbFns ℝ} {Ω : Type} [MeasurableSpace Ω] {P : Measure Ω} [IsProbabilityMeasure P]
  {sh : List Nat} {Y : List Nat → Ω → ℝ} {G : List Nat → ℝ → ℝ}

/-- all axes are averaged: `avg_axis` is `None`, or lists every axis once -/
def AllAxes (sh : List Nat) : Option (List Int) → Prop
  | none => True
  | some axes => PlainAxes sh.length axes ∧ dropAxes (axes.map Int.toNat) sh = []

theorem rel_all {p : NDArr (Fl ℝ)} {ob : NDArr Bool} {nbins : Nat} {axes : Option (List Int)} (hsh : p.shape = ob.shape)
    (hall : AllAxes p.shape axes) (hn : 1 ≤ nbins) (hpr : ProbsOK p) :
    ∃ s, reliabilityDiagram p ob nbins axes = .ok (.slice s) ∧
      IsRelCurve nbins (pairsAt p ob (nums p.shape.length axes) []) s.probPred s.probTrue (s.predCount.map Prod.snd) := by
  cases axes with
  | some axes =>
    rw [(plain_optOK hall.1).2]
    exact C03_reliability_all p ob nbins axes hsh hall.1 hn hpr hall.2
  | none =>
    have hpl : PlainAxes p.shape.length ((List.range p.shape.length).map Int.ofNat) := by
      constructor
      · intro x hx
        obtain ⟨n, hn, rfl⟩ := List.mem_map.1 hx
        have := List.mem_range.1 hn
        simp only [Int.ofNat_eq_natCast]
        omega
      · exact (List.nodup_range).map Int.ofNat_injective
    have hto : ((List.range p.shape.length).map Int.ofNat).map Int.toNat = List.range p.shape.length := by
      rw [List.map_map]
      exact (List.map_congr_left fun i _ => rfl).trans (List.map_id _)
    obtain ⟨s, s1, s2⟩ := C03_reliability_all p ob nbins _ hsh hpl hn hpr (by rw [hto]; exact dropAxes_all _)
    rw [hto] at s2
    refine ⟨s, ?_, s2⟩
    rw [← s1]
    unfold reliabilityDiagram
    rw [relCreateSplit_none, hsh]

/-- the points of the curve of any class whose `cdf(...)` gives the probabilities `D` -/
theorem rel_values {X : Type} {C : Cls} {Q : Prims X (PyVal ℝ) A} {obs : X → NDArr (Fl ℝ)} (hP : Shared c obs emb Q)
    {o : Ω → Obj X} {w1 : Ω → World (PyVal ℝ)} (d : Observed P sh (fun ω => obs (o ω).ext) Y G)
    {nb : A} {nbins : Nat} (hnb : emb nb = .num nbins) (hpn : Printable I nb) (hn : 1 ≤ nbins)
    {a : A} {t : Thr ℝ} (hemb : emb a = .thr t) (ht : ThrOK t sh) {τ : List Nat → ℝ}
    (hτ : ∀ i, InB sh i → thrAt t i = some (τ i)) (isOver : Bool) {D : List Nat → ℝ}
    (hp : ∀ ω, ∃ p, result C I Q mids (.slot (.cdf (overArg isOver a) (belowArg isOver a))) (unsaved (o ω)) (w1 ω) =
      .ok (some (.num p)) ∧ p.shape = sh ∧ ∀ k, InB sh k → p.get k = some (D k))
    (hD : ∀ i, InB sh i → 0 ≤ D i ∧ D i ≤ 1)
    (hb : ∀ ω, (o ω).boot = .none) {axes : Option (List Int)} (hax : ∀ ω, axisArg (o ω).avg = .ok axes)
    (hall : AllAxes sh axes) :
    ∀ ω, ∃ s : RelSlice (Fl ℝ),
      result C I Q mids (.slot (.reliability nb (overArg isOver a) (belowArg isOver a))) (unsaved (o ω)) (w1 ω) =
        .ok (some (.rel (.slice s))) ∧
      s.probPred = (((List.range nbins).filter fun b => binPositions nbins b D (fiberIdx sh (nums sh.length axes) []) ≠ []).map
        fun b => avg ((binPositions nbins b D (fiberIdx sh (nums sh.length axes) [])).map D)).map some ∧
      s.probTrue = (((List.range nbins).filter fun b => binPositions nbins b D (fiberIdx sh (nums sh.length axes) []) ≠ []).map
        fun b => avg ((binPositions nbins b D (fiberIdx sh (nums sh.length axes) [])).map
          fun i => (indicator (Beyond isOver (τ i) (Y i) ω) : ℝ))).map some ∧
      s.predCount.map Prod.snd = ((List.range nbins).filter fun b =>
        binPositions nbins b D (fiberIdx sh (nums sh.length axes) []) ≠ []).map
          fun b => (binPositions nbins b D (fiberIdx sh (nums sh.length axes) [])).length := by
  have hL : ∀ i ∈ fiberIdx sh (nums sh.length axes) [], InB sh i := fun i hi => (mem_fiberIdx.1 hi).1
  intro ω
  have hsh := d.shape ω
  obtain ⟨p, p1, p2, p3⟩ := hp ω
  obtain ⟨ob, o1, o2, o3⟩ := binarize_spec (x := (o ω).ext) hP hemb isOver (by rw [hsh]; exact ht)
  have hob : IsEvents isOver t (obs (o ω).ext) ob := ⟨o2, o3⟩
  obtain ⟨s, s1, s2⟩ := rel_all (axes := axes) (nbins := nbins) (p := p) (ob := ob) (by rw [p2, o2, hsh])
    (by rw [p2]; exact hall) hn (by
      intro i hi v hv
      rw [p2] at hi
      rw [p3 i hi] at hv
      cases hv
      exact (hD i hi).1)
  have hr := rel_result (I := I) (C := C) (mids := mids) hP hnb hpn hemb isOver (hb ω) (hax ω) p1 (by rw [hsh]; exact ht)
    hob s1 (w1 ω)
  have hpairs : pairsAt p ob (nums p.shape.length axes) [] =
      (fiberIdx sh (nums sh.length axes) []).map fun i => (some (D i), ob.get i) := by
    unfold pairsAt
    rw [p2]
    exact List.map_congr_left fun i hi => by rw [p3 i (hL i hi)]
  rw [hpairs] at s2
  obtain ⟨c1, c2, c3⟩ := curve_positions hn (fun i hi => (hD i (hL i hi)).2) s2
  refine ⟨s, hr, c1, ?_, c3⟩
  rw [c2]
  refine congrArg (List.map some) (List.map_congr_left fun b _ => ?_)
  refine congrArg avg (List.map_congr_left fun i hi => ?_)
  have hi' := hL i (List.mem_filter.1 hi).1
  have := (hob.2 i (by rw [hsh]; exact hi')).trans (event_beyond (hτ i hi') (d.value i hi' ω) isOver)
  unfold indicator
  by_cases h : Beyond isOver (τ i) (Y i) ω
  · rw [if_pos h, if_pos (this.2 h)]
  · rw [if_neg h, if_neg fun h' => h (this.1 h')]
/-- the curve of any class whose `cdf(...)` gives the probabilities `D`, which do not depend on chance -/
theorem rel_random {X : Type} {C : Cls} {Q : Prims X (PyVal ℝ) A} {obs : X → NDArr (Fl ℝ)} (hP : Shared c obs emb Q)
    {o : Ω → Obj X} {w1 : Ω → World (PyVal ℝ)} (d : Observed P sh (fun ω => obs (o ω).ext) Y G)
    {nb : A} {nbins : Nat} (hnb : emb nb = .num nbins) (hpn : Printable I nb) (hn : 1 ≤ nbins)
    {a : A} {t : Thr ℝ} (hemb : emb a = .thr t) (ht : ThrOK t sh) {τ : List Nat → ℝ}
    (hτ : ∀ i, InB sh i → thrAt t i = some (τ i)) (isOver : Bool) {D : List Nat → ℝ}
    (hp : ∀ ω, ∃ p, result C I Q mids (.slot (.cdf (overArg isOver a) (belowArg isOver a))) (unsaved (o ω)) (w1 ω) =
      .ok (some (.num p)) ∧ p.shape = sh ∧ ∀ k, InB sh k → p.get k = some (D k))
    (hD : ∀ i, InB sh i → 0 ≤ D i ∧ D i ≤ 1)
    (hb : ∀ ω, (o ω).boot = .none) {axes : Option (List Int)} (hax : ∀ ω, axisArg (o ω).avg = .ok axes)
    (hall : AllAxes sh axes) :
    ∃ (s : Ω → RelSlice (Fl ℝ)) (bs : List Nat) (pp : List ℝ) (pt : Ω → List ℝ) (pc : List Nat),
      (∀ ω, result C I Q mids (.slot (.reliability nb (overArg isOver a) (belowArg isOver a))) (unsaved (o ω)) (w1 ω) =
        .ok (some (.rel (.slice (s ω))))) ∧
      (∀ ω, (s ω).probPred = pp.map some ∧ (s ω).probTrue = (pt ω).map some ∧ (s ω).predCount.map Prod.snd = pc) ∧
      ExpectedCurve P nbins (fiberIdx sh (nums sh.length axes) []) D (fun i => eventChance P isOver (τ i) (Y i)) bs pp pt pc := by
  have hL : ∀ i ∈ fiberIdx sh (nums sh.length axes) [], InB sh i := fun i hi => (mem_fiberIdx.1 hi).1
  choose s s1 s2 s3 s4 using rel_values (mids := mids) (w1 := w1) hP d hnb hpn hn hemb ht hτ isOver hp hD hb hax hall
  exact ⟨s, _, _, _, _, s1, fun ω => ⟨s2 ω, s3 ω, s4 ω⟩,
    expectedCurve (Q := fun i => Beyond isOver (τ i) (Y i)) fun i hi => measurableSet_beyond isOver (τ i) (d.meas i (hL i hi))⟩

theorem beyondProb_unit {isOver : Bool} {p : ℝ} (h0 : 0 ≤ p) (h1 : p ≤ 1) :
    0 ≤ beyondProb isOver p ∧ beyondProb isOver p ≤ 1 := by
  cases isOver with
  | false => exact ⟨h0, h1⟩
  | true => exact ⟨by show 0 ≤ 1 - p; linarith, by show 1 - p ≤ 1; linarith⟩

/-- from the distribution function of a class to its `cdf(...)` -/
theorem cdf_result {C : Cls} {Q : Prims (ProbX ℝ) (PyVal ℝ) A} {cdf : ProbX ℝ → Thr ℝ → Except Err (NDArr (Fl ℝ))}
    (hP : SharedProb c F emb cdf Q) (hC : C ≠ .determ) {o : Obj (ProbX ℝ)} {w : World (PyVal ℝ)} {a : A} (ha : Printable I a)
    {t : Thr ℝ} (hemb : emb a = .thr t) (hsh : o.ext.o.shape = sh) {D : List Nat → ℝ}
    (hp : ∃ q, cdf o.ext t = .ok q ∧ q.shape = o.ext.o.shape ∧ ∀ k, InB sh k → q.get k = some (D k)) (isOver : Bool) :
    ∃ p, result C I Q mids (.slot (.cdf (overArg isOver a) (belowArg isOver a))) (unsaved o) w = .ok (some (.num p)) ∧
      p.shape = sh ∧ ∀ k, InB sh k → p.get k = some (beyondProb isOver (D k)) := by
  obtain ⟨q, q1, q2, q3⟩ := hp
  obtain ⟨p, p1, p2, p3⟩ := prob_cdf (I := I) (mids := mids) hP hC ha hemb q1 isOver w
  refine ⟨p, p1, by rw [p2, q2, hsh], fun k hk => ?_⟩
  rw [p3 k (by rw [q2, hsh]; exact hk), q3 k hk]
  cases isOver <;> rfl

/-- **C121**, Gaussian class, all axes averaged: which bins `reliability(nbins, ...)` shows, their counts and their mean
forecasts do not depend on chance; the observed frequency of a bin is on average the mean probability of the events in it,
which is the mean forecast if the forecasts are right. -/
theorem C121_gauss {oi o : Ω → Obj (ProbX ℝ)} {w w' w1 : Ω → World (PyVal ℝ)}
    (h : ∀ ω, construct (gaussPrims c F emb) mids (oi ω) (w ω) = (.ok (o ω), w' ω))
    (hE : ExactLib F.scipy) (hL : UnitLib F.scipy) (hpool : PoolOK c.workers c.mapAxis sh)
    (d : Observed P sh (fun ω => (oi ω).ext.o) Y G) {tr : Bool} (htr : ∀ ω, (oi ω).ext.truncated = some tr)
    {mu sigma : NDArr (Fl ℝ)} (hmu : ∀ ω, HasPar (oi ω).ext "mu" mu) (hsg : ∀ ω, HasPar (oi ω).ext "sigma" sigma)
    {m sd : List Nat → ℝ} (hv : ∀ i, InB sh i → mu.get i = some (m i) ∧ sigma.get i = some (sd i) ∧ 0 < sd i)
    {nb : A} {nbins : Nat} (hnb : emb nb = .num nbins) (hpn : Printable I nb) (hn : 1 ≤ nbins)
    {a : A} (ha : Printable I a) {t : Thr ℝ} (hemb : emb a = .thr t) (ht : ThrOK t sh) {τ : List Nat → ℝ}
    (hτ : ∀ i, InB sh i → thrAt t i = some (τ i)) (hb : ∀ ω, (oi ω).boot = .none) {av : PyAxis}
    (hav : ∀ ω, (oi ω).avg = av) (hall : AllAxes sh (axesOf av)) (isOver : Bool) :
    ∃ (s : Ω → RelSlice (Fl ℝ)) (bs : List Nat) (pp : List ℝ) (pt : Ω → List ℝ) (pc : List Nat),
      (∀ ω, result .gaussian I (gaussPrims c F emb) mids (.slot (.reliability nb (overArg isOver a) (belowArg isOver a)))
        (unsaved (o ω)) (w1 ω) = .ok (some (.rel (.slice (s ω))))) ∧
      (∀ ω, (s ω).probPred = pp.map some ∧ (s ω).probTrue = (pt ω).map some ∧ (s ω).predCount.map Prod.snd = pc) ∧
      ExpectedCurve P nbins (fiberIdx sh (nums sh.length (axesOf av)) [])
        (fun i => beyondProb isOver (gaussLaw tr (m i) (sd i) (τ i))) (fun i => eventChance P isOver (τ i) (Y i)) bs pp pt pc := by
  have hc := fun ω => construct_prob (shared_gauss c F emb) (h ω)
  have hx : ∀ ω, (o ω).ext = (oi ω).ext := fun ω => (hc ω).1
  have hp := fun ω => gaussCdf_law (c := c) (F := F) (d.shape ω) hE hL hpool (htr ω) (hmu ω) (hsg ω) hv ht hτ
  simp only [← hx] at hp d
  refine rel_random (shared_gauss c F emb).base d hnb hpn hn hemb ht hτ isOver
    (fun ω => cdf_result (shared_gauss c F emb) (by decide) ha hemb (d.shape ω) (hp ω) isOver) (fun i hi => ?_)
    (fun ω => (hc ω).2.2.1.trans (hb ω)) (fun ω => by rw [(hc ω).2.2.2, hav]) hall
  have hs := (hv i hi).2.2
  refine beyondProb_unit ?_ ?_ <;> unfold gaussLaw <;> cases tr
  · exact (unit_normal _ _).lo _
  · exact (unit_trunc _ hs _).lo _
  · exact (unit_normal _ _).hi _
  · exact (unit_trunc _ hs _).hi _

/-- **C121**, gamma class, thresholds that are not negative. -/
theorem C121_gamma {oi o : Ω → Obj (ProbX ℝ)} {w w' w1 : Ω → World (PyVal ℝ)}
    (h : ∀ ω, construct (gammaPrims c F emb) mids (oi ω) (w ω) = (.ok (o ω), w' ω))
    (hE : ExactLib F.scipy) (hL : UnitLib F.scipy) (hpool : PoolOK c.workers c.mapAxis sh)
    (d : Observed P sh (fun ω => (oi ω).ext.o) Y G) (htr : ∀ ω, (oi ω).ext.truncated = some false)
    {umu sigma shift : NDArr (Fl ℝ)} (humu : ∀ ω, HasPar (oi ω).ext "unshifted_mu" umu)
    (hsigma : ∀ ω, HasPar (oi ω).ext "sigma" sigma) (hshift : ∀ ω, HasPar (oi ω).ext "shift" shift)
    {m sd δ : List Nat → ℝ} (hv : ∀ i, InB sh i → umu.get i = some (m i) ∧ sigma.get i = some (sd i) ∧
      shift.get i = some (δ i) ∧ 0 < m i ∧ 0 < sd i)
    {nb : A} {nbins : Nat} (hnb : emb nb = .num nbins) (hpn : Printable I nb) (hn : 1 ≤ nbins)
    {a : A} (ha : Printable I a) {t : Thr ℝ} (hemb : emb a = .thr t) (ht : ThrOK t sh) {τ : List Nat → ℝ}
    (hτ : ∀ i, InB sh i → thrAt t i = some (τ i) ∧ 0 ≤ τ i) (hb : ∀ ω, (oi ω).boot = .none) {av : PyAxis}
    (hav : ∀ ω, (oi ω).avg = av) (hall : AllAxes sh (axesOf av)) (isOver : Bool) :
    ∃ (s : Ω → RelSlice (Fl ℝ)) (bs : List Nat) (pp : List ℝ) (pt : Ω → List ℝ) (pc : List Nat),
      (∀ ω, result .gamma I (gammaPrims c F emb) mids (.slot (.reliability nb (overArg isOver a) (belowArg isOver a)))
        (unsaved (o ω)) (w1 ω) = .ok (some (.rel (.slice (s ω))))) ∧
      (∀ ω, (s ω).probPred = pp.map some ∧ (s ω).probTrue = (pt ω).map some ∧ (s ω).predCount.map Prod.snd = pc) ∧
      ExpectedCurve P nbins (fiberIdx sh (nums sh.length (axesOf av)) [])
        (fun i => beyondProb isOver (censoredGammaCdf (m i) (sd i) (δ i) (τ i))) (fun i => eventChance P isOver (τ i) (Y i))
        bs pp pt pc := by
  have hc := fun ω => construct_prob (shared_gamma c F emb) (h ω)
  have hx : ∀ ω, (o ω).ext = (oi ω).ext := fun ω => (hc ω).1
  have hp := fun ω => gammaCdf_law (c := c) (F := F) (d.shape ω) hE hL hpool (htr ω) (humu ω) (hsigma ω) (hshift ω) hv ht hτ
  simp only [← hx] at hp d
  refine rel_random (shared_gamma c F emb).base d hnb hpn hn hemb ht (fun i hi => (hτ i hi).1) isOver
    (fun ω => cdf_result (shared_gamma c F emb) (by decide) ha hemb (d.shape ω) (hp ω) isOver) (fun i hi => ?_)
    (fun ω => (hc ω).2.2.1.trans (hb ω)) (fun ω => by rw [(hc ω).2.2.2, hav]) hall
  obtain ⟨-, -, -, hm, hs⟩ := hv i hi
  have hk : 0 < (m i / sd i) ^ 2 := by positivity
  refine beyondProb_unit ?_ ((atomLaw_gamma hm hs _).le_one _)
  unfold censoredGammaCdf
  split_ifs
  · exact le_rfl
  · exact gammaCdf_nonneg' hk _

/-- **C121**, hurdle class, thresholds that are not negative. -/
theorem C121_hurdle {ofNum : ℝ → A} {oi o : Ω → Obj (ProbX ℝ)} {w w' w1 : Ω → World (PyVal ℝ)}
    (h : ∀ ω, construct (hurdlePrims c F emb ofNum) mids (oi ω) (w ω) = (.ok (o ω), w' ω))
    (hE : ExactLib F.scipy) (hL : UnitLib F.scipy) (hpool : PoolOK c.workers c.mapAxis sh)
    (d : Observed P sh (fun ω => (oi ω).ext.o) Y G)
    {pop mu sigma : NDArr (Fl ℝ)} (hpop : ∀ ω, HasPar (oi ω).ext "pop" pop) (hmu : ∀ ω, HasPar (oi ω).ext "mu" mu)
    (hsigma : ∀ ω, HasPar (oi ω).ext "sigma" sigma)
    {p m sd : List Nat → ℝ} (hv : ∀ i, InB sh i → pop.get i = some (p i) ∧ mu.get i = some (m i) ∧
      sigma.get i = some (sd i) ∧ 0 ≤ p i ∧ p i ≤ 1 ∧ 0 < m i ∧ 0 < sd i)
    {nb : A} {nbins : Nat} (hnb : emb nb = .num nbins) (hpn : Printable I nb) (hn : 1 ≤ nbins)
    {a : A} (ha : Printable I a) {t : Thr ℝ} (hemb : emb a = .thr t) (ht : ThrOK t sh) {τ : List Nat → ℝ}
    (hτ : ∀ i, InB sh i → thrAt t i = some (τ i) ∧ 0 ≤ τ i) (hb : ∀ ω, (oi ω).boot = .none) {av : PyAxis}
    (hav : ∀ ω, (oi ω).avg = av) (hall : AllAxes sh (axesOf av)) (isOver : Bool) :
    ∃ (s : Ω → RelSlice (Fl ℝ)) (bs : List Nat) (pp : List ℝ) (pt : Ω → List ℝ) (pc : List Nat),
      (∀ ω, result .hurdle I (hurdlePrims c F emb ofNum) mids
        (.slot (.reliability nb (overArg isOver a) (belowArg isOver a))) (unsaved (o ω)) (w1 ω) =
          .ok (some (.rel (.slice (s ω))))) ∧
      (∀ ω, (s ω).probPred = pp.map some ∧ (s ω).probTrue = (pt ω).map some ∧ (s ω).predCount.map Prod.snd = pc) ∧
      ExpectedCurve P nbins (fiberIdx sh (nums sh.length (axesOf av)) [])
        (fun i => beyondProb isOver (hurdleLaw (p i) (m i) (sd i) (τ i))) (fun i => eventChance P isOver (τ i) (Y i))
        bs pp pt pc := by
  have hc := fun ω => construct_prob (shared_hurdle c F emb ofNum) (h ω)
  have hx : ∀ ω, (o ω).ext = (oi ω).ext := fun ω => (hc ω).1
  have hp := fun ω => hurdleCdf_law (c := c) (F := F) (d.shape ω) hE hL hpool (hpop ω) (hmu ω) (hsigma ω) hv ht hτ
  simp only [← hx] at hp d
  refine rel_random (shared_hurdle c F emb ofNum).base d hnb hpn hn hemb ht (fun i hi => (hτ i hi).1) isOver
    (fun ω => cdf_result (shared_hurdle c F emb ofNum) (by decide) ha hemb (d.shape ω) (hp ω) isOver) (fun i hi => ?_)
    (fun ω => (hc ω).2.2.1.trans (hb ω)) (fun ω => by rw [(hc ω).2.2.2, hav]) hall
  obtain ⟨-, -, -, hp0, hp1, hm, hs⟩ := hv i hi
  have hk : 0 < (m i / sd i) ^ 2 := by positivity
  have g0 := gammaCdf_nonneg' hk (τ i / (sd i ^ 2 / m i))
  have g1 := gammaCdf_le_one hk (τ i / (sd i ^ 2 / m i))
  refine beyondProb_unit ?_ ?_ <;> unfold hurdleLaw <;> split_ifs
  · exact le_rfl
  · have := mul_nonneg hp0 g0
    linarith
  · exact zero_le_one
  · have := mul_le_mul_of_nonneg_left g1 hp0
    linarith

/-- **C121**, ensemble class with members that do not depend on chance. -/
theorem C121_ens {oi o : Ω → Obj (EnsX ℝ)} {w w' w1 : Ω → World (PyVal ℝ)}
    (h : ∀ ω, construct (ensPrims c emb) mids (oi ω) (w ω) = (.ok (o ω), w' ω)) (hb : ∀ ω, (oi ω).boot = .none)
    (hm : c.method = .moments) {ax : Int} (hax : ∀ ω, (o ω).ext.axis = some ax)
    (d : Observed P sh (fun ω => (oi ω).ext.o) Y G) {M : List Nat → List ℝ}
    (hM : ∀ ω i, InB sh i → membersAt (oi ω).ext.f ax i = (M i).map some ∧ M i ≠ [])
    {nb : A} {nbins : Nat} (hnb : emb nb = .num nbins) (hpn : Printable I nb) (hn : 1 ≤ nbins)
    {a : A} (ha : Printable I a) {t : Thr ℝ} (hemb : emb a = .thr t) (ht : ThrOK t sh) {τ : List Nat → ℝ}
    (hτ : ∀ i, InB sh i → thrAt t i = some (τ i)) {av : PyAxis} (hav : ∀ ω, (oi ω).avg = av)
    (hall : AllAxes sh (axesOf av)) (h0 : 0 ∉ sh) (isOver : Bool) :
    ∃ (s : Ω → RelSlice (Fl ℝ)) (bs : List Nat) (pp : List ℝ) (pt : Ω → List ℝ) (pc : List Nat),
      (∀ ω, result .ensemble I (ensPrims c emb) mids (.slot (.reliability nb (overArg isOver a) (belowArg isOver a)))
        (unsaved (o ω)) (w1 ω) = .ok (some (.rel (.slice (s ω))))) ∧
      (∀ ω, (s ω).probPred = pp.map some ∧ (s ω).probTrue = (pt ω).map some ∧ (s ω).predCount.map Prod.snd = pc) ∧
      ExpectedCurve P nbins (fiberIdx sh (nums sh.length (axesOf av)) [])
        (fun i => avg ((M i).map fun x => (indicator (Counts isOver (τ i) x) : ℝ)))
        (fun i => eventChance P isOver (τ i) (Y i)) bs pp pt pc := by
  have hc := fun ω => C75_construct_ens (h ω)
  choose ax' fc h1 h2 h3 h4 h5 h6 h7 using hc
  have hax' : ∀ ω, ax' ω = ax := fun ω => by
    have := hax ω
    rw [(h1 ω).axis] at this
    exact Option.some.inj this
  simp only [← h4] at d
  have hne : sh.prod ≠ 0 := by rw [Ne, List.prod_eq_zero_iff]; exact h0
  refine rel_random (shared_ens c emb) d hnb hpn hn hemb ht hτ isOver (fun ω => ?_) (fun i hi => ?_)
    (fun ω => (h5 ω).trans (hb ω)) (fun ω => by rw [axisArg_ready (h1 ω).avg, hav]) hall
  · obtain ⟨p, p1, p2, p3⟩ := C75_ens_cdf (mids := mids) (I := I) (h1 ω) hm ha hemb (by rw [d.shape ω]; exact ht)
      (by rw [d.shape ω]; exact hne) isOver (w1 ω)
    refine ⟨p, p1, p2.trans (d.shape ω), fun k hk => ?_⟩
    rw [p3 k (by rw [d.shape ω]; exact hk), h3 ω, hax' ω]
    exact ensProb_avg (hM ω k hk).2 (hM ω k hk).1 (hτ k hk) isOver
  · obtain ⟨ω⟩ : Nonempty Ω := P.nonempty_of_neZero
    have hMi := (hM ω i hi).2
    have hl : (0 : ℝ) < (M i).length := by exact_mod_cast List.length_pos_iff.2 hMi
    have hi01 : ∀ q : Prop, (0 : ℝ) ≤ indicator q ∧ (indicator q : ℝ) ≤ 1 := by
      intro q
      unfold indicator
      split_ifs <;> norm_num
    constructor
    · refine div_nonneg (List.sum_nonneg ?_) (by simp)
      intro x hx
      obtain ⟨y, -, rfl⟩ := List.mem_map.1 hx
      exact (hi01 _).1
    · rw [avg, div_le_one (by simpa using hl)]
      refine (List.sum_le_card_nsmul _ 1 ?_).trans (by simp)
      intro x hx
      obtain ⟨y, -, rfl⟩ := List.mem_map.1 hx
      exact (hi01 _).2

end Props
