import Verif.Lemmas.BrierChance
import Verif.Props.PitUniform
import Verif.Props.RandomEns

/-!
# The expected Brier score: C120
-/

set_option linter.unusedSectionVars false

namespace Props
open Np NDArr Model Spec Lemmas MeasureTheory

variable {A : Type} {I : ArgInfo A} {mids : FS (PyVal ℝ) → Path → List (FS (PyVal ℝ))} {c : Cfg ℝ} {emb : A → Arg ℝ}
variable {F : ProbFns ℝ} {Ω : Type} [MeasurableSpace Ω] {P : Measure Ω} [IsProbabilityMeasure P]
  {sh : List Nat} {Y : List Nat → Ω → ℝ} {G : List Nat → ℝ → ℝ}

/-- the forecast probability of the event when the probability at or below the threshold is `p` -/
def beyondProb (isOver : Bool) (p : ℝ) : ℝ := if isOver then 1 - p else p

theorem event_beyond {o : NDArr (Fl ℝ)} {t : Thr ℝ} {k : List Nat} {τ : ℝ} {Y : Ω → ℝ} {ω : Ω} (ht : thrAt t k = some τ)
    (ho : o.get k = some (Y ω)) (isOver : Bool) : Event isOver t o k ↔ Beyond isOver τ Y ω := by
  cases isOver <;> simp [Event, Beyond, ht, ho, LtP]

/-- the score at all kept positions, given the probability `D i` at or below the threshold that the class announces -/
theorem brier_random {C : Cls} {Q : Prims (ProbX ℝ) (PyVal ℝ) A} {cdf : ProbX ℝ → Thr ℝ → Except Err (NDArr (Fl ℝ))}
    (hP : SharedProb c F emb cdf Q) (hC : C ≠ .determ) {o : Ω → Obj (ProbX ℝ)} {w1 : Ω → World (PyVal ℝ)}
    (d : Observed P sh (fun ω => (o ω).ext.o) Y G) {a : A} (ha : Printable I a) {t : Thr ℝ} (hemb : emb a = .thr t)
    (ht : ThrOK t sh) {τ : List Nat → ℝ} (hτ : ∀ i, InB sh i → thrAt t i = some (τ i)) {D : List Nat → ℝ}
    (hp : ∀ ω, ∃ p, cdf (o ω).ext t = .ok p ∧ p.shape = (o ω).ext.o.shape ∧ ∀ k, InB sh k → p.get k = some (D k))
    (hb : ∀ ω, (o ω).boot = .none) {axes : Option (List Int)} (hax : ∀ ω, axisArg (o ω).avg = .ok axes)
    (hok : OptOK sh.length axes) (h0 : 0 ∉ sh) (isOver : Bool) :
    ∃ r : Ω → NDArr (Fl ℝ),
      (∀ ω, result C I Q mids (.slot (.brier (overArg isOver a) (belowArg isOver a))) (unsaved (o ω)) (w1 ω) =
        .ok (some (.num (r ω)))) ∧
      (∀ ω, (r ω).shape = dropAxes (nums sh.length axes) sh) ∧
      ∀ k, InB (dropAxes (nums sh.length axes) sh) k → ∃ S : Ω → ℝ, (∀ ω, (r ω).get k = some (S ω)) ∧
        ExpectedBrier P S (fiberIdx sh (nums sh.length axes) k) (fun i => beyondProb isOver (D i))
          fun i => eventChance P isOver (τ i) (Y i) := by
  have main : ∀ ω, ∃ r, result C I Q mids (.slot (.brier (overArg isOver a) (belowArg isOver a))) (unsaved (o ω)) (w1 ω) =
        .ok (some (.num r)) ∧ r.shape = dropAxes (nums sh.length axes) sh ∧
      ∀ k, InB (dropAxes (nums sh.length axes) sh) k → r.get k =
        some (avg ((fiberIdx sh (nums sh.length axes) k).map fun i =>
          (beyondProb isOver (D i) - (indicator (Beyond isOver (τ i) (Y i) ω) : ℝ)) ^ 2)) := by
    intro ω
    have hsh := d.shape ω
    obtain ⟨p, p1, p2, p3⟩ := hp ω
    obtain ⟨r, r1, r2, r3⟩ := prob_brier (I := I) (mids := mids) (o := o ω) hP hC ha hemb (G := fun k => some (D k))
      ⟨p, p1, p2, fun k hk => p3 k (by rw [← hsh]; exact hk)⟩ (by rw [hsh]; exact ht) (hb ω) (hax ω)
      (by rw [hsh]; exact hok) isOver (w1 ω)
    simp only [hsh] at r2 r3
    refine ⟨r, r1, r2, fun k hk => ?_⟩
    refine isAvg_some (fiberIdx_ne h0 hk) (fun i hi => ?_) (r3 k (by rw [r2]; exact hk))
    have hi' := (mem_fiberIdx.1 hi).1
    rw [event_beyond (hτ i hi') (d.value i hi' ω)]
    cases isOver <;> rfl
  choose r r1 r2 r3 using main
  refine ⟨r, r1, r2, fun k hk => ⟨_, fun ω => r3 ω k hk, ?_⟩⟩
  exact expectedBrier_avg (fun i hi => measurableSet_beyond isOver (τ i) (d.meas i (mem_fiberIdx.1 hi).1)) _

/-- what the score says about a class that announces the distribution functions `D` -/
structure BrierVerdict (P : Measure Ω) (L : List (List Nat)) (isOver : Bool) (τ : List Nat → ℝ) (Y : List Nat → Ω → ℝ)
    (D G : List Nat → ℝ → ℝ) (S : Ω → ℝ) : Prop where
  score : ExpectedBrier P S L (fun i => beyondProb isOver (D i (τ i))) fun i => eventChance P isOver (τ i) (Y i)
  /-- above a threshold: the least expected score goes to the announcements that are right at the threshold -/
  over : isOver = true → (∫ ω, S ω ∂P = avg (L.map fun i => G i (τ i) * (1 - G i (τ i))) ↔ ∀ i ∈ L, D i (τ i) = G i (τ i))
  /-- below a threshold: the true distributions get the least expected score only if no observation equals the threshold -/
  below : isOver = false → (∀ i ∈ L, D i = G i) →
    (∫ ω, S ω ∂P = avg (L.map fun i => eventChance P false (τ i) (Y i) * (1 - eventChance P false (τ i) (Y i))) ↔
      ∀ i ∈ L, P.real {ω | Y i ω = τ i} = 0)

theorem verdict {L : List (List Nat)} {isOver : Bool} {τ : List Nat → ℝ} {D : List Nat → ℝ → ℝ} {S : Ω → ℝ}
    (hm : ∀ i ∈ L, Measurable (Y i)) (hl : ∀ i ∈ L, ∀ x, P.real {ω | Y i ω ≤ x} = G i x)
    (h : ExpectedBrier P S L (fun i => beyondProb isOver (D i (τ i))) fun i => eventChance P isOver (τ i) (Y i)) :
    BrierVerdict P L isOver τ Y D G S := by
  refine ⟨h, ?_, ?_⟩
  · rintro rfl
    have e : ∀ i ∈ L, eventChance P true (τ i) (Y i) = 1 - G i (τ i) := fun i hi => eventChance_over (hm i hi) (hl i hi) _
    have := h.honest
    rw [List.map_congr_left (g := fun i => G i (τ i) * (1 - G i (τ i))) fun i hi => by rw [e i hi]; ring] at this
    rw [this]
    refine forall₂_congr fun i hi => ?_
    rw [e i hi]
    simp [beyondProb]
  · rintro rfl hD
    rw [h.honest]
    refine forall₂_congr fun i hi => ?_
    rw [eventChance_below (hm i hi) (hl i hi), ← hD i hi]
    simp only [beyondProb, Bool.false_eq_true, if_false]
    constructor <;> intro <;> linarith

/-- the probability at or below the threshold that the Gaussian class announces -/
theorem gaussCdf_law {x : ProbX ℝ} (hsh : x.o.shape = sh) (hE : ExactLib F.scipy) (hL : UnitLib F.scipy)
    (hpool : PoolOK c.workers c.mapAxis sh) {tr : Bool} (htr : x.truncated = some tr) {mu sigma : NDArr (Fl ℝ)}
    (hmu : HasPar x "mu" mu) (hsg : HasPar x "sigma" sigma) {m sd : List Nat → ℝ}
    (hv : ∀ i, InB sh i → mu.get i = some (m i) ∧ sigma.get i = some (sd i) ∧ 0 < sd i) {t : Thr ℝ} (ht : ThrOK t sh)
    {τ : List Nat → ℝ} (hτ : ∀ i, InB sh i → thrAt t i = some (τ i)) :
    ∃ q, gaussCdf c F x t = .ok q ∧ q.shape = x.o.shape ∧
      ∀ k, InB sh k → q.get k = some (gaussLaw tr (m k) (sd k) (τ k)) := by
  subst hsh
  obtain ⟨p, p1, p2, p3⟩ := gaussCdf_ok (c := c) hmu hsg (t := t) hL ht hpool
  refine ⟨p, p1, p2, fun k hk => ?_⟩
  obtain ⟨e1, e2, e3⟩ := hv k hk
  rw [p3 k hk, hτ k hk, e1, e2]
  simp only [gaussProb, ProbX.trunc, htr, gaussLaw]
  cases tr with
  | false => simpa using hE.norm _ _ _ e3
  | true =>
    simp only [beq_self_eq_true, if_true, ratio, e3.ne', if_false]
    rw [hE.truncnorm _ _ _ _ e3]
    congr 2
    field_simp
    ring

/-- the same of the gamma class -/
theorem gammaCdf_law {x : ProbX ℝ} (hsh : x.o.shape = sh) (hE : ExactLib F.scipy) (hL : UnitLib F.scipy)
    (hpool : PoolOK c.workers c.mapAxis sh) (htr : x.truncated = some false) {umu sigma shift : NDArr (Fl ℝ)}
    (humu : HasPar x "unshifted_mu" umu) (hsigma : HasPar x "sigma" sigma) (hshift : HasPar x "shift" shift)
    {m sd δ : List Nat → ℝ} (hv : ∀ i, InB sh i → umu.get i = some (m i) ∧ sigma.get i = some (sd i) ∧
      shift.get i = some (δ i) ∧ 0 < m i ∧ 0 < sd i) {t : Thr ℝ} (ht : ThrOK t sh) {τ : List Nat → ℝ}
    (hτ : ∀ i, InB sh i → thrAt t i = some (τ i) ∧ 0 ≤ τ i) :
    ∃ q, gammaCdfOf c F x t = .ok q ∧ q.shape = x.o.shape ∧
      ∀ k, InB sh k → q.get k = some (censoredGammaCdf (m k) (sd k) (δ k) (τ k)) := by
  subst hsh
  obtain ⟨p, p1, p2, p3⟩ := gammaCdfOf_ok (c := c) humu hsigma hshift (t := t) (by simp [ProbX.trunc, htr]) hL ht hpool
  refine ⟨p, p1, p2, fun k hk => ?_⟩
  obtain ⟨e1, e2, e3, e4, e5⟩ := hv k hk
  rw [p3 k hk, (hτ k hk).1, e1, e2, e3]
  simp only [gammaProb, gammaPars, ratio, e4.ne', e5.ne', if_false, Option.map_some]
  rw [hE.gamma _ _ _ _ (by positivity) (by positivity), censoredGammaCdf, if_neg (not_lt.2 (hτ k hk).2)]

/-- the same of the hurdle class -/
theorem hurdleCdf_law {x : ProbX ℝ} (hsh : x.o.shape = sh) (hE : ExactLib F.scipy) (hL : UnitLib F.scipy)
    (hpool : PoolOK c.workers c.mapAxis sh) {pop mu sigma : NDArr (Fl ℝ)}
    (hpop : HasPar x "pop" pop) (hmu : HasPar x "mu" mu) (hsigma : HasPar x "sigma" sigma)
    {p m sd : List Nat → ℝ} (hv : ∀ i, InB sh i → pop.get i = some (p i) ∧ mu.get i = some (m i) ∧
      sigma.get i = some (sd i) ∧ 0 ≤ p i ∧ p i ≤ 1 ∧ 0 < m i ∧ 0 < sd i) {t : Thr ℝ} (ht : ThrOK t sh) {τ : List Nat → ℝ}
    (hτ : ∀ i, InB sh i → thrAt t i = some (τ i) ∧ 0 ≤ τ i) :
    ∃ q, hurdleCdfOf c F x t = .ok q ∧ q.shape = x.o.shape ∧
      ∀ k, InB sh k → q.get k = some (hurdleLaw (p k) (m k) (sd k) (τ k)) := by
  subst hsh
  obtain ⟨q, p1, p2, p3⟩ := hurdleCdfOf_ok (c := c) hpop hmu hsigma (t := t)
    (fun k v hk e => by
      obtain ⟨e1, -, -, e2, e3, -⟩ := hv k hk
      rw [e1] at e
      cases e
      exact ⟨e2, e3⟩) hL ht hpool
  refine ⟨q, p1, p2, fun k hk => ?_⟩
  obtain ⟨e1, e2, e3, e4, e5, e6, e7⟩ := hv k hk
  rw [p3 k hk, (hτ k hk).1, e1, e2, e3]
  have hk' : 0 < (m k / sd k) ^ 2 := by positivity
  have hy := (hτ k hk).2
  simp only [hurdleProb, gammaProb, gammaPars, ratio, e6.ne', e7.ne', if_false, Option.map_some,
    hE.gamma _ _ _ _ hk' (show 0 < sd k ^ 2 / m k by positivity), hurdleLaw, not_lt.2 hy]
  rcases hy.eq_or_lt with hy | hy
  · rw [if_neg (by simp [LtP, ← hy]), ← hy, zero_div, gammaCdf_of_nonpos le_rfl]
    simp
  · rw [if_pos (by simpa [LtP] using hy), sub_zero]

/-- **C120**, Gaussian class: the expected `brier(...)` is the average over the pooled positions of the squared difference
of announced and true probability of the event, plus an amount that does not depend on the announcement. -/
theorem C120_gauss {oi o : Ω → Obj (ProbX ℝ)} {w w' w1 : Ω → World (PyVal ℝ)}
    (h : ∀ ω, construct (gaussPrims c F emb) mids (oi ω) (w ω) = (.ok (o ω), w' ω))
    (hE : ExactLib F.scipy) (hL : UnitLib F.scipy) (hpool : PoolOK c.workers c.mapAxis sh)
    (d : Observed P sh (fun ω => (oi ω).ext.o) Y G) {tr : Bool} (htr : ∀ ω, (oi ω).ext.truncated = some tr)
    {mu sigma : NDArr (Fl ℝ)} (hmu : ∀ ω, HasPar (oi ω).ext "mu" mu) (hsg : ∀ ω, HasPar (oi ω).ext "sigma" sigma)
    {m sd : List Nat → ℝ} (hv : ∀ i, InB sh i → mu.get i = some (m i) ∧ sigma.get i = some (sd i) ∧ 0 < sd i)
    {a : A} (ha : Printable I a) {t : Thr ℝ} (hemb : emb a = .thr t) (ht : ThrOK t sh) {τ : List Nat → ℝ}
    (hτ : ∀ i, InB sh i → thrAt t i = some (τ i)) (hb : ∀ ω, (oi ω).boot = .none) {av : PyAxis}
    (hav : ∀ ω, (oi ω).avg = av) (hok : OptOK sh.length (axesOf av)) (h0 : 0 ∉ sh) (isOver : Bool) :
    ∃ r : Ω → NDArr (Fl ℝ),
      (∀ ω, result .gaussian I (gaussPrims c F emb) mids (.slot (.brier (overArg isOver a) (belowArg isOver a)))
        (unsaved (o ω)) (w1 ω) = .ok (some (.num (r ω)))) ∧
      (∀ ω, (r ω).shape = dropAxes (nums sh.length (axesOf av)) sh) ∧
      ∀ k, InB (dropAxes (nums sh.length (axesOf av)) sh) k → ∃ S : Ω → ℝ, (∀ ω, (r ω).get k = some (S ω)) ∧
        BrierVerdict P (fiberIdx sh (nums sh.length (axesOf av)) k) isOver τ Y (fun i => gaussLaw tr (m i) (sd i)) G S := by
  have hc := fun ω => construct_prob (shared_gauss c F emb) (h ω)
  have hx : ∀ ω, (o ω).ext = (oi ω).ext := fun ω => (hc ω).1
  have hp := fun ω => gaussCdf_law (c := c) (F := F) (d.shape ω) hE hL hpool (htr ω) (hmu ω) (hsg ω) hv ht hτ
  simp only [← hx] at hp
  obtain ⟨r, r1, r2, r3⟩ := brier_random (I := I) (mids := mids) (w1 := w1) (C := .gaussian) (shared_gauss c F emb) (by decide)
    (o := o) (Y := Y) (G := G) (P := P) (sh := sh)
    ⟨fun ω => by rw [hx]; exact d.shape ω, fun i hi ω => by simp only [hx]; exact d.value i hi ω, d.meas, d.law⟩ ha hemb ht hτ
    (D := fun k => gaussLaw tr (m k) (sd k) (τ k)) hp (fun ω => (hc ω).2.2.1.trans (hb ω))
    (axes := axesOf av) (fun ω => by rw [(hc ω).2.2.2, hav]) hok h0 isOver
  refine ⟨r, r1, r2, fun k hk => ?_⟩
  obtain ⟨S, s1, s2⟩ := r3 k hk
  exact ⟨S, s1, verdict (fun i hi => d.meas i (mem_fiberIdx.1 hi).1) (fun i hi => d.law i (mem_fiberIdx.1 hi).1) s2⟩

/-- **C120**, gamma class, thresholds that are not negative. -/
theorem C120_gamma {oi o : Ω → Obj (ProbX ℝ)} {w w' w1 : Ω → World (PyVal ℝ)}
    (h : ∀ ω, construct (gammaPrims c F emb) mids (oi ω) (w ω) = (.ok (o ω), w' ω))
    (hE : ExactLib F.scipy) (hL : UnitLib F.scipy) (hpool : PoolOK c.workers c.mapAxis sh)
    (d : Observed P sh (fun ω => (oi ω).ext.o) Y G) (htr : ∀ ω, (oi ω).ext.truncated = some false)
    {umu sigma shift : NDArr (Fl ℝ)} (humu : ∀ ω, HasPar (oi ω).ext "unshifted_mu" umu)
    (hsigma : ∀ ω, HasPar (oi ω).ext "sigma" sigma) (hshift : ∀ ω, HasPar (oi ω).ext "shift" shift)
    {m sd δ : List Nat → ℝ} (hv : ∀ i, InB sh i → umu.get i = some (m i) ∧ sigma.get i = some (sd i) ∧
      shift.get i = some (δ i) ∧ 0 < m i ∧ 0 < sd i)
    {a : A} (ha : Printable I a) {t : Thr ℝ} (hemb : emb a = .thr t) (ht : ThrOK t sh) {τ : List Nat → ℝ}
    (hτ : ∀ i, InB sh i → thrAt t i = some (τ i) ∧ 0 ≤ τ i) (hb : ∀ ω, (oi ω).boot = .none) {av : PyAxis}
    (hav : ∀ ω, (oi ω).avg = av) (hok : OptOK sh.length (axesOf av)) (h0 : 0 ∉ sh) (isOver : Bool) :
    ∃ r : Ω → NDArr (Fl ℝ),
      (∀ ω, result .gamma I (gammaPrims c F emb) mids (.slot (.brier (overArg isOver a) (belowArg isOver a)))
        (unsaved (o ω)) (w1 ω) = .ok (some (.num (r ω)))) ∧
      (∀ ω, (r ω).shape = dropAxes (nums sh.length (axesOf av)) sh) ∧
      ∀ k, InB (dropAxes (nums sh.length (axesOf av)) sh) k → ∃ S : Ω → ℝ, (∀ ω, (r ω).get k = some (S ω)) ∧
        BrierVerdict P (fiberIdx sh (nums sh.length (axesOf av)) k) isOver τ Y
          (fun i => censoredGammaCdf (m i) (sd i) (δ i)) G S := by
  have hc := fun ω => construct_prob (shared_gamma c F emb) (h ω)
  have hx : ∀ ω, (o ω).ext = (oi ω).ext := fun ω => (hc ω).1
  have hp := fun ω => gammaCdf_law (c := c) (F := F) (d.shape ω) hE hL hpool (htr ω) (humu ω) (hsigma ω) (hshift ω) hv ht hτ
  simp only [← hx] at hp
  obtain ⟨r, r1, r2, r3⟩ := brier_random (I := I) (mids := mids) (w1 := w1) (C := .gamma) (shared_gamma c F emb) (by decide)
    (o := o) (Y := Y) (G := G) (P := P) (sh := sh)
    ⟨fun ω => by rw [hx]; exact d.shape ω, fun i hi ω => by simp only [hx]; exact d.value i hi ω, d.meas, d.law⟩ ha hemb ht
    (fun i hi => (hτ i hi).1) (D := fun k => censoredGammaCdf (m k) (sd k) (δ k) (τ k)) hp
    (fun ω => (hc ω).2.2.1.trans (hb ω)) (axes := axesOf av) (fun ω => by rw [(hc ω).2.2.2, hav]) hok h0 isOver
  refine ⟨r, r1, r2, fun k hk => ?_⟩
  obtain ⟨S, s1, s2⟩ := r3 k hk
  exact ⟨S, s1, verdict (fun i hi => d.meas i (mem_fiberIdx.1 hi).1) (fun i hi => d.law i (mem_fiberIdx.1 hi).1) s2⟩

/-- **C120**, hurdle class, thresholds that are not negative. -/
theorem C120_hurdle {ofNum : ℝ → A} {oi o : Ω → Obj (ProbX ℝ)} {w w' w1 : Ω → World (PyVal ℝ)}
    (h : ∀ ω, construct (hurdlePrims c F emb ofNum) mids (oi ω) (w ω) = (.ok (o ω), w' ω))
    (hE : ExactLib F.scipy) (hL : UnitLib F.scipy) (hpool : PoolOK c.workers c.mapAxis sh)
    (d : Observed P sh (fun ω => (oi ω).ext.o) Y G)
    {pop mu sigma : NDArr (Fl ℝ)} (hpop : ∀ ω, HasPar (oi ω).ext "pop" pop) (hmu : ∀ ω, HasPar (oi ω).ext "mu" mu)
    (hsigma : ∀ ω, HasPar (oi ω).ext "sigma" sigma)
    {p m sd : List Nat → ℝ} (hv : ∀ i, InB sh i → pop.get i = some (p i) ∧ mu.get i = some (m i) ∧
      sigma.get i = some (sd i) ∧ 0 ≤ p i ∧ p i ≤ 1 ∧ 0 < m i ∧ 0 < sd i)
    {a : A} (ha : Printable I a) {t : Thr ℝ} (hemb : emb a = .thr t) (ht : ThrOK t sh) {τ : List Nat → ℝ}
    (hτ : ∀ i, InB sh i → thrAt t i = some (τ i) ∧ 0 ≤ τ i) (hb : ∀ ω, (oi ω).boot = .none) {av : PyAxis}
    (hav : ∀ ω, (oi ω).avg = av) (hok : OptOK sh.length (axesOf av)) (h0 : 0 ∉ sh) (isOver : Bool) :
    ∃ r : Ω → NDArr (Fl ℝ),
      (∀ ω, result .hurdle I (hurdlePrims c F emb ofNum) mids (.slot (.brier (overArg isOver a) (belowArg isOver a)))
        (unsaved (o ω)) (w1 ω) = .ok (some (.num (r ω)))) ∧
      (∀ ω, (r ω).shape = dropAxes (nums sh.length (axesOf av)) sh) ∧
      ∀ k, InB (dropAxes (nums sh.length (axesOf av)) sh) k → ∃ S : Ω → ℝ, (∀ ω, (r ω).get k = some (S ω)) ∧
        BrierVerdict P (fiberIdx sh (nums sh.length (axesOf av)) k) isOver τ Y
          (fun i => hurdleLaw (p i) (m i) (sd i)) G S := by
  have hc := fun ω => construct_prob (shared_hurdle c F emb ofNum) (h ω)
  have hx : ∀ ω, (o ω).ext = (oi ω).ext := fun ω => (hc ω).1
  have hp := fun ω => hurdleCdf_law (c := c) (F := F) (d.shape ω) hE hL hpool (hpop ω) (hmu ω) (hsigma ω) hv ht hτ
  simp only [← hx] at hp
  obtain ⟨r, r1, r2, r3⟩ := brier_random (I := I) (mids := mids) (w1 := w1) (C := .hurdle) (shared_hurdle c F emb ofNum)
    (by decide) (o := o) (Y := Y) (G := G) (P := P) (sh := sh)
    ⟨fun ω => by rw [hx]; exact d.shape ω, fun i hi ω => by simp only [hx]; exact d.value i hi ω, d.meas, d.law⟩ ha hemb ht
    (fun i hi => (hτ i hi).1) (D := fun k => hurdleLaw (p k) (m k) (sd k) (τ k)) hp
    (fun ω => (hc ω).2.2.1.trans (hb ω)) (axes := axesOf av) (fun ω => by rw [(hc ω).2.2.2, hav]) hok h0 isOver
  refine ⟨r, r1, r2, fun k hk => ?_⟩
  obtain ⟨S, s1, s2⟩ := r3 k hk
  exact ⟨S, s1, verdict (fun i hi => d.meas i (mem_fiberIdx.1 hi).1) (fun i hi => d.law i (mem_fiberIdx.1 hi).1) s2⟩

/-- a member counts for the event: above the threshold it must exceed it, below the threshold it may equal it -/
def Counts (isOver : Bool) (τ x : ℝ) : Prop := if isOver then τ < x else x ≤ τ

open Classical in
theorem fractionLe_avg {M : List ℝ} (hM : M ≠ []) (τ : ℝ) :
    fractionLe (M.map some) (some τ) = some (avg (M.map fun x => (indicator (x ≤ τ) : ℝ))) := by
  have hc : (((M.map some).filter fun x => decide (LeP x (some τ))).length : ℝ) =
      (M.map fun x => (indicator (x ≤ τ) : ℝ)).sum := by
    clear hM
    induction M with
    | nil => simp
    | cons x M ih =>
      simp only [List.map_cons, List.sum_cons, List.filter_cons, ← ih]
      by_cases hx : x ≤ τ
      · have : LeP (some x) (some τ) := ⟨x, τ, rfl, rfl, hx⟩
        simp only [this, decide_true, if_true, List.length_cons, Nat.cast_add, Nat.cast_one]
        rw [indicator, if_pos hx, add_comm]
      · have : ¬ LeP (some x) (some τ) := by
          rintro ⟨a, b, e1, e2, e3⟩
          cases e1
          cases e2
          exact hx e3
        simp only [this, decide_false, Bool.false_eq_true, if_false]
        rw [indicator, if_neg hx, zero_add]
  rw [fractionLe, if_neg (by simpa using hM), hc, avg, List.length_map, List.length_map]

/-- the probability that the members give to the event -/
theorem ensProb_avg {f : NDArr (Fl ℝ)} {ax : Int} {i : List Nat} {M : List ℝ} (hM : M ≠ [])
    (h : membersAt f ax i = M.map some) {t : Thr ℝ} {τ : ℝ} (ht : thrAt t i = some τ) (isOver : Bool) :
    ensProb isOver t f ax i = some (avg (M.map fun x => (indicator (Counts isOver τ x) : ℝ))) := by
  rw [ensProb, h, ht, fractionLe_avg hM]
  cases isOver with
  | false => simp [Counts]
  | true =>
    simp only [if_true, Counts]
    refine congrArg some ?_
    have hl : (M.length : ℝ) ≠ 0 := by simpa using hM
    have hs : (M.map fun x => (indicator (τ < x) : ℝ)).sum = M.length - (M.map fun x => (indicator (x ≤ τ) : ℝ)).sum := by
      clear hM h hl
      induction M with
      | nil => simp
      | cons x M ih =>
        simp only [List.map_cons, List.sum_cons, List.length_cons, ih, Nat.cast_add, Nat.cast_one]
        rcases le_or_gt x τ with hx | hx
        · rw [indicator, if_neg (not_lt.2 hx), indicator, if_pos hx]
          ring
        · rw [indicator, if_pos hx, indicator, if_neg (not_le.2 hx)]
          ring
    show (1 - _ : ℝ) = _
    rw [avg, avg, List.length_map, List.length_map, hs]
    field_simp

/-- what `brier(...)` of an ensemble is, without missing values -/
theorem ens_brier_value {oi o : Obj (EnsX ℝ)} {w w' : World (PyVal ℝ)}
    (h : construct (ensPrims c emb) mids oi w = (.ok o, w')) (hb : oi.boot = .none) (hm : c.method = .moments)
    {ax : Int} (hax : o.ext.axis = some ax) (hsh : oi.ext.o.shape = sh) {y : List Nat → ℝ} {M : List Nat → List ℝ}
    (hy : ∀ i, InB sh i → oi.ext.o.get i = some (y i))
    (hM : ∀ i, InB sh i → membersAt oi.ext.f ax i = (M i).map some ∧ M i ≠ [])
    {a : A} (ha : Printable I a) {t : Thr ℝ} (hemb : emb a = .thr t) (ht : ThrOK t sh) {τ : List Nat → ℝ}
    (hτ : ∀ i, InB sh i → thrAt t i = some (τ i)) {av : PyAxis} (hav : oi.avg = av) (hok : OptOK sh.length (axesOf av))
    (h0 : 0 ∉ sh) (isOver : Bool) (w1 : World (PyVal ℝ)) :
    ∃ r, result .ensemble I (ensPrims c emb) mids (.slot (.brier (overArg isOver a) (belowArg isOver a))) (unsaved o) w1 =
        .ok (some (.num r)) ∧ r.shape = dropAxes (nums sh.length (axesOf av)) sh ∧
      ∀ k, InB (dropAxes (nums sh.length (axesOf av)) sh) k → r.get k =
        some (avg ((fiberIdx sh (nums sh.length (axesOf av)) k).map fun i =>
          (avg ((M i).map fun x => (indicator (Counts isOver (τ i) x) : ℝ)) -
            (indicator (if isOver then τ i < y i else y i < τ i) : ℝ)) ^ 2)) := by
  subst hsh hav
  obtain ⟨ax', r, r0, r1, r2, r3⟩ := C75_ens_brier (I := I) h hb hm ha hemb ht
    (by rw [Ne, List.prod_eq_zero_iff]; exact h0) hok isOver w1
  rw [hax] at r0
  cases r0
  refine ⟨r, r1, r2, fun k hk => ?_⟩
  refine isAvg_some (fiberIdx_ne h0 hk) (fun i hi => ?_) (r3 k (by rw [r2]; exact hk))
  have hi' := (mem_fiberIdx.1 hi).1
  rw [ensProb_avg (hM i hi').2 (hM i hi').1 (hτ i hi'),
    event_beyond (Y := fun _ : Unit => y i) (ω := ()) (hτ i hi') (hy i hi')]
  rfl

/-- **C120**, ensemble class with members that do not depend on chance. -/
theorem C120_ens {oi o : Ω → Obj (EnsX ℝ)} {w w' w1 : Ω → World (PyVal ℝ)}
    (h : ∀ ω, construct (ensPrims c emb) mids (oi ω) (w ω) = (.ok (o ω), w' ω)) (hb : ∀ ω, (oi ω).boot = .none)
    (hm : c.method = .moments) {ax : Int} (hax : ∀ ω, (o ω).ext.axis = some ax)
    (d : Observed P sh (fun ω => (oi ω).ext.o) Y G) {M : List Nat → List ℝ}
    (hM : ∀ ω i, InB sh i → membersAt (oi ω).ext.f ax i = (M i).map some ∧ M i ≠ [])
    {a : A} (ha : Printable I a) {t : Thr ℝ} (hemb : emb a = .thr t) (ht : ThrOK t sh) {τ : List Nat → ℝ}
    (hτ : ∀ i, InB sh i → thrAt t i = some (τ i)) {av : PyAxis} (hav : ∀ ω, (oi ω).avg = av)
    (hok : OptOK sh.length (axesOf av)) (h0 : 0 ∉ sh) (isOver : Bool) :
    ∃ r : Ω → NDArr (Fl ℝ),
      (∀ ω, result .ensemble I (ensPrims c emb) mids (.slot (.brier (overArg isOver a) (belowArg isOver a)))
        (unsaved (o ω)) (w1 ω) = .ok (some (.num (r ω)))) ∧
      (∀ ω, (r ω).shape = dropAxes (nums sh.length (axesOf av)) sh) ∧
      ∀ k, InB (dropAxes (nums sh.length (axesOf av)) sh) k → ∃ S : Ω → ℝ, (∀ ω, (r ω).get k = some (S ω)) ∧
        ExpectedBrier P S (fiberIdx sh (nums sh.length (axesOf av)) k)
          (fun i => avg ((M i).map fun x => (indicator (Counts isOver (τ i) x) : ℝ)))
          fun i => eventChance P isOver (τ i) (Y i) := by
  have main := fun ω => ens_brier_value (I := I) (h ω) (hb ω) hm (hax ω) (d.shape ω) (y := fun i => Y i ω)
    (fun i hi => d.value i hi ω) (hM ω) ha hemb ht hτ (hav ω) hok h0 isOver (w1 ω)
  choose r r1 r2 r3 using main
  refine ⟨r, r1, r2, fun k hk => ⟨_, fun ω => r3 ω k hk, ?_⟩⟩
  exact expectedBrier_avg (Q := fun i => Beyond isOver (τ i) (Y i))
    (fun i hi => measurableSet_beyond isOver (τ i) (d.meas i (mem_fiberIdx.1 hi).1)) _

theorem measurableSet_counts (isOver : Bool) (τ : ℝ) : MeasurableSet {x : ℝ | Counts isOver τ x} := by
  cases isOver with
  | true => exact measurableSet_lt measurable_const measurable_id
  | false => exact measurableSet_le measurable_id measurable_const

/-- **C120**, ensemble class with members drawn by chance: the expected `brier(...)` is larger than what the probability
with which a member counts would get, by the variance of one member's vote over the number of members. -/
theorem C120_ens_random {n : Nat} {X : List Nat → Nat → Ω → ℝ} {F : List Nat → ℝ → ℝ}
    {oi o : Ω → Obj (EnsX ℝ)} {w w' w1 : Ω → World (PyVal ℝ)}
    (h : ∀ ω, construct (ensPrims c emb) mids (oi ω) (w ω) = (.ok (o ω), w' ω)) (hb : ∀ ω, (oi ω).boot = .none)
    (hm : c.method = .moments) {ax : Int} (hax : ∀ ω, (o ω).ext.axis = some ax) (hn : 0 < n)
    (d : RandomEns P sh n (fun ω => (oi ω).ext.o) (fun ω => (oi ω).ext.f) ax Y X F G)
    {a : A} (ha : Printable I a) {t : Thr ℝ} (hemb : emb a = .thr t) (ht : ThrOK t sh) {τ : List Nat → ℝ}
    (hτ : ∀ i, InB sh i → thrAt t i = some (τ i)) {av : PyAxis} (hav : ∀ ω, (oi ω).avg = av)
    (hok : OptOK sh.length (axesOf av)) (h0 : 0 ∉ sh) (isOver : Bool) :
    ∃ r : Ω → NDArr (Fl ℝ),
      (∀ ω, result .ensemble I (ensPrims c emb) mids (.slot (.brier (overArg isOver a) (belowArg isOver a)))
        (unsaved (o ω)) (w1 ω) = .ok (some (.num (r ω)))) ∧
      (∀ ω, (r ω).shape = dropAxes (nums sh.length (axesOf av)) sh) ∧
      ∀ k, InB (dropAxes (nums sh.length (axesOf av)) sh) k → ∃ S : Ω → ℝ, (∀ ω, (r ω).get k = some (S ω)) ∧
        Integrable S P ∧ ∫ ω, S ω ∂P = avg ((fiberIdx sh (nums sh.length (axesOf av)) k).map fun i =>
          (beyondProb isOver (F i (τ i)) - eventChance P isOver (τ i) (Y i)) ^ 2 +
            eventChance P isOver (τ i) (Y i) * (1 - eventChance P isOver (τ i) (Y i)) +
            F i (τ i) * (1 - F i (τ i)) / n) := by
  have main := fun ω => ens_brier_value (I := I) (h ω) (hb ω) hm (hax ω) (d.shape ω) (y := fun i => Y i ω)
    (M := fun i => (List.range n).map fun j => X i j ω) (fun i hi => d.value i hi ω)
    (fun i hi => ⟨by rw [d.members ω i hi, List.map_map]; rfl, by simpa using hn.ne'⟩) ha hemb ht hτ (hav ω) hok h0 isOver
    (w1 ω)
  choose r r1 r2 r3 using main
  refine ⟨r, r1, r2, fun k hk => ⟨_, fun ω => r3 ω k hk, ?_⟩⟩
  refine mean_avg (P := P) _ (g := fun i ω => (avg (((List.range n).map fun j => X i j ω).map fun x =>
    (indicator (Counts isOver (τ i) x) : ℝ)) - (indicator (if isOver then τ i < Y i ω else Y i ω < τ i) : ℝ)) ^ 2)
    fun i hi => ?_
  have hi' := (mem_fiberIdx.1 hi).1
  have hC := measurableSet_counts isOver (τ i)
  have hB := measurableSet_beyond isOver (τ i) (d.meas i hi')
  obtain ⟨y1, y2, y3⟩ := indicator_moments (P := P) hB
  have hx := fun j (hj : j < n) => indicator_moments (P := P) (d.measX i hi' j hj hC)
  have hF : ∀ j, j < n → P.real (X i j ⁻¹' {x | Counts isOver (τ i) x}) = beyondProb isOver (F i (τ i)) := by
    intro j hj
    cases isOver with
    | false => exact d.lawX i hi' j hj _
    | true => exact eventChance_over (d.measX i hi' j hj) (d.lawX i hi' j hj) _
  have hv : beyondProb isOver (F i (τ i)) * (1 - beyondProb isOver (F i (τ i))) = F i (τ i) * (1 - F i (τ i)) := by
    cases isOver <;> simp [beyondProb, mul_comm]
  have hY' : ∀ ω, (indicator (if isOver then τ i < Y i ω else Y i ω < τ i) : ℝ) =
      {y : ℝ | if isOver then τ i < y else y < τ i}.indicator (fun _ => (1 : ℝ)) (Y i ω) := fun ω =>
    indicator_set (fun y : ℝ => if isOver then τ i < y else y < τ i) (Y i ω)
  have hBm : MeasurableSet {y : ℝ | if isOver then τ i < y else y < τ i} :=
    measurableSet_beyond isOver (τ i) (Y := fun y : ℝ => y) measurable_id
  have key := expected_sq_error (P := P) hn
    (X := fun j ω => {x | Counts isOver (τ i) x}.indicator (fun _ => (1 : ℝ)) (X i j ω))
    (Y := fun ω => {y : ℝ | if isOver then τ i < y else y < τ i}.indicator (fun _ => (1 : ℝ)) (Y i ω))
    (a := beyondProb isOver (F i (τ i))) (s := F i (τ i) * (1 - F i (τ i))) (b := eventChance P isOver (τ i) (Y i))
    (t := eventChance P isOver (τ i) (Y i) * (1 - eventChance P isOver (τ i) (Y i)))
    (fun j hj => (hx j hj).1) y1 (fun j hj => (hx j hj).2.1.trans (hF j hj))
    (fun j hj => by rw [← hv, ← hF j hj]; exact (hx j hj).2.2) y2 y3
    (fun j hj => (d.indepY i hi' j hj).comp (measurable_const.indicator hC) (measurable_const.indicator hBm))
    (fun j l hj hl hjl => (d.indepX i hi' j l hj hl hjl).comp (measurable_const.indicator hC)
      (measurable_const.indicator hC))
  have e : ∀ ω, (avg (((List.range n).map fun j => X i j ω).map fun x => (indicator (Counts isOver (τ i) x) : ℝ)) -
      (indicator (if isOver then τ i < Y i ω else Y i ω < τ i) : ℝ)) ^ 2 =
      (avg ((List.range n).map fun j => {x | Counts isOver (τ i) x}.indicator (fun _ => (1 : ℝ)) (X i j ω)) -
        {y : ℝ | if isOver then τ i < y else y < τ i}.indicator (fun _ => (1 : ℝ)) (Y i ω)) ^ 2 := by
    intro ω
    have e' : (((List.range n).map fun j => X i j ω).map fun x => (indicator (Counts isOver (τ i) x) : ℝ)) =
        (List.range n).map fun j => {x | Counts isOver (τ i) x}.indicator (fun _ => (1 : ℝ)) (X i j ω) := by
      rw [List.map_map]
      exact List.map_congr_left fun j _ => indicator_set (Counts isOver (τ i)) (X i j ω)
    rw [hY', e']
  simp only [e]
  exact key

end Props
