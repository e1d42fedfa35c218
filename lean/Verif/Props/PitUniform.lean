import Verif.Lemmas.PitUniform
import Verif.Props.HonestCase

/-!
# The probability integral transform of an honest forecast is uniform: C117
-/

set_option linter.unusedSectionVars false

namespace Props
open Np NDArr Model Spec Lemmas MeasureTheory

section value
variable {K : Type} [Field K] [LinearOrder K] [IsStrictOrderedRing K] [FloorSemiring K]
variable {A : Type} {I : ArgInfo A} {mids : FS (PyVal K) → Path → List (FS (PyVal K))} {c : Cfg K} {emb : A → Arg K}
variable {F : ProbFns K} {C : Cls} {P : Prims (ProbX K) (PyVal K) A} {cdf : ProbX K → Thr K → Except Err (NDArr (Fl K))}

/-- what `pit()` (and `rank_hist()` without members to sample) returns at every position -/
theorem pit_value (hP : SharedProb c F emb cdf P) (hC : C ≠ .determ ∧ C ≠ .ensemble) {o : Obj (ProbX K)} {p : NDArr (Fl K)}
    (hp : cdf o.ext (.array o.ext.o) = .ok p) (hsh : p.shape = o.ext.o.shape)
    (hfin : ∀ k, InB o.ext.o.shape k → p.get k ≠ none) {req : Req A}
    (hreq : req = .slot .pit ∨ (req = .slot .rankHist ∧ P.members o.ext = false)) (w : World (PyVal K)) :
    ∃ r, result C I P mids req (unsaved o) w = .ok (some (.num r)) ∧ r.shape = o.ext.o.shape ∧
      ∀ k, InB o.ext.o.shape k → r.get k = if o.ext.randomize = some true ∧ o.ext.o.get k = some 0 then
        Fl.mul (p.get k) (some (F.uni (w.seed w.pos) k)) else p.get k := by
  obtain ⟨w', hw⟩ := pit_run hP o w
  have hpit : ∃ r, pit (cdf o.ext) (o.ext.randomize == some true) (F.uni (w.seed w.pos)) o.ext.o = .ok r ∧
      r.shape = o.ext.o.shape ∧ ∀ k, InB o.ext.o.shape k → r.get k =
        if o.ext.randomize = some true ∧ o.ext.o.get k = some 0 then
          Fl.mul (p.get k) (some (F.uni (w.seed w.pos) k)) else p.get k := by
    unfold pit
    simp only [probCdf, hp, bind, Except.bind, pure, Except.pure]
    by_cases hr : o.ext.randomize = some true
    · rw [if_pos (by rw [hr]; rfl), if_pos hsh, if_pos fun k hk _ => hfin k (mem_allIdx.1 hk)]
      refine ⟨_, rfl, rfl, fun k hk => ?_⟩
      rw [get_ofFn _ hk]
      simp only [hr, true_and]
    · rw [if_neg (by simpa using hr)]
      refine ⟨_, rfl, hsh, fun k hk => ?_⟩
      rw [if_neg fun h => hr h.1]
  obtain ⟨r, hr, r2, r3⟩ := hpit
  rw [hr] at hw
  change _ = (Except.ok (PyVal.num r), w') at hw
  refine ⟨r, ?_, r2, r3⟩
  rcases hreq with rfl | ⟨rfl, hm⟩
  · have hb : (slotBody C I P o.ext o.avg o.boot .pit).run none w = (.ok (.num r), w') := by
      simp only [slotBody]
      exact hw
    rw [result_eq]
    simp only [metricProg, slotName, Prog.callName]
    rw [if_neg (by rintro ⟨-, h⟩; rcases h with h | h; exacts [hC.1 h, hC.2 h]), run_call_none _ _ _ _ hb]
    rfl
  · have hb : (slotBody C I P o.ext o.avg o.boot .rankHist).run none w = (.ok (.num r), w') := by
      have : slotBody C I P o.ext o.avg o.boot .rankHist =
          .callName (slotName I .pit) (pitBody P o.ext) fun v => .ret (.ok v) := by
        cases C <;> first | exact absurd rfl hC.1 | exact absurd rfl hC.2 | simp only [slotBody, hm, Bool.false_eq_true, if_false]
      rw [this]
      simp only [slotName, Prog.callName]
      rw [run_call_none _ _ _ _ hw]
      rfl
    obtain ⟨nm, hn⟩ := fixed_ok I (some "rank".toList)
    rw [result_slot (s := .rankHist) rfl hn hb]
    rfl

end value

section chance
variable {A : Type} {I : ArgInfo A} {mids : FS (PyVal ℝ) → Path → List (FS (PyVal ℝ))} {c : Cfg ℝ} {emb : A → Arg ℝ}
variable {S : Scipy ℝ} {Ω : Type} [MeasurableSpace Ω] {P : Measure Ω} [IsProbabilityMeasure P]
  {sh : List Nat} {Y : List Nat → Ω → ℝ} {G : List Nat → ℝ → ℝ}

/-- the values at all positions, given the distribution function `D k` that the class announces for position `k` -/
theorem pit_random {F : Ω → ProbFns ℝ} {C : Cls} {Q : Ω → Prims (ProbX ℝ) (PyVal ℝ) A}
    {cdf : Ω → ProbX ℝ → Thr ℝ → Except Err (NDArr (Fl ℝ))} (hP : ∀ ω, SharedProb c (F ω) emb (cdf ω) (Q ω))
    (hC : C ≠ .determ ∧ C ≠ .ensemble) {o : Ω → Obj (ProbX ℝ)} {w1 : Ω → World (PyVal ℝ)}
    (d : Observed P sh (fun ω => (o ω).ext.o) Y G) {rd : Bool} (hr : ∀ ω, (o ω).ext.randomize = some rd)
    {D : List Nat → ℝ → ℝ}
    (hp : ∀ ω, ∃ p, cdf ω (o ω).ext (.array (o ω).ext.o) = .ok p ∧ p.shape = (o ω).ext.o.shape ∧
      ∀ k, InB sh k → p.get k = some (D k (Y k ω))) {req : Req A}
    (hreq : ∀ ω, req = .slot .pit ∨ (req = .slot .rankHist ∧ (Q ω).members (o ω).ext = false)) :
    ∃ r : Ω → NDArr (Fl ℝ), (∀ ω, result C I (Q ω) mids req (unsaved (o ω)) (w1 ω) = .ok (some (.num (r ω)))) ∧
      (∀ ω, (r ω).shape = sh) ∧ ∀ k, InB sh k → ∀ ω, (r ω).get k = some (if rd = true ∧ Y k ω = 0 then
        D k (Y k ω) * (F ω).uni ((w1 ω).seed (w1 ω).pos) k else D k (Y k ω)) := by
  have main : ∀ ω, ∃ r, result C I (Q ω) mids req (unsaved (o ω)) (w1 ω) = .ok (some (.num r)) ∧ r.shape = sh ∧
      ∀ k, InB sh k → r.get k = some (if rd = true ∧ Y k ω = 0 then
        D k (Y k ω) * (F ω).uni ((w1 ω).seed (w1 ω).pos) k else D k (Y k ω)) := by
    intro ω
    obtain ⟨p, p1, p2, p3⟩ := hp ω
    have hsh := d.shape ω
    obtain ⟨r, r1, r2, r3⟩ := pit_value (I := I) (mids := mids) (hP ω) hC p1 p2
      (fun k hk => by rw [p3 k (hsh ▸ hk)]; simp) (hreq ω) (w1 ω)
    refine ⟨r, r1, r2.trans hsh, fun k hk => ?_⟩
    rw [r3 k (by rw [hsh]; exact hk), p3 k hk, d.value k hk ω, hr ω]
    simp only [Option.some.injEq]
    split_ifs <;> rfl
  choose r r1 r2 r3 using main
  exact ⟨r, r1, r2, fun k hk ω => r3 ω k hk⟩

/-- **C117**, Gaussian class. The observations are random, with distribution functions `G`. Where `G` is the distribution
announced for a position, the number that `pit()` gives there is uniform between zero and one, randomised or not. It is
not uniform for another distribution: untruncated and not randomised, for no other one; truncated, for no other one of
numbers that are not negative. -/
theorem C117_gauss {F : Ω → ProbFns ℝ} {oi o : Ω → Obj (ProbX ℝ)} {w w' w1 : Ω → World (PyVal ℝ)}
    (h : ∀ ω, construct (gaussPrims c (F ω) emb) mids (oi ω) (w ω) = (.ok (o ω), w' ω))
    (hS : ∀ ω, (F ω).scipy = S) (hE : ExactLib S) (hL : UnitLib S)
    (hu : ∀ ω s k, 0 ≤ (F ω).uni s k ∧ (F ω).uni s k < 1) (hpool : PoolOK c.workers c.mapAxis sh)
    (d : Observed P sh (fun ω => (oi ω).ext.o) Y G) {tr rd : Bool} (htr : ∀ ω, (oi ω).ext.truncated = some tr)
    (hr : ∀ ω, (oi ω).ext.randomize = some rd)
    {mu sigma : NDArr (Fl ℝ)} (hmu : ∀ ω, HasPar (oi ω).ext "mu" mu) (hsg : ∀ ω, HasPar (oi ω).ext "sigma" sigma)
    {m sd : List Nat → ℝ} (hv : ∀ i, InB sh i → mu.get i = some (m i) ∧ sigma.get i = some (sd i) ∧ 0 < sd i)
    {req : Req A} (hreq : req = .slot .pit ∨ (req = .slot .rankHist ∧ ∀ ω, (oi ω).ext.members = .none)) :
    ∃ r : Ω → NDArr (Fl ℝ),
      (∀ ω, result .gaussian I (gaussPrims c (F ω) emb) mids req (unsaved (o ω)) (w1 ω) = .ok (some (.num (r ω)))) ∧
      (∀ ω, (r ω).shape = sh) ∧
      ∀ k, InB sh k → ∃ Z : Ω → ℝ, (∀ ω, (r ω).get k = some (Z ω)) ∧
        (G k = gaussLaw tr (m k) (sd k) → IsUniform P Z) ∧
        ((tr = false ∧ rd = false ∨ tr = true ∧ ∀ ω, 0 ≤ Y k ω) → IsUniform P Z → G k = gaussLaw tr (m k) (sd k)) := by
  have hx : ∀ ω, (o ω).ext = (oi ω).ext := fun ω => (construct_prob (shared_gauss c (F ω) emb) (h ω)).1
  have hp : ∀ ω, ∃ q, gaussCdf c (F ω) (o ω).ext (.array (o ω).ext.o) = .ok q ∧ q.shape = (o ω).ext.o.shape ∧
      ∀ k, InB sh k → q.get k = some (gaussLaw tr (m k) (sd k) (Y k ω)) := by
    intro ω
    rw [hx]
    have hsh := d.shape ω
    obtain ⟨p, p1, p2, p3⟩ := gaussCdf_ok (c := c) (hmu ω) (hsg ω) (t := .array (oi ω).ext.o) (by rw [hS ω]; exact hL) rfl
      (by rw [hsh]; exact hpool)
    refine ⟨p, p1, p2, fun k hk => ?_⟩
    obtain ⟨e1, e2, e3⟩ := hv k hk
    rw [p3 k (by rw [hsh]; exact hk), thrAt, d.value k hk ω, e1, e2, hS]
    simp only [gaussProb, ProbX.trunc, htr, gaussLaw]
    cases tr with
    | false => simpa using hE.norm _ _ _ e3
    | true =>
      simp only [beq_self_eq_true, if_true, ratio, e3.ne', if_false]
      rw [hE.truncnorm _ _ _ _ e3]
      congr 2
      field_simp
      ring
  have hm : ∀ ω, req = .slot .pit ∨ (req = .slot .rankHist ∧ (gaussPrims c (F ω) emb).members (o ω).ext = false) := by
    intro ω
    rcases hreq with rfl | ⟨rfl, hm⟩
    · exact .inl rfl
    · refine .inr ⟨rfl, ?_⟩
      rw [hx, show (gaussPrims c (F ω) emb).members (oi ω).ext = match (oi ω).ext.members with | .none => false | _ => true from rfl,
        hm ω]
  obtain ⟨r, r1, r2, r3⟩ := pit_random (I := I) (mids := mids) (w1 := w1) (F := F) (C := .gaussian) (req := req) (D := fun k => gaussLaw tr (m k) (sd k))
    (fun ω => shared_gauss c (F ω) emb) (by decide) (o := o) (Y := Y) (G := G) (P := P) (sh := sh) (rd := rd)
    ⟨fun ω => by rw [hx]; exact d.shape ω, fun i hi ω => by simp only [hx]; exact d.value i hi ω, d.meas, d.law⟩
    (fun ω => by rw [hx]; exact hr ω) hp hm
  refine ⟨r, r1, r2, fun k hk => ⟨_, r3 k hk, fun hG => ?_, ?_⟩⟩
  · have hl : ∀ x, P.real {ω | Y k ω ≤ x} = gaussLaw tr (m k) (sd k) x := fun x => by rw [d.law k hk x, hG]
    cases rd with
    | false => simpa using uniform_of_continuous (d.meas k hk) hl (continuous_gaussLaw _ _ _)
    | true => simpa using atomless_any (d.meas k hk) hl (continuous_gaussLaw _ _ _) _
  · obtain ⟨-, -, hs⟩ := hv k hk
    rintro (⟨rfl, rfl⟩ | ⟨rfl, hpos⟩) hU
    · funext x
      rw [← d.law k hk x]
      refine law_of_uniform (F := gaussLaw false (m k) (sd k)) (fun a b hab => ?_) (fun x => (unit_normal _ _).lo x)
        (fun x => (unit_normal _ _).hi x) (by simpa using hU) x
      exact strictMono_Phi (div_lt_div_of_pos_right (sub_lt_sub_right hab _) hs)
    · funext x
      rw [← d.law k hk x]
      exact (atomLaw_trunc hs).honest hpos (fun ω => hu ω _ k) hU x

/-- the two ways of treating zero observations -/
theorem atom_both {F : Ω → ProbFns ℝ} {w1 : Ω → World (PyVal ℝ)} {rd : Bool} {k : List Nat} {D : ℝ → ℝ} (hD : AtomLaw D)
    (hm : Measurable (Y k)) (hl : ∀ x, P.real {ω | Y k ω ≤ x} = G k x) (hpos : ∀ ω, 0 ≤ Y k ω)
    (hu : ∀ ω s k, 0 ≤ (F ω).uni s k ∧ (F ω).uni s k < 1) {Z : Ω → ℝ}
    (hZ : ∀ ω, Z ω = if rd = true ∧ Y k ω = 0 then D (Y k ω) * (F ω).uni ((w1 ω).seed (w1 ω).pos) k else D (Y k ω)) :
    (IsUniform P Z → G k = D) ∧
    (rd = true → IsUniform P (fun ω => (F ω).uni ((w1 ω).seed (w1 ω).pos) k) →
      ProbabilityTheory.IndepFun (Y k) (fun ω => (F ω).uni ((w1 ω).seed (w1 ω).pos) k) P → G k = D → IsUniform P Z) ∧
    (rd = false → G k = D → ∀ u, 0 ≤ u → u ≤ 1 → P.real {ω | Z ω ≤ u} = if u < D 0 then 0 else u) := by
  obtain rfl : Z = _ := funext hZ
  refine ⟨fun hU => ?_, ?_, ?_⟩
  · funext x
    rw [← hl x]
    exact hD.honest hpos (fun ω => hu ω _ k) hU x
  · rintro rfl hU hi rfl
    have := atom_random hm hpos hl hD.cont (fun ω => hu ω _ k) hU hi
    convert this using 2 with ω
    split_ifs with h1 h2 h2 <;> simp_all
  · rintro rfl rfl u - h1
    simpa using atom_plain hm hpos hl hD.cont h1

/-- **C117**, gamma class, observations that are not negative. Randomised, the numbers that `pit()` gives for a position are
uniform exactly if the observations there have the announced distribution, censored at zero. Not randomised, they are not
uniform for the announced distribution: levels below the announced probability of zero are never reached. -/
theorem C117_gamma {F : Ω → ProbFns ℝ} {oi o : Ω → Obj (ProbX ℝ)} {w w' w1 : Ω → World (PyVal ℝ)}
    (h : ∀ ω, construct (gammaPrims c (F ω) emb) mids (oi ω) (w ω) = (.ok (o ω), w' ω))
    (hS : ∀ ω, (F ω).scipy = S) (hE : ExactLib S) (hL : UnitLib S)
    (hu : ∀ ω s k, 0 ≤ (F ω).uni s k ∧ (F ω).uni s k < 1) (hpool : PoolOK c.workers c.mapAxis sh)
    (d : Observed P sh (fun ω => (oi ω).ext.o) Y G) (hpos : ∀ i, InB sh i → ∀ ω, 0 ≤ Y i ω)
    (htr : ∀ ω, (oi ω).ext.truncated = some false)
    {rd : Bool} (hr : ∀ ω, (oi ω).ext.randomize = some rd)
    (hf : rd = true → FreshDraws P sh Y fun k ω => (F ω).uni ((w1 ω).seed (w1 ω).pos) k)
    {umu sigma shift : NDArr (Fl ℝ)} (humu : ∀ ω, HasPar (oi ω).ext "unshifted_mu" umu) (hsigma : ∀ ω, HasPar (oi ω).ext "sigma" sigma) (hshift : ∀ ω, HasPar (oi ω).ext "shift" shift)
    {m sd a : List Nat → ℝ} (hv : ∀ i, InB sh i → umu.get i = some (m i) ∧ sigma.get i = some (sd i) ∧
      shift.get i = some (a i) ∧ 0 < m i ∧ 0 < sd i)
    {req : Req A} (hreq : req = .slot .pit ∨ (req = .slot .rankHist ∧ ∀ ω, (oi ω).ext.members = .none)) :
    ∃ r : Ω → NDArr (Fl ℝ),
      (∀ ω, result .gamma I (gammaPrims c (F ω) emb) mids req (unsaved (o ω)) (w1 ω) = .ok (some (.num (r ω)))) ∧
      (∀ ω, (r ω).shape = sh) ∧
      ∀ k, InB sh k → ∃ Z : Ω → ℝ, (∀ ω, (r ω).get k = some (Z ω)) ∧
        (rd = true → (IsUniform P Z ↔ G k = censoredGammaCdf (m k) (sd k) (a k))) ∧
        (rd = false → G k = censoredGammaCdf (m k) (sd k) (a k) → ∀ u, 0 ≤ u → u ≤ 1 →
          P.real {ω | Z ω ≤ u} = if u < G k 0 then 0 else u) := by
  have hx : ∀ ω, (o ω).ext = (oi ω).ext := fun ω => (construct_prob (shared_gamma c (F ω) emb) (h ω)).1
  have hp : ∀ ω, ∃ q, gammaCdfOf c (F ω) (o ω).ext (.array (o ω).ext.o) = .ok q ∧ q.shape = (o ω).ext.o.shape ∧
      ∀ k, InB sh k → q.get k = some (censoredGammaCdf (m k) (sd k) (a k) (Y k ω)) := by
    intro ω
    rw [hx]
    have hsh := d.shape ω
    obtain ⟨p, p1, p2, p3⟩ := gammaCdfOf_ok (c := c) (humu ω) (hsigma ω) (hshift ω) (t := .array (oi ω).ext.o)
      (by simp [ProbX.trunc, htr ω]) (by rw [hS ω]; exact hL) rfl (by rw [hsh]; exact hpool)
    refine ⟨p, p1, p2, fun k hk => ?_⟩
    obtain ⟨e1, e2, e3, e4, e5⟩ := hv k hk
    rw [p3 k (by rw [hsh]; exact hk), thrAt, d.value k hk ω, e1, e2, e3, hS]
    simp only [gammaProb, gammaPars, ratio, e4.ne', e5.ne', if_false, Option.map_some]
    rw [hE.gamma _ _ _ _ (by positivity) (by positivity), censoredGammaCdf, if_neg (not_lt.2 (hpos k hk ω))]
  have hm : ∀ ω, req = .slot .pit ∨ (req = .slot .rankHist ∧ (gammaPrims c (F ω) emb).members (o ω).ext = false) := by
    intro ω
    rcases hreq with rfl | ⟨rfl, hm⟩
    · exact .inl rfl
    · refine .inr ⟨rfl, ?_⟩
      rw [hx, show (gammaPrims c (F ω) emb).members (oi ω).ext =
        match (oi ω).ext.members with | .none => false | _ => true from rfl, hm ω]
  obtain ⟨r, r1, r2, r3⟩ := pit_random (I := I) (mids := mids) (w1 := w1) (F := F) (C := .gamma) (req := req)
    (D := fun k => censoredGammaCdf (m k) (sd k) (a k))
    (fun ω => shared_gamma c (F ω) emb) (by decide) (o := o) (Y := Y) (G := G) (P := P) (sh := sh) (rd := rd)
    ⟨fun ω => by rw [hx]; exact d.shape ω, fun i hi ω => by simp only [hx]; exact d.value i hi ω, d.meas, d.law⟩
    (fun ω => by rw [hx]; exact hr ω) hp hm
  refine ⟨r, r1, r2, fun k hk => ⟨_, r3 k hk, ?_⟩⟩
  obtain ⟨-, -, -, e4, e5⟩ := hv k hk
  obtain ⟨a1, a2, a3⟩ := atom_both (F := F) (w1 := w1) (rd := rd) (k := k) (Y := Y) (atomLaw_gamma e4 e5 (a k))
    (G := G) (P := P) (d.meas k hk) (d.law k hk) (hpos k hk) hu fun ω => rfl
  exact ⟨fun hrd => ⟨a1, a2 hrd ((hf hrd).uniform k hk) ((hf hrd).indep k hk)⟩,
    fun hrd hG u h0 h1 => by rw [a3 hrd hG u h0 h1, hG]⟩

/-- **C117**, hurdle class, observations that are not negative and a positive probability of precipitation: the same, with
the announced distribution that is zero with probability `1 - pop` and gamma distributed otherwise. -/
theorem C117_hurdle {F : Ω → ProbFns ℝ} {ofNum : ℝ → A} {oi o : Ω → Obj (ProbX ℝ)} {w w' w1 : Ω → World (PyVal ℝ)}
    (h : ∀ ω, construct (hurdlePrims c (F ω) emb ofNum) mids (oi ω) (w ω) = (.ok (o ω), w' ω))
    (hS : ∀ ω, (F ω).scipy = S) (hE : ExactLib S) (hL : UnitLib S)
    (hu : ∀ ω s k, 0 ≤ (F ω).uni s k ∧ (F ω).uni s k < 1) (hpool : PoolOK c.workers c.mapAxis sh)
    (d : Observed P sh (fun ω => (oi ω).ext.o) Y G) (hpos : ∀ i, InB sh i → ∀ ω, 0 ≤ Y i ω)
    {rd : Bool} (hr : ∀ ω, (oi ω).ext.randomize = some rd)
    (hf : rd = true → FreshDraws P sh Y fun k ω => (F ω).uni ((w1 ω).seed (w1 ω).pos) k)
    {pop mu sigma : NDArr (Fl ℝ)} (hpop : ∀ ω, HasPar (oi ω).ext "pop" pop) (hmu : ∀ ω, HasPar (oi ω).ext "mu" mu) (hsigma : ∀ ω, HasPar (oi ω).ext "sigma" sigma)
    {p m sd : List Nat → ℝ} (hv : ∀ i, InB sh i → pop.get i = some (p i) ∧ mu.get i = some (m i) ∧
      sigma.get i = some (sd i) ∧ 0 < p i ∧ p i ≤ 1 ∧ 0 < m i ∧ 0 < sd i)
    {req : Req A} (hreq : req = .slot .pit ∨ (req = .slot .rankHist ∧ ∀ ω, (oi ω).ext.members = .none)) :
    ∃ r : Ω → NDArr (Fl ℝ),
      (∀ ω, result .hurdle I (hurdlePrims c (F ω) emb ofNum) mids req (unsaved (o ω)) (w1 ω) = .ok (some (.num (r ω)))) ∧
      (∀ ω, (r ω).shape = sh) ∧
      ∀ k, InB sh k → ∃ Z : Ω → ℝ, (∀ ω, (r ω).get k = some (Z ω)) ∧
        (rd = true → (IsUniform P Z ↔ G k = hurdleLaw (p k) (m k) (sd k))) ∧
        (rd = false → G k = hurdleLaw (p k) (m k) (sd k) → ∀ u, 0 ≤ u → u ≤ 1 →
          P.real {ω | Z ω ≤ u} = if u < G k 0 then 0 else u) := by
  have hx : ∀ ω, (o ω).ext = (oi ω).ext := fun ω => (construct_prob (shared_hurdle c (F ω) emb ofNum) (h ω)).1
  have hp : ∀ ω, ∃ q, hurdleCdfOf c (F ω) (o ω).ext (.array (o ω).ext.o) = .ok q ∧ q.shape = (o ω).ext.o.shape ∧
      ∀ k, InB sh k → q.get k = some (hurdleLaw (p k) (m k) (sd k) (Y k ω)) := by
    intro ω
    rw [hx]
    have hsh := d.shape ω
    obtain ⟨q, p1, p2, p3⟩ := hurdleCdfOf_ok (c := c) (hpop ω) (hmu ω) (hsigma ω) (t := .array (oi ω).ext.o)
      (fun k v hk e => by
        rw [hsh] at hk
        obtain ⟨e1, -, -, e2, e3, -⟩ := hv k hk
        rw [e1] at e
        cases e
        exact ⟨e2.le, e3⟩) (by rw [hS ω]; exact hL) rfl (by rw [hsh]; exact hpool)
    refine ⟨q, p1, p2, fun k hk => ?_⟩
    obtain ⟨e1, e2, e3, e4, e5, e6, e7⟩ := hv k hk
    rw [p3 k (by rw [hsh]; exact hk), thrAt, d.value k hk ω, e1, e2, e3, hS]
    have hk' : 0 < (m k / sd k) ^ 2 := by positivity
    have hy := hpos k hk ω
    simp only [hurdleProb, gammaProb, gammaPars, ratio, e6.ne', e7.ne', if_false, Option.map_some,
      hE.gamma _ _ _ _ hk' (show 0 < sd k ^ 2 / m k by positivity), hurdleLaw, not_lt.2 hy]
    rcases hy.eq_or_lt with hy | hy
    · rw [if_neg (by simp [LtP, ← hy]), ← hy, zero_div, gammaCdf_of_nonpos le_rfl]
      simp
    · rw [if_pos (by simpa [LtP] using hy), sub_zero]
  have hm : ∀ ω, req = .slot .pit ∨ (req = .slot .rankHist ∧ (hurdlePrims c (F ω) emb ofNum).members (o ω).ext = false) := by
    intro ω
    rcases hreq with rfl | ⟨rfl, hm⟩
    · exact .inl rfl
    · refine .inr ⟨rfl, ?_⟩
      rw [hx, show (hurdlePrims c (F ω) emb ofNum).members (oi ω).ext =
        match (oi ω).ext.members with | .none => false | _ => true from rfl, hm ω]
  obtain ⟨r, r1, r2, r3⟩ := pit_random (I := I) (mids := mids) (w1 := w1) (F := F) (C := .hurdle) (req := req)
    (D := fun k => hurdleLaw (p k) (m k) (sd k))
    (fun ω => shared_hurdle c (F ω) emb ofNum) (by decide) (o := o) (Y := Y) (G := G) (P := P) (sh := sh) (rd := rd)
    ⟨fun ω => by rw [hx]; exact d.shape ω, fun i hi ω => by simp only [hx]; exact d.value i hi ω, d.meas, d.law⟩
    (fun ω => by rw [hx]; exact hr ω) hp hm
  refine ⟨r, r1, r2, fun k hk => ⟨_, r3 k hk, ?_⟩⟩
  obtain ⟨-, -, -, e4, e5, e6, e7⟩ := hv k hk
  obtain ⟨a1, a2, a3⟩ := atom_both (F := F) (w1 := w1) (rd := rd) (k := k) (Y := Y) (atomLaw_hurdle e4 e5 e6 e7)
    (G := G) (P := P) (d.meas k hk) (d.law k hk) (hpos k hk) hu fun ω => rfl
  exact ⟨fun hrd => ⟨a1, a2 hrd ((hf hrd).uniform k hk) ((hf hrd).indep k hk)⟩,
    fun hrd hG u h0 h1 => by rw [a3 hrd hG u h0 h1, hG]⟩

end chance

end Props
