import Verif.Lemmas.RankSample
import Verif.Spec.RankSample
import Verif.Props.RankFlat
import Verif.Props.EndToEndSample

/-!
# The rank histogram of members that the verifier draws itself: C122
-/

set_option linter.unusedSectionVars false

namespace Props
open Np NDArr Model Spec Lemmas MeasureTheory ProbabilityTheory

variable {A : Type} {I : ArgInfo A} {c : Cfg ℝ} {emb : A → Arg ℝ}
  {mids : FS (PyVal ℝ) → Model.Path → List (FS (PyVal ℝ))}
variable {Ω : Type} [MeasurableSpace Ω] {P : Measure Ω} [IsProbabilityMeasure P] {sh : List Nat}

theorem numLe_ofFn {n : Nat} {z : Fin (n + 1) → ℝ} (hz : Function.Injective z) :
    numLe (List.ofFn fun j : Fin n => some (z j.succ)) (some (z 0)) =
      numLt (List.ofFn fun j : Fin n => some (z j.succ)) (some (z 0)) := by
  unfold numLe numLt
  congr 1
  refine List.filter_congr fun x hx => ?_
  obtain ⟨j, rfl⟩ := List.mem_ofFn.1 hx
  have : z j.succ ≠ z 0 := fun e => Fin.succ_ne_zero j (hz e)
  have e : LeP (some (z j.succ)) (some (z 0)) ↔ LtP (some (z j.succ)) (some (z 0)) := by
    simp [LeP, LtP, le_iff_lt_or_eq, this]
  exact decide_eq_decide.2 e

section value
variable {C : Cls} {F : ProbFns ℝ} {Q : Prims (ProbX ℝ) (PyVal ℝ) A} {cdf : ProbX ℝ → Thr ℝ → Except Err (NDArr (Fl ℝ))}

/-- the rank among freshly drawn members when nothing ties -/
theorem sampled_rank (hP : SharedProb c F emb cdf Q) (hC : C = .gaussian ∨ C = .gamma)
    {oi o : Obj (ProbX ℝ)} {w w' : World (PyVal ℝ)} (h : construct Q mids oi w = (.ok o, w'))
    {ps : List (NDArr (Fl ℝ))} (hS : Samples c F Q oi.ext ps) {n : Nat} (hn : oi.ext.members = .val (n : Int))
    (hcl : oi.ext.clip = .none) (hmv : oi.ext.moveAxis = some (-1)) (hpool : PoolRuns c.workers c.mapAxis sh)
    (hmap : MapOK c.workers c.mapAxis sh) (hne : sh ≠ []) (hskip : c.skipNan = false) {w1 : World (PyVal ℝ)}
    {z : List Nat → Fin (n + 1) → ℝ} (hsh : oi.ext.o.shape = sh) (hv : ∀ k, InB sh k → oi.ext.o.get k = some (z k 0))
    (hd : ∀ k, InB sh k → ∀ j : Fin n,
      drawAt c.workers c.mapAxis (F.rvs (w1.seed w1.pos) oi.ext.trunc ps) sh j k = some (z k j.succ)) :
    ∃ r, result C I Q mids (.slot .rankHist) (unsaved o) w1 = .ok (some (.ranks r)) ∧ r.shape = sh ∧
      ∀ k, InB sh k → Function.Injective (z k) → r.get k = some (1 + below (z k) 0) := by
  subst hsh
  obtain ⟨r, r1, r2, r3⟩ := C76_rank_hist (I := I) hP hC h hS hn hmv hpool hmap hne hskip w1
    (fun k hk m hm => by
      have := hd k hk ⟨m, hm⟩
      rw [show ((⟨m, hm⟩ : Fin n) : Nat) = m from rfl] at this
      rw [this]; simp)
    (not_none_data (y := fun k => z k 0) hv)
  refine ⟨r, r1, r2, fun k hk hz => ?_⟩
  obtain ⟨j, j1, j2, -, -⟩ := r3 k hk
  have hM : ((List.range n).map fun m => clipMember (clipOf oi.ext.clip)
      (drawAt c.workers c.mapAxis (F.rvs (w1.seed w1.pos) oi.ext.trunc ps) oi.ext.o.shape m k)) =
      List.ofFn fun j : Fin n => some (z k j.succ) := by
    rw [hcl]
    refine List.ext_getElem (by simp) fun i h1 h2 => ?_
    have hi : i < n := by simpa using h1
    simp only [List.getElem_map, List.getElem_range, List.getElem_ofFn, clipOf, clipMember]
    exact hd k hk ⟨i, hi⟩
  rw [hM, hv k hk] at j2
  obtain ⟨j3, j4⟩ := j2
  rw [numLe_ofFn hz] at j4
  rw [numLt_ofFn] at j3 j4
  rw [j1]
  congr 1
  omega

end value

/-- what is needed of the distribution from which the members are drawn -/
structure MemberLaw (D : ℝ → ℝ) : Prop where
  cont : Continuous D
  mono : Monotone D
  lo : ∀ x, 0 ≤ D x
  hi : ∀ x, D x ≤ 1
  strict : ∀ x y, x < y → D x = 0 ∨ D x < D y

theorem memberLaw_gauss (tr : Bool) (m : ℝ) {s : ℝ} (hs : 0 < s) : MemberLaw (gaussLaw tr m s) := by
  cases tr with
  | false =>
    have hst : StrictMono (gaussLaw false m s) := fun a b hab =>
      strictMono_Phi (div_lt_div_of_pos_right (sub_lt_sub_right hab _) hs)
    exact ⟨continuous_gaussLaw _ _ _, hst.monotone, (unit_normal _ _).lo, (unit_normal _ _).hi, fun x y h => .inr (hst h)⟩
  | true =>
    have ha := atomLaw_trunc (m := m) hs
    refine ⟨continuous_gaussLaw _ _ _, ha.mono, (unit_trunc m hs 0).lo, ha.le_one, fun x y h => ?_⟩
    rcases lt_or_ge x 0 with hx | hx
    · exact .inl (ha.neg x hx)
    · exact .inr (truncNormalCdf_strict hs hx h)

theorem memberLaw_gamma {m s : ℝ} (hm : 0 < m) (hs : 0 < s) (a : ℝ) : MemberLaw (shiftedGammaCdf m s a) := by
  have hk : 0 < (m / s) ^ 2 := by positivity
  have ht : 0 < s ^ 2 / m := by positivity
  have hmo : ∀ x y, x < y → (x - a) / (s ^ 2 / m) < (y - a) / (s ^ 2 / m) := fun x y h =>
    div_lt_div_of_pos_right (sub_lt_sub_right h _) ht
  refine ⟨(continuous_gammaCdf hk).comp (by fun_prop), fun x y h => ?_, fun x => gammaCdf_nonneg' hk _,
    fun x => gammaCdf_le_one hk _, fun x y h => gammaCdf_strict hk (hmo x y h)⟩
  exact gammaCdf_mono hk (div_le_div_of_nonneg_right (sub_le_sub_right h _) ht.le)

/-- the ranks over all numbers of members, for a class that draws from `D` -/
theorem sampled_flat {C : Cls} {F : Ω → ProbFns ℝ} {Q : Ω → Prims (ProbX ℝ) (PyVal ℝ) A}
    {cdf : Ω → ProbX ℝ → Thr ℝ → Except Err (NDArr (Fl ℝ))} (hP : ∀ ω, SharedProb c (F ω) emb (cdf ω) (Q ω))
    (hC : C = .gaussian ∨ C = .gamma) {oi o : Nat → Ω → Obj (ProbX ℝ)} {w w' w1 : Nat → Ω → World (PyVal ℝ)}
    (h : ∀ n ω, construct (Q ω) mids (oi n ω) (w n ω) = (.ok (o n ω), w' n ω))
    {ps : List (NDArr (Fl ℝ))} (hS : ∀ n ω, Samples c (F ω) (Q ω) (oi n ω).ext ps)
    (hn : ∀ n ω, (oi n ω).ext.members = .val (n : Int)) (hcl : ∀ n ω, (oi n ω).ext.clip = .none)
    (hmv : ∀ n ω, (oi n ω).ext.moveAxis = some (-1)) (hpool : PoolRuns c.workers c.mapAxis sh)
    (hmap : MapOK c.workers c.mapAxis sh) (hne : sh ≠ []) (hskip : c.skipNan = false)
    {Z : (n : Nat) → List Nat → Fin (n + 1) → Ω → ℝ} {G D : List Nat → ℝ → ℝ}
    (d : ∀ n, Sampled P sh n (fun ω => (oi n ω).ext.o) (fun ω => drawAt c.workers c.mapAxis
      ((F ω).rvs ((w1 n ω).seed (w1 n ω).pos) (oi n ω).ext.trunc ps) sh) (Z n) G D)
    (hD : ∀ k, InB sh k → MemberLaw (D k)) :
    ∃ r : Nat → Ω → NDArr (Option Nat),
      (∀ n ω, result C I (Q ω) mids (.slot .rankHist) (unsaved (o n ω)) (w1 n ω) = .ok (some (.ranks (r n ω)))) ∧
      (∀ k, InB sh k → G k = D k → ∀ n j, 1 ≤ j → j ≤ n + 1 → P.real {ω | (r n ω).get k = some j} = 1 / (n + 1)) ∧
      (∀ L : List (List Nat), (∀ k ∈ L, InB sh k ∧ G k = D k) → ∀ n j, 1 ≤ j → j ≤ n + 1 →
        ∫ ω, ((L.map (r n ω).get).count (some j) : ℝ) ∂P = L.length / (n + 1)) ∧
      (∀ k, InB sh k → (∀ n : Nat, P.real {ω | (r n ω).get k = some (n + 1)} = 1 / (n + 1)) → G k = D k) ∧
      ∀ k, InB sh k → ∀ n : Nat, P.real {ω | (r n ω).get k = some (n + 1)} = ∫ ω, D k (Z n k 0 ω) ^ n ∂P := by
  choose r r1 r2 r3 using fun n ω => sampled_rank (I := I) (w1 := w1 n ω) (hP ω) hC (h n ω) (hS n ω) (hn n ω) (hcl n ω)
    (hmv n ω) hpool hmap hne hskip (z := fun k j => Z n k j ω) ((d n).shape ω) (fun k hk => (d n).value k hk ω)
    (fun k hk j => (d n).member k hk j ω)
  have hcl' : ∀ n k, InB sh k → Distinct P (Z n k) := fun n k hk =>
    distinct_of_continuous ((d n).meas k hk) (fun j l hjl => ((d n).indep k hk).indepFun hjl)
      (F := fun j => Fin.cases (G k) (fun _ => D k) j)
      (fun j => Fin.cases ((d n).law k hk) (fun i => (d n).drawn k hk i) j)
      (fun j l hjl => by
        rcases Fin.eq_zero_or_eq_succ j with rfl | ⟨i, rfl⟩
        · obtain ⟨i, rfl⟩ := Fin.exists_succ_eq.2 hjl.symm
          exact .inr (hD k hk).cont
        · exact .inl (hD k hk).cont)
  have hex : ∀ n k, InB sh k → G k = D k → ExchLaw P (Z n k) := fun n k hk e =>
    exch_of_iid ((d n).meas k hk) ((d n).indep k hk) (F := D k) fun j => by
      refine Fin.cases (fun x => ?_) (fun i => (d n).drawn k hk i) j
      rw [← e]
      exact (d n).law k hk x
  have htop : ∀ k, InB sh k → ∀ n : Nat,
      P.real {ω | (r n ω).get k = some (n + 1)} = ∫ ω, D k (Z n k 0 ω) ^ n ∂P := by
    intro k hk n
    have e1 := measureReal_congr ((flat_of_below (P := P) (d n).meas (r3 n)).1 k hk (hcl' n k hk) (n + 1) (by omega))
    rw [Nat.add_sub_cancel, top_moment ((d n).meas k hk) ((d n).indep k hk) (hD k hk).cont ((d n).drawn k hk)
      (hD k hk).lo] at e1
    exact e1
  refine ⟨r, r1, fun k hk e n j h1 h2 => ?_, fun L hL n j h1 h2 => ?_, fun k hk hflat => ?_, htop⟩
  · exact (flat_of_below (P := P) (d n).meas (r3 n)).2.1 k hk (hex n k hk e) (hcl' n k hk) j h1 h2
  · exact ((flat_of_below (P := P) (d n).meas (r3 n)).2.2 L (fun k hk => ⟨(hL k hk).1, hex n k (hL k hk).1 (hL k hk).2,
      hcl' n k (hL k hk).1⟩) j h1 h2).2
  · have hDk := hD k hk
    have hmom : ∀ n : Nat, ∫ ω, D k (Z 0 k 0 ω) ^ n ∂P = 1 / ((n : ℝ) + 1) := by
      intro n
      have e1 := htop k hk n
      rw [hflat n] at e1
      rw [e1]
      have hlaw : P.map (Z 0 k 0) = P.map (Z n k 0) := by
        have := Measure.isProbabilityMeasure_map (μ := P) ((d 0).meas k hk 0).aemeasurable
        refine Measure.ext_of_Iic _ _ fun x => ?_
        have hh : ∀ l, P.map (Z l k 0) (Set.Iic x) = ENNReal.ofReal (G k x) := fun l => by
          rw [Measure.map_apply ((d l).meas k hk 0) measurableSet_Iic, ← (d l).law k hk x, ofReal_measureReal]
          rfl
        rw [hh, hh]
      have hcn : Continuous fun y => D k y ^ n := hDk.cont.pow n
      have i1 := integral_map (μ := P) ((d 0).meas k hk 0).aemeasurable (f := fun y => D k y ^ n) hcn.aestronglyMeasurable
      have i2 := integral_map (μ := P) ((d n).meas k hk 0).aemeasurable (f := fun y => D k y ^ n) hcn.aestronglyMeasurable
      rw [← i1, ← i2, hlaw]
    have hU := uniform_of_moments (P := P) (Z := fun ω => D k (Z 0 k 0 ω)) (hDk.cont.measurable.comp ((d 0).meas k hk 0))
      (fun ω => hDk.lo _) (fun ω => hDk.hi _) hmom
    funext x
    rw [← (d 0).law k hk x]
    exact law_of_uniform' hDk.lo hDk.hi hDk.mono hDk.strict hU x

/-- **C122**, Gaussian class, truncated or not: `n_sample_members` members are drawn independently from the announced
distribution and nothing is clipped. Where the observations have the announced distribution, every rank from 1 to `n + 1`
is equally likely, and in a histogram over any such positions every rank has the same expected frequency. Conversely, if
observations of a continuous distribution have the highest rank as often as they should for every number of members, then
their distribution is the announced one. -/
theorem C122_gauss {F : Ω → ProbFns ℝ} {oi o : Nat → Ω → Obj (ProbX ℝ)} {w w' w1 : Nat → Ω → World (PyVal ℝ)}
    (h : ∀ n ω, construct (gaussPrims c (F ω) emb) mids (oi n ω) (w n ω) = (.ok (o n ω), w' n ω))
    (hn : ∀ n ω, (oi n ω).ext.members = .val (n : Int)) (hcl : ∀ n ω, (oi n ω).ext.clip = .none)
    (hmv : ∀ n ω, (oi n ω).ext.moveAxis = some (-1)) (hpool : PoolRuns c.workers c.mapAxis sh)
    (hmap : MapOK c.workers c.mapAxis sh) (hne : sh ≠ []) (hskip : c.skipNan = false)
    {tr : Bool} (htr : ∀ n ω, (oi n ω).ext.truncated = some tr)
    {mu sigma : NDArr (Fl ℝ)} (hmu : ∀ n ω, HasPar (oi n ω).ext "mu" mu) (hsg : ∀ n ω, HasPar (oi n ω).ext "sigma" sigma)
    {m sd : List Nat → ℝ} (hv : ∀ i, InB sh i → mu.get i = some (m i) ∧ sigma.get i = some (sd i) ∧ 0 < sd i)
    {Z : (n : Nat) → List Nat → Fin (n + 1) → Ω → ℝ} {G : List Nat → ℝ → ℝ}
    (d : ∀ n, Sampled P sh n (fun ω => (oi n ω).ext.o) (fun ω => drawAt c.workers c.mapAxis
      ((F ω).rvs ((w1 n ω).seed (w1 n ω).pos) tr [mu, sigma]) sh) (Z n) G fun k => gaussLaw tr (m k) (sd k)) :
    ∃ r : Nat → Ω → NDArr (Option Nat),
      (∀ n ω, result .gaussian I (gaussPrims c (F ω) emb) mids (.slot .rankHist) (unsaved (o n ω)) (w1 n ω) =
        .ok (some (.ranks (r n ω)))) ∧
      (∀ k, InB sh k → G k = gaussLaw tr (m k) (sd k) → ∀ n j, 1 ≤ j → j ≤ n + 1 →
        P.real {ω | (r n ω).get k = some j} = 1 / (n + 1)) ∧
      (∀ L : List (List Nat), (∀ k ∈ L, InB sh k ∧ G k = gaussLaw tr (m k) (sd k)) → ∀ n j, 1 ≤ j → j ≤ n + 1 →
        ∫ ω, ((L.map (r n ω).get).count (some j) : ℝ) ∂P = L.length / (n + 1)) ∧
      ∀ k, InB sh k → (∀ n : Nat, P.real {ω | (r n ω).get k = some (n + 1)} = 1 / (n + 1)) →
        G k = gaussLaw tr (m k) (sd k) := by
  have hS : ∀ n ω, Samples c (F ω) (gaussPrims c (F ω) emb) (oi n ω).ext [mu, sigma] := by
    intro n ω
    obtain ⟨mu', sigma', p1, p2, hS⟩ := samples_gauss (h n ω)
    obtain rfl := Option.some.inj (p1.1.symm.trans (hmu n ω).1)
    obtain rfl := Option.some.inj (p2.1.symm.trans (hsg n ω).1)
    exact hS
  have htr' : ∀ n ω, (oi n ω).ext.trunc = tr := fun n ω => by rw [ProbX.trunc, htr]; cases tr <;> rfl
  obtain ⟨r, r1, r2, r3, r4, -⟩ := sampled_flat (I := I) (fun ω => shared_gauss c (F ω) emb) (.inl rfl) h hS hn hcl hmv hpool hmap hne hskip
    (fun n => by simpa only [htr'] using d n) fun k hk => memberLaw_gauss tr (m k) (hv k hk).2.2
  exact ⟨r, r1, r2, r3, r4⟩

/-- **C122**, gamma class: the same, the members being drawn from the gamma distribution with the shift added. The
distribution that `cdf()` announces is another one, censored at zero: for precipitation that has this distribution and is
zero with probability `p`, the highest rank has probability `(1 + n p ^ (n + 1)) / (n + 1)`. -/
theorem C122_gamma {F : Ω → ProbFns ℝ} {oi o : Nat → Ω → Obj (ProbX ℝ)} {w w' w1 : Nat → Ω → World (PyVal ℝ)}
    (h : ∀ n ω, construct (gammaPrims c (F ω) emb) mids (oi n ω) (w n ω) = (.ok (o n ω), w' n ω))
    (hn : ∀ n ω, (oi n ω).ext.members = .val (n : Int)) (hcl : ∀ n ω, (oi n ω).ext.clip = .none)
    (hmv : ∀ n ω, (oi n ω).ext.moveAxis = some (-1)) (hpool : PoolRuns c.workers c.mapAxis sh)
    (hmap : MapOK c.workers c.mapAxis sh) (hne : sh ≠ []) (hskip : c.skipNan = false)
    (htr : ∀ n ω, (oi n ω).ext.truncated = some false)
    {umu sigma shift : NDArr (Fl ℝ)} (humu : ∀ n ω, HasPar (oi n ω).ext "unshifted_mu" umu)
    (hsigma : ∀ n ω, HasPar (oi n ω).ext "sigma" sigma) (hshift : ∀ n ω, HasPar (oi n ω).ext "shift" shift)
    {m sd a : List Nat → ℝ} (hv : ∀ i, InB sh i → umu.get i = some (m i) ∧ sigma.get i = some (sd i) ∧
      shift.get i = some (a i) ∧ 0 < m i ∧ 0 < sd i)
    {Z : (n : Nat) → List Nat → Fin (n + 1) → Ω → ℝ} {G : List Nat → ℝ → ℝ}
    (d : ∀ n, Sampled P sh n (fun ω => (oi n ω).ext.o) (fun ω => drawAt c.workers c.mapAxis
      ((F ω).rvs ((w1 n ω).seed (w1 n ω).pos) false [umu, sigma, shift]) sh) (Z n) G
        fun k => shiftedGammaCdf (m k) (sd k) (a k)) :
    ∃ r : Nat → Ω → NDArr (Option Nat),
      (∀ n ω, result .gamma I (gammaPrims c (F ω) emb) mids (.slot .rankHist) (unsaved (o n ω)) (w1 n ω) =
        .ok (some (.ranks (r n ω)))) ∧
      (∀ k, InB sh k → G k = shiftedGammaCdf (m k) (sd k) (a k) → ∀ n j, 1 ≤ j → j ≤ n + 1 →
        P.real {ω | (r n ω).get k = some j} = 1 / (n + 1)) ∧
      (∀ L : List (List Nat), (∀ k ∈ L, InB sh k ∧ G k = shiftedGammaCdf (m k) (sd k) (a k)) → ∀ n j, 1 ≤ j → j ≤ n + 1 →
        ∫ ω, ((L.map (r n ω).get).count (some j) : ℝ) ∂P = L.length / (n + 1)) ∧
      (∀ k, InB sh k → (∀ n : Nat, P.real {ω | (r n ω).get k = some (n + 1)} = 1 / (n + 1)) →
        G k = shiftedGammaCdf (m k) (sd k) (a k)) ∧
      ∀ k, InB sh k → (∀ n ω, 0 ≤ Z n k 0 ω) → G k = censoredGammaCdf (m k) (sd k) (a k) → ∀ n : Nat,
        P.real {ω | (r n ω).get k = some (n + 1)} = (1 + n * G k 0 ^ (n + 1)) / (n + 1) := by
  have hS : ∀ n ω, Samples c (F ω) (gammaPrims c (F ω) emb) (oi n ω).ext [umu, sigma, shift] := by
    intro n ω
    obtain ⟨umu', sigma', shift', p1, p2, p3, hS⟩ := samples_gamma (h n ω)
    obtain rfl := Option.some.inj (p1.1.symm.trans (humu n ω).1)
    obtain rfl := Option.some.inj (p2.1.symm.trans (hsigma n ω).1)
    obtain rfl := Option.some.inj (p3.1.symm.trans (hshift n ω).1)
    exact hS
  have htr' : ∀ n ω, (oi n ω).ext.trunc = false := fun n ω => by rw [ProbX.trunc, htr]; rfl
  obtain ⟨r, r1, r2, r3, r4, r5⟩ := sampled_flat (I := I) (fun ω => shared_gamma c (F ω) emb) (.inr rfl) h hS hn hcl hmv hpool hmap hne hskip
    (fun n => by simpa only [htr'] using d n) fun k hk => memberLaw_gamma (hv k hk).2.2.2.1 (hv k hk).2.2.2.2 (a k)
  refine ⟨r, r1, r2, r3, r4, fun k hk hpos hG n => ?_⟩
  have hA : AtomLaw (G k) := by rw [hG]; exact atomLaw_gamma (hv k hk).2.2.2.1 (hv k hk).2.2.2.2 (a k)
  have e : ∀ ω, shiftedGammaCdf (m k) (sd k) (a k) (Z n k 0 ω) = G k (Z n k 0 ω) := fun ω => by
    rw [hG, censoredGammaCdf, if_neg (not_lt.2 (hpos n ω)), shiftedGammaCdf]
  rw [r5 k hk n]
  simp only [e]
  have h0 : ∀ x, 0 ≤ G k x := fun x => by rw [← (d 0).law k hk x]; exact measureReal_nonneg
  exact moment_atom (hA.mono.measurable.comp ((d n).meas k hk 0)) (fun ω => hA.le_one _) (h0 0)
    (hA.le_one 0) (fun u hu => atom_plain ((d n).meas k hk 0) (hpos n) ((d n).law k hk) hA.cont hu) n

end Props
