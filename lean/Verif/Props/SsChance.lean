import Verif.Lemmas.SsChance
import Verif.Props.RelChance

/-!
# The expected spread-skill diagram: C123
-/

set_option linter.unusedSectionVars false

namespace Props
open Np NDArr Model Spec Lemmas MeasureTheory

variable {A : Type} {I : ArgInfo A} {mids : FS (PyVal ℝ) → Path → List (FS (PyVal ℝ))} {c : Cfg ℝ} {emb : A → Arg ℝ}
variable {F : ProbFns ℝ} {Ω : Type} [MeasurableSpace Ω] {P : Measure Ω} [IsProbabilityMeasure P]
  {sh : List Nat} {Y : List Nat → Ω → ℝ}

/-- `avg_axis` is `None`, or lists axes once each and none from the end -/
def OptPlain (n : Nat) : Option (List Int) → Prop
  | none => True
  | some axes => PlainAxes n axes

theorem optPlain_ok {n : Nat} {axes : Option (List Int)} (h : OptPlain n axes) : OptOK n axes := by
  cases axes with
  | none => trivial
  | some axes => exact (plain_optOK h).1

theorem ss_result {X : Type} {C : Cls} {Q : Prims X (PyVal ℝ) A} {obs : X → NDArr (Fl ℝ)} (hP : Shared c obs emb Q)
    {o : Obj X} {nb : A} {nbins : Nat} (hnb : emb nb = .num nbins) (hpn : Printable I nb) {axes : Option (List Int)}
    (hb : o.boot = .none) (hax : axisArg o.avg = .ok axes) {w0 : World (PyVal ℝ)} {f var : NDArr (Fl ℝ)}
    (hf : result C I Q mids (.slot .fDeterm) (unsaved o) w0 = .ok (some (.num f)))
    (hvar : result C I Q mids (.slot .variance) (unsaved o) w0 = .ok (some (.num var)))
    (hsh : f.shape = (obs o.ext).shape) :
    ∃ q, q.shape = f.shape ∧
      (∀ k, InB f.shape k → q.get k = both (fun x y => (x - y) ^ 2) (f.get k, (obs o.ext).get k)) ∧
      ∀ sp rm, spreadSkill c.argsort c.sqrt c.skipNan var q nbins axes = .ok (sp, rm) →
        ∀ w, result C I Q mids (.slot (.ss nb)) (unsaved o) w = .ok (some (.pair sp rm)) := by
  obtain ⟨q, q1, q2, q3⟩ := ss_body hP hnb hax hf hvar hsh
  refine ⟨q, q1, q2, fun sp rm h1 w => ?_⟩
  obtain ⟨ps, hps⟩ := nameParts_cons (k := "nbins".toList) (args := []) (Model.tooLong_ok hpn) ⟨_, rfl⟩
  obtain ⟨nm', hn'⟩ := toName_ok hps (some "ss".toList)
  unfold spreadSkill at h1
  cases hs : ssCreateSplit c.argsort var q nbins axes with
  | error e => rw [hs] at h1; cases h1
  | ok r =>
    rw [hs] at h1
    have hbody : (slotBody C I Q o.ext o.avg o.boot (.ss nb)).run none w = (.ok (.ssSplit r.1 r.2), w) := by
      rw [q3, hs]; rfl
    have h1' : ssAggNoBoot c.sqrt c.skipNan r.1 r.2 = .ok (sp, rm) := h1
    rw [result_slot (s := .ss nb) rfl hn' hbody]
    simp only [slotPost, postBins, hb, if_true, Prog.run, hP.ssAgg, basePrims, bind, Except.bind, h1']
    rfl

theorem spreadSkill_opt {argsort : Nat → List (Fl ℝ) → List Nat} (hargs : ∀ c l, IsArgsort l (argsort c l))
    {s : ℝ → ℝ} (hs : IsSqrt s) (skip : Bool) {v e : NDArr (Fl ℝ)} {nbins : Nat} {axes : Option (List Int)}
    (hv : v.shape = sh) (he : e.shape = sh) (hpl : OptPlain sh.length axes) (h0 : 0 ∉ sh) (hn : nbins ≠ 0)
    (hle : nbins ≤ (takeAxes (nums sh.length axes) sh).prod) {V Q : List Nat → ℝ}
    (hV : ∀ i, InB sh i → v.get i = some (V i) ∧ 0 ≤ V i) (hQ : ∀ i, InB sh i → e.get i = some (Q i) ∧ 0 ≤ Q i) :
    ∃ spread rmse, spreadSkill argsort s skip v e nbins axes = .ok (spread, rmse) ∧
      ∀ k, InB (dropAxes (nums sh.length axes) sh) k →
        PosGroups nbins (fiberIdx sh (nums sh.length axes) k) V (posGroups argsort sh (nums sh.length axes) nbins V k) ∧
        ∀ b g, (posGroups argsort sh (nums sh.length axes) nbins V k)[b]? = some g →
          spread.get (k ++ [b]) = some (Real.sqrt (avg (g.map V))) ∧
          rmse.get (k ++ [b]) = some (Real.sqrt (avg (g.map Q))) := by
  cases axes with
  | some axes => exact spreadSkill_positions hargs hs skip hv he (goodAxes_nonneg hpl.1 hpl.2) h0 hn hle hV hQ
  | none =>
    have hpl' : PlainAxes sh.length ((List.range sh.length).map Int.ofNat) := by
      constructor
      · intro x hx
        obtain ⟨n, hn, rfl⟩ := List.mem_map.1 hx
        have := List.mem_range.1 hn
        simp only [Int.ofNat_eq_natCast]
        omega
      · exact (List.nodup_range).map Int.ofNat_injective
    have hto : ((List.range sh.length).map Int.ofNat).map (axisNum sh.length) = List.range sh.length := by
      rw [axisNum_inj_nonneg (n := sh.length) (fun x hx => (hpl'.1 x hx).1), List.map_map]
      exact (List.map_congr_left fun i _ => rfl).trans (List.map_id _)
    have := spreadSkill_positions (axes := (List.range sh.length).map Int.ofNat) hargs hs skip hv he
      (goodAxes_nonneg hpl'.1 hpl'.2) h0 hn (by rw [hto]; exact hle) hV hQ
    rw [hto] at this
    obtain ⟨sp, rm, h1, h2⟩ := this
    refine ⟨sp, rm, ?_, h2⟩
    rw [← h1, ← hv]
    rfl

/-- the diagram of any class whose `f_determ()` and `variance()` do not depend on chance -/
theorem ss_random {X : Type} {C : Cls} {Q : Prims X (PyVal ℝ) A} {obs : X → NDArr (Fl ℝ)} (hP : Shared c obs emb Q)
    (hargs : ∀ j l, IsArgsort l (c.argsort j l)) (hs : IsSqrt c.sqrt)
    {o : Ω → Obj X} {w1 : Ω → World (PyVal ℝ)} {μ v : List Nat → ℝ} (d : TwoMoments P sh (fun ω => obs (o ω).ext) Y μ v)
    {nb : A} {nbins : Nat} (hnb : emb nb = .num nbins) (hpn : Printable I nb) (hn : nbins ≠ 0) {m V : List Nat → ℝ}
    (hf : ∀ ω, ∃ f var, result C I Q mids (.slot .fDeterm) (unsaved (o ω)) (w1 ω) = .ok (some (.num f)) ∧
      result C I Q mids (.slot .variance) (unsaved (o ω)) (w1 ω) = .ok (some (.num var)) ∧ f.shape = sh ∧ var.shape = sh ∧
      ∀ i, InB sh i → f.get i = some (m i) ∧ var.get i = some (V i))
    (hV : ∀ i, InB sh i → 0 ≤ V i) (hb : ∀ ω, (o ω).boot = .none) {axes : Option (List Int)}
    (hax : ∀ ω, axisArg (o ω).avg = .ok axes) (hpl : OptPlain sh.length axes) (h0 : 0 ∉ sh)
    (hle : nbins ≤ (takeAxes (nums sh.length axes) sh).prod) :
    ∃ spread rmse : Ω → NDArr (Fl ℝ),
      (∀ ω, result C I Q mids (.slot (.ss nb)) (unsaved (o ω)) (w1 ω) = .ok (some (.pair (spread ω) (rmse ω)))) ∧
      ∀ k, InB (dropAxes (nums sh.length axes) sh) k → ∃ gs, PosGroups nbins (fiberIdx sh (nums sh.length axes) k) V gs ∧
        ∀ b g : _, gs[b]? = some g → ∃ (S : ℝ) (R : Ω → ℝ),
          (∀ ω, (spread ω).get (k ++ [b]) = some S ∧ (rmse ω).get (k ++ [b]) = some (R ω)) ∧
          SkillPoint P g V (fun i => m i - μ i) v S R := by
  have main : ∀ ω, ∃ sp rm, result C I Q mids (.slot (.ss nb)) (unsaved (o ω)) (w1 ω) = .ok (some (.pair sp rm)) ∧
      ∀ k, InB (dropAxes (nums sh.length axes) sh) k →
        PosGroups nbins (fiberIdx sh (nums sh.length axes) k) V (posGroups c.argsort sh (nums sh.length axes) nbins V k) ∧
        ∀ b g, (posGroups c.argsort sh (nums sh.length axes) nbins V k)[b]? = some g →
          sp.get (k ++ [b]) = some (Real.sqrt (avg (g.map V))) ∧
          rm.get (k ++ [b]) = some (Real.sqrt (avg (g.map fun i => (m i - Y i ω) ^ 2))) := by
    intro ω
    obtain ⟨f, var, f1, f2, f3, f4, f5⟩ := hf ω
    obtain ⟨q, q1, q2, q3⟩ := ss_result (I := I) (mids := mids) hP hnb hpn (hb ω) (hax ω) f1 f2 (by rw [f3, d.shape ω])
    obtain ⟨sp, rm, s1, s2⟩ := spreadSkill_opt (sh := sh) hargs hs c.skipNan f4 (q1.trans f3) hpl h0 hn hle
      (V := V) (Q := fun i => (m i - Y i ω) ^ 2) (fun i hi => ⟨(f5 i hi).2, hV i hi⟩) (fun i hi => ⟨by
        rw [q2 i (by rw [f3]; exact hi), (f5 i hi).1, d.value i hi ω]
        rfl, sq_nonneg _⟩)
    exact ⟨sp, rm, q3 sp rm s1 (w1 ω), s2⟩
  choose sp rm r1 r2 using main
  refine ⟨sp, rm, r1, fun k hk => ?_⟩
  obtain ⟨ω₀⟩ : Nonempty Ω := P.nonempty_of_neZero
  have hpos := (r2 ω₀ k hk).1
  refine ⟨_, hpos, fun b g hbg => ?_⟩
  have hgm : g ∈ posGroups c.argsort sh (nums sh.length axes) nbins V k := List.mem_of_getElem? hbg
  have hgL : ∀ i ∈ g, InB sh i := fun i hi =>
    (mem_fiberIdx.1 (hpos.complete.subset (List.mem_flatten.2 ⟨g, hgm, hi⟩))).1
  exact ⟨_, _, fun ω => (r2 ω k hk).2 b g hbg, skillPoint (hpos.filled g hgm) (fun i hi => hV i (hgL i hi))
    (expectedSkill fun i hi => ⟨d.memLp i (hgL i hi), d.mean i (hgL i hi), d.variance i (hgL i hi)⟩)⟩

/-- **C123**, Gaussian class: which positions are in a bin of `binned_spread_skill(nbins)` and the spread of the bin do not
depend on chance; the square of the rmse of the bin is on average the mean of squared bias plus variance of the
observations. With right means and variances the point is on the diagonal in the mean square. -/
theorem C123_gauss {oi o : Ω → Obj (ProbX ℝ)} {w w' w1 : Ω → World (PyVal ℝ)}
    (h : ∀ ω, construct (gaussPrims c F emb) mids (oi ω) (w ω) = (.ok (o ω), w' ω))
    (hargs : ∀ j l, IsArgsort l (c.argsort j l)) (hs : IsSqrt c.sqrt) {μ v : List Nat → ℝ}
    (d : TwoMoments P sh (fun ω => (oi ω).ext.o) Y μ v)
    {mu sigma : NDArr (Fl ℝ)} (hmu : ∀ ω, HasPar (oi ω).ext "mu" mu) (hsg : ∀ ω, HasPar (oi ω).ext "sigma" sigma)
    {m sd : List Nat → ℝ} (hv : ∀ i, InB sh i → mu.get i = some (m i) ∧ sigma.get i = some (sd i))
    {nb : A} {nbins : Nat} (hnb : emb nb = .num nbins) (hpn : Printable I nb) (hn : nbins ≠ 0)
    (hb : ∀ ω, (oi ω).boot = .none) {av : PyAxis} (hav : ∀ ω, (oi ω).avg = av) (hpl : OptPlain sh.length (axesOf av))
    (h0 : 0 ∉ sh) (hle : nbins ≤ (takeAxes (nums sh.length (axesOf av)) sh).prod) :
    ∃ spread rmse : Ω → NDArr (Fl ℝ),
      (∀ ω, result .gaussian I (gaussPrims c F emb) mids (.slot (.ss nb)) (unsaved (o ω)) (w1 ω) =
        .ok (some (.pair (spread ω) (rmse ω)))) ∧
      ∀ k, InB (dropAxes (nums sh.length (axesOf av)) sh) k →
        ∃ gs, PosGroups nbins (fiberIdx sh (nums sh.length (axesOf av)) k) (fun i => sd i ^ 2) gs ∧
        ∀ b g : _, gs[b]? = some g → ∃ (S : ℝ) (R : Ω → ℝ),
          (∀ ω, (spread ω).get (k ++ [b]) = some S ∧ (rmse ω).get (k ++ [b]) = some (R ω)) ∧
          SkillPoint P g (fun i => sd i ^ 2) (fun i => m i - μ i) v S R := by
  have hc := fun ω => construct_prob (shared_gauss c F emb) (h ω)
  have hx : ∀ ω, (o ω).ext = (oi ω).ext := fun ω => (hc ω).1
  have hok : OptOK sh.length (axesOf av) := optPlain_ok hpl
  have hf : ∀ ω, ∃ f var, result .gaussian I (gaussPrims c F emb) mids (.slot .fDeterm) (unsaved (o ω)) (w1 ω) =
        .ok (some (.num f)) ∧
      result .gaussian I (gaussPrims c F emb) mids (.slot .variance) (unsaved (o ω)) (w1 ω) = .ok (some (.num var)) ∧
      f.shape = sh ∧ var.shape = sh ∧ ∀ i, InB sh i → f.get i = some (m i) ∧ var.get i = some (sd i ^ 2) := by
    intro ω
    have hsh := d.shape ω
    obtain ⟨mu', sg', var, -, -, -, -, p1, p2, f1, f2, ⟨f3, f4⟩, -⟩ := C76_gauss_errors (I := I) (h ω) (hb ω)
      (by rw [hsh, hav]; exact hok) (w1 ω)
    have e1 := hasPar_unique p1 (hmu ω)
    have e2 := hasPar_unique p2 (hsg ω)
    subst e1 e2
    refine ⟨_, var, f1, f2, p1.2.trans hsh, f3.trans hsh, fun i hi => ⟨(hv i hi).1, ?_⟩⟩
    rw [f4 i (by rw [hsh]; exact hi), (hv i hi).2]
    rfl
  simp only [← hx] at d
  exact ss_random (shared_gauss c F emb).base hargs hs d hnb hpn hn hf (fun i _ => sq_nonneg _)
    (fun ω => (hc ω).2.2.1.trans (hb ω)) (fun ω => by rw [(hc ω).2.2.2, hav]) hpl h0 hle

/-- **C123**, gamma class. -/
theorem C123_gamma {oi o : Ω → Obj (ProbX ℝ)} {w w' w1 : Ω → World (PyVal ℝ)}
    (h : ∀ ω, construct (gammaPrims c F emb) mids (oi ω) (w ω) = (.ok (o ω), w' ω))
    (hargs : ∀ j l, IsArgsort l (c.argsort j l)) (hs : IsSqrt c.sqrt) {μ v : List Nat → ℝ}
    (d : TwoMoments P sh (fun ω => (oi ω).ext.o) Y μ v)
    {mu sigma : NDArr (Fl ℝ)} (hmu : ∀ ω, HasPar (oi ω).ext "mu" mu) (hsg : ∀ ω, HasPar (oi ω).ext "sigma" sigma)
    {m sd : List Nat → ℝ} (hv : ∀ i, InB sh i → mu.get i = some (m i) ∧ sigma.get i = some (sd i))
    {nb : A} {nbins : Nat} (hnb : emb nb = .num nbins) (hpn : Printable I nb) (hn : nbins ≠ 0)
    (hb : ∀ ω, (oi ω).boot = .none) {av : PyAxis} (hav : ∀ ω, (oi ω).avg = av) (hpl : OptPlain sh.length (axesOf av))
    (h0 : 0 ∉ sh) (hle : nbins ≤ (takeAxes (nums sh.length (axesOf av)) sh).prod) :
    ∃ spread rmse : Ω → NDArr (Fl ℝ),
      (∀ ω, result .gamma I (gammaPrims c F emb) mids (.slot (.ss nb)) (unsaved (o ω)) (w1 ω) =
        .ok (some (.pair (spread ω) (rmse ω)))) ∧
      ∀ k, InB (dropAxes (nums sh.length (axesOf av)) sh) k →
        ∃ gs, PosGroups nbins (fiberIdx sh (nums sh.length (axesOf av)) k) (fun i => sd i ^ 2) gs ∧
        ∀ b g : _, gs[b]? = some g → ∃ (S : ℝ) (R : Ω → ℝ),
          (∀ ω, (spread ω).get (k ++ [b]) = some S ∧ (rmse ω).get (k ++ [b]) = some (R ω)) ∧
          SkillPoint P g (fun i => sd i ^ 2) (fun i => m i - μ i) v S R := by
  have hc := fun ω => construct_prob (shared_gamma c F emb) (h ω)
  have hx : ∀ ω, (o ω).ext = (oi ω).ext := fun ω => (hc ω).1
  have hok : OptOK sh.length (axesOf av) := optPlain_ok hpl
  have hf : ∀ ω, ∃ f var, result .gamma I (gammaPrims c F emb) mids (.slot .fDeterm) (unsaved (o ω)) (w1 ω) =
        .ok (some (.num f)) ∧
      result .gamma I (gammaPrims c F emb) mids (.slot .variance) (unsaved (o ω)) (w1 ω) = .ok (some (.num var)) ∧
      f.shape = sh ∧ var.shape = sh ∧ ∀ i, InB sh i → f.get i = some (m i) ∧ var.get i = some (sd i ^ 2) := by
    intro ω
    have hsh := d.shape ω
    obtain ⟨mu', sg', var, -, -, -, -, p1, p2, f1, f2, ⟨f3, f4⟩, -⟩ := C76_gamma_errors (I := I) (h ω) (hb ω)
      (by rw [hsh, hav]; exact hok) (w1 ω)
    have e1 := hasPar_unique p1 (hmu ω)
    have e2 := hasPar_unique p2 (hsg ω)
    subst e1 e2
    refine ⟨_, var, f1, f2, p1.2.trans hsh, f3.trans hsh, fun i hi => ⟨(hv i hi).1, ?_⟩⟩
    rw [f4 i (by rw [hsh]; exact hi), (hv i hi).2]
    rfl
  simp only [← hx] at d
  exact ss_random (shared_gamma c F emb).base hargs hs d hnb hpn hn hf (fun i _ => sq_nonneg _)
    (fun ω => (hc ω).2.2.1.trans (hb ω)) (fun ω => by rw [(hc ω).2.2.2, hav]) hpl h0 hle

/-- **C123**, ensemble class with members that do not depend on chance, collapsed by their mean. -/
theorem C123_ens {oi o : Ω → Obj (EnsX ℝ)} {w w' w1 : Ω → World (PyVal ℝ)}
    (h : ∀ ω, construct (ensPrims c emb) mids (oi ω) (w ω) = (.ok (o ω), w' ω)) (hb : ∀ ω, (oi ω).boot = .none)
    (hg : ∀ ω f ax, (oi ω).ext.collapse f ax = reduceAxes mean f (some [ax]))
    (hnone : ∀ ω i, InB (oi ω).ext.f.shape i → (oi ω).ext.f.get i ≠ none) (hpos : ∀ ω, 0 ∉ (oi ω).ext.f.shape)
    (hargs : ∀ j l, IsArgsort l (c.argsort j l)) (hs : IsSqrt c.sqrt) {μ v : List Nat → ℝ}
    (d : TwoMoments P sh (fun ω => (oi ω).ext.o) Y μ v) {ax : Int} (hax : ∀ ω, (o ω).ext.axis = some ax)
    {M : List Nat → List ℝ} (hM : ∀ ω i, InB sh i → membersAt (oi ω).ext.f ax i = (M i).map some ∧ M i ≠ [])
    {nb : A} {nbins : Nat} (hnb : emb nb = .num nbins) (hpn : Printable I nb) (hn : nbins ≠ 0)
    {av : PyAxis} (hav : ∀ ω, (oi ω).avg = av) (hpl : OptPlain sh.length (axesOf av))
    (h0 : 0 ∉ sh) (hle : nbins ≤ (takeAxes (nums sh.length (axesOf av)) sh).prod) :
    ∃ spread rmse : Ω → NDArr (Fl ℝ),
      (∀ ω, result .ensemble I (ensPrims c emb) mids (.slot (.ss nb)) (unsaved (o ω)) (w1 ω) =
        .ok (some (.pair (spread ω) (rmse ω)))) ∧
      ∀ k, InB (dropAxes (nums sh.length (axesOf av)) sh) k →
        ∃ gs, PosGroups nbins (fiberIdx sh (nums sh.length (axesOf av)) k)
          (fun i => avg ((M i).map fun x => (x - avg (M i)) ^ 2)) gs ∧
        ∀ b g : _, gs[b]? = some g → ∃ (S : ℝ) (R : Ω → ℝ),
          (∀ ω, (spread ω).get (k ++ [b]) = some S ∧ (rmse ω).get (k ++ [b]) = some (R ω)) ∧
          SkillPoint P g (fun i => avg ((M i).map fun x => (x - avg (M i)) ^ 2)) (fun i => avg (M i) - μ i) v S R := by
  have hok : OptOK sh.length (axesOf av) := optPlain_ok hpl
  have hc := fun ω => C75_construct_ens (h ω)
  choose ax' fc h1 h2 h3 h4 h5 h6 h7 using hc
  have hax' : ∀ ω, ax' ω = ax := fun ω => by
    have := hax ω
    rw [(h1 ω).axis] at this
    exact Option.some.inj this
  have hf : ∀ ω, ∃ f var, result .ensemble I (ensPrims c emb) mids (.slot .fDeterm) (unsaved (o ω)) (w1 ω) =
        .ok (some (.num f)) ∧
      result .ensemble I (ensPrims c emb) mids (.slot .variance) (unsaved (o ω)) (w1 ω) = .ok (some (.num var)) ∧
      f.shape = sh ∧ var.shape = sh ∧ ∀ i, InB sh i → f.get i = some (avg (M i)) ∧
        var.get i = some (avg ((M i).map fun x => (x - avg (M i)) ^ 2)) := by
    intro ω
    have hsh := d.shape ω
    obtain ⟨ax'', var, spr, r', a0', v1, -, v2, -, v3, -⟩ := C75_ens_spread (I := I) (h ω) (hb ω) (hnone ω) (hpos ω)
      (by rw [hsh, hav]; exact hok) (w1 ω)
    rw [hax ω] at a0'
    cases a0'
    have hxo := (h1 ω).axisOK
    have hs1 := (h1 ω).shape
    rw [h3 ω, hax' ω] at hxo hs1
    rw [h4 ω, hsh] at hs1
    obtain ⟨r, r1, r2, r3⟩ := reduceAxes_spec mean (oi ω).ext.f (axes := some [ax]) ⟨by simpa using hxo, by simp⟩
    have hr := h2 ω
    rw [hg, hax' ω, r1] at hr
    cases hr
    have hnm : nums (oi ω).ext.f.shape.length (some [ax]) = [axisNum (oi ω).ext.f.shape.length ax] := rfl
    rw [hnm, dropAxes_single (axisNum_lt hxo)] at r2 r3
    refine ⟨_, var, fDeterm_ens (h1 ω) (w1 ω), v1, r2.trans hs1.symm, v2.trans hsh, fun i hi => ⟨?_, ?_⟩⟩
    · rw [r3 i (by rw [hs1] at hi; exact hi)]
      show mean (membersAt (oi ω).ext.f ax i) = _
      rw [(hM ω i hi).1, mean_some _ (hM ω i hi).2]
      rfl
    · have hm : present (fiber (oi ω).ext.f [axisNum (oi ω).ext.f.shape.length ax] i) = M i := by
        have := (hM ω i hi).1
        unfold membersAt at this
        rw [this, present, filterMap_id_map_some]
      have := (v3 i (by rw [hsh]; exact hi)).1
      rwa [hm] at this
  simp only [← h4] at d
  exact ss_random (shared_ens c emb) hargs hs d hnb hpn hn hf (fun i _ => div_nonneg (List.sum_nonneg fun x hx => by
      obtain ⟨y, -, rfl⟩ := List.mem_map.1 hx
      exact sq_nonneg _) (by simp))
    (fun ω => (h5 ω).trans (hb ω)) (fun ω => by rw [axisArg_ready (h1 ω).avg, hav]) hpl h0 hle

/-- the mean of a normal distribution that is cut off at zero -/
theorem trunc_mean_pos {Z : Ω → ℝ} (hZ : Integrable Z P) {m sd : ℝ}
    (hl : ∀ x, P.real {ω | Z ω ≤ x} = gaussLaw true m sd x) : 0 < ∫ ω, Z ω ∂P := by
  have h0 : P {ω | Z ω ≤ 0} = 0 := by
    have := hl 0
    simp only [gaussLaw, if_true, truncNormalCdf, lt_irrefl, if_false, sub_self, zero_div] at this
    exact (measureReal_eq_zero_iff).1 this
  have hpos : ∀ᵐ ω ∂P, 0 < Z ω := by
    rw [ae_iff]
    simpa only [not_lt] using h0
  refine (integral_pos_iff_support_of_nonneg_ae (hpos.mono fun ω h => h.le) hZ).2 ?_
  rw [pos_iff_ne_zero]
  intro hz
  have : (Function.support Z)ᶜ ⊆ {ω | Z ω ≤ 0} := fun ω h => by
    simp only [Function.mem_support, Set.mem_compl_iff, not_not] at h
    exact h.le
  have h2 : P Set.univ ≤ 0 := by
    rw [← Set.union_compl_self (Function.support Z)]
    exact (measure_union_le _ _).trans (by rw [hz, measure_mono_null this h0]; simp)
  simp at h2

/-- **C123**, what fails: with `truncated` set the announced distribution is cut off at zero, but `f_determ()` and
`variance()` are those of the distribution before the cut. Where `mu` is at most `-sigma`, observations with exactly the
announced distribution put every point above the diagonal. -/
theorem C123_truncated {g : List (List Nat)} {m sd μ v : List Nat → ℝ} {S : ℝ} {R : Ω → ℝ} (hg : g ≠ [])
    (hY : ∀ i ∈ g, MemLp (Y i) 2 P ∧ ∫ ω, Y i ω ∂P = μ i ∧ ∫ ω, (Y i ω - μ i) ^ 2 ∂P = v i)
    (hl : ∀ i ∈ g, ∀ x, P.real {ω | Y i ω ≤ x} = gaussLaw true (m i) (sd i) x)
    (hlow : ∀ i ∈ g, 0 < sd i ∧ m i ≤ - sd i)
    (hp : SkillPoint P g (fun i => sd i ^ 2) (fun i => m i - μ i) v S R) : S ^ 2 < ∫ ω, R ω ^ 2 ∂P := by
  rw [hp.mean_sq, hp.spread.2, avg, avg, List.length_map, List.length_map]
  have hlen : (0 : ℝ) < g.length := by exact_mod_cast List.length_pos_iff.2 hg
  rw [div_lt_div_iff_of_pos_right hlen]
  refine List.sum_lt_sum_of_ne_nil hg _ _ fun i hi => ?_
  have hpos := trunc_mean_pos ((hY i hi).1.integrable one_le_two) (hl i hi)
  rw [(hY i hi).2.1] at hpos
  have hv : 0 ≤ v i := by
    rw [← (hY i hi).2.2]
    exact integral_nonneg fun ω => sq_nonneg _
  obtain ⟨h1, h2⟩ := hlow i hi
  nlinarith

end Props
