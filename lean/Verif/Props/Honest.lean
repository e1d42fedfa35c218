import Verif.Lemmas.HonestMean
import Verif.Props.PsGaussian

/-!
# Announcing the true distribution is the best and the only best way to a small `crps()`: C116
-/

set_option linter.unusedSectionVars false

namespace Props
open Np NDArr Model Spec Lemmas MeasureTheory

variable {A : Type} {I : ArgInfo A} {c : Cfg ℝ} {F : ProbFns ℝ} {emb : A → Arg ℝ}
  {mids : FS (PyVal ℝ) → Model.Path → List (FS (PyVal ℝ))}
variable {Ω : Type} [MeasurableSpace Ω] {P : Measure Ω} [IsProbabilityMeasure P]
  {sh : List Nat} {Y : List Nat → Ω → ℝ} {G : List Nat → ℝ → ℝ}

/-- what `crps()` of a Gaussian verifier is on complete data -/
theorem gauss_crps_values {oi o : Obj (ProbX ℝ)} {w w' w1 : World (PyVal ℝ)}
    (h : construct (gaussPrims c F emb) mids oi w = (.ok o, w'))
    (hP : F.psGaussian = psGaussianElem realGauss) (hG : F.gauss = realGauss) (hsh : oi.ext.o.shape = sh) {y : List Nat → ℝ}
    (hy : ∀ i, InB sh i → oi.ext.o.get i = some (y i)) {tr : Bool} (htr : oi.ext.truncated = some tr)
    {mu sigma : NDArr (Fl ℝ)} (hmu : HasPar oi.ext "mu" mu) (hsg : HasPar oi.ext "sigma" sigma)
    {m sd : List Nat → ℝ} (hv : ∀ i, InB sh i → mu.get i = some (m i) ∧ sigma.get i = some (sd i) ∧ 0 < sd i)
    {a : PyAxis} (ha : oi.avg = a) (hb : oi.boot = .none) (h0 : 0 ∉ sh) (hok : OptOK sh.length (axesOf a)) :
    ∃ r, result .gaussian I (gaussPrims c F emb) mids (.slot .crps) (unsaved o) w1 =
        .ok (some (.num r)) ∧ r.shape = dropAxes (nums sh.length (axesOf a)) sh ∧
      ∀ k, InB (dropAxes (nums sh.length (axesOf a)) sh) k → r.get k =
        some (avg ((fiberIdx sh (nums sh.length (axesOf a)) k).map fun i =>
          crpsOf (gaussLaw tr (m i) (sd i)) (y i))) := by
  have hpos : ∀ s, HasPar oi.ext "sigma" s → ∀ k v, InB oi.ext.o.shape k → s.get k = some v → 0 < v := by
    intro s hs k v hk e
    obtain rfl := hasPar_unique hs hsg
    rw [hsh] at hk
    obtain ⟨-, e2, e3⟩ := hv k hk
    rw [e] at e2
    cases e2
    exact e3
  have hok' : OptOK oi.ext.o.shape.length (axesOf oi.avg) := by rw [hsh, ha]; exact hok
  cases tr with
  | true =>
    obtain ⟨mu', sg', r, hm, hs, r1, r2, r3⟩ := C76_gauss_crps_truncated (I := I) h hG htr hpos hb hok' w1
    obtain rfl := hasPar_unique hm hmu
    obtain rfl := hasPar_unique hs hsg
    rw [hsh, ha] at r2
    simp only [hsh, ha] at r3
    refine ⟨r, r1, r2, fun k hk => ?_⟩
    refine isAvg_some (fiberIdx_ne h0 hk) (fun i hi => ?_) (r3 k (by rw [r2]; exact hk))
    have hi' := (mem_fiberIdx.1 hi).1
    obtain ⟨e1, e2, -⟩ := hv i hi'
    rw [hy i hi', e1, e2]
    rfl
  | false =>
    obtain ⟨mu', sg', r, hm, hs, r1, r2, r3⟩ := C115_crps (I := I) h hP htr hpos hb hok' w1
    obtain rfl := hasPar_unique hm hmu
    obtain rfl := hasPar_unique hs hsg
    rw [hsh, ha] at r2
    simp only [hsh, ha] at r3
    refine ⟨r, r1, r2, fun k hk => ?_⟩
    refine isAvg_some (fiberIdx_ne h0 hk) (fun i hi => ?_) (r3 k (by rw [r2]; exact hk))
    have hi' := (mem_fiberIdx.1 hi).1
    obtain ⟨e1, e2, -⟩ := hv i hi'
    rw [hy i hi', e1, e2]
    rfl

/-- **C116**, Gaussian class. The observations of a verifier with parameters `m` and `sd` are drawn by chance. Then every
number that `crps()` gives is random, and its mean is at least the amount that depends on the laws of the observations
only, and equal to it exactly if the distributions announced for the positions that are pooled are those laws. -/
theorem C116_gauss {oi o : Ω → Obj (ProbX ℝ)} {w w' w1 : Ω → World (PyVal ℝ)}
    (h : ∀ ω, construct (gaussPrims c F emb) mids (oi ω) (w ω) = (.ok (o ω), w' ω))
    (hP : F.psGaussian = psGaussianElem realGauss) (hG : F.gauss = realGauss)
    (d : Drawn P sh (fun ω => (oi ω).ext.o) Y G) {tr : Bool} (htr : ∀ ω, (oi ω).ext.truncated = some tr)
    {mu sigma : NDArr (Fl ℝ)} (hmu : ∀ ω, HasPar (oi ω).ext "mu" mu) (hsg : ∀ ω, HasPar (oi ω).ext "sigma" sigma)
    {m sd : List Nat → ℝ} (hv : ∀ i, InB sh i → mu.get i = some (m i) ∧ sigma.get i = some (sd i) ∧ 0 < sd i)
    {a : PyAxis} (ha : ∀ ω, (oi ω).avg = a) (hb : ∀ ω, (oi ω).boot = .none) (h0 : 0 ∉ sh)
    (hok : OptOK sh.length (axesOf a)) :
    ∃ r : Ω → NDArr (Fl ℝ),
      (∀ ω, result .gaussian I (gaussPrims c F emb) mids (.slot .crps) (unsaved (o ω)) (w1 ω) = .ok (some (.num (r ω)))) ∧
      (∀ ω, (r ω).shape = dropAxes (nums sh.length (axesOf a)) sh) ∧
      ∀ k, InB (dropAxes (nums sh.length (axesOf a)) sh) k → ∃ S : Ω → ℝ, (∀ ω, (r ω).get k = some (S ω)) ∧
        ExpectedScore P S (fiberIdx sh (nums sh.length (axesOf a)) k) (fun i => gaussLaw tr (m i) (sd i)) G := by
  have main := fun ω => gauss_crps_values (I := I) (w1 := w1 ω) (h ω) hP hG (d.shape ω) (fun i hi => d.value i hi ω) (htr ω)
    (hmu ω) (hsg ω) hv (ha ω) (hb ω) h0 hok
  choose r r1 r2 r3 using main
  refine ⟨r, r1, r2, fun k hk => ⟨_, fun ω => r3 ω k hk, ?_⟩⟩
  refine expected_avg d (fun i hi => (mem_fiberIdx.1 hi).1) (fun i hi => ?_) (fun i hi x => ?_) (fun i hi => ?_) <;>
    obtain ⟨-, -, hs⟩ := hv i (mem_fiberIdx.1 hi).1 <;> cases tr
  · exact unit_normal _ _
  · exact unit_trunc _ hs _
  · exact (continuous_normalCdf _ _).continuousWithinAt
  · exact trunc_right _ _ _ _
  · exact ⟨0, (crps_normal _ _ _ hs).1⟩
  · exact ⟨0, (crps_trunc _ _ _ 0 hs).1⟩

/-- the parameters of a Gaussian verifier can be told from the distribution it announces -/
theorem gaussLaw_inj {tr : Bool} {m s m' s' : ℝ} (hs : 0 < s) (hs' : 0 < s') :
    gaussLaw tr m s = gaussLaw tr m' s' ↔ m = m' ∧ s = s' := by
  constructor
  · intro h
    cases tr with
    | true => exact trunc_inj hs hs' fun x _ => congrFun h x
    | false => exact normal_inj hs hs' fun x => congrFun h x
  · rintro ⟨rfl, rfl⟩
    rfl

/-- **C116**, Gaussian class, observations drawn from (truncated) normal distributions with parameters `m'` and `sd'`: the
verifier whose mean is smallest is the one with these parameters, and no other. -/
theorem C116_gauss_best {oi o : Ω → Obj (ProbX ℝ)} {w w' w1 : Ω → World (PyVal ℝ)}
    (h : ∀ ω, construct (gaussPrims c F emb) mids (oi ω) (w ω) = (.ok (o ω), w' ω))
    (hP : F.psGaussian = psGaussianElem realGauss) (hG : F.gauss = realGauss) {tr : Bool} {m' sd' : List Nat → ℝ}
    (d : Drawn P sh (fun ω => (oi ω).ext.o) Y fun i => gaussLaw tr (m' i) (sd' i)) (hp : ∀ i, InB sh i → 0 < sd' i)
    (htr : ∀ ω, (oi ω).ext.truncated = some tr)
    {mu sigma : NDArr (Fl ℝ)} (hmu : ∀ ω, HasPar (oi ω).ext "mu" mu) (hsg : ∀ ω, HasPar (oi ω).ext "sigma" sigma)
    {m sd : List Nat → ℝ} (hv : ∀ i, InB sh i → mu.get i = some (m i) ∧ sigma.get i = some (sd i) ∧ 0 < sd i)
    {a : PyAxis} (ha : ∀ ω, (oi ω).avg = a) (hb : ∀ ω, (oi ω).boot = .none) (h0 : 0 ∉ sh)
    (hok : OptOK sh.length (axesOf a)) :
    ∃ r : Ω → NDArr (Fl ℝ),
      (∀ ω, result .gaussian I (gaussPrims c F emb) mids (.slot .crps) (unsaved (o ω)) (w1 ω) = .ok (some (.num (r ω)))) ∧
      (∀ ω, (r ω).shape = dropAxes (nums sh.length (axesOf a)) sh) ∧
      ∀ k, InB (dropAxes (nums sh.length (axesOf a)) sh) k → ∃ S : Ω → ℝ, (∀ ω, (r ω).get k = some (S ω)) ∧
        Integrable S P ∧
        (let L := fiberIdx sh (nums sh.length (axesOf a)) k
        let best := avg (L.map fun i => cdfSpread (gaussLaw tr (m' i) (sd' i)))
        best ≤ ∫ ω, S ω ∂P ∧ (∫ ω, S ω ∂P = best ↔ ∀ i ∈ L, m i = m' i ∧ sd i = sd' i)) := by
  obtain ⟨r, r1, r2, r3⟩ := C116_gauss (I := I) (w1 := w1) h hP hG d htr hmu hsg hv ha hb h0 hok
  refine ⟨r, r1, r2, fun k hk => ?_⟩
  obtain ⟨S, s1, s2⟩ := r3 k hk
  refine ⟨S, s1, s2.integrable, s2.least, s2.honest.trans ?_⟩
  exact forall₂_congr fun i hi => gaussLaw_inj (hv i (mem_fiberIdx.1 hi).1).2.2 (hp i (mem_fiberIdx.1 hi).1)

/-- what `crps()` of a gamma verifier is on complete data -/
theorem gamma_crps_values {oi o : Obj (ProbX ℝ)} {w w' w1 : World (PyVal ℝ)}
    (h : construct (gammaPrims c F emb) mids oi w = (.ok o, w')) (hG : F.gam = realGamma)
    (hsh : oi.ext.o.shape = sh) {y : List Nat → ℝ}
    (hy : ∀ i, InB sh i → oi.ext.o.get i = some (y i) ∧ 0 ≤ y i) (htr : oi.ext.truncated = some false)
    {umu sigma shift : NDArr (Fl ℝ)} (hmu : HasPar oi.ext "unshifted_mu" umu)
    (hsg : HasPar oi.ext "sigma" sigma) (hsf : HasPar oi.ext "shift" shift)
    {m sd δ : List Nat → ℝ} (hv : ∀ i, InB sh i →
      umu.get i = some (m i) ∧ sigma.get i = some (sd i) ∧ shift.get i = some (δ i) ∧ 0 < m i ∧ 0 < sd i)
    {a : PyAxis} (ha : oi.avg = a) (hb : oi.boot = .none) (h0 : 0 ∉ sh) (hok : OptOK sh.length (axesOf a)) :
    ∃ r, result .gamma I (gammaPrims c F emb) mids (.slot .crps) (unsaved o) w1 =
        .ok (some (.num r)) ∧ r.shape = dropAxes (nums sh.length (axesOf a)) sh ∧
      ∀ k, InB (dropAxes (nums sh.length (axesOf a)) sh) k → r.get k =
        some (avg ((fiberIdx sh (nums sh.length (axesOf a)) k).map fun i =>
          crpsOf (censoredGammaCdf (m i) (sd i) (δ i)) (y i))) := by
  have hok' : OptOK oi.ext.o.shape.length (axesOf oi.avg) := by rw [hsh, ha]; exact hok
  obtain ⟨mu', sg', sf', r, hm, hs, hd, r1, r2, r3⟩ := (C76_gamma_crps (I := I) h hG (fun u s hu hs k hk => by
    obtain rfl := hasPar_unique hu hmu
    obtain rfl := hasPar_unique hs hsg
    rw [hsh] at hk
    obtain ⟨e1, e2, -, e4, e5⟩ := hv k hk
    rw [e1, e2, (hy k hk).1]
    exact ⟨fun v hv => by cases hv; exact e4, fun v hv => by cases hv; exact e5,
      fun v hv => by cases hv; exact (hy k hk).2⟩) hb hok' w1).2 htr
  obtain rfl := hasPar_unique hm hmu
  obtain rfl := hasPar_unique hs hsg
  obtain rfl := hasPar_unique hd hsf
  rw [hsh, ha] at r2
  simp only [hsh, ha] at r3
  refine ⟨r, r1, r2, fun k hk => ?_⟩
  refine isAvg_some (fiberIdx_ne h0 hk) (fun i hi => ?_) (r3 k (by rw [r2]; exact hk))
  have hi' := (mem_fiberIdx.1 hi).1
  obtain ⟨e1, e2, e3, -, -⟩ := hv i hi'
  rw [(hy i hi').1, e1, e2, e3]
  rfl

/-- **C116**, gamma class without truncation, observations not negative. -/
theorem C116_gamma {oi o : Ω → Obj (ProbX ℝ)} {w w' w1 : Ω → World (PyVal ℝ)}
    (h : ∀ ω, construct (gammaPrims c F emb) mids (oi ω) (w ω) = (.ok (o ω), w' ω)) (hG : F.gam = realGamma)
    (d : Drawn P sh (fun ω => (oi ω).ext.o) Y G) (hY : ∀ i, InB sh i → ∀ ω, 0 ≤ Y i ω)
    (htr : ∀ ω, (oi ω).ext.truncated = some false)
    {umu sigma shift : NDArr (Fl ℝ)} (hmu : ∀ ω, HasPar (oi ω).ext "unshifted_mu" umu)
    (hsg : ∀ ω, HasPar (oi ω).ext "sigma" sigma) (hsf : ∀ ω, HasPar (oi ω).ext "shift" shift)
    {m sd δ : List Nat → ℝ} (hv : ∀ i, InB sh i →
      umu.get i = some (m i) ∧ sigma.get i = some (sd i) ∧ shift.get i = some (δ i) ∧ 0 < m i ∧ 0 < sd i)
    {a : PyAxis} (ha : ∀ ω, (oi ω).avg = a) (hb : ∀ ω, (oi ω).boot = .none) (h0 : 0 ∉ sh)
    (hok : OptOK sh.length (axesOf a)) :
    ∃ r : Ω → NDArr (Fl ℝ),
      (∀ ω, result .gamma I (gammaPrims c F emb) mids (.slot .crps) (unsaved (o ω)) (w1 ω) = .ok (some (.num (r ω)))) ∧
      (∀ ω, (r ω).shape = dropAxes (nums sh.length (axesOf a)) sh) ∧
      ∀ k, InB (dropAxes (nums sh.length (axesOf a)) sh) k → ∃ S : Ω → ℝ, (∀ ω, (r ω).get k = some (S ω)) ∧
        ExpectedScore P S (fiberIdx sh (nums sh.length (axesOf a)) k) (fun i => censoredGammaCdf (m i) (sd i) (δ i)) G := by
  have main := fun ω => gamma_crps_values (I := I) (w1 := w1 ω) (h ω) hG (d.shape ω)
    (fun i hi => ⟨d.value i hi ω, hY i hi ω⟩) (htr ω) (hmu ω) (hsg ω) (hsf ω) hv (ha ω) (hb ω) h0 hok
  choose r r1 r2 r3 using main
  refine ⟨r, r1, r2, fun k hk => ⟨_, fun ω => r3 ω k hk, ?_⟩⟩
  refine expected_avg d (fun i hi => (mem_fiberIdx.1 hi).1) (fun i hi => ?_) (fun i hi x => ?_) (fun i hi => ?_) <;>
    obtain ⟨-, -, -, hm, hs⟩ := hv i (mem_fiberIdx.1 hi).1
  · exact unit_gamma hm hs _
  · exact gamma_right hm hs _ _
  · exact ⟨0, (crps_censoredGamma hm hs le_rfl).1⟩

/-- **C116**, gamma class, observations drawn from censored gamma distributions: only the right parameters are best. -/
theorem C116_gamma_best {oi o : Ω → Obj (ProbX ℝ)} {w w' w1 : Ω → World (PyVal ℝ)}
    (h : ∀ ω, construct (gammaPrims c F emb) mids (oi ω) (w ω) = (.ok (o ω), w' ω)) (hG : F.gam = realGamma)
    {m' sd' δ' : List Nat → ℝ}
    (d : Drawn P sh (fun ω => (oi ω).ext.o) Y fun i => censoredGammaCdf (m' i) (sd' i) (δ' i))
    (hp : ∀ i, InB sh i → 0 < m' i ∧ 0 < sd' i) (hY : ∀ i, InB sh i → ∀ ω, 0 ≤ Y i ω)
    (htr : ∀ ω, (oi ω).ext.truncated = some false)
    {umu sigma shift : NDArr (Fl ℝ)} (hmu : ∀ ω, HasPar (oi ω).ext "unshifted_mu" umu)
    (hsg : ∀ ω, HasPar (oi ω).ext "sigma" sigma) (hsf : ∀ ω, HasPar (oi ω).ext "shift" shift)
    {m sd δ : List Nat → ℝ} (hv : ∀ i, InB sh i →
      umu.get i = some (m i) ∧ sigma.get i = some (sd i) ∧ shift.get i = some (δ i) ∧ 0 < m i ∧ 0 < sd i)
    {a : PyAxis} (ha : ∀ ω, (oi ω).avg = a) (hb : ∀ ω, (oi ω).boot = .none) (h0 : 0 ∉ sh)
    (hok : OptOK sh.length (axesOf a)) :
    ∃ r : Ω → NDArr (Fl ℝ),
      (∀ ω, result .gamma I (gammaPrims c F emb) mids (.slot .crps) (unsaved (o ω)) (w1 ω) = .ok (some (.num (r ω)))) ∧
      (∀ ω, (r ω).shape = dropAxes (nums sh.length (axesOf a)) sh) ∧
      ∀ k, InB (dropAxes (nums sh.length (axesOf a)) sh) k → ∃ S : Ω → ℝ, (∀ ω, (r ω).get k = some (S ω)) ∧
        Integrable S P ∧
        (let L := fiberIdx sh (nums sh.length (axesOf a)) k
        let best := avg (L.map fun i => cdfSpread (censoredGammaCdf (m' i) (sd' i) (δ' i)))
        best ≤ ∫ ω, S ω ∂P ∧ (∫ ω, S ω ∂P = best ↔ ∀ i ∈ L, m i = m' i ∧ sd i = sd' i ∧ δ i = δ' i)) := by
  obtain ⟨r, r1, r2, r3⟩ := C116_gamma (I := I) (w1 := w1) h hG d hY htr hmu hsg hsf hv ha hb h0 hok
  refine ⟨r, r1, r2, fun k hk => ?_⟩
  obtain ⟨S, s1, s2⟩ := r3 k hk
  refine ⟨S, s1, s2.integrable, s2.least, s2.honest.trans ?_⟩
  refine forall₂_congr fun i hi => ?_
  have hi' := (mem_fiberIdx.1 hi).1
  obtain ⟨-, -, -, hm, hs⟩ := hv i hi'
  obtain ⟨hm', hs'⟩ := hp i hi'
  constructor
  · intro e
    exact gamma_inj hm hs hm' hs' fun x _ => congrFun e x
  · rintro ⟨e1, e2, e3⟩
    rw [e1, e2, e3]

/-- what `crps()` of an ensemble verifier is on complete data -/
theorem ens_crps_values {oi o : Obj (EnsX ℝ)} {w w' w1 : World (PyVal ℝ)}
    (h : construct (ensPrims c emb) mids oi w = (.ok o, w')) (hb : oi.boot = .none)
    {pt : Fl ℝ → List (Fl ℝ) → Fl ℝ} (hpt : IsEnergyScore pt) {split : Bool}
    (hc : ∀ o f ax, c.crpsEns o f ax = ensembleCrps pt split ax o f)
    (hsh : oi.ext.o.shape = sh) {y : List Nat → ℝ} (hy : ∀ i, InB sh i → oi.ext.o.get i = some (y i)) (hs : sh ≠ [])
    (h0 : 0 ∉ oi.ext.f.shape) (hf : none ∉ oi.ext.f.data) {ax : Int}
    (hax : o.ext.axis = some ax) {M : List Nat → List ℝ} (hM : ∀ i, InB sh i → membersAt oi.ext.f ax i = (M i).map some)
    {a : PyAxis} (ha : oi.avg = a) (hok : OptOK sh.length (axesOf a)) :
    ∃ r, result .ensemble I (ensPrims c emb) mids (.slot .crps) (unsaved o) w1 =
        .ok (some (.num r)) ∧ r.shape = dropAxes (nums sh.length (axesOf a)) sh ∧ (∀ i, InB sh i → M i ≠ []) ∧
      ∀ k, InB (dropAxes (nums sh.length (axesOf a)) sh) k → r.get k =
        some (avg ((fiberIdx sh (nums sh.length (axesOf a)) k).map fun i => crpsOf (ecdf (M i)) (y i))) := by
  have inj : ∀ a b : List ℝ, a.map some = b.map some → a = b := fun a b h =>
    List.map_injective_iff.2 (Option.some_injective ℝ) h
  have hok' : OptOK oi.ext.o.shape.length (axesOf oi.avg) := by rw [hsh, ha]; exact hok
  have ho : none ∉ oi.ext.o.data := by
    intro hn
    rw [data_eq, List.mem_map] at hn
    obtain ⟨i, hi, e⟩ := hn
    rw [hsh, mem_allIdx] at hi
    rw [hy i hi] at e
    cases e
  obtain ⟨ax', r, r0, r1, r2, Y', M', hYM, r3⟩ := C88_crps (I := I) h hb hpt hc (by rw [hsh]; exact hs) h0
    hf ho hok' w1
  rw [hax] at r0
  cases r0
  rw [hsh] at hYM
  rw [hsh, ha] at r2
  simp only [hsh, ha] at r3
  have e : ∀ i, InB sh i → Y' i = y i ∧ M' i = M i ∧ M i ≠ [] ∧
      energyScore (M i) (y i) = crpsOf (ecdf (M i)) (y i) := by
    intro i hi
    obtain ⟨g1, g2, g3, -, g5⟩ := hYM i hi
    rw [hy i hi] at g1
    rw [hM i hi] at g2
    have e1 := Option.some.inj g1
    have e2 := inj _ _ g2
    rw [← e1, ← e2] at g5
    exact ⟨e1.symm, e2.symm, e2 ▸ g3, g5⟩
  refine ⟨r, r1, r2, fun i hi => (e i hi).2.2.1, fun k hk => ?_⟩
  rw [r3 k (by rw [r2]; exact hk)]
  congr 2
  refine List.map_congr_left fun i hi => ?_
  obtain ⟨e1, e2, -, e4⟩ := e i (mem_fiberIdx.1 hi).1
  rw [e1, e2, e4]

/-- **C116**, ensemble class: the distribution announced by members is their empirical distribution function. -/
theorem C116_ens {oi o : Ω → Obj (EnsX ℝ)} {w w' w1 : Ω → World (PyVal ℝ)}
    (h : ∀ ω, construct (ensPrims c emb) mids (oi ω) (w ω) = (.ok (o ω), w' ω)) (hb : ∀ ω, (oi ω).boot = .none)
    {pt : Fl ℝ → List (Fl ℝ) → Fl ℝ} (hpt : IsEnergyScore pt) {split : Bool}
    (hc : ∀ o f ax, c.crpsEns o f ax = ensembleCrps pt split ax o f)
    (d : Drawn P sh (fun ω => (oi ω).ext.o) Y G) (hs : sh ≠ [])
    (h0 : ∀ ω, 0 ∉ (oi ω).ext.f.shape) (hf : ∀ ω, none ∉ (oi ω).ext.f.data) {ax : Int}
    (hax : ∀ ω, (o ω).ext.axis = some ax) {M : List Nat → List ℝ}
    (hM : ∀ ω i, InB sh i → membersAt (oi ω).ext.f ax i = (M i).map some)
    {a : PyAxis} (ha : ∀ ω, (oi ω).avg = a) (hok : OptOK sh.length (axesOf a)) :
    ∃ r : Ω → NDArr (Fl ℝ),
      (∀ ω, result .ensemble I (ensPrims c emb) mids (.slot .crps) (unsaved (o ω)) (w1 ω) = .ok (some (.num (r ω)))) ∧
      (∀ ω, (r ω).shape = dropAxes (nums sh.length (axesOf a)) sh) ∧
      ∀ k, InB (dropAxes (nums sh.length (axesOf a)) sh) k → ∃ S : Ω → ℝ, (∀ ω, (r ω).get k = some (S ω)) ∧
        ExpectedScore P S (fiberIdx sh (nums sh.length (axesOf a)) k) (fun i => ecdf (M i)) G := by
  have main := fun ω => ens_crps_values (I := I) (w1 := w1 ω) (h ω) (hb ω) hpt hc (d.shape ω) (fun i hi => d.value i hi ω) hs
    (h0 ω) (hf ω) (hax ω) (hM ω) (ha ω) hok
  choose r r1 r2 r3 r4 using main
  refine ⟨r, r1, r2, fun k hk => ⟨_, fun ω => r4 ω k hk, ?_⟩⟩
  have hne : Nonempty Ω := nonempty_of_isProbabilityMeasure P
  obtain ⟨ω₀⟩ := hne
  exact expected_avg d (fun i hi => (mem_fiberIdx.1 hi).1) (fun i hi => unit_ecdf _) (fun i hi x => ecdf_right _ _)
    (fun i hi => ⟨0, (crps_ecdf (r3 ω₀ i (mem_fiberIdx.1 hi).1) 0).1⟩)

end Props
