import Verif.Model.PsGaussian
import Verif.Lemmas.PsGaussian
import Verif.Props.Proper

/-!
# The CRPS of the Gaussian class without truncation: C115
-/

set_option linter.unusedSectionVars false

namespace Props
open Np NDArr Model Spec Lemmas

variable {A : Type}

theorem psGaussianElem_real (y mu s : ℝ) (hs : s ≠ 0) :
    psGaussianElem realGauss [some y, some mu, some s] = some (plainCrps ((y - mu) / s) * s) := by
  have hpi : √Real.pi ≠ 0 := by have := Real.pi_pos; positivity
  unfold psGaussianElem
  simp only [List.getD_cons_zero, List.getD_cons_succ, Fl.sub_some, Fl.div, hs, hpi, if_false, realGauss,
    Option.map_some, Fl.mul_some, Fl.add_some, plainCrps]
  simp only [Option.some.injEq]
  ring

theorem psGaussianElem_none (G : Gauss ℝ) {y m s : Fl ℝ} (h : y = none ∨ m = none ∨ s = none) :
    psGaussianElem G [y, m, s] = none := by
  simp only [psGaussianElem, List.getD_cons_zero, List.getD_cons_succ]
  rcases h with rfl | rfl | rfl <;> simp [Fl.div, Fl.sub, Fl.mul, Fl.add, Fl.lift2]

/-- what properscoring gives is the convergent integral of `(F(x) - 1[y ≤ x])²` for the normal distribution function -/
theorem C115_integral (y mu : ℝ) {s : ℝ} (hs : 0 < s) :
    MeasureTheory.Integrable (crpsIntegrand (normalCdf mu s) y) ∧
    psGaussianElem realGauss [some y, some mu, some s] = some (crpsOf (normalCdf mu s) y) := by
  obtain ⟨h1, h2⟩ := crps_normal mu s y hs
  exact ⟨h1, by rw [psGaussianElem_real _ _ _ hs.ne', h2]⟩

/-- Standard deviations that are not positive are not caught: for zero the score is NaN, and a negative one gives the
negative of the score of its absolute value. -/
theorem C115_not_positive (y mu s : ℝ) :
    psGaussianElem realGauss [some y, some mu, some 0] = none ∧
    (s < 0 → psGaussianElem realGauss [some y, some mu, some s] = some (-crpsOf (normalCdf mu |s|) y)) := by
  refine ⟨by simp [psGaussianElem, Fl.div, Fl.mul, Fl.add, Fl.sub, Fl.lift2], fun hs => ?_⟩
  rw [psGaussianElem_real _ _ _ hs.ne, abs_of_neg hs, (crps_normal mu (-s) y (by linarith)).2]
  have : (y - mu) / -s = -((y - mu) / s) := by rw [div_neg]
  rw [this]
  simp only [plainCrps, Phi_neg, phi_neg, Option.some.injEq]
  ring

variable {I : ArgInfo A} {c : Cfg ℝ} {F : ProbFns ℝ} {emb : A → Arg ℝ} {mids : FS (PyVal ℝ) → Model.Path → List (FS (PyVal ℝ))}

/-- **C115**: from the constructor on, `crps()` of an untruncated Gaussian verifier is the average over the requested
axes of the exact continuous ranked probability scores of the normal distributions; positions where the observation or
a parameter is missing are missing. -/
theorem C115_crps {oi o : Obj (ProbX ℝ)} {w w' : World (PyVal ℝ)}
    (h : construct (gaussPrims c F emb) mids oi w = (.ok o, w')) (hF : F.psGaussian = psGaussianElem realGauss)
    (htr : oi.ext.truncated = some false)
    (hpos : ∀ sigma, HasPar oi.ext "sigma" sigma → ∀ k v, InB oi.ext.o.shape k → sigma.get k = some v → 0 < v)
    (hb : oi.boot = .none) (hok : OptOK oi.ext.o.shape.length (axesOf oi.avg)) (w1 : World (PyVal ℝ)) :
    ∃ mu sigma r, HasPar oi.ext "mu" mu ∧ HasPar oi.ext "sigma" sigma ∧
      result .gaussian I (gaussPrims c F emb) mids (.slot .crps) (unsaved o) w1 = .ok (some (.num r)) ∧
      r.shape = dropAxes (nums oi.ext.o.shape.length (axesOf oi.avg)) oi.ext.o.shape ∧
      ∀ k, InB r.shape k →
        IsAvg c.skipNan ((fiberIdx oi.ext.o.shape (nums oi.ext.o.shape.length (axesOf oi.avg)) k).map fun i =>
          (oi.ext.o.get i).bind fun y => (mu.get i).bind fun m => (sigma.get i).map fun sd =>
            crpsOf (normalCdf m sd) y) (r.get k) := by
  obtain ⟨mu, sigma, r, hm, hs, r1, r2, r3⟩ := C76_gauss_crps (I := I) h htr hb hok w1
  refine ⟨mu, sigma, r, hm, hs, r1, r2, fun k hk => ?_⟩
  convert r3 k hk using 1
  apply List.map_congr_left
  intro i hi
  rw [hF]
  cases ho' : oi.ext.o.get i with
  | none => exact (psGaussianElem_none _ (.inl rfl)).symm
  | some y =>
    cases hm' : mu.get i with
    | none => exact (psGaussianElem_none _ (.inr (.inl rfl))).symm
    | some a =>
      cases hs' : sigma.get i with
      | none => exact (psGaussianElem_none _ (.inr (.inr rfl))).symm
      | some sd => exact (C115_integral y a (hpos sigma hs i sd (mem_fiberIdx.1 hi).1 hs')).2.symm

/-- **C115**: `crps()` is reliability minus resolution plus uncertainty of the normal distributions (as C98 has it for the
other classes). -/
theorem C115_decomp {oi o : Obj (ProbX ℝ)} {w w' : World (PyVal ℝ)}
    (h : construct (gaussPrims c F emb) mids oi w = (.ok o, w')) (hF : F.psGaussian = psGaussianElem realGauss)
    (htr : oi.ext.truncated = some false) (h0 : 0 ∉ oi.ext.o.shape) (ho : none ∉ oi.ext.o.data)
    (hmu : ∀ mu, HasPar oi.ext "mu" mu → none ∉ mu.data)
    (hsd : ∀ sigma, HasPar oi.ext "sigma" sigma → ∀ k, InB oi.ext.o.shape k → ∃ v, sigma.get k = some v ∧ 0 < v)
    (hb : oi.boot = .none) (hok : OptOK oi.ext.o.shape.length (axesOf oi.avg)) (w1 : World (PyVal ℝ)) :
    ∃ mu sigma r, HasPar oi.ext "mu" mu ∧ HasPar oi.ext "sigma" sigma ∧
      result .gaussian I (gaussPrims c F emb) mids (.slot .crps) (unsaved o) w1 = .ok (some (.num r)) ∧
      r.shape = dropAxes (nums oi.ext.o.shape.length (axesOf oi.avg)) oi.ext.o.shape ∧
      ∃ Y m sd : List Nat → ℝ,
        (∀ i, InB oi.ext.o.shape i → oi.ext.o.get i = some (Y i) ∧ mu.get i = some (m i) ∧ sigma.get i = some (sd i)) ∧
        ∀ k, InB r.shape k →
          let L := fiberIdx oi.ext.o.shape (nums oi.ext.o.shape.length (axesOf oi.avg)) k
          let G := fun i => normalCdf (m i) (sd i)
          r.get k = some (crpsReliability L G Y - crpsResolution L G Y + crpsUncertainty L Y) ∧
          0 ≤ crpsReliability L G Y ∧ 0 ≤ crpsResolution L G Y := by
  obtain ⟨mu, sigma, r, hm, hs, r1, r2, r3⟩ := C115_crps (I := I) h hF htr
    (fun sigma hs k v hk hv => by obtain ⟨u, hu, hpos⟩ := hsd sigma hs k hk; rw [hv] at hu; cases hu; exact hpos) hb hok w1
  have hv : ∀ i, InB oi.ext.o.shape i → oi.ext.o.get i = some ((oi.ext.o.get i).getD 0) ∧
      mu.get i = some ((mu.get i).getD 0) ∧ sigma.get i = some ((sigma.get i).getD 0) ∧ 0 < (sigma.get i).getD 0 := by
    intro i hi
    obtain ⟨y, hy⟩ := get_some ho hi
    obtain ⟨a, ha⟩ := get_some (hmu mu hm) (k := i) (by rw [hm.2]; exact hi)
    obtain ⟨d, hd, hpos⟩ := hsd sigma hs i hi
    simp only [hy, ha, hd, Option.getD_some]
    exact ⟨trivial, trivial, trivial, hpos⟩
  refine ⟨mu, sigma, r, hm, hs, r1, r2, fun i => (oi.ext.o.get i).getD 0, fun i => (mu.get i).getD 0,
    fun i => (sigma.get i).getD 0, fun i hi => ⟨(hv i hi).1, (hv i hi).2.1, (hv i hi).2.2.1⟩, fun k hk => ?_⟩
  have hin : ∀ i ∈ fiberIdx oi.ext.o.shape (nums oi.ext.o.shape.length (axesOf oi.avg)) k, InB oi.ext.o.shape i :=
    fun i hi => (mem_fiberIdx.1 hi).1
  have hne := fiberIdx_ne h0 (r2 ▸ hk)
  obtain ⟨d1, d2, d3⟩ := crps_decomp hne (fun i => normalCdf ((mu.get i).getD 0) ((sigma.get i).getD 0))
    (fun i => (oi.ext.o.get i).getD 0) fun i hi j _ _ => (crps_normal _ _ _ (hv i (hin i hi)).2.2.2).1
  refine ⟨?_, reliability_nonneg _ _ _, resolution_nonneg _ _ _⟩
  rw [← d3]
  refine isAvg_some hne (fun i hi => ?_) (r3 k hk)
  obtain ⟨e1, e2, e3, -⟩ := hv i (hin i hi)
  rw [e1, e2, e3]
  simp

/-! ### cases -/

/-- the functions of the cases with the score of properscoring -/
noncomputable def fnsPs : ProbFns ℝ := { fnsR with psGaussian := psGaussianElem realGauss }

/-- two positions with means 1 and 3 and standard deviations 1 and 2, observations 0 and 4 -/
example : ∃ o w r, construct (gaussPrims caseCfg fnsPs embIntR) noMids (probObj (gaussX false)) world0 = (.ok o, w) ∧
    result .gaussian intInfo (gaussPrims caseCfg fnsPs embIntR) noMids (.slot .crps) (unsaved o) world0 =
      .ok (some (.num r)) ∧ r.shape = [] := by
  have h : ∃ o w, construct (gaussPrims caseCfg fnsPs embIntR) noMids (probObj (gaussX false)) world0 = (.ok o, w) :=
    ⟨_, _, rfl⟩
  obtain ⟨o, w, h⟩ := h
  obtain ⟨mu, sigma, r, -, -, r1, r2, -⟩ := C115_decomp (I := intInfo) h rfl rfl (by decide) (by simp [probObj, gaussX])
    (fun mu hm => by
      obtain rfl := hasPar_unique hm (b := ⟨[2], [some 1, some 3], rfl⟩) ⟨rfl, rfl⟩
      simp)
    (fun sigma hs k hk => by
      obtain rfl := hasPar_unique hs (b := ⟨[2], [some 1, some 2], rfl⟩) ⟨rfl, rfl⟩
      rcases two_positions hk with rfl | rfl <;> simp [NDArr.get, ravel]) rfl trivial world0
  exact ⟨o, w, r, h, r1, by rw [r2]; rfl⟩

end Props
