import Verif.Props.EndToEndSample
import Verif.Props.EndToEndHurdle

/-! # Concrete cases for C76 -/

set_option linter.unusedSectionVars false

namespace Props
open Np NDArr Spec Model Lemmas

section lib
variable {K : Type} [Field K] [LinearOrder K] [IsStrictOrderedRing K]

/-- a statistics library with simple distribution functions -/
def stepLib : Scipy K where
  norm := fun x m s => match x, m, s with
    | some x, some m, some s => some (if x < m - s then 0 else if x < m + s then 1 / 2 else 1)
    | _, _, _ => none
  truncnorm := fun x a m s => match x, a, m, s with
    | some x, some _, some m, some _ => some (if x < m then 0 else 1)
    | _, _, _, _ => none
  gamma := fun x a l s => match x, a, l, s with
    | some x, some _, some l, some _ => some (if x < l then 0 else (x - l) / (1 + (x - l)))
    | _, _, _, _ => none
  truncgamma := fun _ _ _ _ _ => none

theorem unitLib_step : UnitLib (stepLib (K := K)) where
  norm := by
    intro x m s v h
    cases x <;> cases m <;> cases s <;> simp only [stepLib, Option.some.injEq, reduceCtorEq] at h
    subst h
    split_ifs <;> norm_num
  truncnorm := by
    intro x a m s v h
    cases x <;> cases a <;> cases m <;> cases s <;> simp only [stepLib, Option.some.injEq, reduceCtorEq] at h
    subst h
    split_ifs <;> norm_num
  gamma := by
    intro x a l s v h
    cases x <;> cases a <;> cases l <;> cases s <;> simp only [stepLib, Option.some.injEq, reduceCtorEq] at h
    subst h
    split_ifs with hx
    · norm_num
    · rename_i x _ l _
      have h0 : 0 ≤ x - l := sub_nonneg.2 (not_lt.1 hx)
      exact ⟨by positivity, by rw [div_le_one (by positivity)]; linarith⟩
  truncgamma := by
    intro x a b l s v h
    cases h

/-- settings for the cases -/
def caseCfg : Cfg K where
  skipNan := false
  npFloat := true
  workers := 1
  mapAxis := -1
  method := .moments
  kde _ := none
  sqrt x := x
  reps := 1
  conf := 19 / 20
  argsort n _ := List.range n
  rocCurve _ _ := .error .value
  crpsEns _ _ _ := .error .notImplemented
  rng _ _ _ _ := fun _ => 0

/-- members `1, 2, 3, ...` plus the location, and `1/2` as the uniform number -/
def caseFns (g : Gauss K) (gm : GammaFns K) : ProbFns K where
  scipy := stepLib
  gauss := g
  psGaussian := fun l => match l with
    | [some y, some m, some _] => some |y - m|
    | _ => none
  gam := gm
  rvs := fun _ _ ps _ m k => Fl.add ((ps.headD default).get k) (some (m : K))
  uni := fun _ _ => 1 / 2
  rangeMulti := 1

/-- two positions -/
def gaussX (tr : Bool) : ProbX K where
  f := [("mu", ⟨[2], [some 1, some 3], rfl⟩), ("sigma", ⟨[2], [some 1, some 2], rfl⟩)]
  o := ⟨[2], [some 0, some 4], rfl⟩
  moveAxis := some (-1)
  truncated := some tr
  randomize := some true
  members := .val 3
  clip := .val (3 / 2)
  nbins := none
  range := none

def gammaX (tr : Bool) : ProbX K :=
  { gaussX tr with
    f := [("mu", ⟨[2], [some 1, some 3], rfl⟩), ("sigma", ⟨[2], [some 1, some 2], rfl⟩),
      ("shift", ⟨[2], [some 0, some 1], rfl⟩), ("unshifted_mu", ⟨[2], [some 1, some 2], rfl⟩)] }

def hurdleX : ProbX K :=
  { gaussX false with
    f := [("pop", ⟨[2], [some (1 / 2), some 1], rfl⟩), ("mu", ⟨[2], [some 1, some 3], rfl⟩),
      ("sigma", ⟨[2], [some 1, some 2], rfl⟩)]
    nbins := some 3
    range := some [0, 4] }

def probObj (x : ProbX K) : Obj (ProbX K) := ⟨.none, .none, .none, some true, x⟩

end lib

/-- library functions that are not used at ℚ -/
def noGauss : Gauss ℚ := ⟨id, id, 1, 1⟩

def noGamma : GammaFns ℚ := ⟨fun _ x => x, id, id, id, 1⟩

def fnsQ : ProbFns ℚ := caseFns noGauss noGamma

/-- The Gaussian class: probabilities, errors, score, sample. -/
example : ∃ o w, construct (gaussPrims caseCfg fnsQ embInt) noMids (probObj (gaussX false)) world0 = (.ok o, w) ∧
    UnitLib fnsQ.scipy ∧ PoolOK (caseCfg (K := ℚ)).workers (caseCfg (K := ℚ)).mapAxis [2] ∧ OptOK 1 (axesOf .none) ∧
    numOf (result .gaussian intInfo (gaussPrims caseCfg fnsQ embInt) noMids (.slot (.cdf (some 2) none)) (unsaved o) w) =
      some ([2], [some 0, some (1 / 2)]) ∧
    numOf (result .gaussian intInfo (gaussPrims caseCfg fnsQ embInt) noMids (.slot (.brier (some 2) none)) (unsaved o) w) =
      some ([], [some (1 / 8)]) ∧
    numOf (result .gaussian intInfo (gaussPrims caseCfg fnsQ embInt) noMids (.slot .error) (unsaved o) w) =
      some ([], [some 0]) ∧
    numOf (result .gaussian intInfo (gaussPrims caseCfg fnsQ embInt) noMids (.slot .variance) (unsaved o) w) =
      some ([2], [some 1, some 4]) ∧
    numOf (result .gaussian intInfo (gaussPrims caseCfg fnsQ embInt) noMids (.slot .crps) (unsaved o) w) =
      some ([], [some 1]) ∧
    numOf (result .gaussian intInfo (gaussPrims caseCfg fnsQ embInt) noMids (.slot .pit) (unsaved o) w) =
      some ([2], [some (1 / 4), some (1 / 2)]) ∧
    numOf (result .gaussian intInfo (gaussPrims caseCfg fnsQ embInt) noMids (.slot .probToEns) (unsaved o) w) =
      some ([2, 3], [some 0, some 2, some 3, some 3, some 4, some 5]) ∧
    numOf (result .gaussian intInfo (gaussPrims caseCfg fnsQ embInt) noMids (.slot .spread) (unsaved o) w) =
      some ([], [some (5 / 2)]) :=
  ⟨_, _, rfl, unitLib_step, .inl ⟨rfl, by simp⟩, trivial, by decide +kernel, by decide +kernel, by decide +kernel,
    by decide +kernel, by decide +kernel, by decide +kernel, by decide +kernel, by decide +kernel⟩

/-- the draws of the case are numbers -/
example : ∀ seed k, InB [2] k → ∀ m < 3, drawAt (caseCfg (K := ℚ)).workers (caseCfg (K := ℚ)).mapAxis
    (fnsQ.rvs seed false [⟨[2], [some 1, some 3], rfl⟩, ⟨[2], [some 1, some 2], rfl⟩]) [2] m k ≠ none := by
  intro seed k hk m _
  rw [← mem_allIdx] at hk
  simp only [allIdx, List.range_succ, List.range_zero, List.nil_append, List.flatMap_cons, List.flatMap_nil,
    List.map_cons, List.map_nil, List.cons_append, List.append_nil, List.mem_cons, List.not_mem_nil, or_false] at hk
  rcases hk with rfl | rfl <;>
    simp [drawAt, caseCfg, fnsQ, caseFns, Fl.add, Fl.lift2, NDArr.get, ravel]

/-- The gamma class. -/
example : ∃ o w, construct (gammaPrims caseCfg fnsQ embInt) noMids (probObj (gammaX false)) world0 = (.ok o, w) ∧
    numOf (result .gamma intInfo (gammaPrims caseCfg fnsQ embInt) noMids (.slot (.cdf none (some 2))) (unsaved o) w) =
      some ([2], [some (2 / 3), some (1 / 2)]) ∧
    numOf (result .gamma intInfo (gammaPrims caseCfg fnsQ embInt) noMids (.slot (.brier none (some 2))) (unsaved o) w) =
      some ([], [some (13 / 72)]) ∧
    numOf (result .gamma intInfo (gammaPrims caseCfg fnsQ embInt) noMids (.slot .probToEns) (unsaved o) w) =
      some ([2, 3], [some 0, some 2, some 3, some 2, some 3, some 4]) :=
  ⟨_, _, rfl, by decide +kernel, by decide +kernel, by decide +kernel⟩

/-- numbers as arguments -/
def ratInfo : ArgInfo ℚ where
  text := fun q => intStr q.num ++ '/' :: natStr q.den
  hasLen _ := false
  isArr _ := false
  ravelLen _ := 1
  len _ := none
  items _ := none

def embRat (q : ℚ) : Arg ℚ := .thr (.scalar (some q))

/-- The hurdle class meets `HurdleOK` with the grid `0, 2, 4`. -/
theorem hurdle_case : HurdleOK caseCfg fnsQ ratInfo embRat id hurdleX ⟨[2], [some (1 / 2), some 1], rfl⟩
    ⟨[2], [some 1, some 3], rfl⟩ ⟨[2], [some 1, some 2], rfl⟩ [0, 2, 4] where
  hpop := ⟨rfl, rfl⟩
  hmu := ⟨rfl, rfl⟩
  hsigma := ⟨rfl, rfl⟩
  unit := by
    intro k v hk
    rw [← mem_allIdx] at hk
    revert v
    revert k
    decide +kernel
  lib := unitLib_step
  pool := .inl ⟨rfl, by decide +kernel⟩
  thr := fun _ => rfl
  print := fun _ h => by cases h
  grid := by decide +kernel
  ne := by simp

example : ∃ o w, construct (hurdlePrims caseCfg fnsQ embRat id) noMids (probObj hurdleX) world0 = (.ok o, w) ∧
    numOf (result .hurdle ratInfo (hurdlePrims caseCfg fnsQ embRat id) noMids (.slot (.cdf none (some 2))) (unsaved o) w) =
      some ([2], [some (5 / 6), some (2 / 3)]) ∧
    numOf (result .hurdle ratInfo (hurdlePrims caseCfg fnsQ embRat id) noMids (.slot .fDeterm) (unsaved o) w) =
      some ([2], [some (8 / 15), some (16 / 15)]) :=
  ⟨_, _, rfl, by decide +kernel, by decide +kernel⟩

/-- a hurdle verifier whose parameters do not fit the observations -/
def misfitX : ProbX ℚ := { hurdleX with o := ⟨[3], [some 0, some 1, some 4], rfl⟩ }

/-- **C77**, the full claim: a probabilistic verifier that was constructed has parameters of the shape of its
observations -/
def C77_statement : Prop :=
  ∀ (P : Prims (ProbX ℚ) (PyVal ℚ) ℚ), (P = gaussPrims caseCfg fnsQ embRat ∨ P = gammaPrims caseCfg fnsQ embRat ∨
    P = hurdlePrims caseCfg fnsQ embRat id) → ∀ oi o w w', construct P noMids oi w = (.ok o, w') →
    ∀ p ∈ oi.ext.f, p.2.shape = oi.ext.o.shape

/-- **C77** for the Gaussian and the gamma class: every array of `f` has the shape of the observations, and the
parameters of the distribution are there.  Missing: the hurdle class, where it is false. -/
theorem C77_partial {K : Type} [Field K] [LinearOrder K] [IsStrictOrderedRing K] [FloorSemiring K] {A : Type}
    {mids : FS (PyVal K) → Model.Path → List (FS (PyVal K))} {c : Cfg K} {F : ProbFns K} {emb : A → Arg K}
    {oi o : Obj (ProbX K)} {w w' : World (PyVal K)} :
    (construct (gaussPrims c F emb) mids oi w = (.ok o, w') →
      (∀ p ∈ oi.ext.f, p.2.shape = oi.ext.o.shape) ∧ ∀ k ∈ ["mu", "sigma"], ∃ a, HasPar oi.ext k a) ∧
    (construct (gammaPrims c F emb) mids oi w = (.ok o, w') →
      (∀ p ∈ oi.ext.f, p.2.shape = oi.ext.o.shape) ∧
        ∀ k ∈ ["mu", "sigma", "shift", "unshifted_mu"], ∃ a, HasPar oi.ext k a) := by
  constructor
  · intro h
    obtain ⟨-, hc, -⟩ := construct_prob (shared_gauss c F emb) h
    simp only [gaussPrims] at hc
    split at hc
    · rename_i hd
      simp only [Bool.and_eq_true] at hd
      refine ⟨?_, fun k hk => dictOK_par hd.2 hk⟩
      have := hd.2
      simp only [dictOK, Bool.and_eq_true, List.all_eq_true, decide_eq_true_eq] at this
      exact this.1
    · cases hc
  · intro h
    obtain ⟨-, hc, -⟩ := construct_prob (shared_gamma c F emb) h
    simp only [gammaPrims] at hc
    split at hc
    · rename_i hd
      simp only [Bool.and_eq_true] at hd
      refine ⟨?_, fun k hk => dictOK_par hd.2 hk⟩
      have := hd.2
      simp only [dictOK, Bool.and_eq_true, List.all_eq_true, decide_eq_true_eq] at this
      exact this.1
    · cases hc

/-- **C77** is false in the hurdle class: the constructor accepts parameters that do not have the shape of the
observations, and the error shows up in the metrics only. -/
theorem C77_false : ¬ C77_statement ∧ ∃ o w,
    construct (hurdlePrims caseCfg fnsQ embRat id) noMids (probObj misfitX) world0 = (.ok o, w) ∧
    (misfitX.f.lookup "mu").map (·.shape) ≠ some misfitX.o.shape ∧
    errOf (result .hurdle ratInfo (hurdlePrims caseCfg fnsQ embRat id) noMids (.slot (.brier none (some 2))) (unsaved o)
      w) = some .value := by
  refine ⟨fun hs => ?_, _, _, rfl, by decide +kernel, by decide +kernel⟩
  have := hs _ (.inr (.inr rfl)) (probObj misfitX) _ world0 _ rfl ("mu", ⟨[2], [some 1, some 3], rfl⟩)
    (by simp [probObj, misfitX, hurdleX])
  exact absurd this (by decide)

/-- a hurdle verifier with the parameters in a column -/
def outerX : ProbX ℚ :=
  { hurdleX with
    f := [("pop", ⟨[2, 1], [some (1 / 2), some 1], rfl⟩), ("mu", ⟨[2, 1], [some 1, some 3], rfl⟩),
      ("sigma", ⟨[2, 1], [some 1, some 2], rfl⟩)] }

/-- **C77** is false without any error as well: two forecasts in a column and two observations give a Brier score over
all four combinations, 23/72 instead of 17/72. -/
theorem C77_silent_false : ∃ o o' w w',
    construct (hurdlePrims caseCfg fnsQ embRat id) noMids (probObj hurdleX) world0 = (.ok o, w) ∧
    construct (hurdlePrims caseCfg fnsQ embRat id) noMids (probObj outerX) world0 = (.ok o', w') ∧
    (∀ k a, (hurdleX : ProbX ℚ).f.lookup k = some a → ∃ b, outerX.f.lookup k = some b ∧ b.data = a.data) ∧
    numOf (result .hurdle ratInfo (hurdlePrims caseCfg fnsQ embRat id) noMids (.slot (.brier none (some 2))) (unsaved o) w) =
      some ([], [some (17 / 72)]) ∧
    numOf (result .hurdle ratInfo (hurdlePrims caseCfg fnsQ embRat id) noMids (.slot (.brier none (some 2))) (unsaved o')
      w') = some ([], [some (23 / 72)]) := by
  refine ⟨_, _, _, _, rfl, rfl, fun k a h => ?_, by decide +kernel, by decide +kernel⟩
  simp only [hurdleX, outerX, List.lookup] at h ⊢
  split at h
  · rename_i hk
    cases h
    exact ⟨_, rfl, rfl⟩
  · split at h
    · cases h
      exact ⟨_, rfl, rfl⟩
    · split at h
      · cases h
        exact ⟨_, rfl, rfl⟩
      · cases h

/-- the real numbers: the hypotheses on the truncated Gaussian and on the gamma class hold for the same data -/
noncomputable def fnsR : ProbFns ℝ := caseFns realGauss realGamma

theorem hasPar_unique {K : Type} {x : ProbX K} {k : String} {a b : NDArr (Fl K)} (ha : HasPar x k a) (hb : HasPar x k b) :
    a = b := by
  have := ha.1.symm.trans hb.1
  exact Option.some.inj this

example : ∃ o w, construct (gaussPrims caseCfg fnsR (fun i : Int => .thr (.scalar (some (i : ℝ))))) noMids
      (probObj (gaussX true)) world0 = (.ok o, w) ∧ fnsR.gauss = realGauss ∧
    ∀ sigma, HasPar (gaussX true : ProbX ℝ) "sigma" sigma → ∀ k v, InB [2] k → sigma.get k = some v → 0 < v := by
  refine ⟨_, _, rfl, rfl, fun sigma hs k v hk hv => ?_⟩
  obtain rfl := hasPar_unique hs (b := ⟨[2], [some 1, some 2], rfl⟩) ⟨rfl, rfl⟩
  rw [← mem_allIdx] at hk
  simp only [allIdx, List.range_succ, List.range_zero, List.nil_append, List.flatMap_cons, List.flatMap_nil,
    List.map_cons, List.map_nil, List.cons_append, List.append_nil, List.mem_cons, List.not_mem_nil, or_false] at hk
  rcases hk with rfl | rfl <;> simp [NDArr.get, ravel] at hv <;> subst hv <;> norm_num

example : ∃ o w, construct (gammaPrims caseCfg fnsR (fun i : Int => .thr (.scalar (some (i : ℝ))))) noMids
      (probObj (gammaX false)) world0 = (.ok o, w) ∧ fnsR.gam = realGamma ∧
    ∀ umu sigma, HasPar (gammaX false : ProbX ℝ) "unshifted_mu" umu → HasPar (gammaX false : ProbX ℝ) "sigma" sigma →
      ∀ k, InB [2] k → (∀ v, umu.get k = some v → 0 < v) ∧ (∀ v, sigma.get k = some v → 0 < v) ∧
        (∀ v, (gammaX false : ProbX ℝ).o.get k = some v → 0 ≤ v) := by
  refine ⟨_, _, rfl, rfl, fun umu sigma hm hs k hk => ?_⟩
  obtain rfl := hasPar_unique hs (b := ⟨[2], [some 1, some 2], rfl⟩) ⟨rfl, rfl⟩
  obtain rfl := hasPar_unique hm (b := ⟨[2], [some 1, some 2], rfl⟩) ⟨rfl, rfl⟩
  rw [← mem_allIdx] at hk
  simp only [allIdx, List.range_succ, List.range_zero, List.nil_append, List.flatMap_cons, List.flatMap_nil,
    List.map_cons, List.map_nil, List.cons_append, List.append_nil, List.mem_cons, List.not_mem_nil, or_false] at hk
  rcases hk with rfl | rfl <;> simp [NDArr.get, ravel, gammaX, gaussX]

end Props
