import Verif.Model.Dist

/-!
# The continuous ranked probability score (utils_crps.py, VerifyEnsemble.py:86-105, VerifyProbGaussian.py:76-81,
VerifyProbGamma.py:78-83)

`scipy.stats` and `properscoring` are not part of the repository: the density and distribution functions, the beta
function and the score of one ensemble are parameters.
-/

set_option linter.unusedSectionVars false

namespace Model
open Np NDArr

variable {K : Type} [Field K] [LinearOrder K] [IsStrictOrderedRing K]

/-- what `crps_truncated_gaussian` takes from scipy and numpy -/
structure Gauss (K : Type) where
  /-- `stats.norm().pdf` -/
  pdf : K → K
  /-- `stats.norm().cdf` -/
  cdf : K → K
  /-- `np.sqrt(2)` -/
  sqrt2 : K
  /-- `np.sqrt(np.pi)` -/
  sqrtPi : K

/-- a parameter of `crps_truncated_gaussian`: a Python number or a numpy array -/
inductive Param (K : Type) where
  | number (v : Fl K)
  | array (a : NDArr (Fl K))

/-- the parameter as an array -/
def Param.expand (s : List Nat) : Param K → NDArr (Fl K)
  | .number v => full s v
  | .array a => a

/-- the shape of the parameter; a Python number broadcasts like an array without axes -/
def Param.shape : Param K → List Nat
  | .number _ => []
  | .array a => a.shape

/-- is the parameter a Python number? -/
def Param.isNumber : Param K → Bool
  | .number _ => true
  | .array _ => false

/-- utils_crps.py:90-121 for one element: `[y, mu, scale, l]`.  Faithful for `scale ≠ 0` and a distribution function
less than one at the bound: there are no infinities in the model. -/
def truncGaussElem (G : Gauss K) (p : List (Fl K)) : Fl K :=
  let mu := p.getD 1 none
  let scale := p.getD 2 none
  -- lines 90-94
  let y := Fl.sub (p.getD 0 none) mu
  let l := Fl.sub (p.getD 3 none) mu
  let l := Fl.div l scale
  let y := Fl.div y scale
  -- lines 96-98
  let z := if Fl.lt y l then l else y
  -- lines 100-107
  let f_z := z.map G.pdf
  let F_z := z.map G.cdf
  let F_l := l.map G.cdf
  let F_u := some 1
  let F_usqrt2 := some 1
  let F_lsqrt2 := (Fl.mul l (some G.sqrt2)).map G.cdf
  -- line 110
  let frac1 := Fl.div (some 1) (Fl.sub F_u F_l)
  -- lines 113-116
  let term1 := Fl.abs (Fl.sub y z)
  let term2 := Fl.mul (Fl.mul frac1 z) (Fl.sub (Fl.sub (Fl.mul (some 2) F_z) F_u) F_l)
  let term3 := Fl.mul (Fl.mul frac1 (some 2)) f_z
  let term4 := Fl.mul (Fl.div (Fl.mul (Fl.sq frac1) (some 1)) (some G.sqrtPi)) (Fl.sub F_usqrt2 F_lsqrt2)
  -- lines 119-121
  let crps := Fl.sub (Fl.add (Fl.add term1 term2) term3) term4
  Fl.mul crps scale

/-- utils_crps.py:83-121 for an observation array.  Line 98 indexes `l` with the mask: if `mu`, `scale` and `l` are all
Python numbers then so is `l` after lines 91-93 and indexing it is a `TypeError`.  Lines 90-94 broadcast `y` and `l` with
`mu` and `scale`, and line 97 broadcasts the two results.  The mask of line 97 then indexes both of them, which is an
`IndexError` unless they have one shape. -/
def crpsTruncatedGaussian (G : Gauss K) (y : NDArr (Fl K)) (mu scale l : Param K) : Except Err (NDArr (Fl K)) :=
  if mu.isNumber && scale.isNumber && l.isNumber then .error .type
  else match bcShapes [y.shape, mu.shape, scale.shape], bcShapes [l.shape, mu.shape, scale.shape] with
    | some zs, some ls =>
      if zs = ls then elementwise (truncGaussElem G) [y, mu.expand y.shape, scale.expand y.shape, l.expand y.shape]
      else if bcShape zs ls = none then .error .value
      else .error .index
    | _, _ => .error .value

/-- when the parameters that are arrays have the shape of the observations, all is elementwise -/
theorem crpsTruncatedGaussian_same (G : Gauss K) {y : NDArr (Fl K)} {mu scale l : Param K}
    (hn : (mu.isNumber && scale.isNumber && l.isNumber) = false)
    (h : ∀ p ∈ [mu, scale, l], p.isNumber = false → p.shape = y.shape) :
    crpsTruncatedGaussian G y mu scale l =
      elementwise (truncGaussElem G) [y, mu.expand y.shape, scale.expand y.shape, l.expand y.shape] := by
  have hnil : ∀ s, bcShape [] s = some s := fun s => by rw [bcShape_comm, bcShape_nil]
  simp only [List.mem_cons, List.not_mem_nil, or_false, forall_eq_or_imp, forall_eq] at h
  obtain ⟨h1, h2, h3⟩ := h
  unfold crpsTruncatedGaussian
  rw [hn]
  cases mu <;> cases scale <;> cases l <;>
    simp_all [Param.isNumber, Param.shape, bcShapes, bcShape_nil, bcShape_self]

/-- the same with four arrays -/
theorem crpsTruncatedGaussian_arrays (G : Gauss K) {y mu scale l : NDArr (Fl K)} {s : List Nat} (hy : y.shape = s)
    (hmu : mu.shape = s) (hsc : scale.shape = s) (hl : l.shape = s) :
    crpsTruncatedGaussian G y (.array mu) (.array scale) (.array l) =
      elementwise (truncGaussElem G) [y, mu, scale, l] := by
  refine crpsTruncatedGaussian_same G rfl ?_
  simp [Param.shape, hy, hmu, hsc, hl]

/-- VerifyProbGaussian.py:76-81.  `psGaussian` is `ps.crps_gaussian` for one element (`[o, mu, sigma]`). -/
def gaussianCrps (G : Gauss K) (psGaussian : List (Fl K) → Fl K) (truncated : Bool)
    (o mu sigma : NDArr (Fl K)) : Except Err (NDArr (Fl K)) :=
  if truncated then crpsTruncatedGaussian G o (.array mu) (.array sigma) (.number (some 0))
  else elementwise psGaussian [o, mu, sigma]

/-- what `crps_gamma` takes from scipy and numpy -/
structure GammaFns (K : Type) where
  /-- `stats.gamma.cdf(x, a)`, as a function of `a` and `x` -/
  cdf : K → K → K
  /-- `special.gamma` -/
  gamma : K → K
  /-- `np.log` -/
  log : K → K
  /-- `np.exp` -/
  exp : K → K
  /-- `np.pi` -/
  pi : K

/-- utils_crps.py:25-28 -/
def lbeta (G : GammaFns K) (x1 x2 : K) : K :=
  let log_prod_gamma_x := G.log (G.gamma x1) + G.log (G.gamma x2)
  let log_gamma_sum_x := G.log (G.gamma (x1 + x2))
  log_prod_gamma_x - log_gamma_sum_x

/-- a function of two floats propagating NaN -/
def fl2 (g : K → K → K) : Fl K → Fl K → Fl K
  | some x, some y => some (g x y)
  | _, _ => none

/-- utils_crps.py:37-72 for one element: `[mu, sigma, shift, obs]` with `pyanen_use_tensorflow_math` off.  Faithful for
`mu ≠ 0` and `sigma ≠ 0`. -/
def gammaCrpsElem (G : GammaFns K) (p : List (Fl K)) : Fl K :=
  let mu := p.getD 0 none
  let sigma := p.getD 1 none
  let shift := p.getD 2 none
  let obs := p.getD 3 none
  -- lines 37-38
  let shape := Fl.sq (Fl.div mu sigma)
  let scale := Fl.div (Fl.sq sigma) mu
  -- lines 41-46
  let y_bar := Fl.div (Fl.sub obs shift) scale
  let F_k_y := fl2 G.cdf shape (Fl.mul (some 1) y_bar)
  let c_bar := Fl.div (Fl.mul (some (-1)) shift) scale
  -- lines 57-61
  let half : Fl K := some (1 / 2)
  let lbeta_ret := fl2 (lbeta G) half (Fl.add shape half)
  let F_2k_2c := fl2 G.cdf (Fl.mul (some 2) shape) (Fl.mul (Fl.mul (some 1) (some 2)) c_bar)
  let F_k_c := fl2 G.cdf shape (Fl.mul (some 1) c_bar)
  let F_kp1_y := fl2 G.cdf (Fl.add shape (some 1)) (Fl.mul (some 1) y_bar)
  let F_kp1_c := fl2 G.cdf (Fl.add shape (some 1)) (Fl.mul (some 1) c_bar)
  -- lines 63-68
  let B_05_kp05 := lbeta_ret.map G.exp
  let c1 := Fl.mul y_bar (Fl.sub (Fl.mul (some 2) F_k_y) (some 1))
  let c2 := Fl.mul shape (Fl.sub (Fl.add (Fl.sub (Fl.mul (some 2) F_kp1_y) (some 1)) (Fl.sq F_k_c))
    (Fl.mul (Fl.mul (some 2) F_kp1_c) F_k_c))
  let c3 := Fl.mul c_bar (Fl.sq F_k_c)
  let c4 := Fl.mul (Fl.mul (Fl.div shape (some G.pi)) B_05_kp05) (Fl.sub (some 1) F_2k_2c)
  -- lines 70-72
  let crps := Fl.sub (Fl.sub (Fl.sub c1 c2) c3) c4
  Fl.mul crps scale

/-- utils_crps.py:31-80 with `reduce_sum=False` -/
def crpsGamma (G : GammaFns K) (mu sigma shift obs : NDArr (Fl K)) : Except Err (NDArr (Fl K)) :=
  elementwise (gammaCrpsElem G) [mu, sigma, shift, obs]

/-- utils_crps.py:74-78: `reduce_sum=True`; the mean over all elements, skipping NaN if `pyanen_skip_nan` is set -/
def crpsGammaReduced (G : GammaFns K) (skipNan : Bool) (mu sigma shift obs : NDArr (Fl K)) : Except Err (Fl K) := do
  let r ← crpsGamma G mu sigma shift obs
  pure (meanOf skipNan r.data)

/-- VerifyProbGamma.py:78-83 -/
def gammaCrps (G : GammaFns K) (truncated : Bool) (umu sigma shift o : NDArr (Fl K)) : Except Err (NDArr (Fl K)) :=
  if truncated then .error .notImplemented else crpsGamma G umu sigma shift o

/-- `ps.crps_ensemble(observations, forecasts, axis=axis)` (properscoring): the members are moved to the last axis; the
shapes must agree up to it, or completely (then it is the absolute error).  `pt` is the score of one observation and
its members. -/
def psCrpsEnsemble (pt : Fl K → List (Fl K) → Fl K) (o f : NDArr (Fl K)) (axis : Int) :
    Except Err (NDArr (Fl K)) := do
  let f ← if axis = -1 then pure f else f.moveaxis axis (-1)
  if o.shape = f.shape then zipWith (fun x y => Fl.abs (Fl.sub x y)) o f
  else if o.shape = f.shape.dropLast then
    pure (ofFn o.shape fun k =>
      pt (o.get k) ((List.range (f.shape.getLastD 0)).map fun j => f.get (k ++ [j])))
  else .error .value

/-- VerifyEnsemble.py:90-93 -/
def membersLast (ensembleAxis : Int) (f : NDArr (Fl K)) : Except Err (NDArr (Fl K)) :=
  if ensembleAxis = -1 ∨ ensembleAxis = (f.shape.length : Int) - 1 then .ok f else f.moveaxis ensembleAxis (-1)

/-- VerifyEnsemble.py:86-105; `split` is `pyanen_split_crps_ensemble_along_0`.  `o[i]` of an array without axes is an
`IndexError`, as is `_f[i]` out of range. -/
def ensembleCrps (pt : Fl K → List (Fl K) → Fl K) (split : Bool) (ensembleAxis : Int) (o f : NDArr (Fl K)) :
    Except Err (NDArr (Fl K)) :=
  if split then do
    let f ← membersLast ensembleAxis f
    -- lines 95-100
    match o.shape with
    | [] => .error .index
    | n :: _ => do
      let crps ← mapE (fun i =>
        if i < f.shape.headD 0 then psCrpsEnsemble pt (o.slice0 i) (f.slice0 i) (-1) else .error .index) (List.range n)
      -- line 102
      stack0 crps
  else psCrpsEnsemble pt o f ensembleAxis

end Model
