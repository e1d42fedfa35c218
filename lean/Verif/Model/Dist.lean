import Verif.Model.Ensemble
import Verif.Model.Average

/-!
# Distribution functions and sampling (utils_dist.py, dist_truncgamma.py, VerifyProb*.py)

The scipy functions (`norm.cdf`, `truncnorm.cdf`, `gamma.cdf`, `gammainc`, `gammaincinv`, `rvs`) are
parameters; they act elementwise, with broadcasting.  Random draws are oracles.
-/

set_option linter.unusedSectionVars false

namespace Model
open Np NDArr

variable {K : Type} [Field K] [LinearOrder K] [IsStrictOrderedRing K]

/-- an elementwise function of several arrays, broadcast to a common shape -/
def elementwise (g : List (Fl K) → Fl K) (ps : List (NDArr (Fl K))) : Except Err (NDArr (Fl K)) :=
  match ps with
  | [] => .error .value
  | _ =>
    match bcShapes (ps.map NDArr.shape) with
    | none => .error .value
    | some s => .ok (ofFn s fun k => g (ps.map fun q => q.get (bcIdx q.shape k)))

/-- the same, with `masked` as in `wrapper_gamma_hurdle_cdf` (utils_dist.py:57-61): the last array is used as a boolean
mask of the first one, an `IndexError` unless they have the same shape.  (numpy would also take a mask of the leading
axes only; not modelled.) -/
def runElems (masked : Bool) (g : List (Fl K) → Fl K) (ps : List (NDArr (Fl K))) : Except Err (NDArr (Fl K)) :=
  if masked = true ∧ (ps.map NDArr.shape).head? ≠ (ps.map NDArr.shape).getLast? then .error .index
  else elementwise g ps

/-- `np.split(q, q.shape[ax], ax)`: a bad axis is an `IndexError`, zero pieces a `ZeroDivisionError` -/
def splitOne (mapAxis : Int) (q : NDArr (Fl K)) : Except Err (List (NDArr (Fl K))) :=
  match normAxis q.ndim mapAxis with
  | .error _ => .error .index
  | .ok n =>
    if q.shape.getD n 0 = 0 then .error .generic else .ok ((List.range (q.shape.getD n 0)).map fun j => q.slab n j)

/-- the pieces handed to the workers: `zip(np.split(p, p.shape[ax], ax) for p in ps)`
(utils_dist.py:190-194, 232-237, 277-282).  `zip` stops at the array with the fewest pieces. -/
def splitZip (mapAxis : Int) (ps : List (NDArr (Fl K))) : Except Err (List (List (NDArr (Fl K)))) := do
  let cols ← mapE (splitOne mapAxis) ps
  let n := (cols.map List.length).min?.getD 0
  return (List.range n).map fun j => cols.map fun c => c.getD j default

/-- `_parallel_process` (utils_dist.py:30-44) with an elementwise wrapper; `process_map` keeps the order -/
def parallelCdf (masked : Bool) (workers mapAxis : Int) (g : List (Fl K) → Fl K) (ps : List (NDArr (Fl K))) :
    Except Err (NDArr (Fl K)) := do
  let pieces ← splitZip mapAxis ps
  if workers > 1 then
    if mapAxis < 0 then do
      let res ← mapE (runElems masked g) pieces
      concatAx mapAxis res
    else .error .assertion
  else .error .assertion

/-- `probs[probs < 0] = 0; probs[probs > 1] = 1` (utils_dist.py:201-202, 244-245, 286-287) -/
def clip01 (x : Fl K) : Fl K :=
  let y := if Fl.lt x (some 0) then some 0 else x
  if Fl.lt (some 1) y then some 1 else y

/-- utils_dist.py:174-179, 215-220, 263-268: the threshold as an array -/
def broadcastBelow (shape : List Nat) : Thr K → Except Err (NDArr (Fl K))
  | .array a => if a.shape = shape then .ok a else .error .assertion
  | .scalar v => .ok (full shape v)
  | .other => .error .runtime

/-- the common structure of `cdf_gaussian`, `cdf_gamma` and `cdf_gamma_hurdle`: `serial` is the elementwise function
used with one worker, `wrapper` the one used in the pool, `shape` the shape the threshold is compared with.  For arrays
without axes numpy and scipy return a scalar, and the item assignment that follows raises `TypeError`. -/
def cdfGeneric (masked : Bool) (shape : List Nat) (workers mapAxis : Int) (serial wrapper : List (Fl K) → Fl K)
    (params : List (NDArr (Fl K))) (below : Thr K) : Except Err (NDArr (Fl K)) := do
  let b ← broadcastBelow shape below
  let probs ← if workers = 1 then runElems masked serial (params ++ [b])
    else parallelCdf masked workers mapAxis wrapper (params ++ [b])
  if probs.shape = [] then .error .type else pure (probs.map clip01)

/-- the scipy distribution functions, all as `cdf x shape-or-none loc scale` -/
structure Scipy (K : Type) where
  /-- `stats.norm.cdf(x, loc, scale)` -/
  norm : Fl K → Fl K → Fl K → Fl K
  /-- `stats.truncnorm.cdf(x, a, b=_LARGE_NUMBER_, loc, scale)` -/
  truncnorm : Fl K → Fl K → Fl K → Fl K → Fl K
  /-- `stats.gamma.cdf(x, a, loc, scale)` -/
  gamma : Fl K → Fl K → Fl K → Fl K → Fl K
  /-- `truncgamma_gen().cdf(x, a, b=_LARGE_NUMBER_, s, loc, scale)` -/
  truncgamma : Fl K → Fl K → Fl K → Fl K → Fl K → Fl K

/-- utils_dist.py:168-204 -/
def cdfGaussian (S : Scipy K) (workers mapAxis : Int) (mu sigma : NDArr (Fl K)) (below : Thr K)
    (truncated : Bool) : Except Err (NDArr (Fl K)) :=
  -- lines 182-185 and 65-71: `[mu, sigma, below]`
  let f : List (Fl K) → Fl K := fun p =>
    let m := p.getD 0 none
    let s := p.getD 1 none
    let x := p.getD 2 none
    if truncated then S.truncnorm x (Fl.div (Fl.mul (some (-1)) m) s) m s else S.norm x m s
  cdfGeneric false mu.shape workers mapAxis f f [mu, sigma] below

/-- `shape = (mu / sigma) ** 2` (utils_dist.py:129, 212, 258).  Faithful for `sigma ≠ 0`: there are no
infinities in the model. -/
def gammaShape (mu sigma : Fl K) : Fl K := Fl.sq (Fl.div mu sigma)

/-- `scale = sigma ** 2 / mu` (utils_dist.py:130, 213, 259).  Faithful for `mu ≠ 0`. -/
def gammaScale (mu sigma : Fl K) : Fl K := Fl.div (Fl.sq sigma) mu

/-- utils_dist.py:207-247.  The pool wrapper of the truncated case passes the literal list `[3]` as threshold
(utils_dist.py:54-55: `x=[3]`, not `x=x[3]`). -/
def cdfGamma (S : Scipy K) (workers mapAxis : Int) (umu sigma shift : NDArr (Fl K)) (below : Thr K)
    (truncated : Bool) : Except Err (NDArr (Fl K)) := do
  let shape ← zipWith gammaShape umu sigma
  let scale ← zipWith gammaScale umu sigma
  -- parameters in the order of lines 232-237: shape, scale, shift, below
  let serial : List (Fl K) → Fl K := fun p =>
    let a := p.getD 0 none
    let sc := p.getD 1 none
    let sh := p.getD 2 none
    let x := p.getD 3 none
    if truncated then S.truncgamma x (Fl.div (Fl.mul (some (-1)) sh) sc) a sh sc else S.gamma x a sh sc
  let wrapper : List (Fl K) → Fl K := fun p =>
    let a := p.getD 0 none
    let sc := p.getD 1 none
    let sh := p.getD 2 none
    let x := p.getD 3 none
    if truncated then S.truncgamma (some 3) (Fl.div (Fl.mul (some (-1)) sh) sc) a sh sc
    else S.gamma x a sh sc
  cdfGeneric false shape.shape workers mapAxis serial wrapper [shape, scale, shift] below

/-- `wrapper_gamma_hurdle_cdf` (utils_dist.py:57-61) for one element: `[pop, shape, scale, below]` -/
def hurdleElem (S : Scipy K) (p : List (Fl K)) : Fl K :=
  let pop := p.getD 0 none
  let a := p.getD 1 none
  let sc := p.getD 2 none
  let x := p.getD 3 none
  let prob := Fl.sub (some 1) pop
  if Fl.lt (some 0) x then Fl.add prob (Fl.mul pop (S.gamma x a (some 0) sc)) else prob

/-- utils_dist.py:250-289 -/
def cdfGammaHurdle (S : Scipy K) (workers mapAxis : Int) (pop mu sigma : NDArr (Fl K)) (below : Thr K) :
    Except Err (NDArr (Fl K)) := do
  let shape ← zipWith gammaShape mu sigma
  let scale ← zipWith gammaScale mu sigma
  cdfGeneric true shape.shape workers mapAxis (hurdleElem S) (hurdleElem S) [pop, shape, scale] below

/-- `_cdf` of the probabilistic verifiers (VerifyProbGaussian.py:71-74, VerifyProbGamma.py:73-76,
VerifyProbGammaHurdle.py:73-76): `1 - cdf(below=over)` or the distribution's `cdf` -/
def probCdf (cdf : Thr K → Except Err (NDArr (Fl K))) (over below : Option (Thr K)) :
    Except Err (NDArr (Fl K)) :=
  match over, below with
  | none, some b => cdf b
  | some t, none => do
    let p ← cdf t
    pure (p.map fun x => Fl.sub (some 1) x)
  | _, _ => .error .assertion

/-- `_pit` (VerifyProb.py:167-177).  `u k` is the uniform draw in `[0,1)` behind the sample at position `k`
(`stats.uniform(loc=0, scale=r).rvs()` is `r * u`; scipy raises `ValueError` when a scale is NaN). -/
def pit (cdf : Thr K → Except Err (NDArr (Fl K))) (randomize : Bool) (u : List Nat → K)
    (o : NDArr (Fl K)) : Except Err (NDArr (Fl K)) := do
  let ranks ← probCdf cdf none (some (.array o))
  if randomize then
    if ranks.shape = o.shape then
      if ∀ k ∈ allIdx o.shape, o.get k = some 0 → ranks.get k ≠ none then
        pure (ofFn o.shape fun k =>
          if o.get k = some 0 then Fl.mul (ranks.get k) (some (u k)) else ranks.get k)
      else .error .value
    else .error .index
  else pure ranks

/-! ### sampling -/

/-- `sample_dist_gaussian` / `sample_dist_gamma` (utils_dist.py:78-117, 120-161): `draw j m k` is the `m`-th draw at
position `k` of piece `j` (piece 0 with one worker), `rvs` returns shape `[n] + shape`. -/
def sampleDist (workers mapAxis : Int) (draw : Nat → Nat → List Nat → Fl K) (params : List (NDArr (Fl K)))
    (n : Nat) (moveAxis : Int) : Except Err (NDArr (Fl K)) := do
  let rvs : Nat → List Nat → NDArr (Fl K) := fun j s => ofFn (n :: s) fun idx => draw j (idx.getD 0 0) idx.tail
  let ens ← match params with
    | [] => .error .value
    | p :: rest =>
      if ∀ q ∈ rest, q.shape = p.shape then
        if workers = 1 then pure (rvs 0 p.shape)
        else do
          let pieces ← splitZip mapAxis params
          if workers > 1 then
            if mapAxis < 0 then
              concatAx mapAxis (pieces.zipIdx.map fun q => rvs q.2 (q.1.headD p).shape)
            else .error .assertion
          else .error .assertion
      else .error .assertion
  if moveAxis ≠ 0 then ens.moveaxis 0 moveAxis else pure ens

/-- `_prob_to_ens` (VerifyProbGaussian.py:61-69, VerifyProbGamma.py:63-71) -/
def probToEns (workers mapAxis : Int) (draw : Nat → Nat → List Nat → Fl K) (params : List (NDArr (Fl K)))
    (members : Option Nat) (moveAxis : Int) (clip : Option K) : Except Err (NDArr (Fl K)) :=
  match members with
  | none => .error .assertion
  | some n => do
    let ens ← sampleDist workers mapAxis draw params n moveAxis
    match clip with
    | none => pure ens
    | some c => pure (ens.map fun x => if Fl.lt x (some c) then some 0 else x)

/-- VerifyProb.py:108-113: the spread of the sampled ensemble -/
def probSpread (skipNan : Bool) (ens : NDArr (Fl K)) : Except Err (NDArr (Fl K)) := ensSpread skipNan ens (-1)

/-! ### truncated gamma -/

/-- the incomplete gamma function and its inverse at a fixed shape `s` -/
structure GammaInc (K : Type) where
  inc : K → K
  inv : K → K

/-- `truncgamma_gen._cdf` (dist_truncgamma.py:47-56) -/
def truncCdf (G : GammaInc K) (a b x : K) : Fl K :=
  let r := Fl.div (some (G.inc x - G.inc a)) (some (G.inc b - G.inc a))
  if x < a ∨ x > b then some 0 else r

/-- `truncgamma_gen._ppf` (dist_truncgamma.py:58-61) -/
def truncPpf (G : GammaInc K) (a b q : K) : K := G.inv (q * (G.inc b - G.inc a) + G.inc a)

/-- `truncgamma_gen._argcheck` (dist_truncgamma.py:31-35) -/
def truncArgcheck (a b : K) : Bool := decide (0 ≤ a) && decide (a < b)

/-- a sample of the shifted and scaled distribution (`loc + scale * _ppf(q)`, dist_truncgamma.py:63-65 with
utils_dist.py:137, 53): `a = -shift/scale`, `b = 10000` -/
def truncSample (G : GammaInc K) (shift scale q : K) : Except Err K :=
  let a := -shift / scale
  if truncArgcheck a 10000 && decide (0 < scale) then .ok (shift + scale * truncPpf G a 10000 q)
  else .error .value

end Model
