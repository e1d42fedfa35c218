import Verif.Model.ApiInst
import Verif.Model.Crps
import Verif.Model.Integration

/-!
# The probabilistic verifiers put together from the modelled functions

VerifyProb.py, VerifyProbGaussian.py, VerifyProbGamma.py, VerifyProbGammaHurdle.py.  `f` is a dictionary of arrays.
The integrations of the hurdle class run on one core and in memory (`combineRows`; Model/Integration.lean has the
other modes).  NaN in the integration range is a value error.
-/

set_option linter.unusedSectionVars false

namespace Model
open Np NDArr

variable {K : Type} [Field K] [LinearOrder K] [IsStrictOrderedRing K] [FloorSemiring K] {A : Type}

/-- an optional setting: `None`, a value of the right type, or another object -/
inductive PySet (α : Type)
  | none
  | val (v : α)
  | other

/-- data and settings of a probabilistic verifier (VerifyProb.py:34-45 and the constructors of the classes) -/
structure ProbX (K : Type) where
  /-- the items of the dictionary `f` -/
  f : List (String × NDArr (Fl K))
  o : NDArr (Fl K)
  /-- `move_sampled_ens_axis`; `none` when it is not an int -/
  moveAxis : Option Int
  /-- `truncated`; `none` when it is not a bool -/
  truncated : Option Bool
  /-- `pit_randomize_zero_ranks`; `none` when it is not a bool -/
  randomize : Option Bool
  /-- `n_sample_members` -/
  members : PySet Int
  /-- `clip_member_to_zero` -/
  clip : PySet K
  /-- `n_approx_bins` (hurdle class); `none` when it is not an int -/
  nbins : Option Int
  /-- `integration_range` (hurdle class) -/
  range : Option (List K)

/-- the functions of scipy and properscoring, the random numbers, and one more environment setting -/
structure ProbFns (K : Type) where
  scipy : Scipy K
  gauss : Gauss K
  psGaussian : List (Fl K) → Fl K
  gam : GammaFns K
  /-- `rvs`: seed, `truncated`, parameters, piece, member, position -/
  rvs : Nat → Bool → List (NDArr (Fl K)) → Nat → Nat → List Nat → Fl K
  /-- the uniform draw in `[0, 1)` at a position, from the seed -/
  uni : Nat → List Nat → K
  /-- `pyanen_integrate_range_multiplier` -/
  rangeMulti : Int

/-- `self.f[k]` -/
def ProbX.key (x : ProbX K) (k : String) : Except Err (NDArr (Fl K)) :=
  match x.f.lookup k with
  | some a => .ok a
  | none => .error .key

/-- `k in self.f.keys()` -/
def ProbX.hasKey (x : ProbX K) (k : String) : Bool := (x.f.lookup k).isSome

/-- `self.truncated` where a bool is used -/
def ProbX.trunc (x : ProbX K) : Bool := x.truncated == some true

/-- VerifyProb.py:179-201 -/
def probSettingsOK (x : ProbX K) : Bool :=
  x.moveAxis.isSome && x.randomize.isSome && (match x.members with | .other => false | _ => true) &&
    (match x.clip with | .other => false | _ => true) && x.truncated.isSome

/-- VerifyProbGaussian.py:42-51, VerifyProbGamma.py:43-54: every array of the dictionary has the shape of the
observations, and the parameters are there -/
def dictOK (x : ProbX K) (keys : List String) : Bool :=
  x.f.all (fun p => decide (p.2.shape = x.o.shape)) && keys.all x.hasKey

/-- `n_sample_members` and `clip_member_to_zero` as `probToEns` takes them; a negative size is a `ValueError` -/
def sampleOf (workers mapAxis : Int) (draw : Nat → Nat → List Nat → Fl K) (params : List (NDArr (Fl K)))
    (x : ProbX K) : Except Err (NDArr (Fl K)) := do
  let n ← match x.members with
    | .val n => if 0 ≤ n then pure (some n.toNat) else .error .value
    | .none => pure none
    | .other => .error .type
  let c ← match x.clip with
    | .val c => pure (some c)
    | .none => pure none
    | .other => .error .type
  let ax ← match x.moveAxis with
    | some a => pure a
    | none => .error .type
  probToEns workers mapAxis draw params n ax c

/-- VerifyProb.py:173-175: `ranks[mask] = stats.uniform(loc=0, scale=ranks[mask]).rvs()` -/
def pitZero (u : List Nat → K) (o ranks : NDArr (Fl K)) : Except Err (NDArr (Fl K)) :=
  if ranks.shape = o.shape then
    if ∀ k ∈ allIdx o.shape, o.get k = some 0 → ranks.get k ≠ none then
      pure (ofFn o.shape fun k => if o.get k = some 0 then Fl.mul (ranks.get k) (some (u k)) else ranks.get k)
    else .error .value
  else .error .index

/-- VerifyProb.py, given the distribution function of the class -/
def probPrims (c : Cfg K) (F : ProbFns K) (emb : A → Arg K) (cdf : ProbX K → Thr K → Except Err (NDArr (Fl K))) :
    Prims (ProbX K) (PyVal K) A :=
  { basePrims c ProbX.o emb with
    cdfBelow := fun x b => do return .num (← cdf x (← (emb b).asThr))
    -- VerifyProb.py:99-106
    rankOf := fun x e seed => do
      return .ranks (← rankHistogram c.skipNan c.npFloat c.workers c.mapAxis (c.rng seed 0) (← e.asNum) x.o (-1))
    -- VerifyProb.py:108-113
    spreadOf := fun _ e => do return .num (← probSpread c.skipNan (← e.asNum))
    members := fun x => match x.members with
      | .none => false
      | _ => true
    -- VerifyProb.py:171
    pitRanks := fun x => do return .num (← cdf x (.array x.o))
    pitRandom := fun x => x.randomize == some true
    pitDraw := fun x r seed => do return .num (← pitZero (F.uni seed) x.o (← r.asNum)) }

/-- VerifyProbGaussian.py:74 -/
def gaussCdf (c : Cfg K) (F : ProbFns K) (x : ProbX K) (t : Thr K) : Except Err (NDArr (Fl K)) := do
  cdfGaussian F.scipy c.workers c.mapAxis (← x.key "mu") (← x.key "sigma") t x.trunc

/-- VerifyProbGaussian.py -/
def gaussPrims (c : Cfg K) (F : ProbFns K) (emb : A → Arg K) : Prims (ProbX K) (PyVal K) A :=
  { probPrims c F emb (gaussCdf c F) with
    -- VerifyProbGaussian.py:55-56
    fDet := fun x => do return .num (← x.key "mu")
    -- VerifyProbGaussian.py:58-59
    variance := fun x => do return .num ((← x.key "sigma").map Fl.sq)
    -- VerifyProbGaussian.py:61-69
    sample := fun x seed => do
      let ps := [← x.key "mu", ← x.key "sigma"]
      return .num (← sampleOf c.workers c.mapAxis (F.rvs seed x.trunc ps) ps x)
    -- VerifyProbGaussian.py:76-81
    crps := fun x => do return .num (← gaussianCrps F.gauss F.psGaussian x.trunc x.o (← x.key "mu") (← x.key "sigma"))
    -- VerifyProbGaussian.py:37-53
    check := fun x => (if probSettingsOK x && dictOK x ["mu", "sigma"] then .ok () else .error .assertion, x) }

/-- VerifyProbGamma.py:76 -/
def gammaCdfOf (c : Cfg K) (F : ProbFns K) (x : ProbX K) (t : Thr K) : Except Err (NDArr (Fl K)) := do
  cdfGamma F.scipy c.workers c.mapAxis (← x.key "unshifted_mu") (← x.key "sigma") (← x.key "shift") t x.trunc

/-- VerifyProbGamma.py -/
def gammaPrims (c : Cfg K) (F : ProbFns K) (emb : A → Arg K) : Prims (ProbX K) (PyVal K) A :=
  { probPrims c F emb (gammaCdfOf c F) with
    -- VerifyProbGamma.py:57-58
    fDet := fun x => do return .num (← x.key "mu")
    -- VerifyProbGamma.py:60-61
    variance := fun x => do return .num ((← x.key "sigma").map Fl.sq)
    -- VerifyProbGamma.py:63-71
    sample := fun x seed => do
      let ps := [← x.key "unshifted_mu", ← x.key "sigma", ← x.key "shift"]
      return .num (← sampleOf c.workers c.mapAxis (F.rvs seed x.trunc ps) ps x)
    -- VerifyProbGamma.py:78-83
    crps := fun x => do
      return .num (← gammaCrps F.gam x.trunc (← x.key "unshifted_mu") (← x.key "sigma") (← x.key "shift") x.o)
    -- VerifyProbGamma.py:37-55
    check := fun x => (if probSettingsOK x && dictOK x ["mu", "sigma", "shift", "unshifted_mu"] then .ok ()
      else .error .assertion, x) }

/-- VerifyProbGammaHurdle.py:76 -/
def hurdleCdfOf (c : Cfg K) (F : ProbFns K) (x : ProbX K) (t : Thr K) : Except Err (NDArr (Fl K)) := do
  cdfGammaHurdle F.scipy c.workers c.mapAxis (← x.key "pop") (← x.key "mu") (← x.key "sigma") t

/-- `Integration.seq_x` (utils_approximation.py:279-293) -/
def hurdleSeq (F : ProbFns K) (x : ProbX K) : Except Err (List K) := do
  let given ← match x.range with
    | some [lo, hi] => pure (some (lo, hi))
    | none => pure none
    | some _ => .error .index
  let r ← integrationRange given F.rangeMulti x.o
  match r, x.nbins with
  | (some lo, some hi), some n => if 0 ≤ n then pure (linspace lo hi n.toNat) else .error .value
  | _, _ => .error .value

/-- one of the three integrals over the rows computed for the points of the grid -/
def hurdleSum (F : ProbFns K) (kind : Kind) (x : ProbX K) (vs : List (PyVal K)) : Except Err (PyVal K) := do
  let seq ← hurdleSeq F x
  let rows ← mapE PyVal.asNum vs
  return .num (← combineRows kind seq x.o.shape rows)

/-- VerifyProbGammaHurdle.py; `ofNum` makes an argument of a number -/
def hurdlePrims (c : Cfg K) (F : ProbFns K) (emb : A → Arg K) (ofNum : K → A) : Prims (ProbX K) (PyVal K) A :=
  { probPrims c F emb (hurdleCdfOf c F) with
    grid := fun x => do return (← hurdleSeq F x).map ofNum
    -- VerifyProbGammaHurdle.py:70-71, 78-82
    meanOf := hurdleSum F .mean
    varOf := hurdleSum F .variance
    crpsOf := hurdleSum F .crps
    -- VerifyProbGammaHurdle.py:51-68
    check := fun x => (if probSettingsOK x && x.truncated == some false && ["pop", "mu", "sigma"].all x.hasKey &&
        x.nbins.isSome && (match x.range with
          | none => true
          | some l => decide (l.length = 2)) then .ok () else .error .assertion, x) }

end Model
