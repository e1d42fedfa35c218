import Verif.Model.Api
import Verif.Model.Average
import Verif.Model.Iou
import Verif.Model.Rank
import Verif.Model.Reliability
import Verif.Model.SpreadSkill
import Verif.Model.SpecialBoot

/-!
# The deterministic and the ensemble verifier put together from the modelled functions
-/

set_option linter.unusedSectionVars false

namespace Model
open Np NDArr

variable {K : Type} [Field K] [LinearOrder K] [FloorSemiring K] {A : Type}

/-- values returned or saved by a verifier -/
inductive PyVal (K : Type)
  | num (a : NDArr (Fl K))
  | bool (a : NDArr Bool)
  | ranks (a : NDArr (Option Nat))
  | relSplit (s : RelSplit K)
  | rel (r : RelOut (Fl K))
  | relBoot (r : RelOut (List (Fl K)))
  | ssSplit (pieces : List (NDArr (Fl K))) (keep : List Nat)
  | pair (a b : NDArr (Fl K))
  | triple (a b c : NDArr (Fl K))
  /-- false positive rates, true positive rates, area -/
  | roc (fpr tpr : List (Fl K)) (auc : Fl K)

/-- arguments of the metric methods -/
inductive Arg (K : Type)
  | thr (t : Thr K)
  /-- a tuple or a list of thresholds -/
  | seq (l : List (Option (Thr K)))
  /-- a number of bins -/
  | num (n : Nat)

/-- settings read from the environment, and the functions of other libraries -/
structure Cfg (K : Type) where
  skipNan : Bool
  npFloat : Bool
  workers : Nat
  mapAxis : Int
  method : Method
  kde : List (Fl K) → Fl K
  sqrt : K → K
  reps : Nat
  conf : K
  argsort : Nat → List (Fl K) → List Nat
  rocCurve : List (Fl K) → List (Fl K) → Except Err (List (Fl K) × List (Fl K) × Fl K)
  /-- `_crps` of the ensemble class (properscoring) -/
  crpsEns : NDArr (Fl K) → NDArr (Fl K) → Int → Except Err (NDArr (Fl K))
  /-- the random numbers of a call, from its seed -/
  rng : Nat → Nat → Nat → Nat → Nat → Nat

/-- `axis=self.avg_axis` as numpy sees it; after validation it is `None` or a tuple, unless a setter failed -/
def axisArg : PyAxis → Except Err (Option (List Int))
  | .none => .ok none
  | .int i => .ok (some [i])
  | .tuple l => .ok (some l)
  | .list _ => .error .type
  | .other => .error .type

/-- `size=self.boot_samples`; numpy looks at it when it draws, so that without repeats or without positions a negative
number would go unnoticed: the model raises at once -/
def bootArg : PyBoot → Except Err Nat
  | .int n => if 0 ≤ n then .ok n.toNat else .error .value
  | _ => .error .type

def PyVal.asNum : PyVal K → Except Err (NDArr (Fl K))
  | .num a => .ok a
  | _ => .error .type

def PyVal.asBool : PyVal K → Except Err (NDArr Bool)
  | .bool a => .ok a
  | _ => .error .type

def Arg.asThr : Arg K → Except Err (Thr K)
  | .thr t => .ok t
  | _ => .error .type

def optThr : Option (Arg K) → Except Err (Option (Thr K))
  | none => .ok none
  | some a => do
    let t ← a.asThr
    pure (some t)

def Arg.asNat : Arg K → Except Err Nat
  | .num n => .ok n
  | _ => .error .type

/-- `o_binary` used as numbers -/
def boolNum (a : NDArr Bool) : NDArr (Fl K) := a.map b2k

/-- the parts that do not depend on the class; `emb` says what the arguments of the caller are -/
def basePrims {X : Type} (c : Cfg K) (obs : X → NDArr (Fl K)) (emb : A → Arg K) : Prims X (PyVal K) A where
  fDet _ := .error .notImplemented
  errorOf x v := do let f ← v.asNum; return .num (← errorArr f (obs x))
  sqErrorOf x v := do let f ← v.asNum; return .num (← sqErrorArr f (obs x))
  abErrorOf x v := do let f ← v.asNum; return .num (← abErrorArr f (obs x))
  crps _ := .error .notImplemented
  ens _ := .error .notImplemented
  rankOf _ _ _ := .error .notImplemented
  spreadOf _ _ := .error .notImplemented
  variance _ := .error .notImplemented
  cdfBelow _ _ := .error .notImplemented
  oneMinus v := do let f ← v.asNum; return .num (f.map fun x => Fl.sub (some 1) x)
  binarize x o b := do return .bool (← binarizeObs (obs x) (← optThr (o.map emb)) (← optThr (b.map emb)))
  brierOf f ob := do return .num (← brierArr (← f.asNum) (← ob.asBool))
  rocOf f ob := do
    let r ← calculateRoc c.rocCurve c.skipNan (← f.asNum) (boolNum (← ob.asBool))
    return .roc r.1 r.2.1 r.2.2
  iouDeterm x fd a o b := do
    return .num (← Model.iouDeterm (← fd.asNum) (obs x) (← axisArg a) (← optThr (o.map emb)) (← optThr (b.map emb)))
  iouProb f ob a o b := do
    return .num (← Model.iouProb (← f.asNum) (← ob.asBool) (← axisArg a) (← optThr (o.map emb)) (← optThr (b.map emb)))
  relSplit f ob n a := do
    return .relSplit (← relCreateSplit (← f.asNum) (← ob.asBool) (← (emb n).asNat) (← axisArg a))
  relAgg v := match v with
    | .relSplit s => do return .rel (← Model.relAgg s fun _ ids p t => relNoBootSlice ids p t s.bins)
    | _ => .error .type
  relBoot v n seed := match v with
    | .relSplit s => do
      let n ← bootArg n
      return .relBoot (← Model.relAgg s fun col ids p t =>
        relBootSlice ids p t s.bins n c.reps c.conf c.skipNan (c.rng seed col))
    | _ => .error .type
  ssSplit v s n a := do
    let r ← ssCreateSplit c.argsort (← v.asNum) (← s.asNum) (← (emb n).asNat) (← axisArg a)
    return .ssSplit r.1 r.2
  ssAgg v := match v with
    | .ssSplit p k => do let r ← ssAggNoBoot c.sqrt c.skipNan p k; return .pair r.1 r.2
    | _ => .error .type
  ssBoot v n seed := match v with
    | .ssSplit p k => do
      let r ← ssAggBoot c.sqrt c.skipNan p k (← bootArg n) c.reps c.conf (c.rng seed)
      return .pair r.1 r.2
    | _ => .error .type
  avg v a := do
    return .num (← Model.bootOrAvg c.skipNan (← axisArg a) none c.reps c.conf (c.rng 0 0) (← v.asNum))
  bootArr v a n seed := do
    return .num (← Model.bootOrAvg c.skipNan (← axisArg a) (some (← bootArg n)) c.reps c.conf (c.rng seed 0)
      (← v.asNum))
  corr x fd a := do return .num (← Model.corr c.sqrt c.skipNan (← fd.asNum) (obs x) (← axisArg a))
  corrBoot x fd a n seed := do
    return .num (← Model.corrBoot c.sqrt c.skipNan (← fd.asNum) (obs x) (← axisArg a) (← bootArg n) c.reps c.conf
      (c.rng seed 0))
  brierDecomp f ob a := do
    let r ← Model.brierDecomp c.skipNan (← f.asNum) (boolNum (← ob.asBool)) (← axisArg a)
    return .triple r.1 r.2.1 r.2.2
  brierDecompBoot f ob a n seed := do
    let r ← Model.brierDecompBoot c.skipNan (← f.asNum) (boolNum (← ob.asBool)) (← axisArg a) (← bootArg n) c.reps
      c.conf (c.rng seed 0)
    return .triple r.1 r.2.1 r.2.2
  members _ := false
  sample _ _ := .error .notImplemented
  pitRanks _ := .error .notImplemented
  pitRandom _ := false
  pitDraw _ _ _ := .error .notImplemented
  grid _ := .error .notImplemented
  meanOf _ _ := .error .notImplemented
  varOf _ _ := .error .notImplemented
  crpsOf _ _ := .error .notImplemented
  sqrt v := do let f ← v.asNum; return .num (f.map (Fl.sqrt c.sqrt))
  check x := (.ok (), x)
  init x := .ok x

/-! ### VerifyDeterm -/

structure DetX (K : Type) where
  f : NDArr (Fl K)
  o : NDArr (Fl K)

/-- VerifyDeterm.py -/
def detPrims (c : Cfg K) (emb : A → Arg K) : Prims (DetX K) (PyVal K) A :=
  { basePrims c DetX.o emb with
    -- VerifyDeterm.py:51-52
    fDet := fun x => .ok (.num x.f)
    -- VerifyDeterm.py:61-70
    check := fun x => (if x.f.shape = x.o.shape then .ok () else .error .assertion, x) }

/-! ### VerifyEnsemble -/

structure EnsX (K : Type) where
  f : NDArr (Fl K)
  o : NDArr (Fl K)
  /-- `ensemble_axis` -/
  axis : Option Int
  /-- `ensemble_collapse_func(f, axis=...)` -/
  collapse : NDArr (Fl K) → Int → Except Err (NDArr (Fl K))
  /-- `f_collapsed` -/
  fc : Option (NDArr (Fl K))

/-- the axis after validation -/
def EnsX.ax (x : EnsX K) : Except Err Int :=
  match x.axis with
  | some a => .ok a
  | none => .error .type

/-- VerifyEnsemble.py -/
def ensPrims (c : Cfg K) (emb : A → Arg K) : Prims (EnsX K) (PyVal K) A :=
  { basePrims c EnsX.o emb with
    -- VerifyEnsemble.py:71-72
    fDet := fun x => match x.fc with
      | some a => .ok (.num a)
      | none => .error .type
    -- VerifyEnsemble.py:86-105
    crps := fun x => do return .num (← c.crpsEns x.o x.f (← x.ax))
    ens := fun x => .ok (.num x.f)
    -- VerifyEnsemble.py:107-108
    rankOf := fun x e seed => do
      return .ranks (← rankHistogram c.skipNan c.npFloat c.workers c.mapAxis (c.rng seed 0) (← e.asNum) x.o (← x.ax))
    -- VerifyEnsemble.py:110-114
    spreadOf := fun x e => do return .num (← ensSpread c.skipNan (← e.asNum) (← x.ax))
    -- VerifyEnsemble.py:125-126
    variance := fun x => do return .num (← ensVariance x.f (← x.ax))
    -- VerifyEnsemble.py:174
    cdfBelow := fun x b => do
      return .num (← ensToProb c.workers c.method c.kde x.f (← x.ax) none (some (← (emb b).asThr)))
    -- VerifyEnsemble.py:194-218
    check := fun x => match validateEnsembleAxis x.f.shape x.o.shape x.axis with
      | .error e => (.error e, x)
      | .ok a => (.ok (), { x with axis := some a })
    -- VerifyEnsemble.py:220-221
    init := fun x => do
      let a ← x.ax
      return { x with fc := some (← x.collapse x.f a) } }

end Model
