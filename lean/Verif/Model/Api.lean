import Verif.Model.Cache

/-!
# The verifier classes as objects with saved intermediate results

Python file lines: Verify.py, VerifyDeterm.py, VerifyEnsemble.py, VerifyProb*.py.
The numerical functions are parameters (`Prims`; most are modelled in the other files); this file models which
method calls which, what is saved under which name, the setters and the validation.

Simplifications: environment settings do not change during a history; the integrations of the hurdle class run on one
core, and their scratch file is not shown here (see Model/Integration.lean); save names are the defaults.
-/

namespace Model
open Np

/-! ### arguments and file names -/

/-- what `to_name` can see of an argument value -/
structure ArgInfo (A : Type) where
  /-- `str(v)` -/
  text : A → List Char
  /-- `hasattr(v, '__len__')` -/
  hasLen : A → Bool
  /-- `isinstance(v, np.ndarray)` -/
  isArr : A → Bool
  /-- `len(v.ravel())` -/
  ravelLen : A → Nat
  /-- `len(v)`, `none` when it raises `TypeError` (zero-dimensional arrays) -/
  len : A → Option Nat
  /-- the elements if `v` is a tuple or a list -/
  items : A → Option (List (Option A))

variable {X V A : Type}

/-- `s.replace(' ', '_')` -/
def noSpaces (s : List Char) : List Char := s.map fun c => if c = ' ' then '_' else c

/-- `str(v)`; a missing argument is Python's `None` -/
def argText (I : ArgInfo A) : Option A → List Char
  | none => "None".toList
  | some a => I.text a

/-- Verify.py:154-156 -/
def tooLong (I : ArgInfo A) : Option A → Except Err Bool
  | none => .ok false
  | some a =>
    if I.hasLen a then
      if I.isArr a ∧ 5 < I.ravelLen a then .ok true
      else match I.len a with
        | none => .error .type
        | some n => .ok (decide (5 < n))
    else .ok false

/-- Verify.py:153-158: the text of each argument, `none` as soon as one is too long -/
def nameParts (I : ArgInfo A) : List (List Char × Option A) → Except Err (Option (List (List Char)))
  | [] => .ok (some [])
  | (k, v) :: rest =>
    match tooLong I v with
    | .error e => .error e
    | .ok true => .ok none
    | .ok false =>
      match nameParts I rest with
      | .error e => .error e
      | .ok none => .ok none
      | .ok (some ps) => .ok (some ((k ++ ['_'] ++ noSpaces (argText I v)) :: ps))

/-- Verify.py:143-160 -/
def toName (I : ArgInfo A) (base : Option (List Char)) (args : List (List Char × Option A)) :
    Except Err (Option Name) :=
  match base with
  | none => .ok none
  | some b0 =>
    let b := noSpaces b0
    if b.take 8 = "LITERAL_".toList then .ok (some (b.drop 8))
    else
      match nameParts I args with
      | .error e => .error e
      | .ok none => .ok none
      | .ok (some ps) => .ok (some (['_'].intercalate (b :: ps)))

/-- the things a verifier can compute through `_metric_workflow_1` -/
inductive Slot (A : Type)
  | crps | error | spread | sqError | abError | rankHist | variance | fDeterm | probToEns | pit | corr
  | brierDecomp (over below : Option A)
  | brier (over below : Option A)
  | cdf (over below : Option A)
  | roc (over below : Option A)
  | sharpness (over below : Option A)
  | iouDeterm (over below : Option A)
  | iouProb (over below : Option A)
  | reliability (nbins : A) (over below : Option A)
  | ss (nbins : A)

/-- the arguments `over=..., below=...` -/
def obArgs (over below : Option A) : List (List Char × Option A) :=
  [("over".toList, over), ("below".toList, below)]

/-- default save names and the arguments passed to `to_name` (Verify.py:62-82, VerifyProb.py:48, 51) -/
def slotName (I : ArgInfo A) : Slot A → Except Err (Option Name)
  | .crps => toName I (some "crps".toList) []
  | .error => toName I (some "error".toList) []
  | .spread => toName I (some "spread".toList) []
  | .sqError => toName I (some "sq_error".toList) []
  | .abError => toName I (some "ab_error".toList) []
  | .rankHist => toName I (some "rank".toList) []
  | .variance => toName I (some "variance".toList) []
  | .fDeterm => toName I (some "f_determ".toList) []
  | .probToEns => .ok (some "prob_to_ens".toList)
  | .pit => .ok (some "pit".toList)
  | .corr => toName I none []
  | .brierDecomp o b => toName I none (obArgs o b)
  | .brier o b => toName I (some "brier".toList) (obArgs o b)
  | .cdf o b => toName I (some "cdf".toList) (obArgs o b)
  | .roc o b => toName I (some "roc".toList) (obArgs o b)
  | .sharpness o b => toName I (some "sharpness".toList) (obArgs o b)
  | .iouDeterm o b => toName I (some "iou_determ".toList) (obArgs o b)
  | .iouProb o b => toName I (some "iou_prob".toList) (obArgs o b)
  | .reliability n o b => toName I (some "rel".toList) (("nbins".toList, some n) :: obArgs o b)
  | .ss n => toName I (some "ss".toList) [("nbins".toList, some n)]

/-! ### settings -/

/-- `avg_axis` -/
inductive PyAxis
  | none
  | int (i : Int)
  | list (l : List Int)
  | tuple (l : List Int)
  /-- an object that numpy does not take as an axis either (a string, a float); numpy's own integers, which the
  validation rejects but numpy accepts, are not modelled -/
  | other
  deriving DecidableEq

/-- `boot_samples`; `other` as for `avg_axis` -/
inductive PyBoot
  | none
  | int (n : Int)
  | other
  deriving DecidableEq

/-- `working_directory`: a value that counts as false (also `''`), an expanded path, or another object -/
inductive PyDir
  | none
  | path (d : Path)
  | other

inductive Cls
  | determ | ensemble | gaussian | gamma | hurdle
  deriving DecidableEq

/-- the numerical functions of a class; `X` holds data and class settings, `V` the results.
A `Nat` argument stands for the random numbers used. -/
structure Prims (X V A : Type) where
  /-- the copy of `f`, `f_collapsed` or `f['mu']` made by `_f_determ` -/
  fDet : X → Except Err V
  errorOf : X → V → Except Err V
  sqErrorOf : X → V → Except Err V
  abErrorOf : X → V → Except Err V
  crps : X → Except Err V
  /-- the ensemble `self.f` -/
  ens : X → Except Err V
  rankOf : X → V → Nat → Except Err V
  spreadOf : X → V → Except Err V
  variance : X → Except Err V
  /-- the branch of `_cdf` with `below` given -/
  cdfBelow : X → A → Except Err V
  oneMinus : V → Except Err V
  binarize : X → Option A → Option A → Except Err V
  brierOf : V → V → Except Err V
  rocOf : V → V → Except Err V
  /-- `iou_determ` and `iou_prob` after the check of `over` and `below` -/
  iouDeterm : X → V → PyAxis → Option A → Option A → Except Err V
  iouProb : V → V → PyAxis → Option A → Option A → Except Err V
  relSplit : V → V → A → PyAxis → Except Err V
  relAgg : V → Except Err V
  relBoot : V → PyBoot → Nat → Except Err V
  ssSplit : V → V → A → PyAxis → Except Err V
  ssAgg : V → Except Err V
  ssBoot : V → PyBoot → Nat → Except Err V
  avg : V → PyAxis → Except Err V
  bootArr : V → PyAxis → PyBoot → Nat → Except Err V
  corr : X → V → PyAxis → Except Err V
  corrBoot : X → V → PyAxis → PyBoot → Nat → Except Err V
  brierDecomp : V → V → PyAxis → Except Err V
  brierDecompBoot : V → V → PyAxis → PyBoot → Nat → Except Err V
  /-- `n_sample_members is not None` -/
  members : X → Bool
  sample : X → Nat → Except Err V
  pitRanks : X → Except Err V
  /-- `pit_randomize_zero_ranks` -/
  pitRandom : X → Bool
  pitDraw : X → V → Nat → Except Err V
  /-- the points `seq_x` of `Integration` and its three sums -/
  grid : X → Except Err (List A)
  meanOf : X → List V → Except Err V
  varOf : X → List V → Except Err V
  crpsOf : X → List V → Except Err V
  sqrt : V → Except Err V
  /-- the class part of `_validate`; the settings may be changed (ensemble axis guess) -/
  check : X → Except Err Unit × X
  /-- what the constructor does after validation (`_collapse_ensembles`) -/
  init : X → Except Err X

/-! ### the private metric methods -/

section bodies
variable (C : Cls) (I : ArgInfo A) (P : Prims X V A)

/-- `_cdf`: VerifyEnsemble.py:171-174, VerifyProbGaussian.py:71-74, VerifyProbGamma.py:73-76,
VerifyProbGammaHurdle.py:73-76; not implemented in VerifyDeterm (Verify.py:53) -/
def cdfBody (x : X) (over below : Option A) : Prog V :=
  if C = .determ then .ret (.error .notImplemented)
  else match over, below with
    | none, some b => .ret (P.cdfBelow x b)
    | some o, none => .callName (slotName I (.cdf none (some o))) (.ret (P.cdfBelow x o))
        fun v => .ret (P.oneMinus v)
    | _, _ => .ret (.error .assertion)

/-- `self.cdf(over=over, below=below)` -/
def cdfCall (x : X) (over below : Option A) (k : V → Prog V) : Prog V :=
  .callName (slotName I (.cdf over below)) (cdfBody C I P x over below) k

/-- one CDF for every point of the integration grid (utils_approximation.py:28-38) -/
def cdfAll (x : X) (g : X → List V → Except Err V) : Prog V :=
  match P.grid x with
  | .error e => .ret (.error e)
  | .ok pts => .callAll (pts.map fun a => (slotName I (.cdf none (some a)), cdfBody C I P x none (some a)))
      fun vs => .ret (g x vs)

/-- `_f_determ`: VerifyDeterm.py:51-52, VerifyEnsemble.py:71-72, VerifyProbGaussian.py:55-56, VerifyProbGamma.py:57-58,
VerifyProbGammaHurdle.py:78-79 -/
def fDetBody (x : X) : Prog V :=
  match C with
  | .hurdle => cdfAll C I P x P.meanOf
  | _ => .ret (P.fDet x)

/-- `self.f_determ()` -/
def fDetCall (x : X) (k : V → Prog V) : Prog V :=
  .callName (slotName I .fDeterm) (fDetBody C I P x) k

/-- the deterministic forecast used by `_error` and the like: the attribute itself in VerifyDeterm.py:39-46 and
VerifyEnsemble.py:77-84, `self.f_determ()` in VerifyProb.py:90-97 -/
def withDet (x : X) (g : V → Except Err V) : Prog V :=
  match C with
  | .determ | .ensemble => .ret (P.fDet x >>= g)
  | _ => fDetCall C I P x fun v => .ret (g v)

/-- `_variance`: VerifyEnsemble.py:125-126, VerifyProbGaussian.py:58-59, VerifyProbGamma.py:60-61, VerifyProbGammaHurdle.py:70-71 -/
def varBody (x : X) : Prog V :=
  match C with
  | .determ => .ret (.error .notImplemented)
  | .hurdle => cdfAll C I P x P.varOf
  | _ => .ret (P.variance x)

/-- `_prob_to_ens`: VerifyProbGaussian.py:61-69, VerifyProbGamma.py:63-71; not implemented in the hurdle class -/
def ensBody (x : X) : Prog V :=
  match C with
  | .gaussian | .gamma => if P.members x then .draw fun s => .ret (P.sample x s) else .ret (.error .assertion)
  | _ => .ret (.error .notImplemented)

/-- `_pit`: VerifyProb.py:167-177, calling the private `_cdf` -/
def pitBody (x : X) : Prog V :=
  match P.pitRanks x with
  | .error e => .ret (.error e)
  | .ok r => if P.pitRandom x then .draw fun s => .ret (P.pitDraw x r s) else .ret (.ok r)

/-- `_brier`: VerifyEnsemble.py:116-118, VerifyProb.py:115-117 -/
def brierBody (x : X) (over below : Option A) : Prog V :=
  if C = .determ then .ret (.error .notImplemented)
  else cdfCall C I P x over below fun f => .ret (P.binarize x over below >>= P.brierOf f)

/-- `_sq_error` -/
def sqBody (x : X) : Prog V := withDet C I P x (P.sqErrorOf x)

/-- the check `(over is None) ^ (below is None)` -/
def xorGiven (over below : Option A) : Bool := over.isNone ^^ below.isNone

/-- `self.cdf(...)` followed by `binarize_obs(...)`, as in `_brier_decomp`, `_reliability`, `_roc` -/
def withProb (x : X) (over below : Option A) (k : V → V → Prog V) : Prog V :=
  if C = .determ then .ret (.error .notImplemented)
  else cdfCall C I P x over below fun f =>
    match P.binarize x over below with
    | .error e => .ret (.error e)
    | .ok ob => k f ob

/-- every private metric method -/
def slotBody (x : X) (avg : PyAxis) (boot : PyBoot) : Slot A → Prog V
  | .error => withDet C I P x (P.errorOf x)
  | .sqError => sqBody C I P x
  | .abError => withDet C I P x (P.abErrorOf x)
  -- VerifyEnsemble.py:86-105, VerifyProbGaussian.py:76-81, VerifyProbGamma.py:78-83, VerifyProbGammaHurdle.py:81-82
  | .crps => match C with
    | .determ => .ret (.error .notImplemented)
    | .hurdle => match P.grid x with
      | .error e => .ret (.error e)
      | .ok pts => .callAll (pts.map fun a => (slotName I (.brier none (some a)), brierBody C I P x none (some a)))
          fun vs => .ret (P.crpsOf x vs)
    | _ => .ret (P.crps x)
  -- VerifyEnsemble.py:110-114, VerifyProb.py:108-113
  | .spread => match C with
    | .determ => .ret (.error .notImplemented)
    | .ensemble => .ret (P.ens x >>= P.spreadOf x)
    | _ => .callName (slotName I .probToEns) (ensBody C P x) fun e => .ret (P.spreadOf x e)
  -- VerifyEnsemble.py:107-108, VerifyProb.py:99-106
  | .rankHist => match C with
    | .determ => .ret (.error .notImplemented)
    | .ensemble => .draw fun s => .ret (P.ens x >>= fun e => P.rankOf x e s)
    | _ => if P.members x then
        .callName (slotName I .probToEns) (ensBody C P x) fun e => .draw fun s => .ret (P.rankOf x e s)
      else .callName (slotName I .pit) (pitBody P x) fun v => .ret (.ok v)
  | .variance => varBody C I P x
  | .fDeterm => fDetBody C I P x
  | .probToEns => ensBody C P x
  | .pit => pitBody P x
  -- VerifyDeterm.py:54-55, VerifyEnsemble.py:74-75, VerifyProbGaussian.py:83-84, VerifyProbGamma.py:85-86, VerifyProbGammaHurdle.py:84-85
  | .corr => fDetCall C I P x fun fd =>
    if boot = .none then .ret (P.corr x fd avg) else .draw fun s => .ret (P.corrBoot x fd avg boot s)
  -- VerifyEnsemble.py:120-123, VerifyProb.py:119-122
  | .brierDecomp o b => withProb C I P x o b fun f ob =>
    if boot = .none then .ret (P.brierDecomp f ob avg) else .draw fun s => .ret (P.brierDecompBoot f ob avg boot s)
  | .brier o b => brierBody C I P x o b
  | .cdf o b => cdfBody C I P x o b
  -- VerifyEnsemble.py:146-152, VerifyProb.py:142-148
  | .roc o b => withProb C I P x o b fun f ob => .ret (P.rocOf f ob)
  -- VerifyEnsemble.py:154-155, VerifyProb.py:150-151
  | .sharpness o b => if C = .determ then .ret (.error .notImplemented)
    else cdfCall C I P x o b fun f => .ret (.ok f)
  -- VerifyDeterm.py:48-49, VerifyEnsemble.py:157-158, VerifyProb.py:153-154; utils_verify.py:513-524
  | .iouDeterm o b => withDet C I P x fun fd =>
    if xorGiven o b then P.iouDeterm x fd avg o b else .error .assertion
  -- VerifyEnsemble.py:160-169, VerifyProb.py:156-165; utils_verify.py:527-539
  | .iouProb o b => if C = .determ then .ret (.error .notImplemented) else
    match o.bind I.items, b.bind I.items with
    | some ov, some be =>
      if ov.length = 2 ∨ be.length = 2 then
        match ov[0]?, be[0]? with
        | some o0, some b0 => withProb C I P x o0 b0 fun f ob =>
          match ov[1]?, be[1]? with
          | some o1, some b1 =>
            .ret (if xorGiven o1 b1 then P.iouProb f ob avg o1 b1 else .error .assertion)
          | _, _ => .ret (.error .index)
        | _, _ => .ret (.error .index)
      else .ret (.error .assertion)
    | _, _ => .ret (.error .assertion)
  -- VerifyEnsemble.py:138-144, VerifyProb.py:134-140
  | .reliability n o b => withProb C I P x o b fun f ob => .ret (P.relSplit f ob n avg)
  -- VerifyEnsemble.py:128-136, VerifyProb.py:124-132
  | .ss n => if C = .determ then .ret (.error .notImplemented)
    else .callName (slotName I .variance) (varBody C I P x) fun v =>
      .callName (slotName I .sqError) (sqBody C I P x) fun s => .ret (P.ssSplit v s n avg)

/-- `boot_or_avg` (Verify.py:103-115), then `g` -/
def bootOrAvgP (avg : PyAxis) (boot : PyBoot) (g : V → Except Err V) (v : V) : Prog V :=
  if boot = .none then .ret (P.avg v avg >>= g) else .draw fun s => .ret (P.bootArr v avg boot s >>= g)

/-- `post_reliability`, `post_binned_spread_skill` (Verify.py:117-137) -/
def postBins (boot : PyBoot) (agg : V → Except Err V) (bootAgg : V → PyBoot → Nat → Except Err V) (v : V) : Prog V :=
  if boot = .none then .ret (agg v) else .draw fun s => .ret (bootAgg v boot s)

/-- what a public method does with the loaded or computed array -/
def slotPost (avg : PyAxis) (boot : PyBoot) : Slot A → V → Prog V
  | .crps | .error | .spread | .sqError | .abError | .brier _ _ => bootOrAvgP P avg boot .ok
  | .reliability _ _ _ => postBins boot P.relAgg P.relBoot
  | .ss _ => postBins boot P.ssAgg P.ssBoot
  | _ => fun v => .ret (.ok v)

/-- a public metric call -/
inductive Req (A : Type)
  | slot (s : Slot A)
  | rmse

/-- methods of VerifyProb only -/
def Slot.probOnly : Slot A → Bool
  | .probToEns | .pit => true
  | _ => false

/-- the public metric methods (Verify.py:62-84, VerifyProb.py:47-51) with default save names -/
def metricProg (x : X) (avg : PyAxis) (boot : PyBoot) : Req A → Prog V
  | .slot s =>
    if s.probOnly = true ∧ (C = .determ ∨ C = .ensemble) then
      .ret (.error .attribute)
    else .callName (slotName I s) (slotBody C I P x avg boot s) (slotPost P avg boot s)
  | .rmse => .callName (slotName I (.sqError : Slot A)) (sqBody C I P x) (bootOrAvgP P avg boot P.sqrt)

end bodies

/-! ### the object -/

structure Obj (X : Type) where
  avg : PyAxis
  boot : PyBoot
  dir : PyDir
  /-- `start_from_scratch`; `none` when it is not a bool -/
  scratch : Option Bool
  ext : X

/-- `if self.working_directory` -/
def Obj.wd (o : Obj X) : Option Path :=
  match o.dir with
  | .path d => some d
  | _ => none

/-- Verify.py:190-197 -/
def validateAxis : PyAxis → Except Err Unit × PyAxis
  | .none => (.ok (), .none)
  | .int i => (.ok (), .tuple [i])
  | .list l => (.ok (), .tuple l)
  | .tuple l => (.ok (), .tuple l)
  | .other => (.error .assertion, .other)

/-- Verify.py:199-210 -/
def validateSaving (mids : FS V → Path → List (FS V)) (dir : PyDir) (scratch : Bool) (w : World V) :
    Except Err Unit × World V :=
  match dir with
  | .none => (.ok (), w)
  | .other => (.error .assertion, w)
  | .path d => prepareDir mids scratch d w

/-- Verify.py:216-228, then the `_validate` of the class (VerifyDeterm.py:61-70, VerifyEnsemble.py:194-218,
VerifyProb.py:192-201 and the classes below it) -/
def validate (P : Prims X V A) (mids : FS V → Path → List (FS V)) (o : Obj X) (w : World V) :
    Except Err Unit × Obj X × World V :=
  match validateAxis o.avg with
  | (.error e, a) => (.error e, { o with avg := a }, w)
  | (.ok _, a) =>
    let o1 := { o with avg := a }
    match o.boot with
    | .other => (.error .assertion, o1, w)
    | _ =>
      match o.scratch with
      | none => (.error .assertion, o1, w)
      | some s =>
        match validateSaving mids o.dir s w with
        | (.error e, w1) => (.error e, o1, w1)
        | (.ok _, w1) =>
          match P.check o1.ext with
          | (r, x) => (r, { o1 with ext := x }, w1)

/-- the constructors -/
def construct (P : Prims X V A) (mids : FS V → Path → List (FS V)) (o : Obj X) (w : World V) :
    Except Err (Obj X) × World V :=
  match validate P mids o w with
  | (.error e, _, w1) => (.error e, w1)
  | (.ok _, o1, w1) =>
    match P.init o1.ext with
    | .error e => (.error e, w1)
    | .ok x => (.ok { o1 with ext := x }, w1)

inductive Op (X A : Type)
  | metric (r : Req A)
  | setAvg (a : PyAxis)
  | setBoot (b : PyBoot)
  | disableBoot
  | enableSaving (d : PyDir) (scratch : Option Bool)
  | disableSaving
  /-- the setters of the classes, e.g. `set_ensemble_axis`, `set_collapse_func` (VerifyEnsemble.py:55-63),
  `set_truncation` (VerifyProb.py:79-82), `set_bins` (VerifyProbGammaHurdle.py:41-44) -/
  | setExt (g : X → X)

/-- one public call: Verify.py:62-84 and 162-184 -/
def step (C : Cls) (I : ArgInfo A) (P : Prims X V A) (mids : FS V → Path → List (FS V)) (op : Op X A)
    (o : Obj X) (w : World V) : Except Err (Option V) × Obj X × World V :=
  let val : Obj X → Except Err (Option V) × Obj X × World V := fun o =>
    match validate P mids o w with
    | (.error e, o1, w1) => (.error e, o1, w1)
    | (.ok _, o1, w1) => (.ok none, o1, w1)
  match op with
  | .metric r =>
    match (metricProg C I P o.ext o.avg o.boot r).run o.wd w with
    | (.error e, w1) => (.error e, o, w1)
    | (.ok v, w1) => (.ok (some v), o, w1)
  | .setAvg a => val { o with avg := a }
  | .setBoot b => val { o with boot := b }
  | .disableBoot => (.ok none, { o with boot := .none }, w)
  | .enableSaving d s => val { o with dir := d, scratch := s }
  | .disableSaving => (.ok none, { o with dir := .none }, w)
  | .setExt g => val { o with ext := g o.ext }

/-- a history of calls; exceptions are caught by the caller -/
def runOps (C : Cls) (I : ArgInfo A) (P : Prims X V A) (mids : FS V → Path → List (FS V)) :
    List (Op X A) → Obj X → World V → Obj X × World V
  | [], o, w => (o, w)
  | op :: ops, o, w =>
    match step C I P mids op o w with
    | (_, o1, w1) => runOps C I P mids ops o1 w1

end Model
