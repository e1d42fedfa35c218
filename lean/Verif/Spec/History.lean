import Verif.Model.Api

/-!
# Histories of calls, for the properties about saving
-/

namespace Spec
open Np Model

variable {X V A : Type}

/-- a file system as an operating system keeps it: the root is a directory, and everything else lies in a directory -/
def WellFormed (fs : FS V) : Prop :=
  fs [] = some .dir ∧ ∀ q x, fs (q ++ [x]) ≠ none → fs q = some .dir

/-- `mids` behaves like a recursive deletion: its intermediate states are file systems in which some things in or
below `d` are gone -/
structure Deletion (mids : FS V → Path → List (FS V)) : Prop where
  only : ∀ fs d fs', fs' ∈ mids fs d → ∀ q, fs' q = fs q ∨ (d <+: q ∧ fs' q = none)
  wf : ∀ fs d fs', WellFormed fs → fs' ∈ mids fs d → WellFormed fs'

/-- a call of a metric, as opposed to a setter -/
def IsMetric : Op X A → Prop
  | .metric _ => True
  | _ => False

/-- all setters in the history return normally (metric calls may raise) -/
def SettersReturn (C : Cls) (I : ArgInfo A) (P : Prims X V A) (mids : FS V → Path → List (FS V)) :
    List (Op X A) → Obj X → World V → Prop
  | [], _, _ => True
  | op :: ops, o, w =>
    (IsMetric op ∨ (step C I P mids op o w).1 = .ok none) ∧
      SettersReturn C I P mids ops (step C I P mids op o w).2.1 (step C I P mids op o w).2.2

/-- a directory other than the root, or none -/
def DirOk : PyDir → Prop
  | .path d => d ≠ []
  | _ => True

def OpDirOk : Op X A → Prop
  | .enableSaving d _ => DirOk d
  | _ => True

/-- `enable_saving` is only used with `start_from_scratch=True` -/
def FromScratch : Op X A → Prop
  | .enableSaving d s => DirOk d ∧ s = some true
  | _ => True

/-- the same verifier with saving disabled -/
def unsaved (o : Obj X) : Obj X := { o with dir := .none }

/-- the result of a metric call -/
def result (C : Cls) (I : ArgInfo A) (P : Prims X V A) (mids : FS V → Path → List (FS V)) (r : Req A) (o : Obj X)
    (w : World V) : Except Err (Option V) :=
  (step C I P mids (.metric r) o w).1

/-- `out` is a possible result of the request on this verifier with saving disabled: some state of the random
generator gives it -/
def Correct (C : Cls) (I : ArgInfo A) (P : Prims X V A) (mids : FS V → Path → List (FS V)) (r : Req A) (o : Obj X)
    (out : Except Err (Option V)) : Prop :=
  ∃ w, result C I P mids r (unsaved o) w = out

/-- calls that keep the data and class settings, and keep `avg_axis` within `A0` -/
def KeepsData (A0 : PyAxis → Prop) : Op X A → Prop
  | .setAvg a => A0 a
  | .setExt _ => False
  | _ => True

/-- a process starts with the file system `fs` -/
def startWorld (fs : FS V) (seed : Nat → Nat) : World V := ⟨fs, seed, 0, []⟩

/-- the states of the file system during a session: construct a verifier, then make calls -/
def sessionStates (C : Cls) (I : ArgInfo A) (P : Prims X V A) (mids : FS V → Path → List (FS V)) (oi : Obj X)
    (ops : List (Op X A)) (fs : FS V) (seed : Nat → Nat) : List (FS V) :=
  match construct P mids oi (startWorld fs seed) with
  | (.error _, w) => fs :: w.trace
  | (.ok o, w) => fs :: (runOps C I P mids ops o w).2.trace

/-- file systems that sessions on the data `x` can leave behind, each of them possibly killed at any moment;
`Start` restricts the settings given to the constructors, `Ok` the calls -/
inductive Reach (C : Cls) (I : ArgInfo A) (P : Prims X V A) (mids : FS V → Path → List (FS V)) (x : X)
    (Start : Obj X → Prop) (Ok : Op X A → Prop) (fs0 : FS V) : FS V → Prop
  | start : Reach C I P mids x Start Ok fs0 fs0
  | session {fs fs' : FS V} (h : Reach C I P mids x Start Ok fs0 fs) (oi : Obj X) (ops : List (Op X A))
      (seed : Nat → Nat) (hx : oi.ext = x) (ha : Start oi) (hops : ∀ op ∈ ops, Ok op)
      (hfs : fs' ∈ sessionStates C I P mids oi ops fs seed) : Reach C I P mids x Start Ok fs0 fs'

/-- working directories are not the root and do not look like saved results -/
def PlainDir (d : Path) : Prop := d ≠ [] ∧ ∀ p ∈ ancestors d, ∀ e n, p ≠ filePath e n

def UsesDir (D : Path → Prop) : PyDir → Prop
  | .path d => D d
  | _ => True

def OpUsesDir (D : Path → Prop) : Op X A → Prop
  | .enableSaving d _ => UsesDir D d
  | _ => True

/-- file systems left behind by sessions on the data `x` with working directories in `D` that run to their end -/
inductive Completed (C : Cls) (I : ArgInfo A) (P : Prims X V A) (mids : FS V → Path → List (FS V)) (x : X)
    (A0 : PyAxis → Prop) (D : Path → Prop) (fs0 : FS V) : FS V → Prop
  | start : Completed C I P mids x A0 D fs0 fs0
  | session {fs : FS V} (h : Completed C I P mids x A0 D fs0 fs) (oi o : Obj X) (w : World V) (ops : List (Op X A))
      (seed : Nat → Nat) (hx : oi.ext = x) (ha : A0 oi.avg) (hd : UsesDir D oi.dir)
      (hops : ∀ op ∈ ops, KeepsData A0 op ∧ OpUsesDir D op)
      (hc : construct P mids oi (startWorld fs seed) = (.ok o, w)) (hs : SettersReturn C I P mids ops o w) :
      Completed C I P mids x A0 D fs0 (runOps C I P mids ops o w).2.fs

/-- no file that could be taken for a saved result -/
def NoPickles (fs : FS V) : Prop := ∀ d n, fs (filePath d n) = none

/-- the class settings do not change any more once the verifier is constructed -/
def Settled (P : Prims X V A) (x : X) : Prop :=
  ∀ x1 x2, P.check x = (.ok (), x1) → P.init x1 = .ok x2 → (P.check x2).2 = x2

end Spec
