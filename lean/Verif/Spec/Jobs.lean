import Verif.Model.Jobs

/-!
# Interleavings of jobs, for the property about shared working directories
-/

namespace Spec
open Np Model

variable {V B ι : Type} [DecidableEq ι]

/-- what pickles guarantee: a whole file gives the value back, a file cut short raises -/
structure PickleOK (F : Pickle V B) : Prop where
  whole : ∀ v, F.dec (F.enc v) = some v
  short : ∀ v i, i < (F.enc v).length → F.dec ((F.enc v).take i) = none

/-- job `i` has the file at `q` open for writing -/
def WritesTo (σ : Jobs ι V B) (i : ι) (q : Path) : Prop :=
  ∃ d n v m k st, (σ.job i).state = .writing d n v m k st ∧ q = filePath d n

/-- job `i` is about to look for the file at `q` -/
def LooksFor (wd : ι → Option Path) (σ : Jobs ι V B) (i : ι) (q : Path) : Prop :=
  ∃ d n body k st, wd i = some d ∧ (σ.job i).state = .run (.call (some n) body k) st ∧ q = filePath d n

/-- at no moment of the interleaving two jobs have the same file open for writing -/
def NoDoubleWrite (F : Pickle V B) (wd : ι → Option Path) : List ι → Jobs ι V B → Prop
  | [], σ => ∀ i j q, WritesTo σ i q → WritesTo σ j q → i = j
  | a :: as, σ => (∀ i j q, WritesTo σ i q → WritesTo σ j q → i = j) ∧ NoDoubleWrite F wd as (σ.step F wd a)

/-- no job reads a file which another one is writing -/
def NoReadDuringWrite (F : Pickle V B) (wd : ι → Option Path) : List ι → Jobs ι V B → Prop
  | [], _ => True
  | a :: as, σ => (∀ j q, LooksFor wd σ a q → ¬ WritesTo σ j q) ∧ NoReadDuringWrite F wd as (σ.step F wd a)

/-- `m` steps of a job while no other job does anything -/
def alone (F : Pickle V B) (wd : Option Path) : Nat → Disk B × Job V → Disk B × Job V
  | 0, c => c
  | m + 1, c => alone F wd m (Job.step F wd c.1 c.2)

/-- the disk holds in the directory `wd` what the file system of the sequential model holds there -/
def SameFiles (F : Pickle V B) (wd : Option Path) (fs : FS V) (disk : Disk B) : Prop :=
  ∀ d, wd = some d → fs d = some .dir ∧ ∀ n,
    (fs (filePath d n) = none ∧ disk (filePath d n) = none) ∨
    (∃ v c, fs (filePath d n) = some (.file (.full v)) ∧ disk (filePath d n) = some c ∧ F.dec c = some v) ∨
    ∃ c, fs (filePath d n) = some (.file .torn) ∧ disk (filePath d n) = some c ∧ F.dec c = none

end Spec
