import Verif.Model.Integration

/-!
# Several memory efficient integrations at the same time (utils_approximation.py:29-47, 224-256)

Every process runs its own program of file operations on its own scratch file path; a schedule interleaves them.  A path
can be removed and created again while an old file is still mapped, so a path has several generations of files.  There
are no links: files at different paths are different.  An element is written with a fresh `r+` mapping (exact for one
element per row; otherwise the mapping is shared by the elements of a row).
-/

set_option linter.unusedSectionVars false

namespace Model
open Np NDArr

variable {K : Type} [Field K] [LinearOrder K] [IsStrictOrderedRing K]

/-- the files ever created at one path -/
structure PathState (K : Type) where
  /-- the generation the path currently names -/
  linked : Option Nat
  data : Nat → List (Fl K)
  /-- the next unused generation -/
  next : Nat

/-- the file operations of an integration; `R` is its result -/
inductive IProc (K R : Type)
  | done (r : Except Err R)
  /-- `np.memmap(..., mode='write')` (lines 239-241): an existing file is truncated, and filled with zeros -/
  | create (size : Nat) (k : IProc K R)
  /-- `np.memmap(..., mode='readonly')` (lines 245-247) -/
  | openR (size : Nat) (k : IProc K R)
  /-- lines 31-33: map `r+` (a short file is extended with zeros), write one element, unmap -/
  | put (size i : Nat) (v : Fl K) (k : IProc K R)
  /-- read one element of the read-only mapping; beyond the end of the file the process is killed -/
  | get (i : Nat) (k : Fl K → IProc K R)
  /-- `os.remove` (line 253) -/
  | remove (k : IProc K R)

variable {R : Type}

/-- a running process: what remains to be done, and the generation mapped for reading -/
structure Running (K R : Type) where
  prog : IProc K R
  handle : Option Nat

/-- change the content of one generation -/
def PathState.write (s : PathState K) (g : Nat) (d : List (Fl K)) : PathState K :=
  { s with data := fun g' => if g' = g then d else s.data g' }

/-- one operation -/
def IProc.step (s : PathState K) (r : Running K R) : PathState K × Running K R :=
  match r.prog with
  | .done _ => (s, r)
  | .create size k =>
    match s.linked with
    | some g => (s.write g (List.replicate size (some 0)), ⟨k, r.handle⟩)
    | none =>
      ({ linked := some s.next, data := fun g' => if g' = s.next then List.replicate size (some 0) else s.data g',
         next := s.next + 1 }, ⟨k, r.handle⟩)
  | .openR size k =>
    match s.linked with
    | some g => if size ≤ (s.data g).length then (s, ⟨k, some g⟩) else (s, ⟨.done (.error .value), r.handle⟩)
    | none => (s, ⟨.done (.error .generic), r.handle⟩)
  | .put size i v k =>
    match s.linked with
    | some g =>
      let d := s.data g ++ List.replicate (size - (s.data g).length) (some 0)
      (s.write g (d.set i v), ⟨k, r.handle⟩)
    | none => (s, ⟨.done (.error .generic), r.handle⟩)
  | .get i k =>
    match r.handle with
    | some g => match (s.data g)[i]? with
      | some v => (s, ⟨k v, r.handle⟩)
      | none => (s, ⟨.done (.error .generic), r.handle⟩)
    | none => (s, ⟨.done (.error .attribute), r.handle⟩)
  | .remove k =>
    match s.linked with
    | some _ => ({ s with linked := none }, ⟨k, r.handle⟩)
    | none => (s, ⟨.done (.error .generic), r.handle⟩)

/-- `n` operations of a process alone -/
def IProc.solo : Nat → PathState K × Running K R → PathState K × Running K R
  | 0, c => c
  | n + 1, c => IProc.solo n (IProc.step c.1 c.2)

/-- all files and all processes -/
structure Sys (ι K R : Type) where
  files : String → PathState K
  procs : ι → Running K R

/-- process `p` makes one operation on the file at its path -/
def Sys.step {ι : Type} [DecidableEq ι] (path : ι → String) (p : ι) (σ : Sys ι K R) : Sys ι K R :=
  let c := IProc.step (σ.files (path p)) (σ.procs p)
  { files := fun q => if q = path p then c.1 else σ.files q
    procs := fun q => if q = p then c.2 else σ.procs q }

/-- an interleaving of the processes -/
def Sys.run {ι : Type} [DecidableEq ι] (path : ι → String) : List ι → Sys ι K R → Sys ι K R
  | [], σ => σ
  | p :: ps, σ => Sys.run path ps (Sys.step path p σ)

/-! ### the program of an integration -/

/-- read the elements `start, ..., start + n - 1` -/
def readMany (start : Nat) : Nat → (List (Fl K) → IProc K R) → IProc K R
  | 0, k => k []
  | n + 1, k => .get start fun v => readMany (start + 1) n fun vs => k (v :: vs)

/-- `arr[i]` of the read-only mapping -/
def rowP (s : List Nat) (i : Nat) (k : NDArr (Fl K) → IProc K R) : IProc K R :=
  readMany (i * s.prod) s.prod fun d => if h : d.length = s.prod then k ⟨s, d, h⟩ else .done (.error .index)

/-- the loop of `_memmap_sum_mul` (lines 302-303) -/
def sumMulP (s : List Nat) (start : Nat) : List (K × Nat) → NDArr (Fl K) → (NDArr (Fl K) → IProc K R) → IProc K R
  | [], out, k => k out
  | p :: ps, out, k => rowP s (start + p.2) fun r =>
    match zipWith (fun a b => Fl.add a (Fl.mul b (some p.1))) out r with
    | .error e => .done (.error e)
    | .ok out' => sumMulP s start ps out' k

/-- `0.5 * (sum_mul(arr[1:]) ± sum_mul(arr[:-1]))` -/
def pairP (s : List Nat) (op : Fl K → Fl K → Fl K) (mul : List K) (k : NDArr (Fl K) → IProc K R) : IProc K R :=
  sumMulP s 1 mul.zipIdx (full s (some 0)) fun a =>
    sumMulP s 0 mul.zipIdx (full s (some 0)) fun b =>
      match zipWith (fun x y => Fl.mul (some (1 / 2)) (op x y)) a b with
      | .error e => .done (.error e)
      | .ok r => k r

/-- utils_approximation.py:131-133, 170-172, 212-216 with `less_memory` -/
def combineP (kind : Kind) (seq : List K) (s : List Nat) (k : NDArr (Fl K) → IProc K R) : IProc K R :=
  let n := seq.length
  let x := fun i => seq.getD i 0
  let grid := List.range (n - 1)
  match kind with
  | .crps => pairP s Fl.add (grid.map fun i => x (i + 1) - x i) k
  | .mean => pairP s Fl.sub (grid.map fun i => x (i + 1) + x i) k
  | .variance =>
    pairP s Fl.sub (grid.map fun i => x (i + 1) + x i) fun m =>
      pairP s Fl.sub (grid.map fun i => x (i + 1) * x (i + 1) + x i * x i) fun q =>
        match zipWith Fl.sub q (m.map Fl.sq) with
        | .error e => .done (.error e)
        | .ok r => k r

/-- all element writes -/
def putAll (size : Nat) : List (Nat × Fl K) → IProc K R → IProc K R
  | [], k => k
  | e :: es, k => .put size e.1 e.2 (putAll size es k)

/-- `_workflow` (lines 224-232) in the memory efficient mode as file operations.  An exception in a task skips
`_finalize_memmap`. -/
def integProc (I : Integ K) (kind : Kind) : IProc K (NDArr (Fl K)) :=
  let size := I.seq.length * I.shape.prod
  if size = 0 then .done (.error .value)
  else .create size <| .openR size <|
    match gridRows I.cores I.pick I.row I.seq with
    | .error e => .done (.error e)
    | .ok rows =>
      if ∀ r ∈ rows, r.shape = I.shape then
        putAll size (I.order (rows.zipIdx.flatMap fun p => rowWrites I.shape.prod p.2 p.1)) <|
          combineP kind I.seq I.shape fun r => .remove (.done (.ok r))
      else .done (.error .value)

end Model
