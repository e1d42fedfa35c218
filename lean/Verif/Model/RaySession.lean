import Verif.Model.Integration

/-!
# Several integrations in one Python process (utils_approximation.py:57-232)

`integrate` of `Verif.Model.Integration` leaves out that Ray has to be started and stopped.  Here the world also tells whether
Ray is running.  `ray.init` raises a `RuntimeError` when it is.  Simplifications: with no worker or a negative number of
workers there is no result (Ray refuses, or the tasks never get a CPU); nobody else in the process uses Ray.
-/

namespace Model
open Np NDArr

variable {K : Type} [Field K] [LinearOrder K] [IsStrictOrderedRing K]

/-- the environment, the files, and `ray.is_initialized()` -/
structure RWorld (K : Type) where
  iw : IWorld K
  ray : Bool

/-- Is `ray.shutdown()` (utils_approximation.py:126, 164, 203) skipped?  It is if a result that is fetched is an exception, which
in the memory efficient mode includes rows of another shape, or if `np.array` cannot stack the rows. -/
def leftUp (I : Integ K) : Bool :=
  match gridRows I.cores I.pick I.row I.seq with
  | .error _ => true
  | .ok rows =>
    if I.lessMemory then !decide (∀ r ∈ rows, r.shape = I.shape)
    else match rows with
      | [] => false
      | c :: cs => !decide (∀ d ∈ cs, d.shape = c.shape)

/-- `_workflow` (utils_approximation.py:224-232) with lines 103, 109-110, 126 for Ray -/
def rayIntegrate (I : Integ K) (kind : Kind) (w : RWorld K) : Option (Except Err (NDArr (Fl K)) × RWorld K) :=
  if I.cores ≤ 0 then none
  else if I.cores = 1 then
    let c := integrate I kind w.iw
    some (c.1, ⟨c.2, w.ray⟩)
  else
    match suppress I.cores w.iw.env with
    | .error e => some (.error e, w)
    | .ok (_, env1) =>
      if I.lessMemory ∧ I.seq.length * I.shape.prod = 0 then some (.error .value, { w with iw := { w.iw with env := env1 } })
      else if w.ray then
        -- `ray.init` raises
        let w1 : IWorld K := { w.iw with env := env1 }
        let w2 := if I.lessMemory then
          w1.setFile I.scratch (some (List.replicate (I.seq.length * I.shape.prod) (some 0))) else w1
        some (.error .runtime, { w with iw := w2 })
      else
        let c := integrate I kind w.iw
        some (c.1, ⟨c.2, leftUp I⟩)

/-- what happens in the process: the user sets the number of workers, or a verifier integrates -/
inductive RayOp (K : Type)
  | workers (n : Int)
  | integ (I : Integ K) (kind : Kind)

/-- One step.  The number of cores is read when the `Integration` object is made (utils_approximation.py:81); the attribute `cores` of
the argument does not matter. -/
def rayStep (w : RWorld K) : RayOp K → Option (Option (Except Err (NDArr (Fl K))) × RWorld K)
  | .workers n => some (none, { w with iw := { w.iw with env := w.iw.env.write "pyanen_tqdm_workers" (intStr n) } })
  | .integ I kind =>
    match w.iw.env.read "pyanen_tqdm_workers" >>= pyInt with
    | .error e => some (some (.error e), w)
    | .ok n => (rayIntegrate { I with cores := n } kind w).map fun c => (some c.1, c.2)

/-- the outcomes of a history -/
def rayRun (w : RWorld K) : List (RayOp K) → Option (List (Option (Except Err (NDArr (Fl K)))) × RWorld K)
  | [] => some ([], w)
  | op :: ops => do
    let (r, w1) ← rayStep w op
    let (rs, w2) ← rayRun w1 ops
    pure (r :: rs, w2)

end Model
