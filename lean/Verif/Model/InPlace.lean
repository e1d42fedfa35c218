import Verif.Model.SpreadSkill

/-!
# Spread-skill in memory (utils_ss.py:47-87)

`Model/SpreadSkill` treats arrays as values.  The code however sorts its two arguments by assignment to columns (lines
73-74), after `np.moveaxis` (always a view) and `reshape` (a view whenever the layout allows, a copy otherwise).  Here the
same function is written over a memory of buffers, so that the effect on the arrays of the caller can be stated.
-/

namespace Model
open Np NDArr

/-- memory: the buffers allocated so far -/
abbrev Mem (α : Type) := List (List α)

/-- a numpy array: its buffer and, for every index, the place in the buffer (`none` is no place at all; it does not
occur in a real array).  Strides and offsets are the special case of places that depend linearly on the index. -/
structure View where
  buf : Nat
  pos : NDArr (Option Nat)

section
variable {α : Type} [Inhabited α]

/-- the value at a place -/
def Mem.at (h : Mem α) (b : Nat) : Option Nat → α
  | none => default
  | some q => (h.getD b []).getD q default

/-- the value of an array -/
def Mem.read (h : Mem α) (v : View) : NDArr α := v.pos.map (h.at v.buf)

/-- a new array holding `a` in its own buffer -/
def Mem.alloc (h : Mem α) (a : NDArr α) : Mem α × View :=
  (h ++ [a.data], ⟨h.length, ⟨a.shape, (List.range a.data.length).map some, by simpa using a.wf⟩⟩)

/-- `a.reshape(-1, k)`.  `nocopy` decides from the layout whether the result is a view (`_attempt_nocopy_reshape` of
numpy); any decision is allowed here. -/
def Mem.reshape (nocopy : NDArr (Option Nat) → List Nat → Bool) (h : Mem α) (v : View) (k : Nat) :
    Except Err (Mem α × View) := do
  let p ← v.pos.reshapeInfer [] [k]
  pure (if nocopy v.pos p.shape then (h, ⟨v.buf, p⟩) else h.alloc (h.read ⟨v.buf, p⟩))

/-- assignment of values to places, one after another -/
def assign (b : List α) : List (Option Nat) → List α → List α
  | some q :: ps, x :: xs => assign (b.set q x) ps xs
  | _ :: ps, _ :: xs => assign b ps xs
  | _, _ => b

/-- `a[:, i] = vals` -/
def Mem.setCol (h : Mem α) (v : View) (i : Nat) (vals : List α) : Mem α :=
  h.modify v.buf fun b => assign b (v.pos.col i) vals

end

variable {K : Type} [Field K] [LinearOrder K] [FloorSemiring K]

/-- one round of the loop utils_ss.py:71-74; the right-hand sides are new arrays (fancy indexing) -/
def sortColumn (argsort : Nat → List (Fl K) → List Nat) (v e : View) (h : Mem (Fl K)) (i : Nat) : Mem (Fl K) :=
  let idx := argsort i ((h.read v).col i)
  let h1 := h.setCol v i (idx.map fun r => (h.read v).get [r, i])
  h1.setCol e i (idx.map fun r => (h1.read e).get [r, i])

/-- `_binned_spread_skill_create_split` (utils_ss.py:47-87): the result or the exception, and the memory it leaves -/
def ssCreateSplitMem (nocopy : NDArr (Option Nat) → List Nat → Bool) (argsort : Nat → List (Fl K) → List Nat)
    (h : Mem (Fl K)) (variance sqError : View) (nbins : Nat) (sampleAxis : Option (List Int)) :
    Except Err (List (NDArr (Fl K)) × List Nat) × Mem (Fl K) :=
  -- line 52
  if variance.pos.shape ≠ sqError.pos.shape then (.error .assertion, h)
  else
    -- lines 49-64
    let axes := some (resolveAxes variance.pos.ndim sampleAxis)
    match moveSampleAxes variance.pos axes with
    | .error x => (.error x, h)
    | .ok (pv, keep) =>
      match moveSampleAxes sqError.pos axes with
      | .error x => (.error x, h)
      | .ok (pe, _) =>
        -- lines 67-68
        match h.reshape nocopy ⟨variance.buf, pv⟩ keep.prod with
        | .error x => (.error x, h)
        | .ok (h1, v) =>
          match h1.reshape nocopy ⟨sqError.buf, pe⟩ keep.prod with
          | .error x => (.error x, h1)
          | .ok (h2, e) =>
            -- lines 71-74
            let h3 := (List.range (v.pos.shape.getD 1 0)).foldl (sortColumn argsort v e) h2
            -- line 80
            if ¬ nbins ≤ e.pos.shape.getD 0 0 then (.error .assertion, h3)
            else
              -- line 85
              let stacked : NDArr (Fl K) := ofFn [v.pos.shape.getD 0 0, 2, v.pos.shape.getD 1 0] fun idx =>
                if idx.getD 1 0 = 0 then (h3.read v).get [idx.getD 0 0, idx.getD 2 0]
                else (h3.read e).get [idx.getD 0 0, idx.getD 2 0]
              match arraySplit0 stacked nbins with
              | .error x => (.error x, h3)
              | .ok pieces => (.ok (pieces, keep), h3)

/-- `_binned_spread_skill` (VerifyEnsemble.py:128-136, VerifyProb.py:124-132): variance and squared error are new arrays,
computed or read from a file -/
def methodSpreadSkillMem (nocopy : NDArr (Option Nat) → List Nat → Bool) (argsort : Nat → List (Fl K) → List Nat)
    (h : Mem (Fl K)) (variance sqError : NDArr (Fl K)) (nbins : Nat) (avgAxis : Option (List Int)) :
    Except Err (List (NDArr (Fl K)) × List Nat) × Mem (Fl K) :=
  let r := h.alloc variance
  let r' := r.1.alloc sqError
  ssCreateSplitMem nocopy argsort r'.1 r.2 r'.2 nbins avgAxis

end Model
