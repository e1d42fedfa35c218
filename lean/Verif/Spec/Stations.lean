import Verif.Np.Stat
import Verif.Model.IO

/-!
# Blocks laid side by side, and files that belong together
-/

namespace Spec
open Np Model

/-- total length along axis `ax` -/
def lengthAlong {α : Type} (ax : Nat) (blocks : List (NDArr α)) : Nat := (blocks.map fun b => b.shape.getD ax 0).sum

/-- `a` holds the blocks one after the other along axis `ax`: entry `i` of block `j` is found at `i`, moved along the axis
by the lengths of the blocks before -/
def SideBySide {α : Type} [Inhabited α] (ax : Nat) (blocks : List (NDArr α)) (a : NDArr α) : Prop :=
  (∀ b ∈ blocks, a.shape = b.shape.set ax (lengthAlong ax blocks)) ∧
  ∀ before b after, blocks = before ++ b :: after → ∀ i, InB b.shape i →
    a.get (i.set ax (lengthAlong ax before + i.getD ax 0)) = b.get i

variable {K : Type}

/-- the variable has one value (or row, ...) per station -/
def PerStation {D : Type} (v : DVar D) : Prop := "num_stations" ∈ v.dims.map Prod.fst

/-- a well-formed file with `n` stations: names are unique, every array has the shape its dimensions say, and a variable
per station is an array of numbers or one row of characters per station -/
structure RunFile (n : Nat) (d : Dataset (NDArr (Fl K))) : Prop where
  names : (d.vars.map Prod.fst).Nodup
  pos : 0 < n
  stations : ∃ kv ∈ d.vars, PerStation kv.2
  size : ∀ kv ∈ d.vars, ∀ x ∈ kv.2.dims, x.1 = "num_stations" → x.2 = n
  dims : ∀ kv ∈ d.vars, (kv.2.dims.map Prod.fst).Nodup
  shape : ∀ kv ∈ d.vars, ∀ a, kv.2.data = .other a → a.shape = kv.2.dims.map Prod.snd
  kinds : ∀ kv ∈ d.vars, PerStation kv.2 → (∃ a, kv.2.data = .other a) ∨
    (∃ m c, kv.2.data = .chars m ∧ kv.2.dims = [("num_stations", n), c])

/-- the dimensions of a variable apart from the number of stations -/
def layout {D : Type} (v : DVar D) : List (String × Nat) :=
  v.dims.map fun x => (x.1, if x.1 = "num_stations" then 0 else x.2)

/-- the variables per station of one file are there in the other, with the same dimensions and kind of contents -/
def SameLayout (d d' : Dataset (NDArr (Fl K))) : Prop :=
  ∀ k v, d.get? k = some v → PerStation v → ∃ v', d'.get? k = some v' ∧ layout v' = layout v ∧
    ((∃ a, v.data = .other a) ↔ ∃ a, v'.data = .other a)

/-- position of the stations among the dimensions -/
def stationDim {D : Type} (v : DVar D) : Nat := (v.dims.map Prod.fst).idxOf "num_stations"

/-- variable `w` joins the variables `k` of all files, `v` being that of the first: without stations it is that of the
first file, otherwise it has the same units and dimensions with `total` stations, and holds the arrays side by side or all rows of
characters one after the other -/
def Joined (files : List (Dataset (NDArr (Fl K)))) (total : Nat) (k : String) (v w : DVar (NDArr (Fl K))) : Prop :=
  (¬ PerStation v → w = v) ∧
  (PerStation v → layout w = layout v ∧ w.units = v.units ∧ ("num_stations", total) ∈ w.dims ∧
    (∀ a, v.data = .other a → ∃ a' blocks, w.data = .other a' ∧
      files.map (fun d => (d.get? k).map DVar.data) = blocks.map (fun b => some (.other b)) ∧
      SideBySide (stationDim v) blocks a') ∧
    (∀ m, v.data = .chars m → ∃ ms : List (List (List (List Char))), w.data = .chars ms.flatten ∧
      files.map (fun d => (d.get? k).map DVar.data) = ms.map fun m => some (.chars m)))

end Spec
