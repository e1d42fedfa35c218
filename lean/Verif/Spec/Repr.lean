import Verif.Model.Repr

/-! # When a printed description can be read back -/

namespace Spec
open Model

/-- names without line breaks, and no directory whose name is the word `None` -/
structure Readable (s : Shown) : Prop where
  dir : ∀ d, s.dir = some d → '\n' ∉ d ∧ d ≠ (chars! "None")
  keys : ∀ items, s.f = .dict items → ∀ kv ∈ items, '\n' ∉ kv.1
  func : ∀ ax nm, s.cls = .ensemble ax (some nm) → '\n' ∉ nm

end Spec
