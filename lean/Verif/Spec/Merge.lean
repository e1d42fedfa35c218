import Verif.Spec.Pool

/-! # What an average over two data sets taken together must be -/

namespace Spec
open Np

variable {K : Type} [Field K] [LinearOrder K]

/-- `v` is the average of two data sets together when `v₁` and `v₂` are those of each, from `n₁` and `n₂` present values:
the average weighted with `n₁` and `n₂`; when missing values are skipped a set without an average does not count; when
they are not skipped it makes the whole missing. -/
structure IsPooled (skip : Bool) (n₁ n₂ : Nat) (v₁ v₂ v : Fl K) : Prop where
  both : ∀ a b, v₁ = some a → v₂ = some b → v = some (((n₁ : K) * a + n₂ * b) / (n₁ + n₂))
  left : skip = true → v₁ = none → v = v₂
  right : skip = true → v₂ = none → v = v₁
  missing : skip = false → v₁ = none ∨ v₂ = none → v = none

end Spec
