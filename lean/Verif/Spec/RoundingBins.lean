import Verif.Spec.Reliability

/-! Specification: which of `n` bins of equal width `k` members out of `m` belong to. -/

namespace Spec

/-- the fraction `k / m` lies in `(b / n, (b + 1) / n]`; zero lies in the first bin -/
def FracBin (n m k b : Nat) : Prop := (k = 0 ∧ b = 0) ∨ (b * m < k * n ∧ k * n ≤ (b + 1) * m)

instance (n m k b : Nat) : Decidable (FracBin n m k b) := by unfold FracBin; infer_instance

/-- the forecasts in bin `b`: how many of `m` members predicted the event, and whether it happened -/
def fracGroup (n m b : Nat) (P : List (Nat × Bool)) : List (Nat × Bool) := P.filter fun p => FracBin n m p.1 b

/-- the bins with at least one forecast -/
def fracNonEmpty (n m : Nat) (P : List (Nat × Bool)) : List Nat := (List.range n).filter fun b => fracGroup n m b P ≠ []

/-- how often the event happened -/
def hits (P : List (Nat × Bool)) : Nat := P.countP Prod.snd

end Spec
