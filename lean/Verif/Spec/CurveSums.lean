import Verif.Spec.Reliability

/-! What the points of a curve add up to. -/

namespace Spec

variable {K : Type} [Field K] [LinearOrder K]

/-- `Σ n_b x_b` -/
def weighted (ns : List Nat) (xs : List K) : K := (List.zipWith (fun (n : Nat) x => (n : K) * x) ns xs).sum

/-- 1 for an event, 0 for a non-event, as a number -/
def evt (b : Bool) : K := if b then 1 else 0

/-- the points `(ps, ts)` with counts `cs` add up to the pairs `Q` of probability and event, and their weighted squared
distance from the diagonal is at most the sum of the squared differences of probability and event -/
structure CurveAddsUp (Q : List (K × Bool)) (cs : List Nat) (ps ts : List K) : Prop where
  lenP : ps.length = cs.length
  lenT : ts.length = cs.length
  total : cs.sum = Q.length
  forecast : weighted cs ps = (Q.map Prod.fst).sum
  observed : weighted cs ts = (Q.countP fun q => q.2 : Nat)
  distance : weighted cs (List.zipWith (fun p t => (p - t) ^ 2) ps ts) ≤ (Q.map fun q => (q.1 - evt q.2) ^ 2).sum

end Spec
