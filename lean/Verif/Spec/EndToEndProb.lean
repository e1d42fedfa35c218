import Verif.Spec.EndToEnd
import Verif.Model.ApiProb

/-! What the end-to-end statements about the probabilistic verifiers use. -/

namespace Spec
open Np Model

variable {K : Type} [Field K] [LinearOrder K] {A : Type}

/-- the distribution functions of the statistics library return probabilities (or NaN) -/
structure UnitLib (S : Scipy K) : Prop where
  norm : ∀ x m s v, S.norm x m s = some v → 0 ≤ v ∧ v ≤ 1
  truncnorm : ∀ x a m s v, S.truncnorm x a m s = some v → 0 ≤ v ∧ v ≤ 1
  gamma : ∀ x a l s v, S.gamma x a l s = some v → 0 ≤ v ∧ v ≤ 1
  truncgamma : ∀ x a b l s v, S.truncgamma x a b l s = some v → 0 ≤ v ∧ v ≤ 1

/-- a quotient of floats; NaN for a zero denominator -/
def ratio (g h : K) : Fl K := if h = 0 then none else some (g / h)

/-- the probability below `t` of a normal distribution with mean `m` and standard deviation `s`, truncated at zero if
`tr`: the library is given the lower bound in standard units -/
def gaussProb (S : Scipy K) (tr : Bool) (m s t : Fl K) : Fl K :=
  if tr then
    S.truncnorm t (match m, s with
      | some m, some s => ratio (-m) s
      | _, _ => none) m s
  else S.norm t m s

/-- shape and scale of the gamma distribution with mean `m` and standard deviation `s` -/
def gammaPars : Fl K → Fl K → Fl K × Fl K
  | some m, some s => ((ratio m s).map (· ^ 2), ratio (s ^ 2) m)
  | _, _ => (none, none)

/-- the probability below `t` of a gamma distribution with mean `m` and standard deviation `s`, moved by `d` -/
def gammaProb (S : Scipy K) (m s d t : Fl K) : Fl K := S.gamma t (gammaPars m s).1 d (gammaPars m s).2

/-- the probability below `t` of the hurdle model: dry with probability `1 - p`, otherwise a gamma distribution -/
noncomputable def hurdleProb (S : Scipy K) (p m s t : Fl K) : Fl K :=
  open Classical in
  if LtP (some 0) t then
    match p, gammaProb S m s (some 0) t with
    | some p, some g => some (1 - p + p * g)
    | _, _ => none
  else p.map fun p => 1 - p

/-- the probability of the event, from the probability below the threshold -/
def eventProb (isOver : Bool) (p : Fl K) : Fl K := if isOver then p.map fun v => 1 - v else p

/-- the value of `f[k]` -/
def HasPar (x : ProbX K) (k : String) (a : NDArr (Fl K)) : Prop := x.f.lookup k = some a ∧ a.shape = x.o.shape

end Spec
