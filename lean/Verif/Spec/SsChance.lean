import Verif.Spec.PitUniform
import Verif.Spec.Honest

/-! Spread-skill diagrams of observations that depend on chance. -/

namespace Spec
open MeasureTheory Np NDArr

variable {Ω : Type} [MeasurableSpace Ω]

/-- Observations that depend on chance: at position `i` the observation is `Y i`, with mean `μ i` and variance `v i`;
nothing is asked about how positions depend on each other. -/
structure TwoMoments (P : Measure Ω) (sh : List Nat) (o : Ω → NDArr (Fl ℝ)) (Y : List Nat → Ω → ℝ) (μ v : List Nat → ℝ) :
    Prop where
  shape : ∀ ω, (o ω).shape = sh
  value : ∀ i, InB sh i → ∀ ω, (o ω).get i = some (Y i ω)
  memLp : ∀ i, InB sh i → MemLp (Y i) 2 P
  mean : ∀ i, InB sh i → ∫ ω, Y i ω ∂P = μ i
  variance : ∀ i, InB sh i → ∫ ω, (Y i ω - μ i) ^ 2 ∂P = v i

/-- `gs` arranges the positions `L` in `nbins` groups: every position once, in increasing order of the announced variance
`V`, group sizes differing by at most one with the larger groups first. -/
structure PosGroups (nbins : Nat) (L : List (List Nat)) (V : List Nat → ℝ) (gs : List (List (List Nat))) : Prop where
  count : gs.length = nbins
  complete : gs.flatten.Perm L
  ordered : (gs.flatten.map V).Pairwise (· ≤ ·)
  balanced : gs.Pairwise fun g h => h.length ≤ g.length ∧ g.length ≤ h.length + 1
  filled : ∀ g ∈ gs, g ≠ []

/-- The random root mean squared error `R` of the positions `g`, at which the announcements differ from the means of the
observations by `bias`, the observations having the variances `w`: the mean square is the average of squared bias plus
variance, and the mean is at most its root. -/
structure ExpectedSkill (P : Measure Ω) (g : List (List Nat)) (bias w : List Nat → ℝ) (R : Ω → ℝ) : Prop where
  nonneg : ∀ ω, 0 ≤ R ω
  integrable : Integrable R P
  integrable_sq : Integrable (fun ω => R ω ^ 2) P
  mean_sq : ∫ ω, R ω ^ 2 ∂P = avg (g.map fun i => bias i ^ 2 + w i)
  mean : ∫ ω, R ω ∂P ≤ Real.sqrt (avg (g.map fun i => bias i ^ 2 + w i))

/-- A point of the diagram: the spread `S`, which does not depend on chance, against the skill `R`. -/
structure SkillPoint (P : Measure Ω) (g : List (List Nat)) (V bias w : List Nat → ℝ) (S : ℝ) (R : Ω → ℝ) : Prop
    extends ExpectedSkill P g bias w R where
  spread : 0 ≤ S ∧ S ^ 2 = avg (g.map V)
  /-- right means and variances put the point on the diagonal in the mean square, and not above it in the mean -/
  diagonal : (∀ i ∈ g, bias i = 0 ∧ V i = w i) → ∫ ω, R ω ^ 2 ∂P = S ^ 2 ∧ ∫ ω, R ω ∂P ≤ S
  /-- with right variances the point is on the diagonal in the mean square only if the means are right as well -/
  biased : (∀ i ∈ g, V i = w i) → ∫ ω, R ω ^ 2 ∂P = S ^ 2 → ∀ i ∈ g, bias i = 0

end Spec
