import Verif.Spec.Normal

/-! Normal distributions. -/

namespace Spec

/-- distribution function of the normal distribution with mean `mu` and standard deviation `sigma` -/
noncomputable def normalCdf (mu sigma x : ℝ) : ℝ := Phi ((x - mu) / sigma)

end Spec
