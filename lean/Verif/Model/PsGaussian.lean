import Verif.Model.Crps

/-!
# `properscoring.crps_gaussian` for one observation

PyAnEn/VerifyProbGaussian.py:81 hands observations, means and standard deviations to this function.  Its source is not
in /repo; the definition follows its published source (`properscoring/_gaussian.py`).  Elsewhere in the model the score
of one observation is an arbitrary function `psGaussian`.
-/

namespace Model
open Np

variable {K : Type} [Field K] [LinearOrder K]

/-- `crps_gaussian(x, mu, sig)` for one element, `p = [x, mu, sig]`; `_normpdf` and `special.ndtr` are the functions that
`stats.norm` computes too -/
def psGaussianElem (G : Gauss K) (p : List (Fl K)) : Fl K :=
  let x := p.getD 0 none
  let mu := p.getD 1 none
  let sig := p.getD 2 none
  -- sx = (x - mu) / sig
  let sx := Fl.div (Fl.sub x mu) sig
  let pdf := sx.map G.pdf
  let cdf := sx.map G.cdf
  -- pi_inv = 1. / np.sqrt(np.pi)
  let pi_inv := Fl.div (some 1) (some G.sqrtPi)
  -- sig * (sx * (2 * cdf - 1) + 2 * pdf - pi_inv)
  Fl.mul sig (Fl.sub (Fl.add (Fl.mul sx (Fl.sub (Fl.mul (some 2) cdf) (some 1))) (Fl.mul (some 2) pdf)) pi_inv)

end Model
