import Verif.Model.Api

/-!
# Arguments that can be told apart in file names
-/

namespace Model

variable {A : Type}

/-- printed arguments contain neither `v` nor `w` (numbers, tuples, lists and arrays of numbers) -/
structure Plain (I : ArgInfo A) : Prop where
  noV : ∀ a, 'v' ∉ I.text a
  noW : ∀ a, 'w' ∉ I.text a

/-- printed arguments are moreover distinct for distinct arguments -/
structure TextOK (I : ArgInfo A) : Prop extends Plain I where
  inj : ∀ a b : Option A, noSpaces (argText I a) = noSpaces (argText I b) → a = b

/-- the metric and its printed arguments -/
def printed (I : ArgInfo A) : Slot A → String × List (List Char)
  | .crps => ("crps", [])
  | .error => ("error", [])
  | .spread => ("spread", [])
  | .sqError => ("sq_error", [])
  | .abError => ("ab_error", [])
  | .rankHist => ("rank_hist", [])
  | .variance => ("variance", [])
  | .fDeterm => ("f_determ", [])
  | .probToEns => ("prob_to_ens", [])
  | .pit => ("pit", [])
  | .corr => ("corr", [])
  | .brierDecomp o b => ("brier_decomp", [noSpaces (argText I o), noSpaces (argText I b)])
  | .brier o b => ("brier", [noSpaces (argText I o), noSpaces (argText I b)])
  | .cdf o b => ("cdf", [noSpaces (argText I o), noSpaces (argText I b)])
  | .roc o b => ("roc", [noSpaces (argText I o), noSpaces (argText I b)])
  | .sharpness o b => ("sharpness", [noSpaces (argText I o), noSpaces (argText I b)])
  | .iouDeterm o b => ("iou_determ", [noSpaces (argText I o), noSpaces (argText I b)])
  | .iouProb o b => ("iou_prob", [noSpaces (argText I o), noSpaces (argText I b)])
  | .reliability n o b =>
    ("reliability", [noSpaces (argText I (some n)), noSpaces (argText I o), noSpaces (argText I b)])
  | .ss n => ("binned_spread_skill", [noSpaces (argText I (some n))])

end Model
