import Verif.RoundedStats

/-! # Predicted means in rounded arithmetic

As in RoundedStats.lean every operation is followed by the rounding `r.fl`, and products are added in any order. A mean
function is `none` when it is `ZeroMean`, for which nothing is added or removed, and otherwise its value at the feature. -/

namespace Albatross

namespace Rounding

variable (r : Rounding)

/-- `MeanFunction::remove_from` (covariance_functions/mean_function.hpp lines 98-107) for one target. -/
noncomputable def removeMean (mean : Option ℝ) (target : ℝ) : ℝ :=
  match mean with
  | none => target
  | some m => r.fl (target - m)

/-- `MeanFunction::add_to` (covariance_functions/mean_function.hpp lines 86-95) for one target. -/
noncomputable def addMean (mean : Option ℝ) (target : ℝ) : ℝ :=
  match mean with
  | none => target
  | some m => r.fl (target + m)

/-- The predicted mean of one feature (models/gp.hpp lines 82-85 and 363-364): the product of the cross covariances and the
information, plus the mean function. -/
noncomputable def meanPrediction (s : Summation r) {n : Nat} (crossCov information : Fin n → ℝ) (mean : Option ℝ) : ℝ :=
  r.addMean mean (s.sum ((List.finRange n).map fun i => r.fl (crossCov i * information i)))

/-- The mean predicted from a single observation of `y` (models/gp.hpp lines 61-70 and 286-294): `meanSeen` is the mean
function at the observed feature, `mean` at the predicted one. -/
noncomputable def meanFromOne (s : Summation r) (cov noise y : ℝ) (meanSeen : Option ℝ) (crossCov : ℝ) (mean : Option ℝ) : ℝ :=
  r.meanPrediction s (n := 1) (fun _ => crossCov)
    (fun _ => r.solveSingle (r.trainVariance cov noise) (r.removeMean meanSeen y)) mean

end Rounding

end Albatross
