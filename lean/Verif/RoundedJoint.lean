import Verif.RoundedStats

/-! # Predicted covariances in rounded arithmetic

As in RoundedStats.lean every operation is followed by the rounding `r.fl`, and products are added in any order. -/

namespace Albatross

namespace Rounding

variable (r : Rounding)

/-- An entry of the covariance of `gp_joint_prediction` (models/gp.hpp lines 103-113): the prior covariance minus the product
of `cross_cov.transpose()` and `explained`, which is what `train_covariance.solve(cross_cov)` returned. -/
noncomputable def jointCovariance (s : Summation r) {n m : Nat} (priorCov : Fin m → Fin m → ℝ)
    (crossCov explained : Fin n → Fin m → ℝ) (i j : Fin m) : ℝ :=
  let explainedCov := s.sum ((List.finRange n).map fun k => r.fl (crossCov k i * explained k j))
  r.fl (priorCov i j - explainedCov)

/-- The covariance predicted from a single observation. -/
noncomputable def jointFromOne (s : Summation r) (cov noise : ℝ) {m : Nat} (priorCov : Fin m → Fin m → ℝ)
    (crossCov : Fin m → ℝ) (i j : Fin m) : ℝ :=
  r.jointCovariance s priorCov (n := 1) (fun _ => crossCov)
    (fun _ j => r.solveSingle (r.trainVariance cov noise) (crossCov j)) i j

end Rounding

end Albatross
