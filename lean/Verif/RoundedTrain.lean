import Verif.RoundedStats

/-! # The training covariance in rounded arithmetic

As in RoundedStats.lean every operation is followed by the rounding `r.fl`. -/

namespace Albatross

namespace Rounding

variable (r : Rounding)

/-- The training covariance of the constructor of `Fit<GPFit>` (models/gp.hpp lines 61-69): the variances of the targets are
a diagonal matrix, so that `+=` changes the diagonal only. -/
noncomputable def trainCovariance {n : Nat} (trainCov : Fin n → Fin n → ℝ) (targetVariance : Fin n → ℝ) (i j : Fin n) : ℝ :=
  if i = j then r.trainVariance (trainCov i j) (targetVariance i) else trainCov i j

end Rounding

end Albatross
