import Verif.RoundedStats

/-! # The likelihood of independent deviations in rounded arithmetic

As in RoundedStats.lean every operation is followed by the rounding `r.fl`. The logarithm is that of the mathematics library,
`log`, which may be any function. -/

namespace Albatross

namespace Rounding

variable (r : Rounding)

/-- The macro `M_PI` of the C library: the double next to the decimal number. -/
noncomputable def mPi : ℝ := r.fl 3.14159265358979323846

/-- `gaussian::log_pdf` (stats/gaussian.hpp lines 19-23). -/
noncomputable def normalLogPdf (log : ℝ → ℝ) (deviation variance : ℝ) : ℝ :=
  let ll := r.fl (r.fl (-deviation * deviation) / r.fl (2 * variance))
  r.fl (ll - r.fl (1 / 2 * log (r.fl (r.fl (2 * r.mPi) * variance))))

/-- `negative_log_likelihood` of one deviation (evaluation/likelihood.hpp lines 21-24). -/
noncomputable def normalNll (log : ℝ → ℝ) (deviation variance : ℝ) : ℝ := -r.normalLogPdf log deviation variance

/-- `negative_log_likelihood` with a diagonal covariance (evaluation/likelihood.hpp lines 73-86). -/
noncomputable def diagonalNll (log : ℝ → ℝ) {n : Nat} (deviation variances : Fin n → ℝ) : ℝ :=
  (List.finRange n).foldl (fun nll i => r.fl (nll + r.normalNll log (deviation i) (variances i))) 0

end Rounding

end Albatross
