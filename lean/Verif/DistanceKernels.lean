import Verif.Distances
import Verif.Radial

/-! # Covariance functions of distances

The radial covariance functions called with the distance metrics of distance_metrics.hpp, the distance being a double
that need not be a number. Which pairs of a covariance function and a metric can be written at all is settled by the
`static_assert`s of radial.hpp lines 139-141, 426-427 and 496-497: `SquaredExponential`, `Matern32` and `Matern52`
refuse `AngularDistance`, `Exponential` takes all three metrics. -/

namespace Albatross

/-- `exponential_covariance` (radial.hpp lines 191-198) with its assertion, for any double. -/
noncomputable def exponentialDbl (b : Build) (distance : Dbl) (lengthScale σ : ℝ) : Outcome Dbl :=
  if lengthScale ≤ 0 then .ok (.fin 0)
  else do
    albatrossAssert b (.fin 0 ≤ distance)
    .ok (.fin (σ * σ) * Dbl.exp (-Dbl.fabs (distance / .fin lengthScale)))

/-- `Exponential<AngularDistance>`; with the other two metrics the distance is the number they give
(radial.hpp lines 276-284, distance_metrics.hpp lines 63-89). -/
noncomputable def exponentialAngular (b : Build) (l σ : ℝ) {n : Nat} (x y : Fin n → ℝ) : Outcome Dbl :=
  exponentialDbl b (angularDistance x y) l σ

/-- `SquaredExponential`, `Matern32` and `Matern52` of a metric with real values
(radial.hpp lines 177-186, 448-456, 518-526). -/
noncomputable def smoothRadial (checked : Build → ℝ → ℝ → ℝ → Outcome ℝ) (b : Build) (l σ : ℝ) {n : Nat}
    (metric : (Fin n → ℝ) → (Fin n → ℝ) → ℝ) (x y : Fin n → ℝ) : Outcome ℝ :=
  checked b (metric x y) l σ

end Albatross
