import Verif.Callers
import Mathlib.Analysis.SpecialFunctions.Exp
import Mathlib.Analysis.InnerProductSpace.Basic

/-! # Model of the covariance functions that come with the library

covariance_functions/polynomials.hpp, noise.hpp, nugget.hpp, radial.hpp and distance_metrics.hpp, over
the reals (double rounding is not modelled). -/

namespace Albatross

/-- `Constant::_call_impl` (polynomials.hpp lines 56-60). -/
def constantCov {X : Type} (σ : ℝ) : X → X → ℝ := fun _ _ => σ * σ

/-- `IndependentNoise::_call_impl` (noise.hpp lines 35-41) and `Nugget::_call_impl`
(nugget.hpp lines 40-48), for a feature type whose `operator==` is equality. -/
def noiseCov {X : Type} [DecidableEq X] (σ : ℝ) : X → X → ℝ := fun x y => if x = y then σ * σ else 0

/-- `Polynomial<order>::_call_impl` (polynomials.hpp lines 78-86): `σ i` is the value of
`sigma_polynomial_i`; the loop runs over `0 .. order`. `pow` with a non-negative integral exponent is the
power (`pow(0, 0) = 1`). -/
def polynomialCov (order : Nat) (σ : Nat → ℝ) (x y : ℝ) : ℝ :=
  (List.range (order + 1)).foldl (fun cov i => cov + σ i * σ i * x ^ i * y ^ i) 0

/-- `EuclideanDistance::operator()` on doubles (distance_metrics.hpp lines 35-37). -/
def euclideanDistance (x y : ℝ) : ℝ := |x - y|

/-- `EuclideanDistance::operator()` on vectors (distance_metrics.hpp lines 39-43). -/
noncomputable def euclideanDistanceVec {E : Type} [NormedAddCommGroup E] (x y : E) : ℝ := ‖x - y‖

/-- `squared_exponential_covariance` (radial.hpp lines 25-33); the debug assertion on the distance is
in `squaredExponentialChecked`. -/
noncomputable def squaredExponential (distance lengthScale σ : ℝ) : ℝ :=
  if lengthScale ≤ 0 then 0 else σ * σ * Real.exp (-(distance / lengthScale) ^ 2)

/-- `squared_exponential_covariance` with its assertion (radial.hpp lines 25-33). -/
noncomputable def squaredExponentialChecked (b : Build) (distance lengthScale σ : ℝ) : Outcome ℝ :=
  if lengthScale ≤ 0 then .ok 0
  else do
    albatrossAssert b (0 ≤ distance)
    .ok (squaredExponential distance lengthScale σ)

/-- `exponential_covariance` (radial.hpp lines 191-198). -/
noncomputable def exponentialCov (distance lengthScale σ : ℝ) : ℝ :=
  if lengthScale ≤ 0 then 0 else σ * σ * Real.exp (-|distance / lengthScale|)

/-- `matern_32_covariance` (radial.hpp lines 289-297). -/
noncomputable def matern32 (distance lengthScale σ : ℝ) : ℝ :=
  if lengthScale ≤ 0 then 0
  else
    let d := Real.sqrt 3 * distance / lengthScale
    σ * σ * (1 + d) * Real.exp (-d)

/-- `matern_52_covariance` (radial.hpp lines 461-470). -/
noncomputable def matern52 (distance lengthScale σ : ℝ) : ℝ :=
  if lengthScale ≤ 0 then 0
  else
    let d := Real.sqrt 5 * distance / lengthScale
    σ * σ * (1 + d + d * d / 3) * Real.exp (-d)

/-- `matern_32_covariance` with its assertion (radial.hpp lines 289-297). -/
noncomputable def matern32Checked (b : Build) (distance lengthScale σ : ℝ) : Outcome ℝ :=
  if lengthScale ≤ 0 then .ok 0
  else do
    albatrossAssert b (0 ≤ distance)
    .ok (matern32 distance lengthScale σ)

/-- `matern_52_covariance` with its assertion (radial.hpp lines 461-470). -/
noncomputable def matern52Checked (b : Build) (distance lengthScale σ : ℝ) : Outcome ℝ :=
  if lengthScale ≤ 0 then .ok 0
  else do
    albatrossAssert b (0 ≤ distance)
    .ok (matern52 distance lengthScale σ)

end Albatross
