import Verif.Rounding

/-! # Code in rounded arithmetic

The other modules compute with exact reals; here every operation is followed by the rounding `r.fl`, in the order in which
the C++ expression is evaluated. The functions of the mathematics library are arguments. Overflow, underflow, NaN and
contraction of operations (fused multiply add) are not modelled. -/

namespace Albatross

/-- The functions of the mathematics library the covariance functions call: what they return is not specified by IEEE
754, so it may be any function. -/
structure MathFunctions where
  exp : ℝ → ℝ
  pow : ℝ → ℝ → ℝ
  sqrt : ℝ → ℝ

namespace Rounding

variable (r : Rounding)

/-- `default_nugget_noise` (covariance_functions/nugget.hpp line 16): the literal `1e-8`. -/
noncomputable def defaultNuggetNoise : ℝ := r.fl (10⁻¹ ^ 8)

/-- `Nugget::_call_impl` (covariance_functions/nugget.hpp lines 40-48). -/
noncomputable def nuggetCall {X : Type} [DecidableEq X] (sigma : ℝ) (x y : X) : ℝ :=
  if x = y then r.fl (sigma * sigma) else 0

/-- `Constant::_call_impl` (covariance_functions/polynomials.hpp lines 56-60). -/
noncomputable def constantCall (sigma : ℝ) : ℝ := r.fl (sigma * sigma)

/-- `Polynomial::_call_impl` (covariance_functions/polynomials.hpp lines 78-86); `sigmas` are the values of the
parameters in the order of the loop. -/
noncomputable def polynomialCall (lib : MathFunctions) (sigmas : List ℝ) (x y : ℝ) : ℝ :=
  sigmas.zipIdx.foldl (fun cov (sigma, (i : Nat)) =>
    r.fl (cov + r.fl (r.fl (r.fl (sigma * sigma) * lib.pow x i) * lib.pow y i))) 0

/-- `SumOfCovarianceFunctions::_call_impl` (covariance_functions/covariance_function.hpp lines 266-274). -/
noncomputable def sumCall (lhs rhs : ℝ) : ℝ := r.fl (lhs + rhs)

/-- `ProductOfCovarianceFunctions::_call_impl` (covariance_functions/covariance_function.hpp lines 357-368). -/
noncomputable def productCall (lhs rhs : ℝ) : ℝ := if lhs ≠ 0 then r.fl (lhs * rhs) else lhs

/-- `EuclideanDistance` of doubles (covariance_functions/distance_metrics.hpp lines 36-38). -/
noncomputable def distanceCall (x y : ℝ) : ℝ := |r.fl (x - y)|

/-- `squared_exponential_covariance` (covariance_functions/radial.hpp lines 25-33). -/
noncomputable def squaredExponentialCall (lib : MathFunctions) (length sigma distance : ℝ) : ℝ :=
  if length ≤ 0 then 0 else r.fl (r.fl (sigma * sigma) * lib.exp (-lib.pow (r.fl (distance / length)) 2))

/-- `exponential_covariance` (covariance_functions/radial.hpp lines 191-198). -/
noncomputable def exponentialCall (lib : MathFunctions) (length sigma distance : ℝ) : ℝ :=
  if length ≤ 0 then 0 else r.fl (r.fl (sigma * sigma) * lib.exp (-|r.fl (distance / length)|))

/-- `matern_32_covariance` (covariance_functions/radial.hpp lines 289-297). -/
noncomputable def matern32Call (lib : MathFunctions) (length sigma distance : ℝ) : ℝ :=
  if length ≤ 0 then 0 else
    let sqrt3d := r.fl (r.fl (lib.sqrt 3 * distance) / length)
    r.fl (r.fl (r.fl (sigma * sigma) * r.fl (1 + sqrt3d)) * lib.exp (-sqrt3d))

/-- `matern_52_covariance` (covariance_functions/radial.hpp lines 461-470). -/
noncomputable def matern52Call (lib : MathFunctions) (length sigma distance : ℝ) : ℝ :=
  if length ≤ 0 then 0 else
    let sqrt5d := r.fl (r.fl (lib.sqrt 5 * distance) / length)
    r.fl (r.fl (r.fl (sigma * sigma) * r.fl (r.fl (1 + sqrt5d) + r.fl (r.fl (sqrt5d * sqrt5d) / 3))) * lib.exp (-sqrt5d))

end Rounding

/-- Covariance functions of doubles, composed by `+` and `*`; the radial functions with `EuclideanDistance`. -/
inductive DoubleCov where
  | constant (sigma : ℝ)
  | polynomial (sigmas : List ℝ)
  | nugget (sigma : ℝ)
  | squaredExponential (length sigma : ℝ)
  | exponential (length sigma : ℝ)
  | matern32 (length sigma : ℝ)
  | matern52 (length sigma : ℝ)
  | sum (lhs rhs : DoubleCov)
  | product (lhs rhs : DoubleCov)

/-- What `operator()` of a composed covariance function returns for two doubles. -/
noncomputable def DoubleCov.call (r : Rounding) (lib : MathFunctions) : DoubleCov → ℝ → ℝ → ℝ
  | constant s, _, _ => r.constantCall s
  | polynomial ss, x, y => r.polynomialCall lib ss x y
  | nugget s, x, y => r.nuggetCall s x y
  | squaredExponential l s, x, y => r.squaredExponentialCall lib l s (r.distanceCall x y)
  | exponential l s, x, y => r.exponentialCall lib l s (r.distanceCall x y)
  | matern32 l s, x, y => r.matern32Call lib l s (r.distanceCall x y)
  | matern52 l s, x, y => r.matern52Call lib l s (r.distanceCall x y)
  | sum a b, x, y => r.sumCall (a.call r lib x y) (b.call r lib x y)
  | product a b, x, y => r.productCall (a.call r lib x y) (b.call r lib x y)

namespace Rounding

variable (r : Rounding)

/-- `DEFAULT_NUGGET` (models/sparse_gp.hpp line 20): the literal `1e-8`. -/
noncomputable def defaultNugget : ℝ := r.fl (10⁻¹ ^ 8)

/-- `K_uu.diagonal() += inducing_nugget_.value * Ones` (models/sparse_gp.hpp lines 676-677). -/
noncomputable def addNugget {m : Nat} (K : Fin m → Fin m → ℝ) (nugget : ℝ) (i j : Fin m) : ℝ :=
  if i = j then r.fl (K i j + r.fl (nugget * 1)) else K i j

/-- The loop of `linspace` (utils/vector_utils.hpp lines 27-31). -/
noncomputable def linspaceLoop (step : ℝ) : Nat → ℝ → List ℝ
  | 0, _ => []
  | n + 1, val => val :: linspaceLoop step n (r.fl (val + step))

/-- `linspace` (utils/vector_utils.hpp lines 24-33) for `2 ≤ n ≤ 2 ^ 53`. -/
noncomputable def linspace (a b : ℝ) (n : Nat) : List ℝ :=
  let step := r.fl (r.fl (b - a) / r.fl ((n - 1 : Nat) : ℝ))
  r.linspaceLoop step n a

/-- `EPSILON` (covariance_functions/distance_metrics.hpp line 18): the literal `1e-16`. -/
noncomputable def epsilon : ℝ := r.fl (10⁻¹ ^ 16)

/-- What `angular_distance` does with the normalized dot product (covariance_functions/distance_metrics.hpp lines
69-76). -/
inductive AngularBranch where
  | zero
  | pi
  | acos (argument : ℝ)

noncomputable def angularBranch (dotProduct : ℝ) : AngularBranch :=
  if dotProduct > r.fl (1 - r.epsilon) then .zero
  else if dotProduct < r.fl (-1 + r.epsilon) then .pi
  else .acos dotProduct

end Rounding

end Albatross
