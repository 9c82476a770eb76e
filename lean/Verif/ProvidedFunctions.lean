import Verif.Kernels
import Verif.Parameters

/-! # Model of the provided covariance and mean functions as objects with parameters

covariance_functions/radial.hpp, polynomials.hpp, noise.hpp, nugget.hpp, covariance_function.hpp and mean_function.hpp:
what the constructors put into an object, and what a call computes from what the object holds.  The features are doubles
and the distance metric is `EuclideanDistance`; every one of these functions accepts two doubles, so a sum adds both
sides and a product multiplies them.  Parameters that are infinite or NaN are not modelled in a call (`none`); the
arithmetic is exact. -/

namespace Albatross

/-- The four radial functions (covariance_functions/radial.hpp). -/
inductive RadialKind
  | squaredExponential | exponential | matern32 | matern52
  deriving DecidableEq

namespace RadialKind

/-- The name of the length scale (radial.hpp lines 143, 238, 429, 499). -/
def lengthName : RadialKind → String
  | squaredExponential => "squared_exponential_length_scale"
  | exponential => "exponential_length_scale"
  | matern32 => "matern_32_length_scale"
  | matern52 => "matern_52_length_scale"

/-- The name of the standard deviation (radial.hpp lines 144, 238, 429, 499). -/
def sigmaName : RadialKind → String
  | squaredExponential => "sigma_squared_exponential"
  | exponential => "sigma_exponential"
  | matern32 => "sigma_matern_32"
  | matern52 => "sigma_matern_52"

/-- The function that `_call_impl` hands the distance and the two values to (radial.hpp lines 178-185, 276-283, 449-456,
518-525). -/
noncomputable def cov : RadialKind → ℝ → ℝ → ℝ → ℝ
  | squaredExponential => Albatross.squaredExponential
  | exponential => exponentialCov
  | matern32 => Albatross.matern32
  | matern52 => Albatross.matern52

/-- The constructor (radial.hpp lines 146-152, 240-245, 431-436, 501-506). -/
def make (k : RadialKind) (lengthScale sigma : Dbl) : Handler :=
  .declared [(k.lengthName, ⟨lengthScale, .positive⟩), (k.sigmaName, ⟨sigma, .nonNegative⟩)]

end RadialKind

/-- The constructor of `Constant` (polynomials.hpp lines 33-35). -/
def makeConstant (sigma : Dbl) : Handler := .declared [("sigma_constant", ⟨sigma, .nonNegative⟩)]

/-- The constructor of `IndependentNoise` (noise.hpp lines 23-25). -/
def makeNoise (sigma : Dbl) : Handler := .declared [("sigma_independent_noise", ⟨sigma, .positive⟩)]

/-- The constructor of `Nugget` (nugget.hpp line 38). -/
noncomputable def makeNugget : Handler := .declared [("nugget_sigma", ⟨.fin (10⁻¹ ^ 8), .fixed⟩)]

/-- `"sigma_polynomial_" + std::to_string(i)` (polynomials.hpp line 68). -/
def polynomialName (i : Nat) : String := "sigma_polynomial_" ++ toString i

/-- The constructor of `Polynomial<order>` (polynomials.hpp lines 66-72). -/
def makePolynomial (order : Nat) (sigma : Dbl) : Handler :=
  .store ((List.range (order + 1)).foldl (fun ps i => SMap.put ps (polynomialName i) ⟨sigma, .nonNegative⟩) [])

/-- The constructor of `LinearMean` (polynomials.hpp lines 98-101). -/
noncomputable def makeLinear : Handler :=
  .declared [("slope", ⟨.fin 0, .gaussian (.fin 0) (.fin 1000)⟩), ("offset", ⟨.fin 0, .gaussian (.fin 0) (.fin 1000)⟩)]

/-- Reading the value of a member, or of `params_`. -/
def readValue (ms : List (String × Parameter)) (name : String) : Option ℝ :=
  match SMap.find? ms name with
  | some ⟨.fin v, _⟩ => some v
  | _ => none

/-- The type of a covariance function. -/
inductive CovType
  | radial (kind : RadialKind)
  | constant
  | polynomial (order : Nat)
  | noise
  | nugget
  | sum (l r : CovType)
  | product (l r : CovType)

namespace CovType

/-- The default constructor (radial.hpp lines 16-17, polynomials.hpp line 18, noise.hpp lines 16 and 23; sums and
products: covariance_function.hpp lines 226 and 334). -/
noncomputable def default : CovType → Handler
  | radial k => k.make (.fin 100000) (.fin 10)
  | constant => makeConstant (.fin 100)
  | polynomial order => makePolynomial order (.fin 100)
  | noise => makeNoise (.fin (1 / 10))
  | nugget => makeNugget
  | sum l r => .both l.default r.default
  | product l r => .both l.default r.default

/-- `operator()(x, y)`: the `_call_impl` of the type (radial.hpp as above, polynomials.hpp lines 56-60 and 78-86,
noise.hpp lines 35-41, nugget.hpp lines 40-48, covariance_function.hpp lines 266-274 and 357-368) on the members the
object holds. -/
noncomputable def call : CovType → Handler → ℝ → ℝ → Option ℝ
  | radial k, .declared ms, x, y => do
    let distance := euclideanDistance x y
    let l ← readValue ms k.lengthName
    let s ← readValue ms k.sigmaName
    pure (k.cov distance l s)
  | constant, .declared ms, x, y => do
    let s ← readValue ms "sigma_constant"
    pure (constantCov s x y)
  | polynomial order, .store ps, x, y =>
    (List.range (order + 1)).foldlM (fun cov i => do
      let sigma ← readValue ps (polynomialName i)
      pure (cov + sigma * sigma * x ^ i * y ^ i)) 0
  | noise, .declared ms, x, y => do
    let s ← readValue ms "sigma_independent_noise"
    pure (noiseCov s x y)
  | nugget, .declared ms, x, y => do
    let s ← readValue ms "nugget_sigma"
    pure (noiseCov s x y)
  | sum a b, .both l r, x, y => do
    let u ← a.call l x y
    let v ← b.call r x y
    pure (u + v)
  | product a b, .both l r, x, y => do
    let output ← a.call l x y
    if output ≠ 0 then do
      let v ← b.call r x y
      pure (output * v)
    else pure output
  | _, _, _, _ => none

end CovType

/-- The type of a mean function. -/
inductive MeanType
  | zero
  | linear
  | sum (l r : MeanType)
  | product (l r : MeanType)

namespace MeanType

/-- The default constructor (mean_function.hpp lines 148, 211, 274-276, polynomials.hpp lines 98-101). -/
noncomputable def default : MeanType → Handler
  | zero => .store []
  | linear => makeLinear
  | sum l r => .both l.default r.default
  | product l r => .both l.default r.default

/-- `operator()(x)` (mean_function.hpp lines 169-175, 234-244, 274-276, polynomials.hpp lines 103-105). -/
noncomputable def call : MeanType → Handler → ℝ → Option ℝ
  | zero, .store _, _ => some 0
  | linear, .declared ms, x => do
    let slope ← readValue ms "slope"
    let offset ← readValue ms "offset"
    pure (slope * x + offset)
  | sum a b, .both l r, x => do
    let u ← a.call l x
    let v ← b.call r x
    pure (u + v)
  | product a b, .both l r, x => do
    let output ← a.call l x
    if output ≠ 0 then do
      let v ← b.call r x
      pure (output * v)
    else pure output
  | _, _, _ => none

end MeanType

end Albatross
