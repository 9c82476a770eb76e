import Verif.Dbl
import Verif.Basic
import Mathlib.Analysis.SpecialFunctions.Gamma.Basic
import Mathlib.Analysis.SpecialFunctions.Sqrt
import Mathlib.Data.List.Sort
import Mathlib.LinearAlgebra.Matrix.NonsingularInverse
import Mathlib.LinearAlgebra.Matrix.PosDef

/-! # Model of `stats/ks_test.hpp`, `stats/chi_squared.hpp`, `stats/incomplete_gamma.hpp` and
`stats/gauss_legendre.hpp`

Doubles are exact reals with infinities and NaN (`Dbl`); `tgamma` and `lgamma` are the mathematical
functions on positive arguments, the only ones on which they are called. -/

namespace Albatross

/-- `uniform_ks_test` (stats/ks_test.hpp lines 22-37).  `std::sort` returns the sorted permutation. -/
noncomputable def uniformKsTest (samples : List ℝ) : ℝ :=
  let sorted := samples.insertionSort (· ≤ ·)
  let n : ℝ := sorted.length
  sorted.zipIdx.foldl (fun largest x =>
    let di : ℝ := x.2
    let difference := max ((di + 1) / n - x.1) (x.1 - di / n)
    if largest < difference then difference else largest) 0

/-- `std::numeric_limits<double>::epsilon()`. -/
noncomputable def dblEpsilon : ℝ := 2⁻¹ ^ 52

/-- `std::max(a, b)`: `(a < b) ? b : a`. -/
noncomputable def stdMax (a b : Dbl) : Dbl := if a < b then b else a

/-- `std::min(a, b)`: `(b < a) ? b : a`. -/
noncomputable def stdMin (a b : Dbl) : Dbl := if b < a then b else a

/-- `sqrt`. -/
noncomputable def Dbl.sqrt : Dbl → Dbl
  | .fin x => if x < 0 then .nan else .fin (Real.sqrt x)
  | .pinf => .pinf
  | _ => .nan

/-- `tgamma` on positive arguments. -/
noncomputable def Dbl.tgamma : Dbl → Dbl
  | .fin x => .fin (Real.Gamma x)
  | .pinf => .pinf
  | _ => .nan

/-- `lgamma` on positive arguments. -/
noncomputable def Dbl.lgamma : Dbl → Dbl
  | .fin x => .fin (Real.log |Real.Gamma x|)
  | .nan => .nan
  | _ => .pinf

/-! ## stats/gauss_legendre.hpp -/

/-- `gauss_legendre_50_points` (stats/gauss_legendre.hpp lines 25-50) times `10 ^ 32`. -/
def glPointsNum : List ℤ :=
  [-3109833832718887611232898966595, 3109833832718887611232898966595,
   -9317470156008614085445037763960, 9317470156008614085445037763960,
   -15489058999814590207162862094111, 15489058999814590207162862094111,
   -21600723687604175684728453261710, 21600723687604175684728453261710,
   -27628819377953199032764527852113, 27628819377953199032764527852113,
   -33550024541943735683698825729107, 33550024541943735683698825729107,
   -39341431189756512739422925382382, 39341431189756512739422925382382,
   -44980633497403878914713146777838, 44980633497403878914713146777838,
   -50445814490746420165145913184914, 50445814490746420165145913184914,
   -55715830451465005431552290962580, 55715830451465005431552290962580,
   -60770292718495023918038179639183, 60770292718495023918038179639183,
   -65589646568543936078162486400368, 65589646568543936078162486400368,
   -70155246870682225108954625788366, 70155246870682225108954625788366,
   -74449430222606853826053625268219, 74449430222606853826053625268219,
   -78455583290039926390530519634099, 78455583290039926390530519634099,
   -82158207085933594835625411087394, 82158207085933594835625411087394,
   -85542976942994608461136264393476, 85542976942994608461136264393476,
   -88596797952361304863754098246675, 88596797952361304863754098246675,
   -91307855665579189308973564277166, 91307855665579189308973564277166,
   -93665661894487793378087494727250, 93665661894487793378087494727250,
   -95661095524280794299774564415662, 95661095524280794299774564415662,
   -97286438510669207371334410460625, 97286438510669207371334410460625,
   -98535408404800588230900962563249, 98535408404800588230900962563249,
   -99403196943209071258510820042069, 99403196943209071258510820042069,
   -99886640442007105018545944497422, 99886640442007105018545944497422]

/-- `gauss_legendre_50_weights` (stats/gauss_legendre.hpp lines 52-77) times `10 ^ 32`. -/
def glWeightsNum : List ℤ :=
  [6217661665534726232103310736061, 6217661665534726232103310736061,
   6193606742068324338408750978083, 6193606742068324338408750978083,
   6145589959031666375640678608392, 6145589959031666375640678608392,
   6073797084177021603175001538481, 6073797084177021603175001538481,
   5978505870426545750957640531259, 5978505870426545750957640531259,
   5860084981322244583512243663085, 5860084981322244583512243663085,
   5718992564772838372302931506599, 5718992564772838372302931506599,
   5555774480621251762356742561227, 5555774480621251762356742561227,
   5371062188899624652345879725566, 5371062188899624652345879725566,
   5165570306958113848990529584010, 5165570306958113848990529584010,
   4940093844946631492124358075143, 4940093844946631492124358075143,
   4695505130394843296563301363499, 4695505130394843296563301363499,
   4432750433880327549202228683039, 4432750433880327549202228683039,
   4152846309014769742241197896407, 4152846309014769742241197896407,
   3856875661258767524477015023639, 3856875661258767524477015023639,
   3545983561514615416073461100098, 3545983561514615416073461100098,
   3221372822357801664816582732300, 3221372822357801664816582732300,
   2884299358053519802990637311323, 2884299358053519802990637311323,
   2536067357001239044019487838544, 2536067357001239044019487838544,
   2178024317012479298159206906269, 2178024317012479298159206906269,
   1811556071348939035125994342235, 1811556071348939035125994342235,
   1438082276148557441937890892732, 1438082276148557441937890892732,
   1059054838365096926356968149924, 1059054838365096926356968149924,
   675979919574540150277887817799, 675979919574540150277887817799, 290862255315514095840072434286,
   290862255315514095840072434286]

/-- The points as numbers. -/
noncomputable def glPoints : List ℝ := glPointsNum.map fun (k : ℤ) => (k : ℝ) / 10 ^ 32

/-- The weights as numbers. -/
noncomputable def glWeights : List ℝ := glWeightsNum.map fun (k : ℤ) => (k : ℝ) / 10 ^ 32

/-! ## stats/incomplete_gamma.hpp -/

/-- `incomplete_gamma_quadrature_inp_vals` (stats/incomplete_gamma.hpp lines 36-45). -/
noncomputable def igInpVals (b : Build) (lb ub : Dbl) (counter : Nat) : Outcome Dbl := do
  if glPoints.length ≤ counter then albatrossAssert b false
  let p ← vecGet glPoints counter
  pure ((ub - lb) * .fin (1 / 2) * .fin p + .fin (1 / 2) * (ub + lb))

/-- `incomplete_gamma_quadrature_weight_vals` (stats/incomplete_gamma.hpp lines 47-51). -/
noncomputable def igWeightVals (b : Build) (lb ub : Dbl) (counter : Nat) : Outcome Dbl := do
  albatrossAssert b (decide (counter < glWeights.length))
  let w ← vecGet glWeights counter
  pure ((ub - lb) * .fin (1 / 2) * .fin w)

/-- `incomplete_gamma_quadrature_fn` (stats/incomplete_gamma.hpp lines 53-56). -/
noncomputable def igFn (x a largeTerm : Dbl) : Dbl :=
  Dbl.exp (-x + (a - .fin 1) * Dbl.log x - largeTerm)

/-- One term of the sum (stats/incomplete_gamma.hpp lines 62-65, 69-72). -/
noncomputable def igTerm (b : Build) (lb ub a lg : Dbl) (counter : Nat) : Outcome Dbl := do
  let x ← igInpVals b lb ub counter
  let w ← igWeightVals b lb ub counter
  pure (igFn x a lg * w)

/-- `incomplete_gamma_quadrature_recursive` (stats/incomplete_gamma.hpp lines 58-74). -/
noncomputable def igQuadratureRec (b : Build) (lb ub a lg : Dbl) (counter : Nat) : Outcome Dbl :=
  if counter < glWeights.length - 1 then do
    let t ← igTerm b lb ub a lg counter
    let r ← igQuadratureRec b lb ub a lg (counter + 1)
    pure (t + r)
  else igTerm b lb ub a lg counter
termination_by glWeights.length - counter

/-- `incomplete_gamma_quadrature_bounds` (stats/incomplete_gamma.hpp lines 76-83). -/
noncomputable def igBounds (a z : Dbl) : Dbl × Dbl :=
  (stdMax (.fin 0) (stdMin z a - .fin 12 * Dbl.sqrt a),
    stdMin z (a + .fin 13 * Dbl.sqrt (a + .fin 1)))

/-- `incomplete_gamma_quadrature` (stats/incomplete_gamma.hpp lines 85-89). -/
noncomputable def igQuadrature (b : Build) (a z : Dbl) : Outcome Dbl :=
  let bounds := igBounds a z
  igQuadratureRec b bounds.1 bounds.2 a (Dbl.lgamma a) 0

/-- `INCOMPLETE_GAMMA_RECURSSION_LIMIT` (stats/incomplete_gamma.hpp line 33). -/
def igLimit : Nat := 54

/-- `incomplete_gamma_continuous_fraction_numerator` (stats/incomplete_gamma.hpp lines 91-100). -/
noncomputable def igCfNumerator (a z : Dbl) (depth : Nat) : Dbl :=
  if depth % 2 = 0 then .fin (1 / 2) * .fin depth * z
  else -(a - .fin 1 + .fin (1 / 2) * (.fin depth + .fin 1)) * z

/-- `incomplete_gamma_continuous_fraction(a, z, depth)` (stats/incomplete_gamma.hpp lines 102-113). -/
noncomputable def igCfRec (a z : Dbl) (depth : Nat) : Dbl :=
  if igLimit < depth then a + .fin depth - .fin 1
  else (a + .fin depth - .fin 1) + igCfNumerator a z depth / igCfRec a z (depth + 1)
termination_by igLimit + 1 - depth

/-- `incomplete_gamma_continuous_fraction(a, z)` (stats/incomplete_gamma.hpp lines 115-130). -/
noncomputable def igContinuousFraction (a z : Dbl) : Dbl :=
  let numerator := Dbl.exp (a * Dbl.log z - z) / Dbl.tgamma a
  let denominator := stdMax numerator (igCfRec a z 1)
  if denominator - numerator < .fin (1 / 10 ^ 12) then .fin 1
  else numerator / denominator

/-- `incomplete_gamma` (stats/incomplete_gamma.hpp lines 134-156). -/
noncomputable def incompleteGamma (b : Build) (a z : Dbl) : Outcome Dbl :=
  if a.isNan || z.isNan then pure .nan
  else if a < .fin 0 then pure .nan
  else if z < .fin dblEpsilon then pure (.fin 0)
  else if a < .fin dblEpsilon then pure (.fin 1)
  else if a < .fin 10 then pure (igContinuousFraction a z)
  else igQuadrature b a z

/-! ## stats/chi_squared.hpp -/

/-- `chi_squared_cdf_unsafe` (stats/chi_squared.hpp lines 29-31). -/
noncomputable def chiSquaredCdfUnsafe (b : Build) (x dof : Dbl) : Outcome Dbl :=
  incompleteGamma b (.fin (1 / 2) * dof) (.fin (1 / 2) * x)

/-- `chi_squared_cdf_safe` (stats/chi_squared.hpp lines 33-52), which is also
`chi_squared_cdf(x, dof)` (lines 56-67). -/
noncomputable def chiSquaredCdf (b : Build) (x dof : Dbl) : Outcome Dbl :=
  if x.isNan || decide (x < .fin 0) then pure .nan
  else if dof = .fin 0 then pure (.fin 1)
  else if x < .fin dblEpsilon then pure (.fin 0)
  else if x = .pinf ∨ x = .ninf then pure (.fin 1)
  else chiSquaredCdfUnsafe b x dof

/-- `chi_squared_cdf(deviation, variance, dof)` (stats/chi_squared.hpp lines 69-72). -/
noncomputable def chiSquaredCdfDeviation (b : Build) (deviation variance : Dbl) (dof : Nat) :
    Outcome Dbl :=
  chiSquaredCdf b (deviation * deviation / variance) (.fin dof)

/-- Contract of `covariance.llt()`: the factor it returns. -/
structure Llt (n : Nat) where
  factor : Matrix (Fin n) (Fin n) ℝ → Matrix (Fin n) (Fin n) ℝ
  mul : ∀ S : Matrix (Fin n) (Fin n) ℝ, S.PosDef → factor S * (factor S).transpose = S
  det : ∀ S : Matrix (Fin n) (Fin n) ℝ, S.PosDef → (factor S).det ≠ 0

/-- `chi_squared_cdf(deviation, covariance)` (stats/chi_squared.hpp lines 74-81). -/
noncomputable def chiSquaredCdfVector (b : Build) {n : Nat} (llt : Llt n)
    (deviation : Fin n → ℝ) (covariance : Matrix (Fin n) (Fin n) ℝ) : Outcome Dbl :=
  let normalized := (llt.factor covariance)⁻¹.mulVec deviation
  chiSquaredCdf b (.fin (∑ i, normalized i ^ 2)) (.fin n)

end Albatross
