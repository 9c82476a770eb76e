import Verif.Gp
import Verif.Stats
import Verif.SimpleModels
import Mathlib.Analysis.SpecialFunctions.Integrals.Basic
import Mathlib.MeasureTheory.Integral.IntervalIntegral.Basic

/-! # Model of evaluation/prediction_metrics.hpp

Vectors that the code checks to be of the same size are functions on the same `Fin n`.  Values computed from
square roots are `Dbl`, as the argument of a square root can be negative. -/

namespace Albatross

open Matrix

/-- The sum of doubles, left to right. -/
noncomputable def dblSum (xs : List Dbl) : Dbl := xs.foldl (· + ·) (.fin 0)

/-- Eigen's `mean()`. -/
noncomputable def dblMean (xs : List Dbl) : Dbl := dblSum xs / .fin xs.length

/-! ## Root mean square error and standard deviation -/

/-- `prediction - truth`, with Eigen's check of the sizes. -/
def vecSub (b : Build) (x y : List ℝ) : Outcome (List ℝ) := do
  eigenAssert b (decide (x.length = y.length))
  pure (List.zipWith (· - ·) x y)

/-- `root_mean_square_error` (evaluation/prediction_metrics.hpp lines 56-61). -/
noncomputable def rootMeanSquareError (b : Build) (prediction truth : List ℝ) : Outcome Dbl := do
  let error ← vecSub b prediction truth
  let mse : Dbl := .fin (error.map fun e => e * e).sum / .fin error.length
  pure mse.sqrt

/-- `standard_deviation(x)` (evaluation/prediction_metrics.hpp lines 73-91). -/
noncomputable def standardDeviation (x : List ℝ) : Dbl :=
  if x.length = 0 then .nan
  else if x.length = 1 then .fin 0
  else
    let mean := x.sum / x.length
    let nElements : ℝ := x.length
    let output := x.foldl (fun out xi => out + (xi - mean) ^ 2 / (nElements - 1)) 0
    Dbl.sqrt (.fin output)

/-- `standard_deviation(prediction, truth)` (evaluation/prediction_metrics.hpp lines 93-96). -/
noncomputable def standardDeviationOf (b : Build) (prediction truth : List ℝ) : Outcome Dbl := do
  let d ← vecSub b prediction truth
  pure (standardDeviation d)

/-! ## The Wasserstein distance -/

/-- What `Eigen::SelfAdjointEigenSolver` returns. -/
structure EigenDecomp (n : Nat) where
  values : Fin n → ℝ
  vectors : Matrix (Fin n) (Fin n) ℝ

/-- Its contract: orthonormal eigenvectors. -/
structure EigenDecomp.Of {n : Nat} (e : EigenDecomp n) (A : Matrix (Fin n) (Fin n) ℝ) : Prop where
  orthogonal : e.vectorsᵀ * e.vectors = 1
  factor : A = e.vectors * diagonal e.values * e.vectorsᵀ

/-- `min_positive` (evaluation/prediction_metrics.hpp lines 163-167). -/
noncomputable def minPositive {n : Nat} (values : Fin n → ℝ) : Dbl :=
  (List.ofFn fun i => if 0 < values i then Dbl.fin (values i) else .pinf).foldl stdMin .pinf

open Classical in
/-- The eigenvalues of which the square root is taken (evaluation/prediction_metrics.hpp lines 153-171). -/
noncomputable def clampedValues {n : Nat} (values : Fin n → ℝ) : Fin n → ℝ :=
  if ¬ ∀ i, 0 ≤ values i then
    fun i => if values i < 0 ∧ .fin (-10) * minPositive values < .fin (values i) then 0 else values i
  else values

open Classical in
/-- `principal_sqrt` (evaluation/prediction_metrics.hpp lines 151-176); `none` if a remaining negative
eigenvalue makes every entry of the result NaN. -/
noncomputable def principalSqrt {n : Nat} (e : EigenDecomp n) : Option (Matrix (Fin n) (Fin n) ℝ) :=
  let eigenvalues := clampedValues e.values
  if ∃ i, eigenvalues i < 0 then none
  else some (e.vectors * diagonal (fun i => Real.sqrt (eigenvalues i)) * e.vectorsᵀ)

/-- `wasserstein_2` (evaluation/prediction_metrics.hpp lines 180-187); `none` is NaN. -/
noncomputable def wasserstein2 {n : Nat} (solver : Matrix (Fin n) (Fin n) ℝ → EigenDecomp n)
    (a b : Joint (Fin n)) : Option ℝ := do
  let bSqrt ← principalSqrt (solver b.covariance)
  let s ← principalSqrt (solver (bSqrt * a.covariance * bSqrt))
  pure ((a.mean - b.mean) ⬝ᵥ (a.mean - b.mean) + (a.covariance + b.covariance - (2 : ℝ) • s).trace)

/-! ## Samples -/

/-- `Eigen::LDLT`: the transpositions chosen while pivoting, the unit lower triangular factor and the
diagonal.  Step `k` exchanges rows `k` and `transpositions k`. -/
structure PivotedLdlt (n : Nat) where
  transpositions : Fin n → Fin n
  lower : Matrix (Fin n) (Fin n) ℝ
  diag : Fin n → ℝ

/-- `transpositionsP() * rhs`: the exchanges in order. -/
def PivotedLdlt.timesP {n : Nat} {q : Type} (F : PivotedLdlt n) (rhs : Matrix (Fin n) q ℝ) :
    Matrix (Fin n) q ℝ :=
  (List.finRange n).foldl (fun m k => m.submatrix (Equiv.swap k (F.transpositions k)) id) rhs

/-- `transpositionsP().transpose() * rhs`: the exchanges in reverse order. -/
def PivotedLdlt.timesPTranspose {n : Nat} {q : Type} (F : PivotedLdlt n) (rhs : Matrix (Fin n) q ℝ) :
    Matrix (Fin n) q ℝ :=
  (List.finRange n).reverse.foldl (fun m k => m.submatrix (Equiv.swap k (F.transpositions k)) id) rhs

/-- Contract of `Eigen::LDLT(A)`: `A = Pᵀ L D Lᵀ P` with `L` unit lower triangular. -/
structure PivotedLdlt.Factors {n : Nat} (F : PivotedLdlt n) (A : Matrix (Fin n) (Fin n) ℝ) : Prop where
  unit : ∀ i, F.lower i i = 1
  lowerTri : ∀ i j, i < j → F.lower i j = 0
  factor : A = F.timesPTranspose (F.lower * diagonal F.diag * F.lowerᵀ * F.timesP 1)

/-- `draw_mvn` (evaluation/prediction_metrics.hpp lines 200-217); `z` holds the draws from the standard normal
distribution and `success` says whether the decomposition succeeded.  (Without assertions a negative entry of
`D` gives NaN, which is not modelled.) -/
noncomputable def drawMvn {n k : Nat} (b : Build) (success : Bool) (F : PivotedLdlt n) (mean : Fin n → ℝ)
    (z : Matrix (Fin n) (Fin k) ℝ) : Outcome (Matrix (Fin n) (Fin k) ℝ) := do
  albatrossAssert b success
  albatrossAssert b (@decide (∀ i, F.diag i > 0) (Classical.dec _))
  let m := F.timesP (F.lower * (diagonal (fun i => Real.sqrt (F.diag i)) * z))
  pure (Matrix.of fun i j => m i j + mean i)

/-- The number of draws of `antithetic_sample` (evaluation/prediction_metrics.hpp line 265). -/
def kGenerate (numSamples : Nat) : Nat := numSamples / 2 + 1

/-- `antithetic_sample` (evaluation/prediction_metrics.hpp lines 258-277). -/
noncomputable def antitheticSample {n : Nat} (b : Build) (success : Bool) (numSamples : Nat) (mean : Fin n → ℝ)
    (F : PivotedLdlt n) (z : Matrix (Fin n) (Fin (kGenerate numSamples)) ℝ) :
    Outcome (Matrix (Fin n) (Fin (kGenerate numSamples + kGenerate numSamples)) ℝ) := do
  let left ← drawMvn b success F mean z
  pure (Matrix.of fun i => Fin.append (fun j => left i j) (fun j => -left i j + 2 * mean i))

/-! ## The energy score -/

/-- `mean_err_norms` (evaluation/prediction_metrics.hpp lines 221-234). -/
noncomputable def meanErrNorms {n k : Nat} (samples : Matrix (Fin n) (Fin k) ℝ) (truth weights : Fin n → ℝ) : Dbl :=
  dblMean (List.ofFn fun j => Dbl.sqrt (.fin (∑ i, (samples i j - truth i) ^ 2 * weights i)))

/-- `pairwise_errors_paired` (evaluation/prediction_metrics.hpp lines 244-256). -/
noncomputable def pairwiseErrorsPaired {n k : Nat} (a b : Matrix (Fin n) (Fin k) ℝ) (weights : Fin n → ℝ) : Dbl :=
  dblMean (List.ofFn fun j => Dbl.sqrt (.fin (∑ i, ((a i j - b i j) * weights i) ^ 2)))

/-- The end of `energy_score` (evaluation/prediction_metrics.hpp lines 415-421). -/
noncomputable def energyScoreOf {n k : Nat} (b : Build) (samples samplesB : Matrix (Fin n) (Fin k) ℝ)
    (truth weights : Fin n → ℝ) : Outcome Dbl := do
  let es := .fin (1 / 2) * (meanErrNorms samples truth weights + meanErrNorms samplesB truth weights) -
    .fin (1 / 2) * pairwiseErrorsPaired samples samplesB weights
  albatrossAssert b (decide (Dbl.fin (-(1 / 10 ^ 12)) ≤ es))
  pure (stdMax (.fin 0) es)

/-- `energy_score` (evaluation/prediction_metrics.hpp lines 387-422), for the decomposition `F` of the
covariance and draws `z` and `zB` of the generator. -/
noncomputable def energyScore {n : Nat} (b : Build) (success : Bool) (F : PivotedLdlt n) (mean truth : Fin n → ℝ)
    (weights : Option (Fin n → ℝ)) (numSamples : Nat)
    (z zB : Matrix (Fin n) (Fin (kGenerate numSamples)) ℝ) : Outcome Dbl := do
  albatrossAssert b (decide (numSamples > 1))
  let samples ← antitheticSample b success numSamples mean F z
  let samplesB ← antitheticSample b success numSamples mean F zB
  energyScoreOf b samples samplesB truth (weights.getD fun _ => 1)

/-! ## Normal scores -/

/-- The error function. -/
noncomputable def erf (x : ℝ) : ℝ := 2 / Real.sqrt Real.pi * ∫ t in (0 : ℝ)..x, Real.exp (-t ^ 2)

/-- `expected_abs_normal_1` (evaluation/prediction_metrics.hpp lines 287-301). -/
noncomputable def expectedAbsNormal1 : Dbl → Dbl → Dbl
  | .fin mu, .fin sigma =>
    if sigma ≤ 0 then .fin |mu|
    else
      let normalized := |mu| / max (1 / 10 ^ 16) sigma
      .fin (sigma * Real.sqrt (2 / Real.pi) * Real.exp (-(1 / 2) * normalized * normalized) +
        |mu| * erf (normalized / Real.sqrt 2))
  | _, _ => .nan

/-- `expected_abs_normal_2` (evaluation/prediction_metrics.hpp lines 304-306). -/
noncomputable def expectedAbsNormal2 (mu sigma : Dbl) : Dbl := mu * mu + sigma * sigma

/-- `VariogramScoreOrder` (evaluation/prediction_metrics.hpp lines 193-196). -/
inductive VariogramOrder
  | variogram
  | madogram

/-- `expected_abs_normal` (evaluation/prediction_metrics.hpp lines 310-321). -/
noncomputable def expectedAbsNormal (mu sigma : Dbl) : VariogramOrder → Dbl
  | .variogram => expectedAbsNormal2 mu sigma
  | .madogram => expectedAbsNormal1 mu sigma

/-- `variogram_score_order_p` (evaluation/prediction_metrics.hpp lines 323-333). -/
def variogramOrderP : VariogramOrder → Nat
  | .variogram => 2
  | .madogram => 1

/-- `crps_normal` (evaluation/prediction_metrics.hpp lines 349-364). -/
noncomputable def crpsNormal : Dbl → Dbl → Dbl → Dbl
  | .fin mu, .fin sigma, .fin y =>
    if sigma ≤ 0 then .fin |y - mu|
    else
      let z := (y - mu) / sigma
      let erfz := erf (z / Real.sqrt 2)
      let phi := Real.exp (-(1 / 2) * z * z) / Real.sqrt (2 * Real.pi)
      .fin (sigma * (z * erfz + 2 * phi - 1 / Real.sqrt Real.pi))
  | _, _, _ => .nan

/-- One term of the loop of `variogram_score` (evaluation/prediction_metrics.hpp lines 487-503). -/
noncomputable def variogramTerm {n : Nat} (prediction : Joint (Fin n)) (truth : Fin n → ℝ)
    (weights : Matrix (Fin n) (Fin n) ℝ) (order : VariogramOrder) (row j : Fin n) : Dbl :=
  let meanErr := prediction.mean j - prediction.mean row
  let sigma := Dbl.sqrt (.fin (prediction.covariance row row + prediction.covariance j j -
    2 * prediction.covariance row j))
  let expectation := expectedAbsNormal (.fin meanErr) sigma order
  let diff := .fin (|truth row - truth j| ^ variogramOrderP order) - expectation
  .fin (weights row j) * diff * diff

/-- `variogram_score` (evaluation/prediction_metrics.hpp lines 465-509). -/
noncomputable def variogramScore {n : Nat} (b : Build) (prediction : Joint (Fin n)) (truth : Fin n → ℝ)
    (weights : Option (Matrix (Fin n) (Fin n) ℝ)) (order : VariogramOrder) : Outcome Dbl := do
  let w := weights.getD (Matrix.of fun _ _ => 1)
  let sum := ((List.finRange n).filter fun row => row.val + 1 < n).foldl (fun sum row =>
    sum + dblSum (((List.finRange n).filter fun j => row < j).map fun j =>
      variogramTerm prediction truth w order row j)) (.fin 0)
  albatrossAssert b (decide (Dbl.fin 0 ≤ sum))
  pure sum

end Albatross
