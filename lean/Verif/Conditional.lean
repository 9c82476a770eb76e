import Verif.Distribution
import Verif.HeldOut

/-! # Model of models/conditional_gaussian.hpp -/

namespace Albatross

open Matrix

variable {m : Nat}

/-- `JointDistribution::subset` (core/distribution.hpp lines 223-227, indexing/subset.hpp
`symmetric_subset`) for valid positions. -/
def Joint.select {n p : Type} (d : Joint n) (idx : p → n) : Joint p :=
  ⟨fun i => d.mean (idx i), d.covariance.submatrix idx idx⟩

/-- `MarginalDistribution::subset` (core/distribution.hpp lines 137-142) for valid positions. -/
def Marginal.select {n p : Type} (d : Marginal n) (idx : p → n) : Marginal p :=
  ⟨fun i => d.mean (idx i), fun i => d.variance (idx i)⟩

/-- `ConditionalFit` (conditional_gaussian.hpp lines 17-21). -/
structure ConditionalFit (m : Nat) where
  indices : List (Fin m)
  information : Fin indices.length → ℝ
  covLdlt : Ldlt (Fin indices.length)

/-- `ConditionalGaussian` (conditional_gaussian.hpp lines 23-28). -/
structure ConditionalGaussian (m : Nat) where
  prior : Joint (Fin m)
  truth : Marginal (Fin m)

namespace ConditionalGaussian

/-- `fit_from_indices` (conditional_gaussian.hpp lines 30-45). -/
noncomputable def fit (c : ConditionalGaussian m) (ldlt : LdltRoutine) (indices : List Nat) :
    Outcome (ConditionalFit m) := do
  let idx ← columnIndices m indices
  let trainPrior := c.prior.select idx.get
  let trainTruth := c.truth.select idx.get
  let truthMinusPrior := trainTruth.mean - trainPrior.mean
  let cov := trainPrior.covariance + diagonal trainTruth.variance
  let trainLdlt := ldlt idx.length cov
  pure ⟨idx, trainLdlt.solver.solveVec truthMinusPrior, trainLdlt⟩

/-- `_predict_impl` for joint distributions (conditional_gaussian.hpp lines 61-75). -/
noncomputable def predictJoint (c : ConditionalGaussian m) (predictIndices : List Nat) (fit : ConditionalFit m) :
    Outcome DynJoint := do
  let idx ← columnIndices m predictIndices
  let predictPrior := c.prior.select idx.get
  let cross := c.prior.covariance.submatrix fit.indices.get idx.get
  let pred := gpJointPrediction cross predictPrior.covariance fit.information fit.covLdlt.solver
  pure ⟨idx.length, pred.mean + predictPrior.mean, pred.covariance⟩

/-- `_predict_impl` for marginal distributions (conditional_gaussian.hpp lines 77-91). -/
noncomputable def predictMarginal (c : ConditionalGaussian m) (predictIndices : List Nat) (fit : ConditionalFit m) :
    Outcome DynMarginal := do
  let idx ← columnIndices m predictIndices
  let predictPrior := c.prior.marginal.select idx.get
  let cross := c.prior.covariance.submatrix fit.indices.get idx.get
  let pred := gpMarginalPrediction cross predictPrior.variance fit.information fit.covLdlt.solver
  pure ⟨idx.length, pred.mean + predictPrior.mean, pred.variance⟩

/-- `_predict_impl` for means (conditional_gaussian.hpp lines 93-103). -/
noncomputable def predictMean (c : ConditionalGaussian m) (predictIndices : List Nat) (fit : ConditionalFit m) :
    Outcome DynMean := do
  let idx ← columnIndices m predictIndices
  let cross := c.prior.covariance.submatrix fit.indices.get idx.get
  pure ⟨idx.length, gpMeanPrediction cross fit.information + fun i => c.prior.mean (idx.get i)⟩

end ConditionalGaussian

end Albatross
