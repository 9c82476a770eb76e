import Verif.Likelihood

/-! # Model of models/gp.hpp

A model is a covariance function, a mean function and the wrapper `as_measurement` on features of an
arbitrary type `X` (a feature and its `Measurement` are both elements of `X`, as in `Callers.lean`).
Feature vectors are functions from a finite index type; concatenation is the index type `n ⊕ p`.
Covariance matrices have the entries `cov (xs i) (ys j)`: that the serial and threaded builders
produce them is C18 and C19. -/

namespace Albatross

open Matrix

/-- `GaussianProcessBase` (models/gp.hpp lines 170-463): covariance function, mean function and
`as_measurement` (covariance_functions/measurement.hpp lines 38-69). -/
structure Gp (X : Type) where
  cov : X → X → ℝ
  mean : X → ℝ
  asMeas : X → X

/-- `MarginalDistribution` (core/distribution.hpp lines 65-153). -/
structure Marginal (n : Type) where
  mean : n → ℝ
  variance : n → ℝ

/-- `JointDistribution` (core/distribution.hpp lines 155-234). -/
structure Joint (n : Type) where
  mean : n → ℝ
  covariance : Matrix n n ℝ

/-- `Fit<GPFit<CovarianceRepresentation, FeatureType>>` (models/gp.hpp lines 42-77). -/
structure GpFit (X n : Type) where
  features : n → X
  trainCovariance : Solver n
  information : n → ℝ

variable {X n p : Type}

/-- `covariance_function_(xs, ys)` (covariance_functions/covariance_function.hpp lines 131-160). -/
def Gp.covMat (g : Gp X) (xs : n → X) (ys : p → X) : Matrix n p ℝ := of fun i j => g.cov (xs i) (ys j)

/-- `mean_function_.remove_from(features, &target)` (mean_function.hpp lines 97-107). -/
def Gp.removeFrom (g : Gp X) (xs : n → X) (target : n → ℝ) : n → ℝ := fun i => target i - g.mean (xs i)

/-- `mean_function_.add_to(features, &target)` (mean_function.hpp lines 85-95). -/
def Gp.addTo (g : Gp X) (xs : n → X) (target : n → ℝ) : n → ℝ := fun i => target i + g.mean (xs i)

/-- Constructor of the fit (gp.hpp lines 61-69); `ldlt` is the decomposition routine. -/
noncomputable def gpFitFrom [DecidableEq n] (ldlt : Matrix n n ℝ → Ldlt n) (features : n → X)
    (trainCov : Matrix n n ℝ) (targets : Marginal n) : GpFit X n :=
  let cov := trainCov + diagonal targets.variance
  let trainCovariance := (ldlt cov).solver
  ⟨features, trainCovariance, trainCovariance.solveVec targets.mean⟩

/-- `_fit_impl` (gp.hpp lines 281-294). -/
noncomputable def Gp.fit [DecidableEq n] (g : Gp X) (ldlt : Matrix n n ℝ → Ldlt n) (features : n → X)
    (targets : Marginal n) : GpFit X n :=
  let measurementFeatures := fun i => g.asMeas (features i)
  let cov := g.covMat measurementFeatures measurementFeatures
  let zeroMeanTargets : Marginal n :=
    { targets with mean := g.removeFrom measurementFeatures targets.mean }
  gpFitFrom ldlt features cov zeroMeanTargets

/-- `gp_mean_prediction` (gp.hpp lines 82-85). -/
noncomputable def gpMeanPrediction [Fintype n] (crossCov : Matrix n p ℝ) (information : n → ℝ) : p → ℝ :=
  crossCovᵀ *ᵥ information

/-- `gp_marginal_prediction` (gp.hpp lines 87-101). -/
noncomputable def gpMarginalPrediction [Fintype n] (crossCov : Matrix n p ℝ) (priorVariance : p → ℝ)
    (information : n → ℝ) (trainCovariance : Solver n) : Marginal p :=
  let explained := trainCovariance.solve crossCov
  let explainedVariance := fun j => ∑ i, explained i j * crossCov i j
  ⟨gpMeanPrediction crossCov information, priorVariance - explainedVariance⟩

/-- `gp_joint_prediction` (gp.hpp lines 103-113). -/
noncomputable def gpJointPrediction [Fintype n] (crossCov : Matrix n p ℝ) (priorCov : Matrix p p ℝ)
    (information : n → ℝ) (trainCovariance : Solver n) : Joint p :=
  let explainedCov := crossCovᵀ * trainCovariance.solve crossCov
  ⟨gpMeanPrediction crossCov information, priorCov - explainedCov⟩

/-- `_predict_impl` for joint predictions (gp.hpp lines 305-324). -/
noncomputable def Gp.predictJoint [Fintype n] (g : Gp X) (f : GpFit X n) (xs : p → X) : Joint p :=
  let crossCov := g.covMat f.features xs
  let priorCov := g.covMat xs xs
  let pred := gpJointPrediction crossCov priorCov f.information f.trainCovariance
  { pred with mean := g.addTo xs pred.mean }

/-- `_predict_impl` for marginal predictions (gp.hpp lines 326-348). -/
noncomputable def Gp.predictMarginal [Fintype n] (g : Gp X) (f : GpFit X n) (xs : p → X) : Marginal p :=
  let crossCov := g.covMat f.features xs
  let priorVariance := fun i => g.cov (xs i) (xs i)
  let pred := gpMarginalPrediction crossCov priorVariance f.information f.trainCovariance
  { pred with mean := g.addTo xs pred.mean }

/-- `_predict_impl` for mean predictions (gp.hpp lines 350-366). -/
noncomputable def Gp.predictMean [Fintype n] (g : Gp X) (f : GpFit X n) (xs : p → X) : p → ℝ :=
  let crossCov := g.covMat f.features xs
  g.addTo xs (gpMeanPrediction crossCov f.information)

/-- `gp_fit_from_prediction` (gp.hpp lines 139-153). -/
noncomputable def gpFitFromPrediction [Fintype n] (ldlt : Matrix n n ℝ → Ldlt n) (features : n → X)
    (prior : Matrix n n ℝ) (prediction : Joint n) : GpFit X n :=
  let priorLdlt := ldlt prior
  ⟨features, (ExplainedCovariance.mk priorLdlt (prior - prediction.covariance)).solver,
    priorLdlt.solver.solveVec prediction.mean⟩

/-- `fit_from_prediction` (gp.hpp lines 236-245). -/
noncomputable def Gp.fitFromPrediction [Fintype n] (g : Gp X) (ldlt : Matrix n n ℝ → Ldlt n)
    (features : n → X) (prediction : Joint n) : GpFit X n :=
  let zeroMeanPrediction : Joint n :=
    { prediction with mean := g.removeFrom features prediction.mean }
  gpFitFromPrediction ldlt features (g.covMat features features) zeroMeanPrediction

/-- `_update_impl` (gp.hpp lines 384-414). -/
noncomputable def Gp.update [Fintype n] [Fintype p] [DecidableEq p] (g : Gp X)
    (ldlt : Matrix p p ℝ → Ldlt p) (f : GpFit X n) (features : p → X) (targets : Marginal p) :
    GpFit X (n ⊕ p) :=
  let newFeatures := Sum.elim f.features features
  let pred := g.predictJoint f features
  let delta := targets.mean - pred.mean
  let S := ldlt (pred.covariance + diagonal targets.variance)
  let cross := g.covMat f.features features
  let newCovariance := BlockSymmetric.ofSchur f.trainCovariance cross S
  let SiDelta := S.solver.solveVec delta
  ⟨newFeatures, newCovariance.solver,
    Sum.elim (f.information - newCovariance.AiB *ᵥ SiDelta) SiDelta⟩

/-- `prior` (gp.hpp lines 420-425). -/
def Gp.prior (g : Gp X) (xs : n → X) : Joint n :=
  ⟨fun i => g.mean (g.asMeas (xs i)),
    g.covMat (fun i => g.asMeas (xs i)) (fun i => g.asMeas (xs i))⟩

/-- `log_likelihood` (gp.hpp lines 442-451); `priorLL` is `prior_log_likelihood()` of the
parameters. -/
noncomputable def Gp.logLikelihood {m : Nat} (g : Gp X) (ldlt : Matrix (Fin m) (Fin m) ℝ → Ldlt (Fin m))
    (priorLL : ℝ) (features : Fin m → X) (targets : Marginal (Fin m)) : ℝ :=
  let measurementFeatures := fun i => g.asMeas (features i)
  let zeroMean := g.removeFrom measurementFeatures targets.mean
  let cov := g.covMat measurementFeatures measurementFeatures
  let ll := -nllDense ldlt zeroMean cov
  ll + priorLL

end Albatross
