import Verif.Ransac
import Verif.Conditional
import Verif.Stats

/-! # Model of models/ransac_gp.hpp and of `get_generic_ransac_functions` (models/ransac.hpp)

The lambdas capture the metrics by reference; their lifetime is not modelled.  A prediction metric is evaluated on the
joint prediction: the marginal and mean forms are its projections (C34, C86). -/

namespace Albatross

open Matrix

variable {m : Nat} {K : Type}

/-- `RansacFunctions` (models/ransac.hpp lines 23-50) whose members can fail. -/
structure RansacCalls (K Fit : Type) where
  fitter : List K → Outcome Fit
  inlierMetric : K → Fit → Outcome Dbl
  consensusMetric : List K → Outcome Dbl
  isValidCandidate : List K → Outcome Bool

/-- `ConditionalGaussian::get_prior` (models/conditional_gaussian.hpp lines 53-55). -/
def ConditionalGaussian.getPrior (c : ConditionalGaussian m) (indices : List Nat) : Outcome DynJoint := do
  let idx ← columnIndices m indices
  pure ⟨idx.length, c.prior.select idx.get⟩

/-- `ConditionalGaussian::get_truth` (models/conditional_gaussian.hpp lines 57-59). -/
def ConditionalGaussian.getTruth (c : ConditionalGaussian m) (indices : List Nat) : Outcome DynMarginal := do
  let idx ← columnIndices m indices
  pure ⟨idx.length, c.truth.select idx.get⟩

/-- `get_gp_ransac_fitter` (models/ransac_gp.hpp lines 20-28). -/
noncomputable def gpRansacFitter [DecidableEq K] (c : ConditionalGaussian m) (ldlt : LdltRoutine)
    (indexer : SMap K (List Nat)) (groups : List K) : Outcome (ConditionalFit m) := do
  let indices ← indicesFromGroups indexer groups
  c.fit ldlt indices

/-- `get_gp_ransac_is_valid_candidate` (ransac_gp.hpp lines 30-41). -/
def gpRansacIsValidCandidate [DecidableEq K] (c : ConditionalGaussian m) (indexer : SMap K (List Nat))
    (metric : DynJoint → DynMarginal → Outcome Bool) (groups : List K) : Outcome Bool := do
  let indices ← indicesFromGroups indexer groups
  let prior ← c.getPrior indices
  let truth ← c.getTruth indices
  metric prior truth

/-- `get_gp_ransac_inlier_metric` (ransac_gp.hpp lines 43-54). -/
noncomputable def gpRansacInlierMetric [DecidableEq K] (c : ConditionalGaussian m) (indexer : SMap K (List Nat))
    (metric : DynJoint → DynMarginal → Outcome Dbl) (group : K) (fit : ConditionalFit m) : Outcome Dbl := do
  let indices ← indexer.at? group
  let pred ← c.predictJoint indices fit
  let truth ← c.getTruth indices
  metric pred truth

/-- `get_gp_ransac_consensus_metric` (ransac_gp.hpp lines 56-67). -/
def gpRansacConsensusMetric [DecidableEq K] (c : ConditionalGaussian m) (indexer : SMap K (List Nat))
    (metric : DynJoint → DynMarginal → Outcome Dbl) (groups : List K) : Outcome Dbl := do
  let indices ← indicesFromGroups indexer groups
  let prior ← c.getPrior indices
  let truth ← c.getTruth indices
  metric prior truth

/-- `DifferentialEntropyConsensusMetric` (ransac_gp.hpp lines 69-74). -/
noncomputable def differentialEntropyMetric (ldlt : LdltRoutine) (prior : DynJoint) (_truth : DynMarginal) : Outcome Dbl :=
  pure (.fin (differentialEntropy (ldlt prior.dim prior.dist.covariance)))

/-- `FeatureCountConsensusMetric` (ransac_gp.hpp lines 76-82). -/
noncomputable def featureCountMetric (_prior : DynJoint) (truth : DynMarginal) : Outcome Dbl :=
  pure (.fin (-1 * (truth.dim : ℝ)))

/-- `chi_squared_cdf(prediction, truth)` (evaluation/prediction_metrics.hpp lines 136-141); Eigen checks the sizes of
the operands only in debug builds. -/
noncomputable def chiSquaredJoint (b : Build) (llt : (d : Nat) → Llt d) (pred : DynJoint) (truth : DynMarginal) :
    Outcome Dbl :=
  if h : truth.dim = pred.dim then
    chiSquaredCdfVector b (llt pred.dim)
      (fun i => pred.dist.mean i - truth.dist.mean (i.cast h.symm))
      (pred.dist.covariance + diagonal fun i => truth.dist.variance (i.cast h.symm))
  else .error (if b = .debug then .assertFail else .ub)

/-- `ChiSquaredConsensusMetric` (ransac_gp.hpp lines 84-89). -/
noncomputable def chiSquaredConsensusMetric (b : Build) (llt : (d : Nat) → Llt d) (prior : DynJoint)
    (truth : DynMarginal) : Outcome Dbl := chiSquaredJoint b llt prior truth

/-- `DEFAULT_CHI_SQUARED_THRESHOLD` (ransac_gp.hpp line 18). -/
noncomputable def defaultChiSquaredThreshold : Dbl := .fin 0.999

/-- `ChiSquaredIsValidCandidateMetric` (ransac_gp.hpp lines 91-106). -/
noncomputable def chiSquaredIsValidCandidate (b : Build) (llt : (d : Nat) → Llt d) (threshold : Dbl) (prior : DynJoint)
    (truth : DynMarginal) : Outcome Bool := do
  let probability ← chiSquaredJoint b llt prior truth
  pure (decide (probability ≤ threshold))

/-- `AlwaysAcceptCandidateMetric` (ransac_gp.hpp lines 108-113). -/
def alwaysAcceptCandidate (_prior : DynJoint) (_truth : DynMarginal) : Outcome Bool := pure true

/-- The functions for a prior and truth of the same size (ransac_gp.hpp lines 127-145). -/
noncomputable def gpRansacCalls [DecidableEq K] (ldlt : LdltRoutine) (c : ConditionalGaussian m)
    (indexer : SMap K (List Nat)) (inlier consensus : DynJoint → DynMarginal → Outcome Dbl)
    (isValid : DynJoint → DynMarginal → Outcome Bool) : RansacCalls K (ConditionalFit m) where
  fitter := gpRansacFitter c ldlt indexer
  inlierMetric := gpRansacInlierMetric c indexer inlier
  consensusMetric := gpRansacConsensusMetric c indexer consensus
  isValidCandidate := gpRansacIsValidCandidate c indexer isValid

/-- `get_gp_ransac_functions` (ransac_gp.hpp lines 115-145).  Without the assertion a truth of another size makes the
later subsets read outside one of the two. -/
noncomputable def getGpRansacFunctions [DecidableEq K] (b : Build) (ldlt : LdltRoutine) (prior : DynJoint)
    (truth : DynMarginal) (indexer : SMap K (List Nat)) (inlier consensus : DynJoint → DynMarginal → Outcome Dbl)
    (isValid : DynJoint → DynMarginal → Outcome Bool) : Outcome (RansacCalls K (ConditionalFit prior.dim)) := do
  albatrossAssert b (prior.dim == truth.dim)
  if h : truth.dim = prior.dim then
    let c : ConditionalGaussian prior.dim :=
      ⟨prior.dist, ⟨fun i => truth.dist.mean (i.cast h.symm), fun i => truth.dist.variance (i.cast h.symm)⟩⟩
    pure (gpRansacCalls ldlt c indexer inlier consensus isValid)
  else .error .ub

/-- `GaussianProcessRansacStrategy::operator()` and `get_indexer` (ransac_gp.hpp lines 147-180): the functions for the
prior of the model at the features, grouped by `grouper`. -/
noncomputable def gpRansacStrategy {X : Type} [LinearOrder K] (ldlt : LdltRoutine) (g : Gp X) (features : List X)
    (targets : Marginal (Fin features.length)) (grouper : X → K)
    (inlier consensus : DynJoint → DynMarginal → Outcome Dbl) (isValid : DynJoint → DynMarginal → Outcome Bool) :
    RansacCalls K (ConditionalFit features.length) :=
  gpRansacCalls ldlt ⟨g.prior features.get, targets⟩ (buildIndexer grouper features) inlier consensus isValid

/-- `get_generic_ransac_functions` (models/ransac.hpp lines 278-320).  `fit` is `model.fit`, `predict` the prediction
of a fit, `inlier` the prediction metric and `consensus` the model metric (with the model already given).  The
constructor's default accepts every candidate (ransac.hpp lines 17-21, 40-44). -/
def genericRansacCalls {F R Fit P : Type} [DecidableEq K] (b : Build) (fit : Dataset F R → Fit)
    (predict : Fit → List F → P) (dataset : Dataset F R) (indexer : SMap K (List Nat))
    (inlier : P → List R → List R → Outcome Dbl) (consensus : Dataset F R → Outcome Dbl) : RansacCalls K Fit where
  fitter groups := do
    let inds ← indicesFromGroups indexer groups
    let d ← subsetDataset b dataset inds
    pure (fit d)
  inlierMetric group f := do
    let inds ← indexer.at? group
    let features ← subset b dataset.features inds
    let targetMean ← subset b dataset.mean inds
    let targetVariance ← subset b dataset.variance inds
    inlier (predict f features) targetMean targetVariance
  consensusMetric groups := do
    let inds ← indicesFromGroups indexer groups
    let d ← subsetDataset b dataset inds
    consensus d
  isValidCandidate _ := pure true

end Albatross
