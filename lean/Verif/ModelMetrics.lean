import Verif.Folds
import Verif.HeldOut
import Verif.Metrics

/-! # Model of the scores of evaluation/cross_validation.hpp and of evaluation/model_metrics.hpp

A model is given by what fitting it to a dataset and predicting some features gives.  Models with a specialised cross
validation, such as Gaussian processes, do not use this for datasets: see `CrossValidation.lean`. -/

namespace Albatross

open Matrix

variable {F R K S P : Type}

/-- `cross_validated_scores` (evaluation/cross_validation_utils.hpp lines 104-118); `size` is the number of predicted
values. -/
def crossValidatedScores [DecidableEq K] (b : Build) (size : P → Nat) (metric : P → List R × List R → Outcome S)
    (folds : SMap K (Fold F R)) (preds : SMap K P) : Outcome (List S) :=
  folds.mapM fun kf => do
    let p ← preds.at? kf.1
    albatrossAssert b (decide (kf.2.test.features.length = size p))
    metric p (kf.2.test.mean, kf.2.test.variance)

/-- `predict_fold` and `Prediction<CrossValidation>::predictions` (evaluation/cross_validation.hpp lines 18-22,
38-45). -/
def crossValidatedPredictions [LT K] [DecidableLT K] [DecidableEq K] (b : Build)
    (fitPredict : Dataset F R → List F → P) (d : Dataset F R) (indexer : SMap K (List Nat)) : Outcome (SMap K P) :=
  groupsOf (fun is => do
    let f ← createFold b d is
    pure (fitPredict f.train f.test.features)) indexer

/-- `CrossValidation::scores(metric, dataset, indexer)` (evaluation/cross_validation.hpp lines 306-316). -/
def cvScores [LT K] [DecidableLT K] [DecidableEq K] (b : Build) (fitPredict : Dataset F R → List F → P)
    (size : P → Nat) (metric : P → List R × List R → Outcome S) (d : Dataset F R) (indexer : SMap K (List Nat)) :
    Outcome (List S) := do
  let folds ← foldsFromGroupIndexer b d indexer
  let predictions ← crossValidatedPredictions b fitPredict d indexer
  crossValidatedScores b size metric folds predictions

/-- `CrossValidation::scores(metric, folds)` (evaluation/cross_validation.hpp lines 297-304). -/
def cvScoresFolds [LT K] [DecidableLT K] [DecidableEq K] (b : Build) (fitPredict : Dataset F R → List F → P)
    (size : P → Nat) (metric : P → List R × List R → Outcome S) (folds : SMap K (Fold F R)) : Outcome (List S) :=
  let preds : SMap K P :=
    folds.foldl (fun out kf => out.emplace kf.1 (fitPredict kf.2.train kf.2.test.features)) []
  crossValidatedScores b size metric folds preds

/-- `negative_log_likelihood(joint, truth)` (evaluation/prediction_metrics.hpp lines 112-119), with Eigen's check of
the sizes. -/
noncomputable def nllJoint (b : Build) (ldlt : LdltRoutine) (prediction : DynJoint) (truth : List ℝ × List ℝ) :
    Outcome Dbl := do
  eigenAssert b (decide (truth.1.length = prediction.dim))
  eigenAssert b (decide (truth.2.length = prediction.dim))
  pure (.fin (nllDense (ldlt prediction.dim) (fun i => prediction.dist.mean i - truth.1.getD i 0)
    (prediction.dist.covariance + diagonal fun i : Fin prediction.dim => truth.2.getD i 0)))

/-- `negative_log_likelihood(marginal, truth)` (evaluation/prediction_metrics.hpp lines 121-128). -/
noncomputable def nllMarginal (b : Build) (prediction : List ℝ × List ℝ) (truth : List ℝ × List ℝ) : Outcome Dbl := do
  let mean ← vecSub b prediction.1 truth.1
  eigenAssert b (decide (prediction.2.length = truth.2.length))
  let variance := List.zipWith (· + ·) prediction.2 truth.2
  let r ← nllDiagonal b mean variance
  pure (.fin r)

/-- `LeaveOneOutLikelihood::_call_impl` (evaluation/model_metrics.hpp lines 59-72); `priorLL` is
`model.prior_log_likelihood()`. -/
noncomputable def leaveOneOutLikelihood (b : Build) (fitPredict : Dataset F ℝ → List F → P) (size : P → Nat)
    (nll : P → List ℝ × List ℝ → Outcome Dbl) (priorLL : Dbl) (d : Dataset F ℝ) : Outcome Dbl := do
  let scores ← cvScores b fitPredict size nll d (buildLeaveOneOut d.features)
  let dataNll := dblSum scores
  pure (dataNll - priorLL)

/-- `LeaveOneGroupOutLikelihood::_call_impl` (evaluation/model_metrics.hpp lines 74-93). -/
noncomputable def leaveOneGroupOutLikelihood [LT K] [DecidableLT K] [DecidableEq K] (b : Build)
    (fitPredict : Dataset F ℝ → List F → P) (size : P → Nat) (nll : P → List ℝ × List ℝ → Outcome Dbl) (priorLL : Dbl)
    (grouper : F → K) (d : Dataset F ℝ) : Outcome Dbl := do
  let scores ← cvScores b fitPredict size nll d (buildIndexer grouper d.features)
  let dataNll := dblSum scores
  pure (dataNll - priorLL)

/-- `LeaveOneOutRMSE::_call_impl` (evaluation/model_metrics.hpp lines 95-106). -/
noncomputable def leaveOneOutRmse (b : Build) (fitPredict : Dataset F ℝ → List F → List ℝ) (d : Dataset F ℝ) :
    Outcome Dbl := do
  let scores ← cvScores b fitPredict List.length (fun p t => rootMeanSquareError b p t.1) d
    (buildLeaveOneOut d.features)
  pure (dblMean scores)

end Albatross
