import Verif.Prediction
import Verif.ModelMetrics

/-! # Model of `Prediction<CrossValidation<...>>` and `CrossValidation` (evaluation/cross_validation.hpp)

A model is what its overloads compute: `_predict_impl` of a fit to a dataset, and
`cross_validated_predictions` (evaluation/traits.hpp lines 19-54); `none` for an overload that does not exist. -/

namespace Albatross

/-- A model as cross validation sees it: features of type `F`, groups with keys of type `K`. -/
structure CvModel (F K : Type) where
  mean : Option (Dataset F ℝ → List F → DynMean)
  marginal : Option (Dataset F ℝ → List F → DynMarginal)
  joint : Option (Dataset F ℝ → List F → DynJoint)
  cvMean : Option (Dataset F ℝ → SMap K (List Nat) → Outcome (SMap K DynMean))
  cvMarginal : Option (Dataset F ℝ → SMap K (List Nat) → Outcome (SMap K DynMarginal))
  cvJoint : Option (Dataset F ℝ → SMap K (List Nat) → Outcome (SMap K DynJoint))

section
variable {F K : Type}

/-- `model.fit(train)`. -/
def CvModel.fitTo (m : CvModel F K) (train : Dataset F ℝ) : PredictImpl F :=
  ⟨m.mean.map (· train), m.marginal.map (· train), m.joint.map (· train)⟩

/-- One of the three kinds of prediction.  `get` is `prediction.get<PredictType>()` (core/prediction.hpp lines
196-200, 211-221), `has` is `has_mean`, `has_marginal` or `has_joint`, `cv` is the specialised overload and `size` the
number of predicted values. -/
structure PredictKind (F K P : Type) where
  get : PredictImpl F → List F → Option P
  has : CvModel F K → Bool
  cv : CvModel F K → Option (Dataset F ℝ → SMap K (List Nat) → Outcome (SMap K P))
  size : P → Nat

/-- `Eigen::VectorXd`; `has_mean` holds if there is any overload of `_predict_impl` (core/traits.hpp). -/
def meanKind : PredictKind F K DynMean where
  get := predictionMean
  has m := m.mean.isSome || m.marginal.isSome || m.joint.isSome
  cv m := m.cvMean
  size := DynMean.dim

/-- `MarginalDistribution`. -/
def marginalKind : PredictKind F K DynMarginal where
  get := predictionMarginal
  has m := m.marginal.isSome || m.joint.isSome
  cv m := m.cvMarginal
  size := DynMarginal.dim

/-- `JointDistribution`. -/
def jointKind : PredictKind F K DynJoint where
  get := predictionJoint
  has m := m.joint.isSome
  cv m := m.cvJoint
  size := DynJoint.dim

variable {P S : Type} [LT K] [DecidableLT K] [DecidableEq K]

/-- `predict_fold` and `Prediction<CrossValidation>::predictions` (evaluation/cross_validation.hpp lines 18-22, 38-45).
A `Prediction` is a fitted model with the features to predict. -/
def CvModel.predictions (b : Build) (m : CvModel F K) (d : Dataset F ℝ) (indexer : SMap K (List Nat)) :
    Outcome (SMap K (PredictImpl F × List F)) :=
  groupsOf (fun is => do
    let f ← createFold b d is
    pure (m.fitTo f.train, f.test.features)) indexer

/-- `get_predict_types` (evaluation/cross_validation_utils.hpp lines 30-41).  A missing overload does not compile; it
does not occur where this is called. -/
def getPredictTypes (k : PredictKind F K P) (preds : SMap K (PredictImpl F × List F)) : Outcome (SMap K P) :=
  preds.foldlM (fun out kp =>
    match k.get kp.2.1 kp.2.2 with
    | some v => .ok (SMap.emplace out kp.1 v)
    | none => .error .ub) []

/-- `means()`, `marginals()`, `joints()` (evaluation/cross_validation.hpp lines 49-82, 107-139, 170-202); `none`: the
function is deleted. -/
def CvModel.grouped (b : Build) (k : PredictKind F K P) (m : CvModel F K) (d : Dataset F ℝ)
    (indexer : SMap K (List Nat)) : Option (Outcome (SMap K P)) :=
  match k.cv m with
  | some f => some (f d indexer)
  | none => if k.has m then some (do
      let ps ← m.predictions b d indexer
      getPredictTypes k ps) else none

/-- `mean()` (evaluation/cross_validation.hpp lines 84-103). -/
def CvModel.meanOf (b : Build) (uninit : Nat → ℝ) (m : CvModel F K) (d : Dataset F ℝ) (indexer : SMap K (List Nat)) :
    Option (Outcome (List ℝ)) :=
  (m.grouped b meanKind d indexer).map fun r => do
    let means ← r
    concatenateMeanPredictions b uninit indexer (means.map fun kv => (kv.1, List.ofFn kv.2.mean))

/-- `marginal()` (evaluation/cross_validation.hpp lines 141-166). -/
def CvModel.marginalOf (b : Build) (uninit : Nat → ℝ) (m : CvModel F K) (d : Dataset F ℝ)
    (indexer : SMap K (List Nat)) : Option (Outcome (List ℝ × List ℝ)) :=
  (m.grouped b marginalKind d indexer).map fun r => do
    let marginals ← r
    concatenateMarginalPredictions b uninit indexer
      (marginals.map fun kv => (kv.1, (List.ofFn kv.2.dist.mean, List.ofFn kv.2.dist.variance)))

/-- `CrossValidation::scores(metric, dataset, indexer)` (evaluation/cross_validation.hpp lines 306-316), with `get` for
grouped predictions (lines 213-242). -/
def CvModel.scores (b : Build) (k : PredictKind F K P) (metric : P → List ℝ × List ℝ → Outcome S) (m : CvModel F K)
    (d : Dataset F ℝ) (indexer : SMap K (List Nat)) : Option (Outcome (List S)) :=
  (m.grouped b k d indexer).map fun r => do
    let folds ← foldsFromGroupIndexer b d indexer
    let preds ← r
    crossValidatedScores b k.size metric folds preds

/-- `metric(prediction, truth)` for a `Prediction` (evaluation/prediction_metrics.hpp lines 47-53). -/
def metricOfPrediction (k : PredictKind F K P) (metric : P → List ℝ × List ℝ → Outcome S)
    (p : PredictImpl F × List F) (truth : List ℝ × List ℝ) : Outcome S :=
  match k.get p.1 p.2 with
  | some v => metric v truth
  | none => .error .ub

/-- `CrossValidation::scores(metric, folds)` (evaluation/cross_validation.hpp lines 280-288, 294-304); the size of a
`Prediction` is the number of its features (core/prediction.hpp line 202). -/
def CvModel.scoresFolds (b : Build) (k : PredictKind F K P) (metric : P → List ℝ × List ℝ → Outcome S)
    (m : CvModel F K) (folds : SMap K (Fold F ℝ)) : Option (Outcome (List S)) :=
  if k.has m then some (cvScoresFolds b (fun tr fs => (m.fitTo tr, fs)) (fun p => p.2.length)
    (metricOfPrediction k metric) folds) else none

/-- `LeaveOneOutLikelihood` of a model (evaluation/model_metrics.hpp lines 59-72). -/
noncomputable def CvModel.looLikelihood (b : Build) {P : Type} (k : PredictKind F Nat P)
    (nll : P → List ℝ × List ℝ → Outcome Dbl)
    (priorLL : Dbl) (m : CvModel F Nat) (d : Dataset F ℝ) : Option (Outcome Dbl) :=
  (m.scores b k nll d (buildLeaveOneOut d.features)).map fun r => do
    let scores ← r
    pure (dblSum scores - priorLL)

end

/-! ## The types of `get` -/

/-- The types `get` can be asked for (evaluation/cross_validation.hpp lines 213-242). -/
inductive CvGetType where
  | mean | meanMap | meanGrouped
  | marginal | marginalMap | marginalGrouped
  | joint | jointMap | jointGrouped
  deriving DecidableEq

/-- The type of the expression returned by the private overload of `get` for a type (lines 213-242); `none`: the
overload returns the deleted `joint()`. -/
def CvGetType.returned : CvGetType → Option CvGetType
  | .mean => some .mean
  | .meanMap => some .meanMap
  | .meanGrouped => some .meanGrouped
  | .marginal => some .marginal
  | .marginalMap => some .marginalMap
  | .marginalGrouped => some .marginalGrouped
  | .joint => none
  | .jointMap => some .jointGrouped
  | .jointGrouped => some .jointMap

/-- Implicit conversions: every type to itself and `std::map` to `Grouped` by its constructor
(indexing/group_by.hpp lines 72-73, 178); there is none from `Grouped` to `std::map`. -/
def CvGetType.converts : CvGetType → CvGetType → Bool
  | .meanMap, .meanGrouped => true
  | .marginalMap, .marginalGrouped => true
  | .jointMap, .jointGrouped => true
  | s, t => decide (s = t)

/-- Whether `get<T>()` (evaluation/cross_validation.hpp lines 204-208) compiles for a model that can make every kind of
prediction. -/
def CvGetType.compiles (t : CvGetType) : Bool :=
  match t.returned with
  | some s => s.converts t
  | none => false

/-! ## Gaussian processes -/

/-- The targets of a dataset as a distribution. -/
noncomputable def datasetTargets {X : Type} (d : Dataset X ℝ) : Marginal (Fin d.features.length) :=
  ⟨fun i => d.mean.getD i 0, fun i => d.variance.getD i 0⟩

/-- `GaussianProcessRegression::fit` (core/model.hpp, models/gp.hpp lines 281-294). -/
noncomputable def gpFitDataset {X : Type} (ldlt : LdltRoutine) (g : Gp X) (d : Dataset X ℝ) :
    GpFit X (Fin d.features.length) :=
  g.fit (ldlt d.features.length) (fun i => d.features.get i) (datasetTargets d)

/-- `GaussianProcessRegression` (models/gp.hpp lines 487-505): the predictions of the base class and the specialised
`cross_validated_predictions`. -/
noncomputable def gpCvModel {X K : Type} [LinearOrder K] (b : Build) (uninit : Nat → ℝ) (ldlt : LdltRoutine)
    (g : Gp X) : CvModel X K where
  mean := some fun d xs => ⟨xs.length, g.predictMean (gpFitDataset ldlt g d) fun i => xs.get i⟩
  marginal := some fun d xs => ⟨xs.length, g.predictMarginal (gpFitDataset ldlt g d) fun i => xs.get i⟩
  joint := some fun d xs => ⟨xs.length, g.predictJoint (gpFitDataset ldlt g d) fun i => xs.get i⟩
  cvMean := some fun d ix => gpCrossValidatedPredictions (heldOutMean ldlt) ldlt g (fun i => d.features.get i)
    (datasetTargets d) ix
  cvMarginal := some fun d ix => gpCrossValidatedPredictions (heldOutMarginal b uninit ldlt) ldlt g
    (fun i => d.features.get i) (datasetTargets d) ix
  cvJoint := some fun d ix => gpCrossValidatedPredictions heldOutJoint ldlt g (fun i => d.features.get i)
    (datasetTargets d) ix

end Albatross
