import Verif.Indexing

/-! # Model of `evaluation/folds.hpp` and the stitching functions of
`evaluation/cross_validation_utils.hpp`, `evaluation/cross_validation.hpp` -/

namespace Albatross

variable {F R K : Type}

/-- `RegressionFold` (evaluation/folds.hpp lines 21-33). -/
structure Fold (F R : Type) where
  train : Dataset F R
  test : Dataset F R
  testIndices : List Nat
  deriving DecidableEq

/-- `subset(MarginalDistribution, indices)` (core/distribution.hpp lines 137-142). -/
def subsetMarginal (b : Build) (mean variance : List R) (indices : List Nat) :
    Outcome (List R × List R) := do
  let ms ← subset b mean indices
  let vs ← subset b variance indices
  albatrossAssert b (decide (ms.length = vs.length))
  pure (ms, vs)

/-- `create_fold` (evaluation/folds.hpp lines 35-58). -/
def createFold (b : Build) (d : Dataset F R) (testIndices : List Nat) : Outcome (Fold F R) := do
  let trainIndices := indicesComplement testIndices d.features.length
  let trainFeatures ← subset b d.features trainIndices
  let trainTargets ← subsetMarginal b d.mean d.variance trainIndices
  let testFeatures ← subset b d.features testIndices
  let testTargets ← subsetMarginal b d.mean d.variance testIndices
  albatrossAssert b (decide (trainFeatures.length = trainTargets.1.length))
  albatrossAssert b (decide (testFeatures.length = testTargets.1.length))
  albatrossAssert b
    (decide (testTargets.1.length + trainTargets.1.length = d.features.length))
  let train ← mkDataset b trainFeatures trainTargets.1 trainTargets.2
  let test ← mkDataset b testFeatures testTargets.1 testTargets.2
  pure { train := train, test := test, testIndices := testIndices }

/-- `folds_from_group_indexer` (evaluation/folds.hpp lines 66-77); `Grouped::apply` emplaces the
results in key order. -/
def foldsFromGroupIndexer [LT K] [DecidableLT K] [DecidableEq K] (b : Build) (d : Dataset F R)
    (groups : SMap K (List Nat)) : Outcome (SMap K (Fold F R)) :=
  groupsOf (createFold b d) groups

/-- `group_indexer_from_folds` (evaluation/folds.hpp lines 82-91). -/
def groupIndexerFromFolds [LT K] [DecidableLT K] [DecidableEq K] (b : Build)
    (folds : SMap K (Fold F R)) : Outcome (SMap K (List Nat)) :=
  folds.foldlM (fun out f => do
    albatrossAssert b (!SMap.contains out f.1)
    pure (out.put f.1 f.2.testIndices)) []

/-- `folds_from_grouper` (evaluation/folds.hpp lines 93-102). -/
def foldsFromGrouper [LT K] [DecidableLT K] [DecidableEq K] (b : Build) (d : Dataset F R)
    (g : F → K) : Outcome (SMap K (Fold F R)) :=
  groupsOf (createFold b d) (buildIndexer g d.features)

/-- `unique_indices` (evaluation/folds.hpp lines 108-116). -/
def uniqueIndices (indexer : SMap K (List Nat)) : List Nat :=
  indexer.foldl (fun s kv => kv.2.foldl (fun s i => setInsert i s) s) []

/-- `dataset_size_from_indexer` (evaluation/folds.hpp lines 118-142).  The minimum and maximum of a
`std::set` are its first and last elements; dereferencing the `end()` that `min_element` returns for
an empty set is undefined behaviour. -/
def datasetSizeFromIndexer (b : Build) (indexer : SMap K (List Nat)) : Outcome Nat := do
  let u := uniqueIndices indexer
  let count := indexer.foldl (fun c kv => c + kv.2.length) 0
  albatrossAssert b (decide (count = u.length))
  match u.head?, u.getLast? with
  | some lowest, some n => do
    albatrossAssert b (decide (lowest = 0))
    albatrossAssert b (decide (u.length = n + 1))
    pure (n + 1)
  | _, _ => .error .ub

/-- `concatenate_mean_predictions` (evaluation/cross_validation_utils.hpp lines 58-78).  `uninit` is
the content of the freshly allocated, uninitialised vector. -/
def concatenateMeanPredictions [DecidableEq K] (b : Build) (uninit : Nat → R)
    (indexer : SMap K (List Nat)) (means : SMap K (List R)) : Outcome (List R) := do
  albatrossAssert b (decide (indexer.length = means.length))
  let n ← datasetSizeFromIndexer b indexer
  let r ← indexer.foldlM (fun (acc : List R × Nat) kv => do
    let m ← means.at? kv.1
    albatrossAssert b (decide (m.length = kv.2.length))
    let p ← setSubset b m kv.2 acc.1
    pure (p, acc.2 + kv.2.length)) ((List.range n).map uninit, 0)
  albatrossAssert b (decide (r.2 = n))
  pure r.1

/-- `concatenate_marginal_predictions` (evaluation/cross_validation_utils.hpp lines 80-102). -/
def concatenateMarginalPredictions [DecidableEq K] (b : Build) (uninit : Nat → R)
    (indexer : SMap K (List Nat)) (preds : SMap K (List R × List R)) :
    Outcome (List R × List R) := do
  albatrossAssert b (decide (indexer.length = preds.length))
  let n ← datasetSizeFromIndexer b indexer
  let r ← indexer.foldlM (fun (acc : (List R × List R) × Nat) kv => do
    let p ← preds.at? kv.1
    albatrossAssert b (decide (p.1.length = kv.2.length))
    let m ← setSubset b p.1 kv.2 acc.1.1
    let v ← setSubset b p.2 kv.2 acc.1.2
    pure ((m, v), acc.2 + kv.2.length))
      (((List.range n).map uninit, (List.range n).map uninit), 0)
  albatrossAssert b (decide (r.2 = n))
  albatrossAssert b (decide (r.1.1.length = r.1.2.length))
  pure r.1

/-- `predict_fold` and `Prediction<CrossValidation>::predictions` (evaluation/cross_validation.hpp
lines 18-22, 38-45) followed by `get_means`, for a model that predicts the mean
`fitPredict train features`. -/
def crossValidatedMeans [LT K] [DecidableLT K] [DecidableEq K] (b : Build)
    (fitPredict : Dataset F R → List F → List R) (d : Dataset F R) (indexer : SMap K (List Nat)) :
    Outcome (SMap K (List R)) :=
  groupsOf (fun is => do
    let f ← createFold b d is
    pure (fitPredict f.train f.test.features)) indexer

/-- `Prediction<CrossValidation>::mean` (evaluation/cross_validation.hpp lines 82-92). -/
def crossValidatedMean [LT K] [DecidableLT K] [DecidableEq K] (b : Build) (uninit : Nat → R)
    (fitPredict : Dataset F R → List F → List R) (d : Dataset F R) (indexer : SMap K (List Nat)) :
    Outcome (List R) := do
  let ms ← crossValidatedMeans b fitPredict d indexer
  concatenateMeanPredictions b uninit indexer ms

end Albatross
