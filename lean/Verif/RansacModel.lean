import Verif.Ransac

/-! # Model of the RANSAC model and of the entry points of RANSAC (models/ransac.hpp)

A strategy is its two members: the indexer it builds and the functions it derives from a model and a dataset.  As in
`Ransac`, those functions return. -/

namespace Albatross

/-- `to_string(ransac_return_code_t)` (models/ransac.hpp lines 68-86) of the enumerator with value `code`. -/
def ransacCodeName (b : Build) (code : Nat) : Outcome String :=
  match code with
  | 0 => pure "invalid"
  | 1 => pure "success"
  | 2 => pure "no_consensus"
  | 3 => pure "invalid_arguments"
  | 4 => pure "exceeded_max_failed_candidates"
  | 5 => pure "failure"
  | _ => do
    albatrossAssert b false
    pure "unknown return code"

/-- The values of `ransac_return_code_t` (ransac.hpp lines 59-66). -/
def RansacCode.value : RansacCode → Nat
  | .invalid => 0
  | .success => 1
  | .noConsensus => 2
  | .invalidArguments => 3
  | .exceededMaxFailedCandidates => 4
  | .failure => 5

/-- `ransac_success` (ransac.hpp lines 88-90). -/
def ransacSuccess (code : RansacCode) : Bool := decide (code = .success)

/-- `RansacConfig` (ransac.hpp lines 133-152); the default values are those of the default constructor. -/
structure RansacConfig where
  inlierThreshold : Dbl := .nan
  randomSampleSize : Nat := 0
  minConsensusSize : Nat := 0
  maxIterations : Nat := 0
  maxFailedCandidates : Nat := 0

/-- `ransac(functions, indexer, threshold, sample size, consensus size, iterations)` (ransac.hpp lines 260-268). -/
noncomputable def ransacFree {K Fit : Type} [LT K] [DecidableLT K] [DecidableEq K] (M : Nat) (b : Build) (u : UniformInt)
    (f : RansacFns K Fit) (indexer : SMap K (List Nat)) (raw : List Nat) (inlierThreshold : Dbl)
    (randomSampleSize minConsensusSize maxIterations : Nat) : Outcome (RansacOutput K) :=
  ransac M b u f indexer.keys raw inlierThreshold randomSampleSize minConsensusSize maxIterations maxIterations

/-- A strategy (ransac.hpp lines 327-360, ransac_gp.hpp lines 147-180). -/
structure RansacStrategy (Sub F R K Fit : Type) where
  getIndexer : Dataset F R → SMap K (List Nat)
  functions : Sub → Dataset F R → RansacFns K Fit

/-- `Ransac` (ransac.hpp lines 427-504). -/
structure RansacModel (Sub F R K Fit : Type) where
  subModel : Sub
  strategy : RansacStrategy Sub F R K Fit
  config : RansacConfig

namespace RansacModel

variable {Sub F R K Fit SubFit P : Type}

/-- The constructor without a number of failed candidates (ransac.hpp lines 436-441), also
`ModelBase::ransac(strategy, threshold, ...)` (lines 508-516). -/
def ofSizes (sub : Sub) (strategy : RansacStrategy Sub F R K Fit) (inlierThreshold : Dbl)
    (randomSampleSize minConsensusSize maxIterations : Nat) : RansacModel Sub F R K Fit :=
  ⟨sub, strategy, ⟨inlierThreshold, randomSampleSize, minConsensusSize, maxIterations, 0⟩⟩

/-- The constructor with all the numbers (ransac.hpp lines 443-450). -/
def ofAll (sub : Sub) (strategy : RansacStrategy Sub F R K Fit) (inlierThreshold : Dbl)
    (randomSampleSize minConsensusSize maxIterations maxFailedCandidates : Nat) : RansacModel Sub F R K Fit :=
  ⟨sub, strategy, ⟨inlierThreshold, randomSampleSize, minConsensusSize, maxIterations, maxFailedCandidates⟩⟩

/-- `get_name` (ransac.hpp lines 452-455). -/
def name (m : RansacModel Sub F R K Fit) (subName : Sub → String) : String := "ransac[" ++ subName m.subModel ++ "]"

/-- The call of `ransac` in `_fit_impl` (ransac.hpp lines 470-475). -/
noncomputable def search [LT K] [DecidableLT K] [DecidableEq K] (M : Nat) (b : Build) (u : UniformInt)
    (m : RansacModel Sub F R K Fit) (dataset : Dataset F R) (raw : List Nat) : Outcome (RansacOutput K) :=
  ransacIndexer M b u (m.strategy.functions m.subModel dataset) (m.strategy.getIndexer dataset) raw
    m.config.inlierThreshold m.config.randomSampleSize m.config.minConsensusSize m.config.maxIterations
    m.config.maxFailedCandidates

/-- `_fit_impl` (ransac.hpp lines 463-489). -/
noncomputable def fit [LT K] [DecidableLT K] [DecidableEq K] (M : Nat) (b : Build) (u : UniformInt)
    (subFit : Sub → Dataset F R → SubFit) (m : RansacModel Sub F R K Fit) (dataset : Dataset F R) (raw : List Nat) :
    Outcome (RansacFit K SubFit) := do
  let output ← m.search M b u dataset raw
  ransacFitFrom b (subFit m.subModel) dataset (m.strategy.getIndexer dataset) output

end RansacModel

/-- `has_fit_model` (ransac.hpp lines 408-410). -/
def RansacFit.hasFitModel {K SubFit : Type} (f : RansacFit K SubFit) : Bool := f.fitModel.isSome

/-- `get_fit_model_or_assert` (ransac.hpp lines 412-415): the getter of the variant throws on the wrong alternative. -/
def RansacFit.getFitModelOrAssert {K SubFit : Type} (b : Build) (f : RansacFit K SubFit) : Outcome SubFit := do
  albatrossAssert b f.hasFitModel
  match f.fitModel with
  | some m => pure m
  | none => .error .thrown

/-- `_predict_impl` (ransac.hpp lines 490-500). -/
def RansacFit.predict {K SubFit F P : Type} (b : Build) (subPredict : SubFit → List F → P) (f : RansacFit K SubFit)
    (features : List F) : Outcome P := do
  albatrossAssert b f.hasFitModel
  let m ← f.getFitModelOrAssert b
  pure (subPredict m features)

end Albatross
