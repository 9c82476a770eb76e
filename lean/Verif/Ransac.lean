import Verif.Random
import Verif.Dbl

/-! # Model of models/ransac.hpp

`GroupKey` is a type `K` with the ordering used by `std::map`.  The user supplied functions are
arbitrary pure functions that return (a throwing or stateful callback is not modelled).  The state of
the random engine is an arbitrary type `G`; `sample` is `random_without_replacement(groups,
random_sample_size, gen)`. -/

namespace Albatross

variable {K Fit G : Type}

/-- `RansacFunctions` (models/ransac.hpp lines 23-50). -/
structure RansacFns (K Fit : Type) where
  fitter : List K → Fit
  inlierMetric : K → Fit → Dbl
  consensusMetric : List K → Dbl
  isValidCandidate : List K → Bool

/-- `ransac_return_code_t` (ransac.hpp lines 59-66). -/
inductive RansacCode
  | invalid
  | success
  | noConsensus
  | invalidArguments
  | exceededMaxFailedCandidates
  | failure
  deriving DecidableEq

/-- `RansacIteration` (ransac.hpp lines 92-98); the default values are those of its constructor. -/
structure RansacIteration (K : Type) where
  candidates : List K := []
  inliers : SMap K Dbl := []
  outliers : SMap K Dbl := []
  consensusMetricValue : Dbl := .nan

/-- `RansacIteration::consensus` (ransac.hpp lines 100-106). -/
def RansacIteration.consensus (it : RansacIteration K) : List K :=
  it.inliers.foldl (fun output pair => output ++ [pair.1]) it.candidates

/-- `RansacOutput` (ransac.hpp lines 118-125). -/
structure RansacOutput (K : Type) where
  returnCode : RansacCode := .invalid
  best : RansacIteration K := {}
  iterations : List (RansacIteration K) := []

/-- `contains_group` (ransac.hpp lines 53-57): `std::find(...) != end()`. -/
def containsGroup [DecidableEq K] (vect : List K) (group : K) : Bool := vect.any fun x => decide (x = group)

/-- The body of the loop over groups (ransac.hpp lines 221-232). -/
noncomputable def classifyGroup [LT K] [DecidableLT K] [DecidableEq K] (f : RansacFns K Fit)
    (inlierThreshold : Dbl) (fit : Fit) (it : RansacIteration K) (g : K) : RansacIteration K :=
  if !containsGroup it.candidates g then
    let metricValue := f.inlierMetric g fit
    if metricValue ≤ inlierThreshold then
      { it with inliers := it.inliers.emplace g metricValue }
    else
      { it with outliers := it.outliers.emplace g metricValue }
  else it

/-- The `while` loop (ransac.hpp lines 191-249) and the code after it (lines 251-257). -/
noncomputable def ransacLoop [LT K] [DecidableLT K] [DecidableEq K] (f : RansacFns K Fit)
    (groups : List K) (sample : G → Outcome (List K × G)) (inlierThreshold : Dbl)
    (minConsensusSize maxIterations maxFailedCandidates : Nat) (i failedCandidates : Nat) (gen : G)
    (best : RansacIteration K) (iterations : List (RansacIteration K)) : Outcome (RansacOutput K) :=
  if i < maxIterations then
    match sample gen with
    | .error e => .error e
    | .ok (candidates, gen) =>
      if !f.isValidCandidate candidates then
        let failedCandidates' := failedCandidates + 1
        if failedCandidates' ≥ maxFailedCandidates then
          .ok ⟨.exceededMaxFailedCandidates, best, iterations ++ [{ candidates := candidates }]⟩
        else
          ransacLoop f groups sample inlierThreshold minConsensusSize maxIterations
            maxFailedCandidates i failedCandidates' gen best (iterations ++ [{ candidates := candidates }])
      else
        let fit := f.fitter candidates
        let iteration := groups.foldl (classifyGroup f inlierThreshold fit)
          ({ candidates := candidates } : RansacIteration K)
        let consensus := iteration.consensus
        if consensus.length ≥ minConsensusSize then
          let iteration := { iteration with consensusMetricValue := f.consensusMetric consensus }
          let bestSoFar := best.consensusMetricValue.isNan ||
            decide (iteration.consensusMetricValue < best.consensusMetricValue)
          let best := if bestSoFar then iteration else best
          ransacLoop f groups sample inlierThreshold minConsensusSize maxIterations
            maxFailedCandidates (i + 1) failedCandidates gen best (iterations ++ [iteration])
        else
          ransacLoop f groups sample inlierThreshold minConsensusSize maxIterations
            maxFailedCandidates (i + 1) failedCandidates gen best (iterations ++ [iteration])
  else if best.consensus.length ≠ 0 then .ok ⟨.success, best, iterations⟩
  else .ok ⟨.noConsensus, best, iterations⟩
termination_by (maxIterations - i) + (maxFailedCandidates - failedCandidates)

/-- `ransac` (ransac.hpp lines 172-258). -/
noncomputable def ransacWith [LT K] [DecidableLT K] [DecidableEq K] (f : RansacFns K Fit)
    (groups : List K) (sample : G → Outcome (List K × G)) (gen : G) (inlierThreshold : Dbl)
    (randomSampleSize minConsensusSize maxIterations maxFailedCandidates : Nat) :
    Outcome (RansacOutput K) :=
  if minConsensusSize ≥ groups.length ∨ minConsensusSize < randomSampleSize ∨
      randomSampleSize ≥ groups.length ∨ randomSampleSize ≤ 0 ∨ maxIterations ≤ 0 then
    .ok ⟨.invalidArguments, {}, []⟩
  else
    ransacLoop f groups sample inlierThreshold minConsensusSize maxIterations maxFailedCandidates
      0 0 gen {} []

/-- `random_without_replacement` together with the engine outputs it leaves (utils/random_utils.hpp
lines 60-69). -/
def randomWithoutReplacementRest {α : Type} (M : Nat) (b : Build) (u : UniformInt) (xs : List α)
    (n : Nat) (raw : List Nat) : Outcome (List α × List Nat) := do
  let r ← randintWithoutReplacement M b u n 0 (sizeSub M xs.length 1) raw
  let out ← r.1.mapM fun i => vecGet xs i
  pure (out, r.2)

/-- `ransac` (models/ransac.hpp, the lines of `ransacWith`) when the engine delivers the outputs `raw`; needing more of
them is `diverges`. -/
noncomputable def ransac [LT K] [DecidableLT K] [DecidableEq K] (M : Nat) (b : Build) (u : UniformInt)
    (f : RansacFns K Fit) (groups : List K) (raw : List Nat) (inlierThreshold : Dbl)
    (randomSampleSize minConsensusSize maxIterations maxFailedCandidates : Nat) :
    Outcome (RansacOutput K) :=
  ransacWith f groups (randomWithoutReplacementRest M b u groups randomSampleSize) raw inlierThreshold
    randomSampleSize minConsensusSize maxIterations maxFailedCandidates

/-- `ransac(functions, indexer, config)` (ransac.hpp lines 270-276). -/
noncomputable def ransacIndexer [LT K] [DecidableLT K] [DecidableEq K] (M : Nat) (b : Build)
    (u : UniformInt) (f : RansacFns K Fit) (indexer : SMap K (List Nat)) (raw : List Nat)
    (inlierThreshold : Dbl)
    (randomSampleSize minConsensusSize maxIterations maxFailedCandidates : Nat) :
    Outcome (RansacOutput K) :=
  ransac M b u f indexer.keys raw inlierThreshold randomSampleSize minConsensusSize maxIterations
    maxFailedCandidates

/-! ## Comparison -/

/-- `==` of doubles: false as soon as one side is NaN. -/
def Dbl.ieeeEq (a b : Dbl) : Prop := a = b ∧ a ≠ .nan

/-- `std::map::operator==` with double values. -/
def mapIeeeEq (a b : SMap K Dbl) : Prop :=
  List.Forall₂ (fun x y => x.1 = y.1 ∧ Dbl.ieeeEq x.2 y.2) a b

/-- `RansacIteration::operator==` (ransac.hpp lines 108-115). -/
def RansacIteration.eq (a b : RansacIteration K) : Prop :=
  (a.candidates = b.candidates ∧ mapIeeeEq a.inliers b.inliers ∧ mapIeeeEq a.outliers b.outliers) ∧
    ((a.consensusMetricValue.isNan = true ∧ b.consensusMetricValue.isNan = true) ∨
      Dbl.ieeeEq a.consensusMetricValue b.consensusMetricValue)

/-- `RansacOutput::operator==` (ransac.hpp lines 127-130): compares `best` with itself. -/
def RansacOutput.eq (a b : RansacOutput K) : Prop :=
  a.returnCode = b.returnCode ∧ RansacIteration.eq a.best a.best ∧
    List.Forall₂ RansacIteration.eq a.iterations b.iterations

/-! ## Fitting the model on the consensus -/

/-- `Fit<RansacFit<...>>` (ransac.hpp lines 383-421): `none` is `EmptyFit`. -/
structure RansacFit (K SubFit : Type) where
  fitModel : Option SubFit
  output : RansacOutput K

/-- `Ransac::_fit_impl` (ransac.hpp lines 463-489) once `ransac` has returned `output`. -/
def ransacFitFrom {F R SubFit : Type} [DecidableEq K] (b : Build) (subFit : Dataset F R → SubFit)
    (dataset : Dataset F R) (indexer : SMap K (List Nat)) (output : RansacOutput K) :
    Outcome (RansacFit K SubFit) :=
  if output.returnCode = .success then do
    let goodInds ← indicesFromGroups indexer output.best.consensus
    let consensusSet ← subsetDataset b dataset goodInds
    pure ⟨some (subFit consensusSet), output⟩
  else .ok ⟨none, output⟩

end Albatross
