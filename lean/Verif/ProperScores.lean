import Verif.ModelMetrics

/-! # Model of the scores of evaluation/prediction_metrics.hpp for a truth measured with some uncertainty

`noise` is the diagonal of `truth.covariance`, whose size Eigen checks when it adds it. -/

namespace Albatross

open Matrix

/-- `combined_prediction` (evaluation/prediction_metrics.hpp lines 431-432 and 517-518): a copy of the prediction to
whose covariance that of the truth is added. -/
def combinedPrediction {n : Nat} (prediction : Joint (Fin n)) (noise : Fin n → ℝ) : Joint (Fin n) :=
  ⟨prediction.mean, prediction.covariance + diagonal noise⟩

/-- `variogram_score(prediction, truth, weights, order)` for a `MarginalDistribution`
(evaluation/prediction_metrics.hpp lines 513-520). -/
noncomputable def variogramScoreMeasured {n : Nat} (b : Build) (prediction : Joint (Fin n)) (truth noise : Fin n → ℝ)
    (weights : Option (Matrix (Fin n) (Fin n) ℝ)) (order : VariogramOrder) : Outcome Dbl :=
  variogramScore b (combinedPrediction prediction noise) truth weights order

/-- `energy_score(prediction, truth, weights, seed, num_samples)` for a `MarginalDistribution`
(evaluation/prediction_metrics.hpp lines 426-435); `ldlt` is the decomposition routine with its success, and `z` and
`zB` are the draws of the generator. -/
noncomputable def energyScoreMeasured {n : Nat} (b : Build)
    (ldlt : Matrix (Fin n) (Fin n) ℝ → Bool × PivotedLdlt n) (prediction : Joint (Fin n)) (truth noise : Fin n → ℝ)
    (weights : Option (Fin n → ℝ)) (numSamples : Nat) (z zB : Matrix (Fin n) (Fin (kGenerate numSamples)) ℝ) :
    Outcome Dbl :=
  let combined := combinedPrediction prediction noise
  let d := ldlt combined.covariance
  energyScore b d.1 d.2 combined.mean truth weights numSamples z zB

end Albatross
