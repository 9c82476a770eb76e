import Verif.Gp
import Verif.Folds

/-! # Model of the closed-form held-out predictions

`leave_one_out_conditional`, `held_out_prediction(s)`, `leave_one_group_out_conditional` of
evaluation/cross_validation_utils.hpp and `gp_cross_validated_predictions` of models/gp.hpp. -/

namespace Albatross

open Matrix

/-- Mean, marginal and joint predictions whose size is only known at run time. -/
structure DynMean where
  dim : Nat
  mean : Fin dim → ℝ

/-- `MarginalDistribution` of a size known at run time (core/distribution.hpp lines 65-153). -/
structure DynMarginal where
  dim : Nat
  dist : Marginal (Fin dim)

/-- `JointDistribution` of a size known at run time (core/distribution.hpp lines 155-234). -/
structure DynJoint where
  dim : Nat
  dist : Joint (Fin dim)

/-- The decomposition routine for every size. -/
abbrev LdltRoutine := (d : Nat) → Matrix (Fin d) (Fin d) ℝ → Ldlt (Fin d)

/-- `leave_one_out_conditional_variance` (cross_validation_utils.hpp lines 133-145); `uninit` is the
content of uninitialised memory. -/
noncomputable def leaveOneOutVariance {m : Nat} (b : Build) (uninit : Nat → ℝ) (F : Ldlt (Fin m)) :
    Outcome (List ℝ) := do
  let d ← F.inverseDiagonal b ((List.range m).map uninit)
  pure (d.map fun x => x⁻¹)

/-- `leave_one_out_conditional` (cross_validation_utils.hpp lines 147-165). -/
noncomputable def leaveOneOutConditional {m : Nat} (b : Build) (uninit : Nat → ℝ) (ldlt : LdltRoutine)
    (prior : Joint (Fin m)) (truth : Marginal (Fin m)) : Outcome (Marginal (Fin m)) := do
  let covariance := prior.covariance + diagonal truth.variance
  let F := ldlt m covariance
  let looVariance ← leaveOneOutVariance b uninit F
  let deviation := truth.mean - prior.mean
  let looMean := F.solver.solveVec deviation
  let looMean := fun i : Fin m => looMean i * looVariance.getD i 0
  pure ⟨truth.mean - looMean, fun i => looVariance.getD i 0⟩

/-- `held_out_prediction` for means (cross_validation_utils.hpp lines 174-179). -/
noncomputable def heldOutMean (ldlt : LdltRoutine) (d : Nat) (inverseBlock : Matrix (Fin d) (Fin d) ℝ)
    (y v : Fin d → ℝ) : Outcome DynMean :=
  .ok ⟨d, y - (ldlt d inverseBlock).solver.solveVec v⟩

/-- `held_out_prediction` for marginal distributions (cross_validation_utils.hpp lines 181-188). -/
noncomputable def heldOutMarginal (b : Build) (uninit : Nat → ℝ) (ldlt : LdltRoutine) (d : Nat)
    (inverseBlock : Matrix (Fin d) (Fin d) ℝ) (y v : Fin d → ℝ) : Outcome DynMarginal := do
  let A := ldlt d inverseBlock
  let mean := y - A.solver.solveVec v
  let diag ← A.inverseDiagonal b ((List.range d).map uninit)
  pure ⟨d, mean, fun i => diag.getD i 0⟩

/-- `held_out_prediction` for joint distributions (cross_validation_utils.hpp lines 190-199). -/
noncomputable def heldOutJoint (d : Nat) (inverseBlock : Matrix (Fin d) (Fin d) ℝ) (y v : Fin d → ℝ) :
    Outcome DynJoint :=
  let Ainv := inverseBlock⁻¹
  .ok ⟨d, y - Ainv *ᵥ v, Ainv⟩

section
variable {K β : Type} [LinearOrder K] {m : Nat}

/-- The function applied to every group by `held_out_predictions` (cross_validation_utils.hpp lines
220-231). `one` is `held_out_prediction`. -/
noncomputable def heldOutGroup (one : (d : Nat) → Matrix (Fin d) (Fin d) ℝ → (Fin d → ℝ) → (Fin d → ℝ) → Outcome β)
    (blocks : SMap K SqBlock) (targetMean information : Fin m → ℝ) (key : K) (indices : List Nat) : Outcome β := do
  let blk ← blocks.at? key
  let cols ← columnIndices m indices
  if h : cols.length = blk.dim then
    one blk.dim blk.mat (fun i => targetMean (cols.get (i.cast h.symm)))
      (fun i => information (cols.get (i.cast h.symm)))
  else .error .ub

/-- The blocks of the inverse by group (cross_validation_utils.hpp lines 212-222). -/
noncomputable def heldOutBlocks (F : Ldlt (Fin m)) (indexer : SMap K (List Nat)) : Outcome (SMap K SqBlock) := do
  let inverseBlocks ← F.inverseBlocks indexer.values
  pure (SMap.ofList (indexer.keys.zip inverseBlocks))

/-- `held_out_predictions` without a pool (cross_validation_utils.hpp lines 201-235). -/
noncomputable def heldOutPredictions
    (one : (d : Nat) → Matrix (Fin d) (Fin d) ℝ → (Fin d → ℝ) → (Fin d → ℝ) → Outcome β)
    (F : Ldlt (Fin m)) (targetMean information : Fin m → ℝ) (indexer : SMap K (List Nat)) :
    Outcome (SMap K β) := do
  let blocks ← heldOutBlocks F indexer
  applyMapSerial (heldOutGroup one blocks targetMean information) indexer

/-- The pooled `apply` of `held_out_predictions` (cross_validation_utils.hpp lines 220-231), for given
blocks. -/
noncomputable def heldOutCall
    (one : (d : Nat) → Matrix (Fin d) (Fin d) ℝ → (Fin d → ℝ) → (Fin d → ℝ) → Outcome β)
    (blocks : SMap K SqBlock) (targetMean information : Fin m → ℝ) (indexer : SMap K (List Nat)) (threads : Nat) :
    PoolCall Unit Unit Fault β :=
  applyMapCall (fun key indices => ⟨[], heldOutGroup one blocks targetMean information key indices⟩) indexer threads

/-- `leave_one_group_out_conditional` (cross_validation_utils.hpp lines 237-255). -/
noncomputable def leaveOneGroupOutConditional
    (one : (d : Nat) → Matrix (Fin d) (Fin d) ℝ → (Fin d → ℝ) → (Fin d → ℝ) → Outcome β)
    (ldlt : LdltRoutine) (prior : Joint (Fin m)) (truth : Marginal (Fin m)) (indexer : SMap K (List Nat)) :
    Outcome (SMap K β) :=
  let covariance := prior.covariance + diagonal truth.variance
  let F := ldlt m covariance
  let deviation := truth.mean - prior.mean
  let information := F.solver.solveVec deviation
  heldOutPredictions one F truth.mean information indexer

/-- `gp_cross_validated_predictions` (models/gp.hpp lines 466-482).  The decomposition is the one made
by `fit` (`Gp.fit`, gp.hpp lines 61-69, 281-294). -/
noncomputable def gpCrossValidatedPredictions {X : Type}
    (one : (d : Nat) → Matrix (Fin d) (Fin d) ℝ → (Fin d → ℝ) → (Fin d → ℝ) → Outcome β)
    (ldlt : LdltRoutine) (g : Gp X) (features : Fin m → X) (targets : Marginal (Fin m))
    (indexer : SMap K (List Nat)) : Outcome (SMap K β) :=
  let measurementFeatures := fun i => g.asMeas (features i)
  let trainCovariance := ldlt m (g.covMat measurementFeatures measurementFeatures + diagonal targets.variance)
  let gpFit := g.fit (ldlt m) features targets
  heldOutPredictions one trainCovariance targets.mean gpFit.information indexer

end

end Albatross
