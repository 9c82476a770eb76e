import Verif.RoundedErrors
import Mathlib.Algebra.BigOperators.Group.List.Basic

/-! # Sums, metrics and predicted variances in rounded arithmetic

As in RoundedCode.lean every operation is followed by the rounding `r.fl`. Eigen adds the terms of `sum`, `mean` and `dot`
in an order that depends on alignment and vector instructions: the order is an argument and may be any. -/

namespace Albatross

/-- An order in which numbers are added. -/
inductive SumTree where
  | leaf (x : ℝ)
  | node (lhs rhs : SumTree)

namespace SumTree

/-- The numbers that are added. -/
def leaves : SumTree → List ℝ
  | leaf x => [x]
  | node a b => a.leaves ++ b.leaves

/-- What adding them in this order gives. -/
noncomputable def eval (r : Rounding) : SumTree → ℝ
  | leaf x => x
  | node a b => r.fl (a.eval r + b.eval r)

end SumTree

/-- How Eigen adds the numbers of an array: each of them once, in some order. -/
structure Summation (r : Rounding) where
  sum : List ℝ → ℝ
  empty : sum [] = 0
  order : ∀ l, l ≠ [] → ∃ t : SumTree, t.leaves.Perm l ∧ sum l = t.eval r

namespace Rounding

variable (r : Rounding)

/-- `root_mean_square_error` (evaluation/prediction_metrics.hpp lines 56-61). -/
noncomputable def rmse (s : Summation r) {n : Nat} (prediction truth : Fin n → ℝ) : ℝ :=
  let error := fun i => r.fl (prediction i - truth i)
  let mse := r.fl (s.sum ((List.finRange n).map fun i => r.fl (error i * error i)) / r.fl n)
  r.fl (Real.sqrt mse)

/-- `standard_deviation` (evaluation/prediction_metrics.hpp lines 73-91) of at least two numbers. -/
noncomputable def standardDeviation (lib : MathFunctions) (s : Summation r) {n : Nat} (x : Fin n → ℝ) : ℝ :=
  let mean := r.fl (s.sum ((List.finRange n).map x) / r.fl n)
  let nElements := r.fl n
  let output := (List.finRange n).foldl
    (fun output i => r.fl (output + r.fl (lib.pow (r.fl (x i - mean)) 2 / r.fl (nElements - 1)))) 0
  r.fl (Real.sqrt output)

/-- The training covariance of a single feature (models/gp.hpp lines 61-69): the covariance plus the variance of the
target. -/
noncomputable def trainVariance (cov noise : ℝ) : ℝ := r.fl (cov + noise)

/-- What `solve` of the decomposition of a single variance returns: the `LDL'` decomposition of Eigen divides by `D`. -/
noncomputable def solveSingle (trainCovariance crossCov : ℝ) : ℝ := r.fl (crossCov / trainCovariance)

/-- The variance of `gp_marginal_prediction` for one feature (models/gp.hpp lines 94-99): the prior variance minus the sum
of the products of `explained` and `cross_cov`. -/
noncomputable def marginalVariance (s : Summation r) {n : Nat} (prior : ℝ) (explained crossCov : Fin n → ℝ) : ℝ :=
  let explainedVariance := s.sum ((List.finRange n).map fun i => r.fl (explained i * crossCov i))
  r.fl (prior - explainedVariance)

/-- The variance predicted from a single observation. -/
noncomputable def marginalFromOne (s : Summation r) (cov noise crossCov prior : ℝ) : ℝ :=
  r.marginalVariance s prior (n := 1) (fun _ => r.solveSingle (r.trainVariance cov noise) crossCov) fun _ => crossCov

end Rounding

end Albatross
