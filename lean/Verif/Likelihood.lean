import Verif.LinAlg
import Mathlib.Analysis.SpecialFunctions.Trigonometric.Basic
import Mathlib.Analysis.SpecialFunctions.Exp

/-! # Model of evaluation/likelihood.hpp, evaluation/differential_entropy.hpp and stats/gaussian.hpp

Real arithmetic; `log` is `Real.log` (the C++ `log` agrees on positive arguments, which is where the
theorems use it). -/

namespace Albatross

open Matrix

/-- `gaussian::log_pdf` (stats/gaussian.hpp lines 19-23). -/
noncomputable def gaussianLogPdfUni (deviation variance : ℝ) : ℝ :=
  -deviation * deviation / (2 * variance) - 0.5 * Real.log (2 * Real.pi * variance)

/-- `gaussian::pdf` (stats/gaussian.hpp lines 25-28). -/
noncomputable def gaussianPdfUni (deviation variance : ℝ) : ℝ :=
  Real.exp (-(deviation * deviation) / (2 * variance)) / Real.sqrt (2 * Real.pi * variance)

/-- `negative_log_likelihood(double, double)` (evaluation/likelihood.hpp lines 21-24). -/
noncomputable def nllUni (deviation variance : ℝ) : ℝ := -gaussianLogPdfUni deviation variance

/-- `log_sum` (likelihood.hpp lines 26-32). -/
noncomputable def logSum (x : List ℝ) : ℝ := x.foldl (fun sum v => sum + Real.log v) 0

/-- `negative_log_likelihood(deviation, ldlt)` (likelihood.hpp lines 38-47). -/
noncomputable def nllLdlt {n : Type} [Fintype n] (deviation : n → ℝ) (ldlt : Ldlt n) : ℝ :=
  let rank : ℝ := ldlt.size
  let mahalanobis := deviation ⬝ᵥ ldlt.solver.solveVec deviation
  let logDet := logSum (List.ofFn ldlt.diag)
  0.5 * (logDet + mahalanobis + rank * Real.log (2 * Real.pi))

/-- `negative_log_likelihood(deviation, covariance)` for a dense covariance (likelihood.hpp lines
53-66); `ldlt` is the decomposition routine. -/
noncomputable def nllDense {m : Nat} (ldlt : Matrix (Fin m) (Fin m) ℝ → Ldlt (Fin m)) (deviation : Fin m → ℝ)
    (covariance : Matrix (Fin m) (Fin m) ℝ) : ℝ :=
  if h : m = 1 then
    nllUni (deviation ⟨0, by omega⟩) (covariance ⟨0, by omega⟩ ⟨0, by omega⟩)
  else nllLdlt deviation (ldlt covariance)

/-- `negative_log_likelihood(deviation, diagonal_covariance)` (likelihood.hpp lines 73-85). -/
noncomputable def nllDiagonal (b : Build) (deviation variances : List ℝ) : Outcome ℝ := do
  albatrossAssert b (deviation.length == variances.length)
  (List.range deviation.length).foldlM (fun nll i => do
    let d ← vecGet deviation i
    let v ← vecGet variances i
    pure (nll + nllUni d v)) 0

/-- `log_determinant_of_symmetric` (evaluation/differential_entropy.hpp lines 20-28). -/
noncomputable def logDetOfSymmetric {n : Type} (ldlt : Ldlt n) : ℝ :=
  (List.ofFn ldlt.diag).foldl (fun s v => s + Real.log v) 0

/-- `differential_entropy` (differential_entropy.hpp lines 37-42), with the parentheses as written
there. -/
noncomputable def differentialEntropy {n : Type} (ldlt : Ldlt n) : ℝ :=
  let k : ℝ := ldlt.size
  let logDet := logDetOfSymmetric ldlt
  0.5 * (k * (1 + Real.log (2 * Real.pi) + logDet))

end Albatross
