import Verif.RoundedStats

/-! # Solving with a decomposition in rounded arithmetic

As in RoundedStats.lean every operation is followed by the rounding `r.fl`. Eigen works on panels of columns, so that the
right hand side and the products of a row are added in an order that depends on the size of the panels: it may be any. -/

namespace Albatross

namespace Rounding

variable (r : Rounding)

/-- `matrixL().solveInPlace` of Eigen's `LDLT`, which `solve` and `SerializableLDLT::sqrt_solve` (eigen/serializable_ldlt.hpp
lines 100-109) call: `L` is unit lower triangular, so that nothing is divided. -/
noncomputable def forwardSolve (s : Summation r) {n : Nat} (L : Fin n → Fin n → ℝ) (b : Fin n → ℝ) (i : Fin n) : ℝ :=
  s.sum (b i :: (List.finRange i.val).map fun (j : Fin i.val) =>
    r.fl (-(L i ⟨j, j.isLt.trans i.isLt⟩ * forwardSolve s L b ⟨j, j.isLt.trans i.isLt⟩)))
termination_by i.val
decreasing_by exact j.isLt

/-- `matrixU().solveInPlace`: the transpose of `L` is lower triangular when it is read from the last row. -/
noncomputable def backwardSolve (s : Summation r) {n : Nat} (L : Fin n → Fin n → ℝ) (y : Fin n → ℝ) (i : Fin n) : ℝ :=
  r.forwardSolve s (fun i j => L j.rev i.rev) (fun i => y i.rev) i.rev

/-- The division by `D` of Eigen's `LDLT::_solve_impl`, with its tolerance `numeric_limits<double>::min()`. -/
noncomputable def pivotSolve {n : Nat} (d x : Fin n → ℝ) (i : Fin n) : ℝ :=
  if 2⁻¹ ^ 1022 < |d i| then r.fl (x i / d i) else 0

/-- Eigen's `LDLT::_solve_impl`, as `information = train_covariance.solve(targets.mean)` calls it (models/gp.hpp line 69):
`P` takes the entry `σ i` of a vector to its position `i`. -/
noncomputable def decompositionSolve (s : Summation r) {n : Nat} (σ : Equiv.Perm (Fin n)) (L : Fin n → Fin n → ℝ)
    (d b : Fin n → ℝ) (k : Fin n) : ℝ :=
  r.backwardSolve s L (r.pivotSolve d (r.forwardSolve s L fun i => b (σ i))) (σ.symm k)

end Rounding

end Albatross
