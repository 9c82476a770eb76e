import Verif.Async
import Mathlib.LinearAlgebra.Matrix.NonsingularInverse
import Mathlib.LinearAlgebra.Matrix.PosDef
import Mathlib.Analysis.SpecialFunctions.Log.Basic
import Mathlib.Analysis.Real.Sqrt

/-! # Model of the matrix representations

eigen/serializable_ldlt.hpp, linalg/block_symmetric.hpp and covariance_functions/representations.hpp.

Matrices are Mathlib matrices over finite index types; stacking two ranges of rows is the index type
`m ⊕ n`.  Eigen's own routines are represented by what they compute: a triangular solve is
multiplication by the inverse of the triangular matrix, `transpositionsP() *` permutes rows. -/

namespace Albatross

open Matrix

/-- The data held by an `Eigen::LDLT` of a matrix indexed by `n`: the row permutation `P` (row `i` of
`P x` is row `perm.symm i` of `x`), the lower triangular factor and the diagonal
(eigen/serializable_ldlt.hpp lines 19, 140-143). -/
structure Ldlt (n : Type) where
  size : Nat
  perm : n ≃ Fin size
  lower : Matrix (Fin size) (Fin size) ℝ
  diag : Fin size → ℝ

/-- Contract of `Eigen::LDLT(A)` (serializable_ldlt.hpp lines 140-143): `A = Pᵀ L D Lᵀ P` with `L` unit
lower triangular. -/
structure Ldlt.Factors {n : Type} (F : Ldlt n) (A : Matrix n n ℝ) : Prop where
  unit : ∀ i, F.lower i i = 1
  lowerTri : ∀ i j, i < j → F.lower i j = 0
  factor : A = (F.lower * diagonal F.diag * F.lowerᵀ).submatrix F.perm F.perm

namespace Ldlt

variable {n q : Type} (F : Ldlt n)

/-- `transpositionsP() * rhs`. -/
def permute (rhs : Matrix n q ℝ) : Matrix (Fin F.size) q ℝ := rhs.submatrix F.perm.symm id

/-- `transpositionsP().transpose() * rhs`. -/
def unpermute (rhs : Matrix (Fin F.size) q ℝ) : Matrix n q ℝ := rhs.submatrix F.perm id

/-- `Eigen::LDLT::solve`: permute, solve with `L`, divide by the nonzero entries of `D` (zero for the
others), solve with `Lᵀ`, permute back. -/
noncomputable def solve (rhs : Matrix n q ℝ) : Matrix n q ℝ :=
  F.unpermute ((F.lowerᵀ)⁻¹ *
    (diagonal (fun i => if F.diag i = 0 then 0 else 1 / F.diag i) * (F.lower⁻¹ * F.permute rhs)))

/-- `diagonal_sqrt_inverse` (serializable_ldlt.hpp lines 58-69). -/
noncomputable def diagonalSqrtInverse : Fin F.size → ℝ :=
  fun i => if F.diag i > 0 then 1 / Real.sqrt (F.diag i) else 0

/-- `diagonal_sqrt` (serializable_ldlt.hpp lines 74-84). -/
noncomputable def diagonalSqrt : Fin F.size → ℝ :=
  fun i => if F.diag i > 0 then Real.sqrt (F.diag i) else 0

/-- `sqrt_product` (serializable_ldlt.hpp lines 90-94). -/
noncomputable def sqrtProduct (rhs : Matrix (Fin F.size) q ℝ) : Matrix n q ℝ :=
  F.unpermute (F.lower * (diagonal F.diagonalSqrt * rhs))

/-- `sqrt_solve` (serializable_ldlt.hpp lines 100-109). -/
noncomputable def sqrtSolve (rhs : Matrix n q ℝ) : Matrix (Fin F.size) q ℝ :=
  let result := F.lower⁻¹ * F.permute rhs
  Matrix.of fun i j => result i j * F.diagonalSqrtInverse i

/-- `sqrt_transpose` (serializable_ldlt.hpp lines 111-115). -/
noncomputable def sqrtTranspose : Matrix (Fin F.size) n ℝ :=
  diagonal F.diagonalSqrt * (F.unpermute F.lower)ᵀ

/-- `sqrt_transpose_solve` (serializable_ldlt.hpp lines 121-126). -/
noncomputable def sqrtTransposeSolve (rhs : Matrix (Fin F.size) q ℝ) : Matrix n q ℝ :=
  F.unpermute ((F.lowerᵀ)⁻¹ * (diagonal F.diagonalSqrtInverse * rhs))

/-- `log_determinant` (serializable_ldlt.hpp lines 128-135). -/
noncomputable def logDeterminant : ℝ := ∑ i, Real.log (F.diag i)

/-- `is_positive_definite` (serializable_ldlt.hpp line 36): `vectorD().minCoeff() > 0`; `minCoeff` of an
empty vector is undefined. -/
noncomputable def isPositiveDefinite : Outcome Bool :=
  if F.size = 0 then .error .ub else .ok (@decide (∀ i, F.diag i > 0) (Classical.dec _))

/-- `inverse_cholesky` of `inverse_blocks` (serializable_ldlt.hpp lines 154-163): `D^{-1/2} L^{-1} P`. -/
noncomputable def inverseCholesky [DecidableEq n] : Matrix (Fin F.size) n ℝ :=
  diagonal F.diagonalSqrtInverse * (F.lower⁻¹ * F.permute (1 : Matrix n n ℝ))

end Ldlt

/-- A square Eigen matrix whose size is only known at run time. -/
structure SqBlock where
  dim : Nat
  mat : Matrix (Fin dim) (Fin dim) ℝ

/-- Positions into an Eigen matrix with `m` columns; anything else is undefined behaviour. -/
def columnIndices (m : Nat) (idx : List Nat) : Outcome (List (Fin m)) :=
  idx.mapM fun i => if h : i < m then .ok ⟨i, h⟩ else .error .ub

/-- The block of `Mᵀ M` for the chosen columns: `subset_cols` followed by
`sub_matrix.transpose().lazyProduct(sub_matrix)` (serializable_ldlt.hpp lines 169-173). -/
noncomputable def gramBlock {s m : Nat} (M : Matrix (Fin s) (Fin m) ℝ) (cols : List (Fin m)) : SqBlock where
  dim := cols.length
  mat := let sub : Matrix (Fin s) (Fin cols.length) ℝ := M.submatrix id cols.get
         subᵀ * sub

namespace Ldlt

/-- The function applied to every block by `inverse_blocks` (serializable_ldlt.hpp lines 169-173). -/
noncomputable def inverseBlock {m : Nat} (F : Ldlt (Fin m)) (idx : List Nat) : Outcome SqBlock := do
  let cols ← columnIndices m idx
  pure (gramBlock F.inverseCholesky cols)

/-- `inverse_blocks` without a pool (serializable_ldlt.hpp lines 137-175). -/
noncomputable def inverseBlocks {m : Nat} (F : Ldlt (Fin m)) (blocks : List (List Nat)) :
    Outcome (List SqBlock) := applySerial F.inverseBlock blocks

/-- `inverse_blocks` with a pool of `threads` threads (serializable_ldlt.hpp lines 137-175). -/
noncomputable def inverseBlocksCall {m : Nat} (F : Ldlt (Fin m)) (blocks : List (List Nat)) (threads : Nat) :
    PoolCall Unit Unit Fault SqBlock :=
  applyVectorCall (fun idx => ⟨[], F.inverseBlock idx⟩) blocks threads

/-- `inverse_diagonal` (serializable_ldlt.hpp lines 181-199); `uninit` is the initial content of
`inv_diag`. -/
noncomputable def inverseDiagonal {m : Nat} (b : Build) (F : Ldlt (Fin m)) (uninit : List ℝ) :
    Outcome (List ℝ) := do
  let blocks ← F.inverseBlocks ((List.range m).map fun i => [i])
  (List.range m).foldlM (fun out i => do
    let blk ← vecGet blocks i
    albatrossAssert b (blk.dim == 1)
    let v ← if h : 0 < blk.dim then .ok (blk.mat ⟨0, h⟩ ⟨0, h⟩) else .error .ub
    vecSet out i v) uninit

end Ldlt

/-- The interface `CovarianceRepresentation` used by the models: something with `solve`. -/
structure Solver (n : Type) where
  solve : {q : Type} → Matrix n q ℝ → Matrix n q ℝ

/-- `solve` with a vector. -/
def Solver.solveVec {n : Type} (S : Solver n) (v : n → ℝ) : n → ℝ :=
  fun i => S.solve (Matrix.of fun i (_ : Unit) => v i) i ()

/-- What a representation of `A` has to do. -/
def Solver.Represents {n : Type} [Fintype n] [DecidableEq n] (S : Solver n) (A : Matrix n n ℝ) : Prop :=
  IsUnit A.det ∧ ∀ (q : Type) (B : Matrix n q ℝ), S.solve B = A⁻¹ * B

/-- `SerializableLDLT` as a representation. -/
noncomputable def Ldlt.solver {n : Type} (F : Ldlt n) : Solver n := ⟨fun B => F.solve B⟩

/-- `BlockSymmetric` (linalg/block_symmetric.hpp lines 46-73). -/
structure BlockSymmetric (m n : Type) where
  A : Solver m
  AiB : Matrix m n ℝ
  S : Ldlt n

/-- Constructor from the decomposition of the Schur complement (block_symmetric.hpp lines 49-51). -/
def BlockSymmetric.ofSchur {m n : Type} (A : Solver m) (B : Matrix m n ℝ) (S : Ldlt n) :
    BlockSymmetric m n := ⟨A, A.solve B, S⟩

/-- Constructor from the lower right block (block_symmetric.hpp lines 55-58); `ldlt` is the
decomposition routine. -/
def BlockSymmetric.ofBlock {m n : Type} [Fintype m] (ldlt : Matrix n n ℝ → Ldlt n) (A : Solver m)
    (B : Matrix m n ℝ) (C : Matrix n n ℝ) : BlockSymmetric m n :=
  ⟨A, A.solve B, ldlt (C - Bᵀ * A.solve B)⟩

/-- `BlockSymmetric::solve` (block_symmetric.hpp lines 82-103). -/
noncomputable def BlockSymmetric.solve {m n q : Type} [Fintype m] [Fintype n] (X : BlockSymmetric m n)
    (rhs : Matrix (m ⊕ n) q ℝ) : Matrix (m ⊕ n) q ℝ :=
  let rhsA : Matrix m q ℝ := rhs.submatrix Sum.inl id
  let rhsB : Matrix n q ℝ := rhs.submatrix Sum.inr id
  let BtAiRhs := X.AiBᵀ * rhsA
  let SiBtAiRhs := X.S.solve BtAiRhs
  let SiRhsB := X.S.solve rhsB
  Matrix.of fun i j => match i with
    | .inl i => (X.A.solve rhsA + X.AiB * (SiBtAiRhs - SiRhsB)) i j
    | .inr i => (SiRhsB - SiBtAiRhs) i j

noncomputable def BlockSymmetric.solver {m n : Type} [Fintype m] [Fintype n] (X : BlockSymmetric m n) :
    Solver (m ⊕ n) := ⟨fun B => X.solve B⟩

/-- `ExplainedCovariance` (covariance_functions/representations.hpp lines 64-96). -/
structure ExplainedCovariance (n : Type) where
  outer : Ldlt n
  inner : Matrix n n ℝ

/-- `ExplainedCovariance::solve` (representations.hpp lines 82-84). -/
noncomputable def ExplainedCovariance.solve {n q : Type} [Fintype n] (E : ExplainedCovariance n)
    (rhs : Matrix n q ℝ) : Matrix n q ℝ := E.outer.solve (E.inner * E.outer.solve rhs)

noncomputable def ExplainedCovariance.solver {n : Type} [Fintype n] (E : ExplainedCovariance n) : Solver n :=
  ⟨fun B => E.solve B⟩

/-- `DirectInverse` (representations.hpp lines 101-119). -/
structure DirectInverse (n : Type) where
  inverse : Matrix n n ℝ

/-- `DirectInverse::solve` (representations.hpp lines 106-108). -/
noncomputable def DirectInverse.solver {n : Type} [Fintype n] (D : DirectInverse n) : Solver n :=
  ⟨fun B => D.inverse * B⟩

end Albatross
