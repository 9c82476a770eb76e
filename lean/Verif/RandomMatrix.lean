import Verif.Random
import Verif.Metrics
import Verif.BlockDiagonal
import Verif.Utils

/-! # Model of the random matrices and vectors of `utils/random_utils.hpp`

The outputs of the random engine are a list, as in `Verif.Random`: an entry stands for everything the engine delivers
during one draw from a distribution.  The entries have an arbitrary type `E`.  Numbers are reals.  `Eigen::Triplet` keeps its indices as `int`: matrices with more
than 2^31 rows or columns are not modelled. -/

namespace Albatross

open Matrix

variable {E : Type}

/-- Takes the next output of the engine. -/
def nextDraw (raw : List E) : Outcome (E × List E) :=
  match raw with
  | [] => .error .diverges
  | r :: raw => .ok (r, raw)

/-- The draws of `random_fill` (utils/random_utils.hpp lines 71-80): `NullaryExpr` calls the function once per entry,
column by column. -/
def fillDraws (dist : E → ℝ) : Nat → List E → Outcome (List ℝ × List E)
  | 0, raw => .ok ([], raw)
  | n + 1, raw => do
    let (r, raw) ← nextDraw raw
    let (rest, raw) ← fillDraws dist n raw
    pure (dist r :: rest, raw)

/-- `random_fill` of a matrix (utils/random_utils.hpp lines 71-80). -/
def randomFill (dist : E → ℝ) (rows cols : Nat) (raw : List E) :
    Outcome (Matrix (Fin rows) (Fin cols) ℝ × List E) := do
  let (xs, raw) ← fillDraws dist (rows * cols) raw
  pure (of fun i j => xs.getD (j.1 * rows + i.1) 0, raw)

/-- `gaussian_fill` (utils/random_utils.hpp lines 82-101): `std::normal_distribution(mean, sd)` is a standard normal draw
times `sd` plus `mean`. -/
noncomputable def gaussianFill (normal : E → ℝ) (mean sd : ℝ) (rows cols : Nat) (raw : List E) :
    Outcome (Matrix (Fin rows) (Fin cols) ℝ × List E) :=
  randomFill (fun r => normal r * sd + mean) rows cols raw

/-- `random_covariance_matrix` (utils/random_utils.hpp lines 103-124); `householderQ` is
`colPivHouseholderQr().matrixQ()`. -/
noncomputable def randomCovarianceMatrix {k : Nat} (householderQ : Matrix (Fin k) (Fin k) ℝ → Matrix (Fin k) (Fin k) ℝ)
    (normal eigenValue : E → ℝ) (raw : List E) : Outcome (Matrix (Fin k) (Fin k) ℝ × List E) := do
  let (Q, raw) ← gaussianFill normal 0 1 k k raw
  let Q := householderQ Q
  let (diag, raw) ← randomFill eigenValue k 1 raw
  pure (Q * diagonal (fun i => diag i 0) * Qᵀ, raw)

/-! ## `Eigen::LLT` -/

/-- The pivot of column `k` of Eigen's unblocked Cholesky decomposition. -/
def lltPivot (m : Nat → Nat → ℝ) (k : Nat) : ℝ := m k k - ∑ l ∈ Finset.range k, m k l ^ 2

/-- One column of the decomposition, which works in place. -/
noncomputable def lltColumn (n : Nat) (m : Nat → Nat → ℝ) (k : Nat) : Nat → Nat → ℝ := fun i j =>
  if j = k ∧ i = k then Real.sqrt (lltPivot m k)
  else if j = k ∧ k < i ∧ i < n then
    (m i k - ∑ l ∈ Finset.range k, m i l * m k l) / Real.sqrt (lltPivot m k)
  else m i j

/-- `llt_inplace::unblocked` (Eigen, used for fewer than 32 rows; the blocked form for larger matrices does the same
operations): the matrix, and whether all the pivots were positive; it stops at the first that is not. -/
noncomputable def lltLoop (n : Nat) : List Nat → (Nat → Nat → ℝ) → (Nat → Nat → ℝ) × Bool
  | [], m => (m, true)
  | k :: ks, m => if lltPivot m k ≤ 0 then (m, false) else lltLoop n ks (lltColumn n m k)

/-- `Eigen::LLT(A)`: the matrix it keeps, and whether `info()` is `Success`. -/
noncomputable def eigenLlt {n : Nat} (A : Matrix (Fin n) (Fin n) ℝ) : (Nat → Nat → ℝ) × Bool :=
  lltLoop n (List.range n) fun i j => if h : i < n ∧ j < n then A ⟨i, h.1⟩ ⟨j, h.2⟩ else 0

/-- `matrixL()`. -/
noncomputable def lltMatrixL {n : Nat} (A : Matrix (Fin n) (Fin n) ℝ) : Matrix (Fin n) (Fin n) ℝ :=
  of fun i j => if j ≤ i then (eigenLlt A).1 i j else 0

/-- `random_multivariate_normal` (utils/random_utils.hpp lines 126-142) for a mean and a square covariance of the same
size. -/
noncomputable def multivariateNormalOfSize {n : Nat} (normal : E → ℝ) (mean : Fin n → ℝ) (cov : Matrix (Fin n) (Fin n) ℝ)
    (raw : List E) : Outcome ((Fin n → ℝ) × List E) := do
  let (sample, raw) ← gaussianFill normal 0 1 n 1 raw
  let sample := lltMatrixL cov *ᵥ fun i => sample i 0
  pure (sample + mean, raw)

/-- `random_multivariate_normal` (utils/random_utils.hpp lines 126-142).  Without the assertions the product of the
factor and the draws reads outside one of them. -/
noncomputable def randomMultivariateNormal (b : Build) (normal : E → ℝ) (mean : List ℝ) (cov : DMat) (raw : List E) :
    Outcome (List ℝ × List E) := do
  albatrossAssert b (decide (mean.length = cov.rows))
  albatrossAssert b (decide (cov.rows = cov.cols))
  if mean.length = cov.rows ∧ cov.rows = cov.cols then do
    let (s, raw) ← multivariateNormalOfSize normal (fun i : Fin cov.rows => mean.getD i 0)
      (of fun i j : Fin cov.rows => cov.get i j) raw
    pure (List.ofFn s, raw)
  else .error .ub

/-- `random_multivariate_normal(cov, gen)` (utils/random_utils.hpp lines 144-149). -/
noncomputable def randomMultivariateNormalZero (b : Build) (normal : E → ℝ) (cov : DMat) (raw : List E) :
    Outcome (List ℝ × List E) :=
  randomMultivariateNormal b normal (List.replicate cov.rows 0) cov raw

/-! ## Sparse matrices -/

/-- The distributions of `random_sparse_matrix`: positions and values. -/
structure SparseDraws where
  position : UniformInt
  value : Nat → ℝ

/-- The `while` loop (utils/random_utils.hpp lines 165-172): draws a row and a column until the position is free. -/
def freePosition (u : UniformInt) (rows cols : Nat) (taken : List Nat) : List Nat → Outcome ((Nat × Nat) × List Nat)
  | r :: c :: raw =>
    let row := u.draw 0 (rows - 1) r
    let col := u.draw 0 (cols - 1) c
    if row * cols + col ∈ taken then freePosition u rows cols taken raw else .ok ((row, col), raw)
  | _ => .error .diverges

/-- The loop (utils/random_utils.hpp lines 164-177): the triplets so far. -/
def sparseFillLoop (d : SparseDraws) (rows cols : Nat) : Nat → List Nat → List (Nat × Nat × ℝ) → List Nat →
    Outcome (List (Nat × Nat × ℝ) × List Nat)
  | 0, _, triplets, raw => .ok (triplets, raw)
  | n + 1, taken, triplets, raw => do
    let ((r, c), raw) ← freePosition d.position rows cols taken raw
    let (v, raw) ← nextDraw raw
    sparseFillLoop d rows cols n (setInsert (r * cols + c) taken) (triplets ++ [(r, c, d.value v)]) raw

/-- `static_cast<std::size_t>` of a double: undefined unless the truncated value fits. -/
noncomputable def castToSize (M : Nat) : Dbl → Outcome Nat
  | .fin x => if -1 < x ∧ x < M then .ok ⌊x⌋₊ else .error .ub
  | _ => .error .ub

/-- `setFromTriplets` (Eigen): entries at the same position are added up. -/
def fromTriplets (triplets : List (Nat × Nat × ℝ)) : Nat → Nat → ℝ := fun i j =>
  ((triplets.filter fun t => decide (t.1 = i ∧ t.2.1 = j)).map fun t => t.2.2).sum

/-- `random_sparse_matrix` (utils/random_utils.hpp lines 151-183): the triplets the matrix is made of.  The
distributions of the rows and columns need `0 ≤ rows - 1` and `0 ≤ cols - 1`, the one of the values `min ≤ max`; `M` is the
number of values of `std::size_t`. -/
noncomputable def randomSparseMatrix (M : Nat) (d : SparseDraws) (rows cols : Nat) (fill : Dbl) (minElement maxElement : ℝ)
    (raw : List Nat) : Outcome (List (Nat × Nat × ℝ) × List Nat) := do
  if maxElement < minElement ∨ rows = 0 ∨ cols = 0 then .error .ub
  else do
    let nnz ← castToSize M (.fin rows * (.fin cols * fill))
    sparseFillLoop d rows cols nnz [] [] raw

end Albatross
