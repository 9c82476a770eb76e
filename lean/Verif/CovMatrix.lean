import Verif.Async
import Mathlib.Analysis.Real.Sqrt

/-! # Model of the covariance matrix builders

covariance_functions/callers.hpp lines 38-166 and indexing/block.hpp lines 20-46.  The matrix being
filled is memory indexed by (row, column) with arbitrary initial contents (Eigen matrices start
uninitialised).  `caller` is any function of two features. -/

namespace Albatross

variable {X Y R : Type}

/-- The writes `output(row, col) = caller(xs[row], ys[col])` for the listed cells; an index outside
one of the vectors is undefined behaviour (covariance_functions/callers.hpp lines 38-166: the loop bodies). -/
def cellWrites (caller : X → Y → R) (xs : List X) (ys : List Y) (cells : List (Nat × Nat)) :
    Outcome (List ((Nat × Nat) × R)) :=
  cells.mapM fun rc => do
    let x ← vecGet xs rc.1
    let y ← vecGet ys rc.2
    pure (rc, caller x y)

/-- Serial cross covariance (callers.hpp lines 38-59): cells visited row by row. -/
def serialCross (caller : X → Y → R) (xs : List X) (ys : List Y) (uninit : Nat × Nat → R) :
    Outcome (Nat × Nat → R) := do
  let ws ← cellWrites caller xs ys
    ((List.range xs.length).flatMap fun i => (List.range ys.length).map fun j => (i, j))
  pure (writeAll uninit ws)

/-- A task made of cell writes. -/
def cellTask (o : Outcome (List ((Nat × Nat) × R))) : PoolTask (Nat × Nat) R Fault Unit :=
  match o with
  | .ok ws => ⟨ws, .ok ()⟩
  | .error f => ⟨[], .error f⟩

/-- `block_size = ceil(ys.size() / thread_count)` (callers.hpp lines 79-80), exact arithmetic. -/
def crossBlockSize (n threads : Nat) : Nat := (n + threads - 1) / threads

/-- Columns of block `block_index` (callers.hpp lines 86-88): `[start, end)`. -/
def crossBlockCols (n threads b : Nat) : List Nat :=
  let start := b * crossBlockSize n threads
  let stop := min n ((b + 1) * crossBlockSize n threads)
  List.range' start (stop - start)

/-- `apply_block` of the threaded cross covariance (callers.hpp lines 85-95). -/
def crossTask (caller : X → Y → R) (xs : List X) (ys : List Y) (threads b : Nat) :
    PoolTask (Nat × Nat) R Fault Unit :=
  cellTask (cellWrites caller xs ys
    ((crossBlockCols ys.length threads b).flatMap fun col =>
      (List.range xs.length).map fun row => (row, col)))

/-- Threaded cross covariance (callers.hpp lines 65-101): the pooled call filling the matrix. -/
def crossCall (caller : X → Y → R) (xs : List X) (ys : List Y) (threads : Nat) :
    PoolCall (Nat × Nat) R Fault Unit :=
  applyVectorCall (crossTask caller xs ys threads) (List.range threads) threads

/-- Serial covariance of one vector (callers.hpp lines 106-129): for `j ≤ i` the value is computed
once and written to `(i, j)` and to `(j, i)`. -/
def serialSymmetric (caller : X → X → R) (xs : List X) (uninit : Nat × Nat → R) :
    Outcome (Nat × Nat → R) := do
  let ws ← cellWrites caller xs xs
    ((List.range xs.length).flatMap fun i => (List.range (i + 1)).map fun j => (i, j))
  pure (writeAll uninit (ws.flatMap fun w => [w, ((w.1.2, w.1.1), w.2)]))

/-- `end_fraction` of each block (indexing/block.hpp lines 27-33) in exact arithmetic:
`area` starts at 0 and becomes the square of the previous fraction. -/
noncomputable def endFraction (k : Nat) : Nat → ℝ
  | 0 => Real.sqrt (1 / k + 0)
  | b + 1 => Real.sqrt (1 / k + endFraction k b * endFraction k b)

/-- `end_index = rint(size * end_fraction)` of each block (indexing/block.hpp lines 34-35); `frac` are
the fractions as computed and `rint` the rounding function. -/
noncomputable def blockEnd (rint : ℝ → Nat) (frac : Nat → ℝ) (size b : Nat) : Nat :=
  rint (size * frac b)

/-- The blocks `[start, end)` (indexing/block.hpp lines 25-44): each starts where the previous one
ended and the end of the last one is clipped to `size`.  `partition_count = 0` would call `back()` on
an empty vector, modelled as `ub`. -/
noncomputable def partitionTriangular (rint : ℝ → Nat) (frac : Nat → ℝ) (size k : Nat) :
    Outcome (List (Nat × Nat)) :=
  if k = 0 then .error .ub
  else .ok ((List.range k).map fun b =>
    (if b = 0 then 0 else blockEnd rint frac size (b - 1),
     if b = k - 1 then min (blockEnd rint frac size b) size else blockEnd rint frac size b))

/-- `apply_block` of the threaded symmetric covariance (callers.hpp lines 149-157). -/
def triTask (caller : X → X → R) (xs : List X) (block : Nat × Nat) :
    PoolTask (Nat × Nat) R Fault Unit :=
  cellTask (cellWrites caller xs xs
    ((List.range' block.1 (block.2 - block.1)).flatMap fun col =>
      (List.range (col + 1)).map fun row => (row, col)))

/-- Threaded covariance of one vector: the pooled call (callers.hpp lines 146-161). -/
def triCall (caller : X → X → R) (xs : List X) (blocks : List (Nat × Nat)) (threads : Nat) :
    PoolCall (Nat × Nat) R Fault Unit :=
  applyVectorCall (triTask caller xs) blocks threads

/-- `output.triangularView<Eigen::Lower>() = output.transpose()` (callers.hpp line 164): the lower
triangle (with the diagonal) becomes the mirror image of the upper one. -/
def mirrorUpper (m : Nat × Nat → R) : Nat × Nat → R :=
  fun rc => if rc.2 ≤ rc.1 then m (rc.2, rc.1) else m rc

/-- `compute_mean_vector` (callers.hpp lines 171-189). -/
def meanVector (caller : X → R) (xs : List X) : List R := xs.map caller

end Albatross
