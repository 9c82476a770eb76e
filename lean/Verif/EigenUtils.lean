import Verif.BlockDiagonal
import Verif.Metrics
import Verif.Indexing
import Verif.SimpleModels

/-! # Model of utils/eigen_utils.hpp -/

namespace Albatross

open Matrix

/-- The loop of `vertical_stack` which adds up the rows and checks the columns (utils/eigen_utils.hpp lines
34-37). -/
def stackRows (b : Build) (cols : Nat) (blocks : List DMat) : Outcome Nat :=
  blocks.foldlM (fun rows block => do
    albatrossAssert b (decide (block.cols = cols))
    pure (rows + block.rows)) 0

/-- The loop of `vertical_stack` which copies the blocks (utils/eigen_utils.hpp lines 41-45): the output and the
first row not yet written.  Eigen asserts that the sizes of both sides agree (without the assertion the copy reads
or writes outside one of them). -/
def stackCopy (b : Build) (cols : Nat) (out : DMat × Nat) (block : DMat) : Outcome (DMat × Nat) := do
  eigenAssert b (decide (block.cols = cols))
  let m ← out.1.setBlock out.2 0 (of fun (i : Fin block.rows) (j : Fin cols) => block.get i j)
  pure (m, out.2 + block.rows)

/-- `vertical_stack` (utils/eigen_utils.hpp lines 29-47). -/
def verticalStack (b : Build) (blocks : List DMat) : Outcome DMat := do
  let first ← vecGet blocks 0
  let cols := first.cols
  let rows ← stackRows b cols blocks
  let out ← blocks.foldlM (stackCopy b cols) ((⟨rows, cols, fun _ _ => 0⟩ : DMat), 0)
  pure out.1

/-- The indices kept by `truncated_psd_solve` (utils/eigen_utils.hpp lines 72-77). -/
noncomputable def keptIndices {n : Nat} (values : Fin n → ℝ) (threshold : ℝ) : List (Fin n) :=
  (List.finRange n).filter fun i => decide (threshold ≤ values i)

open Classical in
/-- `truncated_psd_solve` (utils/eigen_utils.hpp lines 64-85).  `none` when the inverse of a diagonal with a zero
is taken: then the output holds infinities and NaN, which we do not follow further.  (Eigen asserts that the sizes
of the decomposition and `rhs` agree: here by type.) -/
noncomputable def truncatedPsdSolve {n m : Nat} (evd : EigenDecomp n) (rhs : Matrix (Fin n) (Fin m) ℝ)
    (threshold : ℝ) : Option (Matrix (Fin n) (Fin m) ℝ) :=
  let inds := keptIndices evd.values threshold
  let vSub : Matrix (Fin n) (Fin inds.length) ℝ := of fun i k => evd.vectors i inds[k]
  let dSub : Fin inds.length → ℝ := fun k => evd.values inds[k]
  if ∃ k, dSub k = 0 then none else
  some (vSub * diagonal (fun k => 1 / dSub k) * vSubᵀ * rhs)

end Albatross
