import Verif.BlockDiagonal

/-! # Model of linalg/block_utils.hpp

`Grouped<GroupKey, V>` is a map (indexing/group_by.hpp lines 67-110).  Eigen operations on matrices whose
shapes do not fit are an `eigen_assert`, modelled as undefined behaviour. -/

namespace Albatross

open Matrix

/-- `a + b`. -/
noncomputable def DMat.add (a b : DMat) : Outcome DMat :=
  if a.rows = b.rows ∧ a.cols = b.cols then .ok ⟨a.rows, a.cols, fun i j => a.get i j + b.get i j⟩
  else .error .ub

/-- `a - b`. -/
noncomputable def DMat.sub (a b : DMat) : Outcome DMat :=
  if a.rows = b.rows ∧ a.cols = b.cols then .ok ⟨a.rows, a.cols, fun i j => a.get i j - b.get i j⟩
  else .error .ub

/-- `a * b`. -/
noncomputable def DMat.mul (a b : DMat) : Outcome DMat :=
  if a.cols = b.rows then
    .ok ⟨a.rows, b.cols, fun i j => ∑ l ∈ Finset.range a.cols, a.get i l * b.get l j⟩
  else .error .ub

/-- `a.transpose()`. -/
def DMat.transpose (a : DMat) : DMat := ⟨a.cols, a.rows, fun i j => a.get j i⟩

/-- `block_sum` of a vector (lines 23-31); `xs[0]` of an empty vector is undefined behaviour. -/
noncomputable def blockSum (xs : List DMat) : Outcome DMat := do
  let x ← vecGet xs 0
  (List.range' 1 (xs.length - 1)).foldlM (fun out i => do
    let y ← vecGet xs i
    out.add y) x

section grouped
variable {K X Y : Type} [LinearOrder K]

/-- `block_sum` of grouped matrices (lines 33-36). -/
noncomputable def blockSumGrouped (xs : SMap K DMat) : Outcome DMat := blockSum xs.values

/-- `block_accumulate` (lines 44-70). -/
noncomputable def blockAccumulate (b : Build) (lhs : SMap K X) (rhs : SMap K Y)
    (f : X → Y → Outcome DMat) : Outcome DMat := do
  albatrossAssert b (decide (lhs.length = rhs.length))
  albatrossAssert b (decide (lhs.length > 0))
  let blocks ← applySerial (fun key => do
    albatrossAssert b (lhs.contains key && rhs.contains key)
    let x ← lhs.at? key
    let y ← rhs.at? key
    f x y) lhs.keys
  blockSum blocks

/-- `block_product` (lines 72-94). -/
noncomputable def blockProductGrouped (b : Build) (lhs rhs : SMap K DMat) : Outcome DMat :=
  blockAccumulate b lhs rhs fun x y => x.mul y

/-- `block_inner_product` (lines 96-118). -/
noncomputable def blockInnerProduct (b : Build) (lhs rhs : SMap K DMat) : Outcome DMat :=
  blockAccumulate b lhs rhs fun x y => x.transpose.mul y

/-- `solve` of an LDLT decomposition with a matrix of any shape. -/
noncomputable def LdltBlock.solveDense (b : LdltBlock) (y : DMat) : Outcome DMat :=
  if y.rows = b.dim then
    .ok ⟨b.dim, y.cols, fun i j =>
      if h : i < b.dim ∧ j < y.cols then
        b.solve (of fun (k : Fin b.dim) (l : Fin y.cols) => y.get k l) ⟨i, h.1⟩ ⟨j, h.2⟩
      else 0⟩
  else .error .ub

/-- `block_diag_solve` with LDLT decompositions on the left (lines 120-142). -/
noncomputable def blockDiagSolve (lhs : SMap K LdltBlock) (rhs : SMap K DMat) : Outcome (SMap K DMat) :=
  applyMapSerial (fun key x => do
    let l ← lhs.at? key
    l.solveDense x) rhs

/-- `block_subtract` (lines 144-155). -/
noncomputable def blockSubtract (b : Build) (lhs rhs : SMap K DMat) : Outcome (SMap K DMat) := do
  albatrossAssert b (decide (lhs.length = rhs.length))
  applyMapSerial (fun key r => do
    let l ← lhs.at? key
    l.sub r) rhs

end grouped

end Albatross
