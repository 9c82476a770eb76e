import Verif.LinAlg

/-! # Model of linalg/block_diagonal.hpp

Blocks are square.  Eigen matrices whose size is only known at run time are `DMat`; reading or writing
a block which does not fit is undefined behaviour (an `eigen_assert`). -/

namespace Albatross

open Matrix

/-- An `Eigen::MatrixXd`. -/
structure DMat where
  rows : Nat
  cols : Nat
  get : Nat → Nat → ℝ

/-- `A.block(i, 0, r, A.cols())`. -/
def DMat.rowBlock (A : DMat) (i r : Nat) : Outcome (Matrix (Fin r) (Fin A.cols) ℝ) :=
  if i + r ≤ A.rows then .ok (of fun k j => A.get (i + k) j) else .error .ub

/-- `A.block(i, j, r, c) = M`. -/
def DMat.setBlock (A : DMat) (i j : Nat) {r c : Nat} (M : Matrix (Fin r) (Fin c) ℝ) : Outcome DMat :=
  if i + r ≤ A.rows ∧ j + c ≤ A.cols then
    .ok ⟨A.rows, A.cols, fun a b =>
      if h : (i ≤ a ∧ a < i + r) ∧ j ≤ b ∧ b < j + c then M ⟨a - i, by omega⟩ ⟨b - j, by omega⟩
      else A.get a b⟩
  else .error .ub

/-- A block of a `BlockDiagonalLDLT` (linalg/block_diagonal.hpp lines 24-26). -/
structure LdltBlock where
  dim : Nat
  factors : Ldlt (Fin dim)

theorem LdltBlock.size_eq (b : LdltBlock) : b.factors.size = b.dim := by
  have := Fintype.card_congr b.factors.perm
  simpa using this.symm

/-- `b.solve(chunk)`. -/
noncomputable def LdltBlock.solve (b : LdltBlock) {c : Nat} (chunk : Matrix (Fin b.dim) (Fin c) ℝ) :
    Matrix (Fin b.dim) (Fin c) ℝ := b.factors.solve chunk

/-- `b.sqrt_solve(chunk)`. -/
noncomputable def LdltBlock.sqrtSolve (b : LdltBlock) {c : Nat} (chunk : Matrix (Fin b.dim) (Fin c) ℝ) :
    Matrix (Fin b.dim) (Fin c) ℝ := (b.factors.sqrtSolve chunk).submatrix (Fin.cast b.size_eq.symm) id

/-- The loop over the blocks shared by `solve`, `sqrt_solve` (lines 96-121, 123-137, 149-163) and
`operator*` (lines 254-268): `i` is the first row of the current block. -/
def blockRowLoop {β : Type} (dim : β → Nat)
    (f : (b : β) → {c : Nat} → Matrix (Fin (dim b)) (Fin c) ℝ → Matrix (Fin (dim b)) (Fin c) ℝ)
    (rhs : DMat) (blocks : List β) (output : DMat) : Outcome DMat := do
  let st ← blocks.foldlM (fun (st : Nat × DMat) b => do
    let chunk ← rhs.rowBlock st.1 (dim b)
    let out ← st.2.setBlock st.1 0 (f b chunk)
    pure (st.1 + dim b, out)) (0, output)
  pure st.2

/-- `rows()` and `cols()` (lines 231-245, 315-329). -/
def blockRows {β : Type} (dim : β → Nat) (blocks : List β) : Nat := blocks.foldl (fun n b => n + dim b) 0

/-- `BlockDiagonalLDLT::solve` (lines 96-107, 123-147); `uninit` is the content of the freshly
allocated output. -/
noncomputable def blockLdltSolve (b : Build) (uninit : Nat → Nat → ℝ) (blocks : List LdltBlock) (rhs : DMat) :
    Outcome DMat := do
  albatrossAssert b (decide (blockRows LdltBlock.dim blocks = rhs.rows))
  blockRowLoop LdltBlock.dim LdltBlock.solve rhs blocks
    ⟨blockRows LdltBlock.dim blocks, rhs.cols, uninit⟩

/-- `BlockDiagonalLDLT::sqrt_solve` (lines 109-121, 149-163). -/
noncomputable def blockLdltSqrtSolve (b : Build) (uninit : Nat → Nat → ℝ) (blocks : List LdltBlock) (rhs : DMat) :
    Outcome DMat := do
  albatrossAssert b (decide (blockRows LdltBlock.dim blocks = rhs.rows))
  blockRowLoop LdltBlock.dim LdltBlock.sqrtSolve rhs blocks
    ⟨blockRows LdltBlock.dim blocks, rhs.cols, uninit⟩

/-- `block_to_row_map` (lines 165-177). -/
def blockToRowMap {β : Type} (b : Build) (dim : β → Nat) (blocks : List β) : Outcome (SMap Nat Nat) := do
  let st := blocks.zipIdx.foldl (fun (st : Nat × SMap Nat Nat) bi =>
    (st.1 + dim bi.1, st.2.put bi.2 st.1)) (0, [])
  albatrossAssert b (decide (st.1 = blockRows dim blocks))
  pure st.2

/-- `solve_and_fill_one_block` (lines 185-189, 201-205): the entries it writes to `output`, row by row,
and its result. -/
noncomputable def fillOneBlock {β : Type} (dim : β → Nat)
    (f : (b : β) → {c : Nat} → Matrix (Fin (dim b)) (Fin c) ℝ → Matrix (Fin (dim b)) (Fin c) ℝ)
    (rhs : DMat) (outRows : Nat) (blocks : List β) (iRow : Nat × Nat) : PoolTask (Nat × Nat) ℝ Fault Unit :=
  match blocks[iRow.1]? with
  | none => ⟨[], .error .ub⟩
  | some b =>
    match rhs.rowBlock iRow.2 (dim b) with
    | .error e => ⟨[], .error e⟩
    | .ok chunk =>
      if iRow.2 + dim b ≤ outRows then
        ⟨(List.finRange (dim b)).flatMap fun r : Fin (dim b) =>
          (List.finRange rhs.cols).map fun c : Fin rhs.cols => ((iRow.2 + r.1, c.1), f b chunk r c), .ok ()⟩
      else ⟨[], .error .ub⟩

/-- The pooled `apply_map` of `solve` and `sqrt_solve` with a pool (lines 179-210, utils/async_utils.hpp
lines 136-151): one task per entry of the map. -/
noncomputable def blockRowCall {β : Type} (dim : β → Nat)
    (f : (b : β) → {c : Nat} → Matrix (Fin (dim b)) (Fin c) ℝ → Matrix (Fin (dim b)) (Fin c) ℝ)
    (rhs : DMat) (outRows : Nat) (blocks : List β) (rowMap : SMap Nat Nat) (threads : Nat) :
    PoolCall (Nat × Nat) ℝ Fault Unit :=
  applyVectorCall (fillOneBlock dim f rhs outRows blocks) rowMap threads

/-- `BlockDiagonalLDLT::log_determinant` (lines 212-218). -/
noncomputable def blockLogDeterminant (blocks : List LdltBlock) : ℝ :=
  blocks.foldl (fun out b => out + b.factors.logDeterminant) 0

/-- `BlockDiagonal::operator*` (lines 254-268). -/
noncomputable def blockProduct (b : Build) (blocks : List SqBlock) (rhs : DMat) : Outcome DMat := do
  albatrossAssert b (decide (blockRows SqBlock.dim blocks = rhs.rows))
  blockRowLoop SqBlock.dim (fun b _ chunk => b.mat * chunk) rhs blocks
    ⟨blockRows SqBlock.dim blocks, rhs.cols, fun _ _ => 0⟩

/-- `a - b` for two Eigen matrices; different shapes are an `eigen_assert`. -/
def SqBlock.sub (a b : SqBlock) : Outcome SqBlock :=
  if h : b.dim = a.dim then
    .ok ⟨a.dim, a.mat - b.mat.submatrix (Fin.cast h.symm) (Fin.cast h.symm)⟩
  else .error .ub

/-- `BlockDiagonal::operator-` (lines 270-280). -/
noncomputable def blockDifference (b : Build) (lhs rhs : List SqBlock) : Outcome (List SqBlock) := do
  albatrossAssert b (decide (blockRows SqBlock.dim lhs = blockRows SqBlock.dim rhs))
  albatrossAssert b (decide (lhs.length = rhs.length))
  (List.range lhs.length).foldlM (fun out i => do
    let x ← vecGet lhs i
    let y ← vecGet rhs i
    albatrossAssert b (decide (x.dim * x.dim = y.dim * y.dim))
    let d ← x.sub y
    pure (out ++ [d])) []

/-- `BlockDiagonal::toDense` (lines 282-293). -/
def blockToDense (blocks : List SqBlock) : Outcome DMat := do
  let n := blockRows SqBlock.dim blocks
  let st ← blocks.foldlM (fun (st : Nat × DMat) b => do
    let out ← st.2.setBlock st.1 st.1 b.mat
    pure (st.1 + b.dim, out)) (0, (⟨n, n, fun _ _ => 0⟩ : DMat))
  pure st.2

/-- `BlockDiagonal::diagonal` (lines 295-305). -/
def blockDiagonalVector (uninit : Nat → Nat → ℝ) (blocks : List SqBlock) : Outcome DMat := do
  let st ← blocks.foldlM (fun (st : Nat × DMat) b => do
    let out ← st.2.setBlock st.1 0 (of fun (i : Fin b.dim) (_ : Fin 1) => b.mat i i)
    pure (st.1 + b.dim, out)) (0, (⟨blockRows SqBlock.dim blocks, 1, uninit⟩ : DMat))
  pure st.2

/-- `BlockDiagonal::ldlt` (lines 307-313); `ldlt` is the decomposition routine. -/
def blockLdlt (ldlt : (d : Nat) → Matrix (Fin d) (Fin d) ℝ → Ldlt (Fin d)) (blocks : List SqBlock) :
    List LdltBlock := blocks.foldl (fun out b => out ++ [⟨b.dim, ldlt b.dim b.mat⟩]) []

end Albatross
