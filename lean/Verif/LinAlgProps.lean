import Verif.LinAlg
import Verif.AsyncProps
import Mathlib.Analysis.Matrix.LDL
import Mathlib.Analysis.Matrix.PosDef
import Mathlib.Analysis.Matrix.Order
import Mathlib.Algebra.Order.Star.Real
import Mathlib.Data.Matrix.ColumnRowPartitioned
import Mathlib.LinearAlgebra.Matrix.SchurComplement

/-! # Square roots, determinants and inverse blocks of LDLT decompositions (C32), block symmetric
solves (C31) and the other covariance representations -/

namespace Albatross

open Matrix

namespace Ldlt

variable {n q : Type} {F : Ldlt n} {A : Matrix n n ℝ}

theorem Factors.det_lower (h : F.Factors A) : F.lower.det = 1 := by
  rw [Matrix.det_of_isLowerTriangular F.lower fun i j hij => h.lowerTri i j hij]
  exact Finset.prod_eq_one fun i _ => h.unit i

theorem Factors.isUnit_lower (h : F.Factors A) : IsUnit F.lower.det := by
  rw [h.det_lower]; exact isUnit_one

theorem Factors.lower_mul_inv (h : F.Factors A) (B : Matrix (Fin F.size) q ℝ) :
    F.lower * (F.lower⁻¹ * B) = B := Matrix.mul_nonsing_inv_cancel_left _ _ h.isUnit_lower

theorem Factors.inv_mul_lower (h : F.Factors A) (B : Matrix (Fin F.size) q ℝ) :
    F.lower⁻¹ * (F.lower * B) = B := Matrix.nonsing_inv_mul_cancel_left _ _ h.isUnit_lower

theorem Factors.isUnit_lowerT (h : F.Factors A) : IsUnit (F.lowerᵀ).det := by
  rw [det_transpose]; exact h.isUnit_lower

theorem Factors.lowerT_mul_inv (h : F.Factors A) (B : Matrix (Fin F.size) q ℝ) :
    F.lowerᵀ * ((F.lowerᵀ)⁻¹ * B) = B := Matrix.mul_nonsing_inv_cancel_left _ _ h.isUnit_lowerT

theorem Factors.inv_mul_lowerT (h : F.Factors A) (B : Matrix (Fin F.size) q ℝ) :
    (F.lowerᵀ)⁻¹ * (F.lowerᵀ * B) = B := Matrix.nonsing_inv_mul_cancel_left _ _ h.isUnit_lowerT

theorem permute_unpermute (B : Matrix (Fin F.size) q ℝ) : F.permute (F.unpermute B) = B := by
  ext i j; simp [permute, unpermute]

theorem unpermute_permute (B : Matrix n q ℝ) : F.unpermute (F.permute B) = B := by
  ext i j; simp [permute, unpermute]

theorem unpermute_mul {k : Type} [Fintype k] (B : Matrix (Fin F.size) k ℝ) (C : Matrix k q ℝ) :
    F.unpermute B * C = F.unpermute (B * C) := by
  ext i j; simp [unpermute, Matrix.mul_apply]

theorem permute_mul {k : Type} [Fintype k] (B : Matrix n k ℝ) (C : Matrix k q ℝ) :
    F.permute B * C = F.permute (B * C) := by
  ext i j; simp [permute, Matrix.mul_apply]

theorem transpose_unpermute_mul [Fintype n] {k : Type} (B : Matrix (Fin F.size) k ℝ) (C : Matrix n q ℝ) :
    (F.unpermute B)ᵀ * C = Bᵀ * F.permute C := by
  ext i j
  simp only [unpermute, permute, Matrix.mul_apply, transpose_apply, submatrix_apply, id]
  exact F.perm.sum_comp (fun x => B x i * C (F.perm.symm x) j) ▸ by simp

theorem Factors.mul_eq [Fintype n] (h : F.Factors A) (B : Matrix n q ℝ) :
    A * B = F.unpermute (F.lower * (diagonal F.diag * (F.lowerᵀ * F.permute B))) := by
  have : A = F.unpermute (F.lower * diagonal F.diag) * (F.unpermute F.lower)ᵀ := by
    rw [h.factor]; ext i j
    simp [unpermute, Matrix.mul_apply]
  rw [this, Matrix.mul_assoc, transpose_unpermute_mul, unpermute_mul, Matrix.mul_assoc]

theorem Factors.core (h : F.Factors A) :
    A.submatrix F.perm.symm F.perm.symm = F.lower * diagonal F.diag * F.lowerᵀ := by
  rw [h.factor]; ext i j; simp

theorem Factors.posDef_iff [Fintype n] (h : F.Factors A) : A.PosDef ↔ ∀ i, 0 < F.diag i := by
  have h1 : A.PosDef ↔ (A.submatrix F.perm.symm F.perm.symm).PosDef := by
    refine ⟨fun hA => hA.submatrix F.perm.symm.injective, fun hA => ?_⟩
    have := hA.submatrix F.perm.injective
    simpa using this
  have hu : IsUnit F.lower := (Matrix.isUnit_iff_isUnit_det _).2 h.isUnit_lower
  rw [h1, h.core]
  have := Matrix.IsUnit.posDef_star_right_conjugate_iff (x := diagonal F.diag) hu
  rw [star_eq_conjTranspose, conjTranspose_eq_transpose_of_trivial] at this
  rw [this, posDef_diagonal_iff]

theorem Factors.posSemidef_iff [Fintype n] (h : F.Factors A) : A.PosSemidef ↔ ∀ i, 0 ≤ F.diag i := by
  have h1 : A.PosSemidef ↔ (A.submatrix F.perm.symm F.perm.symm).PosSemidef :=
    (posSemidef_submatrix_equiv F.perm.symm).symm
  have hu : IsUnit F.lower := (Matrix.isUnit_iff_isUnit_det _).2 h.isUnit_lower
  rw [h1, h.core]
  have := Matrix.IsUnit.posSemidef_star_right_conjugate_iff (x := diagonal F.diag) hu
  rw [star_eq_conjTranspose, conjTranspose_eq_transpose_of_trivial] at this
  rw [this, posSemidef_diagonal_iff]

theorem Factors.det_eq [Fintype n] [DecidableEq n] (h : F.Factors A) : A.det = ∏ i, F.diag i := by
  rw [h.factor, det_submatrix_equiv_self, det_mul, det_mul, det_transpose, h.det_lower, det_diagonal]
  ring

theorem Factors.symm (h : F.Factors A) : Aᵀ = A := by
  rw [h.factor, transpose_submatrix, transpose_mul, transpose_mul, transpose_transpose,
    diagonal_transpose, Matrix.mul_assoc]

/-- `solve` inverts `A` when the diagonal has no zero. -/
theorem Factors.mul_solve [Fintype n] (h : F.Factors A) (hd : ∀ i, F.diag i ≠ 0) (B : Matrix n q ℝ) :
    A * F.solve B = B := by
  rw [h.mul_eq, solve, permute_unpermute, h.lowerT_mul_inv, ← Matrix.mul_assoc (diagonal _),
    diagonal_mul_diagonal]
  have : (fun i => F.diag i * (if F.diag i = 0 then 0 else 1 / F.diag i)) = fun _ => 1 := by
    funext i; rw [if_neg (hd i)]; field_simp [hd i]
  rw [this, diagonal_one, Matrix.one_mul, h.lower_mul_inv, unpermute_permute]

theorem Factors.diag_ne [Fintype n] [DecidableEq n] (h : F.Factors A) (hA : IsUnit A.det) (i) : F.diag i ≠ 0 := by
  intro h0
  rw [h.det_eq, isUnit_iff_ne_zero] at hA
  exact hA (Finset.prod_eq_zero (Finset.mem_univ i) h0)

theorem Factors.represents [Fintype n] [DecidableEq n] (h : F.Factors A) (hA : IsUnit A.det) :
    F.solver.Represents A := by
  refine ⟨hA, fun q B => ?_⟩
  have := h.mul_solve (h.diag_ne hA) B
  change F.solve B = _
  rw [← this, Matrix.nonsing_inv_mul_cancel_left _ _ hA, this]

/-- Every positive definite matrix has such a decomposition (without permutation). -/
theorem exists_lower {m : Nat} {A : Matrix (Fin m) (Fin m) ℝ} (hA : A.PosDef) :
    ∃ (L : Matrix (Fin m) (Fin m) ℝ) (d : Fin m → ℝ), (∀ i, L i i = 1) ∧ (∀ i j, i < j → L i j = 0) ∧
      A = L * diagonal d * Lᵀ := by
  have hone : ∀ i, LDL.lowerInv hA i i = 1 := by
    intro i
    let := (Aᵀ.toNormedAddCommGroup hA.transpose)
    let := (Aᵀ.toInnerProductSpace hA.transpose.posSemidef)
    have hdef := InnerProductSpace.gramSchmidt_def ℝ (Pi.basisFun ℝ (Fin m)) i
    have : LDL.lowerInv hA i = InnerProductSpace.gramSchmidt ℝ (Pi.basisFun ℝ (Fin m)) i := rfl
    rw [this, hdef]
    simp only [Pi.sub_apply, Finset.sum_apply, Pi.basisFun_apply, Pi.single_eq_same]
    rw [Finset.sum_eq_zero, sub_zero]
    intro j hj
    rw [Submodule.starProjection_singleton, Pi.smul_apply]
    have := LDL.lowerInv_triangular hA (Finset.mem_Iio.1 hj)
    have h2 : InnerProductSpace.gramSchmidt ℝ (Pi.basisFun ℝ (Fin m)) j i = 0 := this
    rw [h2, smul_zero]
  have htri : (LDL.lowerInv hA).IsLowerTriangular := fun i j hij => LDL.lowerInv_triangular hA hij
  have htri' : (LDL.lower hA).IsLowerTriangular := by
    unfold LDL.lower
    exact Matrix.blockTriangular_inv_of_blockTriangular htri
  have hinv : LDL.lower hA * LDL.lowerInv hA = 1 := by
    unfold LDL.lower; exact Matrix.inv_mul_of_invertible _
  refine ⟨LDL.lower hA, LDL.diagEntries hA, fun i => ?_, fun i j hij => htri' hij, ?_⟩
  · have h1 := congrFun (congrFun hinv i) i
    rw [Matrix.mul_apply, Finset.sum_eq_single i, hone, mul_one, Matrix.one_apply_eq] at h1
    · exact h1
    · intro k _ hk
      rcases lt_or_gt_of_ne hk with h | h
      · rw [LDL.lowerInv_triangular hA h, mul_zero]
      · rw [show LDL.lower hA i k = 0 from htri' h, zero_mul]
    · simp
  · have := LDL.lower_conj_diag hA
    rw [conjTranspose_eq_transpose_of_trivial] at this
    simpa [LDL.diag] using this.symm

theorem exists_factors {m : Nat} {A : Matrix (Fin m) (Fin m) ℝ} (hA : A.PosDef) :
    ∃ F : Ldlt (Fin m), F.Factors A := by
  obtain ⟨L, d, h1, h2, h3⟩ := exists_lower hA
  exact ⟨⟨m, Equiv.refl _, L, d⟩, h1, h2, by simpa using h3⟩

theorem exists_factors' [Fintype n] (hA : A.PosDef) : ∃ F : Ldlt n, F.Factors A := by
  classical
  let e := Fintype.equivFin n
  obtain ⟨F, hF⟩ := exists_factors (hA.submatrix (e := e.symm) e.symm.injective)
  refine ⟨⟨F.size, e.trans F.perm, F.lower, F.diag⟩, hF.unit, hF.lowerTri, ?_⟩
  have := congrArg (fun M => M.submatrix e e) hF.factor
  simpa using this

/-- The square root all the `sqrt_*` functions use: `Pᵀ L D^{1/2}`. -/
noncomputable def root (F : Ldlt n) : Matrix n (Fin F.size) ℝ := F.unpermute (F.lower * diagonal F.diagonalSqrt)

theorem sqrtProduct_eq (rhs : Matrix (Fin F.size) q ℝ) : F.sqrtProduct rhs = F.root * rhs := by
  rw [sqrtProduct, root, unpermute_mul, Matrix.mul_assoc]

theorem sqrtTranspose_eq : F.sqrtTranspose = F.rootᵀ := by
  ext i j
  simp [sqrtTranspose, root, unpermute, mul_comm]

theorem sqrtSolve_eq (rhs : Matrix n q ℝ) :
    F.sqrtSolve rhs = diagonal F.diagonalSqrtInverse * (F.lower⁻¹ * F.permute rhs) := by
  ext i j; simp [sqrtSolve, mul_comm]

theorem Factors.root_mul [Fintype n] (h : F.Factors A) (hA : A.PosSemidef) : F.root * F.rootᵀ = A := by
  rw [root, unpermute_mul, Matrix.mul_assoc]
  have h2 : (F.unpermute (F.lower * diagonal F.diagonalSqrt))ᵀ
      = diagonal F.diagonalSqrt * (F.unpermute F.lower)ᵀ := by
    exact (sqrtTranspose_eq (F := F)).symm
  rw [h2, ← Matrix.mul_assoc (diagonal _), diagonal_mul_diagonal]
  have h3 : (fun i => F.diagonalSqrt i * F.diagonalSqrt i) = F.diag := by
    funext i
    unfold diagonalSqrt
    split
    · exact Real.mul_self_sqrt (le_of_lt ‹_›)
    · have := h.posSemidef_iff.1 hA i
      have : F.diag i = 0 := by linarith
      simp [this]
  rw [h3, h.factor]
  ext i j
  simp [unpermute, Matrix.mul_apply, mul_assoc]

theorem sqrt_cancel (F : Ldlt n) (hd : ∀ i, 0 < F.diag i) :
    diagonal F.diagonalSqrt * diagonal F.diagonalSqrtInverse = 1 ∧
    diagonal F.diagonalSqrtInverse * diagonal F.diagonalSqrt = 1 := by
  have h1 : (fun i => F.diagonalSqrt i * F.diagonalSqrtInverse i) = fun _ => 1 := by
    funext i
    have hp := Real.sqrt_pos.2 (hd i)
    simp only [diagonalSqrt, diagonalSqrtInverse, gt_iff_lt, hd i, if_true]
    field_simp
  constructor
  · rw [diagonal_mul_diagonal, h1, diagonal_one]
  · rw [diagonal_mul_diagonal, ← diagonal_one]
    congr 1; funext i; rw [mul_comm]; exact congrFun h1 i

theorem root_transpose_mul [Fintype n] (x : Matrix n q ℝ) :
    F.rootᵀ * x = diagonal F.diagonalSqrt * (F.lowerᵀ * F.permute x) := by
  rw [root, transpose_unpermute_mul, transpose_mul, diagonal_transpose, Matrix.mul_assoc]

theorem Factors.root_sqrtSolve [Fintype n] (h : F.Factors A) (hA : A.PosDef) (rhs : Matrix n q ℝ) :
    F.root * F.sqrtSolve rhs = rhs := by
  rw [sqrtSolve_eq, root, unpermute_mul, Matrix.mul_assoc, ← Matrix.mul_assoc (diagonal _),
    (F.sqrt_cancel (h.posDef_iff.1 hA)).1, Matrix.one_mul, h.lower_mul_inv, unpermute_permute]

theorem Factors.sqrtSolve_root [Fintype n] (h : F.Factors A) (hA : A.PosDef) (x : Matrix (Fin F.size) q ℝ) :
    F.sqrtSolve (F.root * x) = x := by
  rw [sqrtSolve_eq, root, unpermute_mul, permute_unpermute, Matrix.mul_assoc, h.inv_mul_lower,
    ← Matrix.mul_assoc, (F.sqrt_cancel (h.posDef_iff.1 hA)).2, Matrix.one_mul]

theorem Factors.rootT_sqrtTransposeSolve [Fintype n] (h : F.Factors A) (hA : A.PosDef)
    (rhs : Matrix (Fin F.size) q ℝ) : F.rootᵀ * F.sqrtTransposeSolve rhs = rhs := by
  rw [root_transpose_mul, sqrtTransposeSolve, permute_unpermute, h.lowerT_mul_inv, ← Matrix.mul_assoc,
    (F.sqrt_cancel (h.posDef_iff.1 hA)).1, Matrix.one_mul]

theorem Factors.sqrtTransposeSolve_rootT [Fintype n] (h : F.Factors A) (hA : A.PosDef)
    (x : Matrix n q ℝ) : F.sqrtTransposeSolve (F.rootᵀ * x) = x := by
  rw [root_transpose_mul, sqrtTransposeSolve, ← Matrix.mul_assoc (diagonal _),
    (F.sqrt_cancel (h.posDef_iff.1 hA)).2, Matrix.one_mul, h.inv_mul_lowerT, unpermute_permute]

theorem inverseCholesky_eq [DecidableEq n] : F.inverseCholesky = F.sqrtSolve (1 : Matrix n n ℝ) := by
  rw [sqrtSolve_eq, inverseCholesky]

theorem Factors.gram [Fintype n] [DecidableEq n] (h : F.Factors A) (hA : A.PosDef)
    {p : Type} (B : Matrix n p ℝ) (C : Matrix n q ℝ) :
    (F.sqrtSolve B)ᵀ * F.sqrtSolve C = Bᵀ * (A⁻¹ * C) := by
  have hu : IsUnit A.det := (Matrix.isUnit_iff_isUnit_det _).1 hA.isUnit
  have h1 : F.rootᵀ * (A⁻¹ * C) = F.sqrtSolve C := by
    have : F.root * (F.rootᵀ * (A⁻¹ * C)) = C := by
      rw [← Matrix.mul_assoc, h.root_mul hA.posSemidef, Matrix.mul_nonsing_inv_cancel_left _ _ hu]
    rw [← h.sqrtSolve_root hA (F.rootᵀ * (A⁻¹ * C)), this]
  rw [← h1, ← Matrix.mul_assoc, ← transpose_mul, h.root_sqrtSolve hA]

end Ldlt

/-! ## C32 -/

section C32
variable {n : Type} [Fintype n] (F : Ldlt n) (A : Matrix n n ℝ)

/-- C32: the four `sqrt_*` functions work with one square root `R` of the decomposed matrix:
`sqrt_product` multiplies by `R`, `sqrt_transpose` is `Rᵀ`, and the two solves invert `R` and `Rᵀ` on
both sides. -/
theorem C32_square_root (h : F.Factors A) (hA : A.PosDef) :
    ∃ R : Matrix n (Fin F.size) ℝ, R * Rᵀ = A ∧
      F.sqrtTranspose = Rᵀ ∧
      ∀ q : Type,
        (∀ rhs : Matrix (Fin F.size) q ℝ, F.sqrtProduct rhs = R * rhs) ∧
        (∀ rhs : Matrix n q ℝ, R * F.sqrtSolve rhs = rhs) ∧
        (∀ x : Matrix (Fin F.size) q ℝ, F.sqrtSolve (R * x) = x) ∧
        (∀ rhs : Matrix (Fin F.size) q ℝ, Rᵀ * F.sqrtTransposeSolve rhs = rhs) ∧
        (∀ x : Matrix n q ℝ, F.sqrtTransposeSolve (Rᵀ * x) = x) :=
  ⟨F.root, h.root_mul hA.posSemidef, Ldlt.sqrtTranspose_eq, fun _ =>
    ⟨fun _ => Ldlt.sqrtProduct_eq _, h.root_sqrtSolve hA, h.sqrtSolve_root hA,
      h.rootT_sqrtTransposeSolve hA, h.sqrtTransposeSolve_rootT hA⟩⟩

/-- C32, semi-definite matrices: `sqrt_product` still multiplies by a square root. -/
theorem C32_square_root_semidefinite (h : F.Factors A) (hA : A.PosSemidef) :
    F.sqrtTransposeᵀ * F.sqrtTranspose = A ∧
      ∀ (q : Type) (rhs : Matrix (Fin F.size) q ℝ), F.sqrtProduct rhs = F.sqrtTransposeᵀ * rhs := by
  rw [Ldlt.sqrtTranspose_eq, transpose_transpose]
  exact ⟨h.root_mul hA, fun _ _ => Ldlt.sqrtProduct_eq _⟩

/-- C32: `solve` solves. -/
theorem C32_solve [DecidableEq n] (h : F.Factors A) (hA : A.PosDef) {q : Type} (rhs : Matrix n q ℝ) :
    A * F.solve rhs = rhs ∧ F.solve rhs = A⁻¹ * rhs :=
  have hu : IsUnit A.det := (Matrix.isUnit_iff_isUnit_det _).1 hA.isUnit
  ⟨h.mul_solve (h.diag_ne hu) rhs, (h.represents hu).2 _ rhs⟩

/-- C32: for a singular positive semi-definite matrix `solve` still solves every consistent system. -/
theorem C32_solve_semidefinite (h : F.Factors A) {q : Type} (x : Matrix n q ℝ) :
    A * F.solve (A * x) = A * x := by
  rw [h.mul_eq x, h.mul_eq, Ldlt.solve, Ldlt.permute_unpermute, Ldlt.permute_unpermute,
    h.inv_mul_lower, h.lowerT_mul_inv]
  rw [← Matrix.mul_assoc (diagonal F.diag) (diagonal _) _, diagonal_mul_diagonal,
    ← Matrix.mul_assoc (diagonal _) (diagonal F.diag) _, diagonal_mul_diagonal]
  have : (fun i => (F.diag i * if F.diag i = 0 then 0 else 1 / F.diag i) * F.diag i) = F.diag := by
    funext i
    by_cases h0 : F.diag i = 0
    · simp [h0]
    · simp [h0]
  rw [this]

/-- C32: `log_determinant` is the logarithm of the determinant. -/
theorem C32_log_determinant [DecidableEq n] (h : F.Factors A) (hA : A.PosDef) :
    F.logDeterminant = Real.log A.det := by
  rw [h.det_eq, Real.log_prod fun i _ => ne_of_gt (h.posDef_iff.1 hA i), Ldlt.logDeterminant]

/-- C32: `is_positive_definite` decides positive definiteness of non-empty matrices. -/
theorem C32_is_positive_definite (h : F.Factors A) (hn : Nonempty n) :
    F.isPositiveDefinite = .ok (@decide A.PosDef (Classical.dec _)) := by
  have hs : F.size ≠ 0 := by
    intro h0
    obtain ⟨i⟩ := hn
    exact absurd (F.perm i).2 (by omega)
  unfold Ldlt.isPositiveDefinite
  rw [if_neg hs]
  congr 1
  simp only [decide_eq_decide]
  exact h.posDef_iff.symm

end C32

section C32blocks
variable {m : Nat} (F : Ldlt (Fin m)) (A : Matrix (Fin m) (Fin m) ℝ)

/-- The block of a matrix at a list of positions, which may repeat or be in any order. -/
def blockAt (M : Matrix (Fin m) (Fin m) ℝ) (idx : List (Fin m)) : SqBlock :=
  ⟨idx.length, M.submatrix idx.get idx.get⟩

theorem columnIndices_ok (idx : List (Fin m)) : columnIndices m (idx.map (·.1)) = .ok idx := by
  rw [columnIndices]
  apply (mapM_ok_iff _ _ _).2
  simp [Function.comp_def]

theorem inverseBlock_eq (h : F.Factors A) (hA : A.PosDef) (idx : List (Fin m)) :
    F.inverseBlock (idx.map (·.1)) = .ok (blockAt A⁻¹ idx) := by
  rw [Ldlt.inverseBlock, columnIndices_ok]
  simp only [bind, Except.bind, pure, Except.pure, gramBlock, blockAt]
  congr 2
  have := h.gram hA (1 : Matrix (Fin m) (Fin m) ℝ) (1 : Matrix (Fin m) (Fin m) ℝ)
  rw [Matrix.mul_one, transpose_one, Matrix.one_mul, ← Ldlt.inverseCholesky_eq] at this
  rw [← this]
  ext i j
  simp [Matrix.mul_apply]

/-- C32: `inverse_blocks` returns the requested blocks of `A⁻¹` (without a pool). -/
theorem C32_inverse_blocks (h : F.Factors A) (hA : A.PosDef) (blocks : List (List (Fin m))) :
    F.inverseBlocks (blocks.map fun idx => idx.map (·.1)) = .ok (blocks.map (blockAt A⁻¹)) := by
  rw [Ldlt.inverseBlocks, applySerial]
  apply (mapM_ok_iff _ _ _).2
  simp only [List.map_map]
  apply List.map_congr_left
  intro idx _
  exact inverseBlock_eq F A h hA idx

/-- C32: with a pool the call returns the same blocks whatever the schedule. -/
theorem C32_inverse_blocks_pool (h : F.Factors A) (hA : A.PosDef) (blocks : List (List (Fin m)))
    (T : Nat) (mem : Unit → Unit) (s : PoolState Unit Unit Fault SqBlock)
    (hs : PoolReach (F.inverseBlocksCall (blocks.map fun idx => idx.map (·.1)) T) mem s)
    (r : Outcome (List SqBlock)) (hr : s.outcome = some r) : r = .ok (blocks.map (blockAt A⁻¹)) := by
  rw [C17_apply_serial _ _ T mem s hs r hr]
  exact C32_inverse_blocks F A h hA blocks

/-- A loop writing `f i` to position `i` for `i = 0, 1, …`. -/
theorem foldlM_vecSet_range {α : Type} {g : Fin m → α} {f : Nat → Outcome α} (hf : ∀ i : Fin m, f i = .ok (g i))
    (out : List α) (ho : out.length = m) (k : Nat) (hk : k ≤ m) :
    (List.range k).foldlM (fun out i => do let v ← f i; vecSet out i v) out =
      .ok ((List.ofFn g).take k ++ out.drop k) := by
  induction k with
  | zero => simp [pure, Except.pure]
  | succ k ih =>
    rw [List.range_succ, List.foldlM_append, ih (by omega)]
    have hfk := hf ⟨k, by omega⟩
    simp only at hfk
    simp only [bind, Except.bind, List.foldlM_cons, List.foldlM_nil, hfk, vecSet]
    rw [if_pos (by simp; omega)]
    simp only [pure, Except.pure, Except.ok.injEq]
    have hl : (List.take k (List.ofFn g)).length = k := by simp; omega
    rw [List.set_append_right _ _ (by omega), hl, Nat.sub_self, List.drop_eq_getElem_cons (by omega),
      List.set_cons_zero, List.take_add_one]
    have : (List.ofFn g)[k]? = some (g ⟨k, by omega⟩) := by simp [List.getElem?_ofFn]; omega
    rw [this]; simp

/-- C32: `inverse_diagonal` is the diagonal of `A⁻¹`, whatever the result vector held before. -/
theorem C32_inverse_diagonal (b : Build) (h : F.Factors A) (hA : A.PosDef) (uninit : List ℝ)
    (hu : uninit.length = m) : F.inverseDiagonal b uninit = .ok (List.ofFn fun i => A⁻¹ i i) := by
  have hb : F.inverseBlocks ((List.range m).map fun i => [i]) =
      .ok ((List.finRange m).map fun i => blockAt A⁻¹ [i]) := by
    have := C32_inverse_blocks F A h hA ((List.finRange m).map fun i => [i])
    rw [List.map_map, List.map_map] at this
    rw [← List.map_coe_finRange_eq_range, List.map_map]
    exact this
  rw [Ldlt.inverseDiagonal, hb]
  simp only [bind, Except.bind]
  have key := foldlM_vecSet_range (m := m) (g := fun i => A⁻¹ i i)
    (f := fun i => do
      let blk ← vecGet ((List.finRange m).map fun i => blockAt A⁻¹ [i]) i
      albatrossAssert b (blk.dim == 1)
      if h : 0 < blk.dim then Except.ok (blk.mat ⟨0, h⟩ ⟨0, h⟩) else .error .ub) (by
    intro i
    have : vecGet ((List.finRange m).map fun i => blockAt A⁻¹ [i]) i.1 = .ok (blockAt A⁻¹ [i]) := by
      apply vecGet_ok.2
      simp
    rw [this]
    simp only [bind, Except.bind, blockAt, List.length_singleton, beq_self_eq_true]
    cases b <;> simp [albatrossAssert]) uninit hu m le_rfl
  simp only [List.drop_of_length_le (le_of_eq hu), List.append_nil] at key
  rw [show (List.ofFn fun i => A⁻¹ i i) = (List.ofFn fun i => A⁻¹ i i).take m by
    rw [List.take_of_length_le (by simp)], ← key]
  congr 1
  funext out i
  simp only [bind, Except.bind]
  cases vecGet ((List.finRange m).map fun i => blockAt A⁻¹ [i]) i with
  | error e => rfl
  | ok blk =>
    simp only
    cases albatrossAssert b (blk.dim == 1) with
    | error e => rfl
    | ok u => by_cases h0 : 0 < blk.dim <;> simp [h0]

/-- The hypotheses of C32 are met: a 2 × 2 positive definite matrix which is not diagonal, decomposed
with pivoting (the larger diagonal entry first). -/
example : ∃ (A : Matrix (Fin 2) (Fin 2) ℝ) (F : Ldlt (Fin 2)), A = !![1, 1; 1, 2] ∧
    (F.perm 0 : Nat) = 1 ∧ F.Factors A ∧ A.PosDef := by
  have hF : Ldlt.Factors ⟨2, Equiv.swap 0 1, !![1, 0; 1 / 2, 1], ![2, 1 / 2]⟩
      (!![1, 1; 1, 2] : Matrix (Fin 2) (Fin 2) ℝ) := by
    refine ⟨?_, ?_, ?_⟩
    · intro i; fin_cases i <;> simp
    · intro i j h; fin_cases i <;> fin_cases j <;> simp_all
    · have h1 : (!![1, 0; 1 / 2, 1] : Matrix (Fin 2) (Fin 2) ℝ) * diagonal ![2, 1 / 2] *
          (!![1, 0; 1 / 2, 1])ᵀ = !![2, 1; 1, 1] := by
        have : (diagonal ![2, 1 / 2] : Matrix (Fin 2) (Fin 2) ℝ) = !![2, 0; 0, 1 / 2] := by
          ext i j; fin_cases i <;> fin_cases j <;> simp
        rw [this]
        ext i j; fin_cases i <;> fin_cases j <;> norm_num [Matrix.mul_apply, Fin.sum_univ_two]
      simp only [h1]
      ext i j; fin_cases i <;> fin_cases j <;> simp
  refine ⟨_, _, rfl, by simp, hF, hF.posDef_iff.2 fun i => ?_⟩
  change Fin 2 at i
  fin_cases i <;> norm_num

/-- And a decomposition exists for every positive definite matrix. -/
theorem C32_decomposition_exists {n : Type} [Fintype n] {A : Matrix n n ℝ} (hA : A.PosDef) :
    ∃ F : Ldlt n, F.Factors A := Ldlt.exists_factors' hA

/-- A decomposition routine meeting the contract on all positive definite matrices. -/
theorem exists_ldlt (n : Type) [Fintype n] :
    ∃ ldlt : Matrix n n ℝ → Ldlt n, ∀ M, M.PosDef → (ldlt M).Factors M := by
  classical
  obtain ⟨F, -⟩ := C32_decomposition_exists (Matrix.PosDef.one (n := n) (R := ℝ))
  refine ⟨fun M => if h : M.PosDef then (C32_decomposition_exists h).choose else F, fun M h => ?_⟩
  simp only [h, dif_pos]
  exact (C32_decomposition_exists h).choose_spec

end C32blocks

/-! ## C31 -/

section C31
variable {m n : Type} [Fintype m] [DecidableEq m] [Fintype n] [DecidableEq n]

theorem BlockSymmetric.solve_spec {A : Matrix m m ℝ} {B : Matrix m n ℝ} {C : Matrix n n ℝ}
    (hAs : Aᵀ = A) {SA : Solver m} (hA : SA.Represents A) {F : Ldlt n}
    (hF : F.Factors (C - Bᵀ * A⁻¹ * B)) (hS : IsUnit (C - Bᵀ * A⁻¹ * B).det)
    {q : Type} (rhs : Matrix (m ⊕ n) q ℝ) :
    fromBlocks A B Bᵀ C * BlockSymmetric.solve ⟨SA, A⁻¹ * B, F⟩ rhs = rhs := by
  have hFs := (hF.represents hS).2
  set S := C - Bᵀ * A⁻¹ * B with hSdef
  have hC : C = S + Bᵀ * A⁻¹ * B := by rw [hSdef]; abel
  set ra : Matrix m q ℝ := rhs.submatrix Sum.inl id with hra
  set rb : Matrix n q ℝ := rhs.submatrix Sum.inr id with hrb
  have hAi : (A⁻¹)ᵀ = A⁻¹ := by rw [transpose_nonsing_inv, hAs]
  have e1 : ∀ M : Matrix n q ℝ, F.solve M = S⁻¹ * M := fun M => hFs _ M
  have hsplit : BlockSymmetric.solve ⟨SA, A⁻¹ * B, F⟩ rhs =
      fromRows (A⁻¹ * ra + A⁻¹ * B * (S⁻¹ * (Bᵀ * A⁻¹ * ra) - S⁻¹ * rb))
        (S⁻¹ * rb - S⁻¹ * (Bᵀ * A⁻¹ * ra)) := by
    ext i j
    cases i with
    | inl i => simp only [BlockSymmetric.solve, of_apply, fromRows_apply_inl, hA.2, e1, transpose_mul,
        hAi, ← hra, ← hrb]
    | inr i => simp only [BlockSymmetric.solve, of_apply, fromRows_apply_inr, e1, transpose_mul,
        hAi, ← hra, ← hrb]
  have hr : rhs = fromRows ra rb := by
    ext i j; cases i <;> rfl
  rw [hsplit, fromBlocks_mul_fromRows]
  conv_rhs => rw [hr]
  have hAA : ∀ M : Matrix m q ℝ, A * (A⁻¹ * M) = M := fun M => Matrix.mul_nonsing_inv_cancel_left _ _ hA.1
  have hSS : ∀ M : Matrix n q ℝ, S * (S⁻¹ * M) = M := fun M => Matrix.mul_nonsing_inv_cancel_left _ _ hS
  congr 1
  · simp only [Matrix.mul_add, Matrix.mul_sub, Matrix.mul_assoc, hAA]
    abel
  · rw [hC]
    simp only [Matrix.mul_add, Matrix.mul_sub, Matrix.add_mul, Matrix.mul_assoc, hSS]
    abel

theorem isUnit_det_of_right_inverse {k : Type} [Fintype k] [DecidableEq k] {M N : Matrix k k ℝ}
    (h : M * N = 1) : IsUnit M.det := by
  have := congrArg Matrix.det h
  rw [det_mul, det_one] at this
  exact IsUnit.of_mul_eq_one _ this

theorem Solver.represents_of_mul_solve {k : Type} [Fintype k] [DecidableEq k] {S : Solver k}
    {M : Matrix k k ℝ} (h : ∀ (q : Type) (B : Matrix k q ℝ), M * S.solve B = B) : S.Represents M := by
  have hu : IsUnit M.det := isUnit_det_of_right_inverse (h k 1)
  refine ⟨hu, fun q B => ?_⟩
  have := h q B
  conv_rhs => rw [← this]
  rw [Matrix.nonsing_inv_mul_cancel_left _ _ hu]

theorem Solver.Represents.mul_solve {k q : Type} [Fintype k] [DecidableEq k] {S : Solver k}
    {M : Matrix k k ℝ} (h : S.Represents M) (B : Matrix k q ℝ) : M * S.solve B = B := by
  rw [h.2, Matrix.mul_nonsing_inv_cancel_left _ _ h.1]

theorem Solver.Represents.solveVec {k : Type} [Fintype k] [DecidableEq k] {S : Solver k}
    {M : Matrix k k ℝ} (h : S.Represents M) (v : k → ℝ) : S.solveVec v = M⁻¹ *ᵥ v := by
  funext i
  simp [Solver.solveVec, h.2, Matrix.mul_apply, mulVec, dotProduct]

theorem BlockSymmetric.ofSchur_represents {A : Matrix m m ℝ} {B : Matrix m n ℝ} {C : Matrix n n ℝ}
    (hAs : Aᵀ = A) {SA : Solver m} (hA : SA.Represents A) {F : Ldlt n}
    (hF : F.Factors (C - Bᵀ * A⁻¹ * B)) (hS : IsUnit (C - Bᵀ * A⁻¹ * B).det) :
    (BlockSymmetric.ofSchur SA B F).solver.Represents (fromBlocks A B Bᵀ C) := by
  apply Solver.represents_of_mul_solve
  intro q rhs
  rw [BlockSymmetric.ofSchur, hA.2]
  exact BlockSymmetric.solve_spec hAs hA hF hS rhs

/-- C31, constructor from the Schur complement: if `A` is symmetric and represented by `SA`, and `F` is
the decomposition of the invertible `C - Bᵀ A⁻¹ B`, then `solve` solves the full block system (and the
full matrix is invertible, so the solution is the only one). -/
theorem C31_block_symmetric_from_schur (A : Matrix m m ℝ) (B : Matrix m n ℝ) (C : Matrix n n ℝ)
    (hAs : Aᵀ = A) (SA : Solver m) (hA : SA.Represents A) (F : Ldlt n)
    (hF : F.Factors (C - Bᵀ * A⁻¹ * B)) (hS : IsUnit (C - Bᵀ * A⁻¹ * B).det)
    {q : Type} (rhs x : Matrix (m ⊕ n) q ℝ) :
    fromBlocks A B Bᵀ C * x = rhs ↔ x = (BlockSymmetric.ofSchur SA B F).solve rhs := by
  have hr := BlockSymmetric.ofSchur_represents hAs hA hF hS
  constructor
  · rintro rfl
    have := hr.2 _ (fromBlocks A B Bᵀ C * x)
    rw [Matrix.nonsing_inv_mul_cancel_left _ _ hr.1] at this
    exact this.symm
  · rintro rfl
    exact hr.mul_solve rhs

/-- C31, constructor from the lower right block. -/
theorem C31_block_symmetric_from_block (A : Matrix m m ℝ) (B : Matrix m n ℝ) (C : Matrix n n ℝ)
    (hAs : Aᵀ = A) (SA : Solver m) (hA : SA.Represents A) (ldlt : Matrix n n ℝ → Ldlt n)
    (hF : (ldlt (C - Bᵀ * A⁻¹ * B)).Factors (C - Bᵀ * A⁻¹ * B)) (hS : IsUnit (C - Bᵀ * A⁻¹ * B).det)
    {q : Type} (rhs x : Matrix (m ⊕ n) q ℝ) :
    fromBlocks A B Bᵀ C * x = rhs ↔ x = (BlockSymmetric.ofBlock ldlt SA B C).solve rhs := by
  rw [C31_block_symmetric_from_schur A B C hAs SA hA _ hF hS, BlockSymmetric.ofBlock,
    BlockSymmetric.ofSchur, hA.2, Matrix.mul_assoc]

/-- C31: a positive definite block matrix meets the hypotheses: its corner and Schur complement are
invertible and decomposable. -/
theorem C31_positive_definite_applies (A : Matrix m m ℝ) (B : Matrix m n ℝ) (C : Matrix n n ℝ)
    (h : (fromBlocks A B Bᵀ C).PosDef) :
    Aᵀ = A ∧ (∃ SA : Solver m, SA.Represents A) ∧ IsUnit (C - Bᵀ * A⁻¹ * B).det ∧
      ∃ F : Ldlt n, F.Factors (C - Bᵀ * A⁻¹ * B) := by
  have hA : A.PosDef := by
    have := h.submatrix (e := (Sum.inl : m → m ⊕ n)) Sum.inl_injective
    exact this
  have hAu : IsUnit A.det := (Matrix.isUnit_iff_isUnit_det _).1 hA.isUnit
  have hAs : Aᵀ = A := by
    have := hA.isHermitian.eq
    rwa [conjTranspose_eq_transpose_of_trivial] at this
  let := Matrix.invertibleOfIsUnitDet A hAu
  have hpsd : (C - Bᵀ * A⁻¹ * B).PosSemidef := by
    have := (PosDef.fromBlocks₁₁ B C hA).1 (by
      rw [conjTranspose_eq_transpose_of_trivial]; exact h.posSemidef)
    rwa [conjTranspose_eq_transpose_of_trivial] at this
  have hdet : IsUnit (C - Bᵀ * A⁻¹ * B).det := by
    have h1 := (Matrix.isUnit_iff_isUnit_det _).1 h.isUnit
    rw [det_fromBlocks₁₁, invOf_eq_nonsing_inv] at h1
    exact isUnit_of_mul_isUnit_right h1
  have hpd : (C - Bᵀ * A⁻¹ * B).PosDef := hpsd.posDef_iff_isUnit.2 ((Matrix.isUnit_iff_isUnit_det _).2 hdet)
  obtain ⟨F, hF⟩ := Ldlt.exists_factors' hA
  exact ⟨hAs, ⟨F.solver, hF.represents hAu⟩, hdet, Ldlt.exists_factors' hpd⟩

/-- `ExplainedCovariance(outer, inner)` represents `outer inner⁻¹ outer`. -/
theorem C31_explained_covariance (outer inner : Matrix n n ℝ) (F : Ldlt n) (hF : F.Factors outer)
    (ho : IsUnit outer.det) (hi : IsUnit inner.det) :
    (ExplainedCovariance.solver ⟨F, inner⟩).Represents (outer * inner⁻¹ * outer) := by
  have hr := hF.represents ho
  apply Solver.represents_of_mul_solve
  intro q B
  change outer * inner⁻¹ * outer * F.solver.solve (inner * F.solver.solve B) = B
  rw [Matrix.mul_assoc, hr.mul_solve, Matrix.mul_assoc, Matrix.nonsing_inv_mul_cancel_left _ _ hi,
    hr.mul_solve]

/-- `DirectInverse(A⁻¹)` represents `A`. -/
theorem C31_direct_inverse (A : Matrix n n ℝ) (hA : IsUnit A.det) :
    (DirectInverse.solver ⟨A⁻¹⟩).Represents A := ⟨hA, fun _ _ => rfl⟩

/-- The hypotheses of C31 are met by a 2 × 2 system split in two 1 × 1 blocks with nonzero
off-diagonal block. -/
example : (fromBlocks !![(2 : ℝ)] !![1] (!![1])ᵀ !![2] : Matrix (Fin 1 ⊕ Fin 1) _ ℝ).PosDef := by
  refine PosDef.of_dotProduct_mulVec_pos ?_ ?_
  · ext i j; cases i <;> cases j <;> simp
  · intro x hx
    simp [dotProduct, mulVec, Fintype.sum_sum_type]
    by_contra hc
    apply hx
    have h1 := sq_nonneg (x (Sum.inl 0) + x (Sum.inr 0))
    have h2 := sq_nonneg (x (Sum.inl 0))
    have h3 := sq_nonneg (x (Sum.inr 0))
    have h4 : x (Sum.inl 0) = 0 := by nlinarith
    have h5 : x (Sum.inr 0) = 0 := by nlinarith
    funext i
    rcases i with i | i <;> fin_cases i <;> simpa

end C31
end Albatross
