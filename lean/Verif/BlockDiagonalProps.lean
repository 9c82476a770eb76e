import Verif.BlockDiagonal
import Verif.GpProps
import Verif.CovMatrixProps
import Mathlib.LinearAlgebra.Matrix.SchurComplement
import Mathlib.Logic.Equiv.Fin.Basic

/-! # C33: block diagonal matrices behave like the dense block diagonal matrix -/

namespace Albatross

open Matrix

/-! ## Specification -/

/-- Number of rows of the block diagonal matrix. -/
def stackedDim {β : Type} (dim : β → Nat) : List β → Nat
  | [] => 0
  | b :: bs => dim b + stackedDim dim bs

/-- Rows of the first block come first, then the rows of the remaining blocks. -/
def stackEquiv {β : Type} (dim : β → Nat) (b : β) (bs : List β) :
    Fin (dim b) ⊕ Fin (stackedDim dim bs) ≃ Fin (stackedDim dim (b :: bs)) := finSumFinEquiv

/-- The dense block diagonal matrix: `[[G b, 0], [0, rest]]` for every block `b` followed by the rest. -/
def blockDiagSpec {β : Type} (dim : β → Nat) (G : (b : β) → Matrix (Fin (dim b)) (Fin (dim b)) ℝ) :
    (bs : List β) → Matrix (Fin (stackedDim dim bs)) (Fin (stackedDim dim bs)) ℝ
  | [] => 0
  | b :: bs =>
    (fromBlocks (G b) 0 0 (blockDiagSpec dim G bs)).submatrix (stackEquiv dim b bs).symm (stackEquiv dim b bs).symm

/-- The dense matrix with the given diagonal blocks. -/
def denseSpec (bs : List SqBlock) :
    Matrix (Fin (stackedDim SqBlock.dim bs)) (Fin (stackedDim SqBlock.dim bs)) ℝ :=
  blockDiagSpec SqBlock.dim SqBlock.mat bs

/-- The content of an Eigen matrix with `n` rows and `m` columns. -/
def DMat.mat (A : DMat) (n m : Nat) : Matrix (Fin n) (Fin m) ℝ := of fun i j => A.get i j

/-- `A` has `n` rows, `m` columns and content `M`. -/
def DMat.Is (A : DMat) {n m : Nat} (M : Matrix (Fin n) (Fin m) ℝ) : Prop :=
  A.rows = n ∧ A.cols = m ∧ ∀ (i : Fin n) (j : Fin m), A.get i j = M i j

/-! ## The row loop -/

theorem blockRows_eq {β : Type} (dim : β → Nat) (bs : List β) : blockRows dim bs = stackedDim dim bs := by
  have : ∀ n, bs.foldl (fun n b => n + dim b) n = n + stackedDim dim bs := by
    induction bs with
    | nil => intro n; rfl
    | cons b bs ih => intro n; rw [List.foldl_cons, ih, stackedDim]; omega
  rw [blockRows, this]; omega

theorem DMat.setBlock_ok {A : DMat} {i j r c : Nat} (M : Matrix (Fin r) (Fin c) ℝ)
    (h1 : i + r ≤ A.rows) (h2 : j + c ≤ A.cols) :
    ∃ out, A.setBlock i j M = .ok out ∧ out.rows = A.rows ∧ out.cols = A.cols ∧
      ∀ a b, out.get a b = if h : (i ≤ a ∧ a < i + r) ∧ j ≤ b ∧ b < j + c then
        M ⟨a - i, by omega⟩ ⟨b - j, by omega⟩ else A.get a b := by
  rw [DMat.setBlock, if_pos ⟨h1, h2⟩]
  exact ⟨_, rfl, rfl, rfl, fun _ _ => rfl⟩

section loop
variable {β : Type} (dim : β → Nat)
  (f : (b : β) → {c : Nat} → Matrix (Fin (dim b)) (Fin c) ℝ → Matrix (Fin (dim b)) (Fin c) ℝ)

/-- Apply `f` to consecutive chunks of the rows of `X` and stack the results. -/
def stackApply (c : Nat) : List β → (Nat → Nat → ℝ) → Nat → Nat → ℝ
  | [], _, _, _ => 0
  | b :: bs, X, a, j =>
    if a < dim b then
      if h : a < dim b ∧ j < c then
        f b (of fun (k : Fin (dim b)) (j : Fin c) => X k j) ⟨a, h.1⟩ ⟨j, h.2⟩
      else 0
    else stackApply c bs (fun k => X (dim b + k)) (a - dim b) j

theorem blockRowLoop_ok (rhs : DMat) (bs : List β) :
    ∀ (i : Nat) (out : DMat), i + stackedDim dim bs ≤ rhs.rows → i + stackedDim dim bs ≤ out.rows →
      out.cols = rhs.cols →
      ∃ out', bs.foldlM (fun (st : Nat × DMat) b => (do
          let chunk ← rhs.rowBlock st.1 (dim b)
          let out ← st.2.setBlock st.1 0 (f b chunk)
          pure (st.1 + dim b, out) : Outcome (Nat × DMat))) (i, out)
            = .ok (i + stackedDim dim bs, out') ∧
        out'.rows = out.rows ∧ out'.cols = out.cols ∧
        ∀ a c, out'.get a c = if i ≤ a ∧ a < i + stackedDim dim bs ∧ c < rhs.cols then
          stackApply dim f rhs.cols bs (fun k j => rhs.get (i + k) j) (a - i) c else out.get a c := by
  induction bs with
  | nil =>
    intro i out _ _ _
    refine ⟨out, rfl, rfl, rfl, fun a c => ?_⟩
    rw [if_neg]
    simp only [stackedDim]; omega
  | cons b bs ih =>
    intro i out h1 h2 h3
    simp only [stackedDim] at h1 h2
    have hr : rhs.rowBlock i (dim b) = .ok (of fun (k : Fin (dim b)) (j : Fin rhs.cols) => rhs.get (i + k) j) := by
      rw [DMat.rowBlock, if_pos (by omega)]
    obtain ⟨out1, hs, hs1, hs2, hs3⟩ := DMat.setBlock_ok (A := out) (i := i) (j := 0)
      (f b (of fun (k : Fin (dim b)) (j : Fin rhs.cols) => rhs.get (i + k) j)) (by omega) (by omega)
    obtain ⟨out', h4, h5, h6, h7⟩ := ih (i + dim b) out1 (by omega) (by omega) (by omega)
    refine ⟨out', ?_, h5.trans hs1, h6.trans hs2, fun a c => ?_⟩
    · rw [List.foldlM_cons]
      simp only [hr, hs, bind, Except.bind, pure, Except.pure]
      simp only [bind, Except.bind, pure, Except.pure] at h4
      rw [h4, stackedDim, Nat.add_assoc]
    · rw [h7, hs3]
      simp only [stackedDim, stackApply]
      by_cases hc : c < rhs.cols
      · by_cases hi : i ≤ a
        · by_cases ha : a < i + dim b
          · rw [if_neg (by omega), dif_pos (by omega), if_pos (by omega), if_pos (by omega), dif_pos (by omega)]
            rfl
          · by_cases ht : a < i + (dim b + stackedDim dim bs)
            · rw [if_pos (by omega), if_pos (by omega), if_neg (by omega)]
              have e1 : a - (i + dim b) = a - i - dim b := by omega
              rw [e1]
              simp only [Nat.add_assoc]
            · rw [if_neg (by omega), dif_neg (by omega), if_neg (by omega)]
        · rw [if_neg (by omega), dif_neg (by omega), if_neg (by omega)]
      · rw [if_neg (by omega), dif_neg (by omega), if_neg (by omega)]

/-- The whole loop. -/
theorem blockRowLoop_spec (rhs : DMat) (bs : List β) (uninit : Nat → Nat → ℝ)
    (hr : rhs.rows = stackedDim dim bs) :
    ∃ out, blockRowLoop dim f rhs bs ⟨blockRows dim bs, rhs.cols, uninit⟩ = .ok out ∧
      out.Is (of fun (i : Fin (stackedDim dim bs)) (j : Fin rhs.cols) =>
        stackApply dim f rhs.cols bs rhs.get i j) := by
  obtain ⟨out, h1, h2, h3, h4⟩ := blockRowLoop_ok dim f rhs bs 0 ⟨blockRows dim bs, rhs.cols, uninit⟩
    (by omega) (by simp only [blockRows_eq]; omega) rfl
  refine ⟨out, ?_, ?_, h3, fun i j => ?_⟩
  · rw [blockRowLoop, h1]; rfl
  · rw [h2]; exact blockRows_eq dim bs
  · rw [h4, if_pos (by have := i.2; have := j.2; omega)]
    simp

end loop

@[simp] theorem stackEquiv_inl {β : Type} (dim : β → Nat) (b : β) (bs : List β) (s : Fin (dim b)) :
    (stackEquiv dim b bs (.inl s)).1 = s.1 := rfl

@[simp] theorem stackEquiv_inr {β : Type} (dim : β → Nat) (b : β) (bs : List β)
    (s : Fin (stackedDim dim bs)) : (stackEquiv dim b bs (.inr s)).1 = dim b + s.1 := rfl

/-- Reading a stacked result as a matrix. -/
theorem stackApply_cons {β : Type} (dim : β → Nat)
    (f : (b : β) → {c : Nat} → Matrix (Fin (dim b)) (Fin c) ℝ → Matrix (Fin (dim b)) (Fin c) ℝ)
    (c : Nat) (b : β) (bs : List β) (X : Nat → Nat → ℝ) :
    (of fun (i : Fin (stackedDim dim (b :: bs))) (j : Fin c) => stackApply dim f c (b :: bs) X i j)
      = (fromRows (f b (of fun (k : Fin (dim b)) (j : Fin c) => X k j))
          (of fun (i : Fin (stackedDim dim bs)) (j : Fin c) =>
            stackApply dim f c bs (fun k => X (dim b + k)) i j)).submatrix
          (stackEquiv dim b bs).symm id := by
  ext i j
  obtain ⟨s, rfl⟩ := (stackEquiv dim b bs).surjective i
  rcases s with s | s
  · simp [stackApply]
  · simp [stackApply]

section algebra
variable {β : Type} (dim : β → Nat)

theorem blockDiagSpec_congr {G H : (b : β) → Matrix (Fin (dim b)) (Fin (dim b)) ℝ} (bs : List β)
    (h : ∀ b ∈ bs, G b = H b) : blockDiagSpec dim G bs = blockDiagSpec dim H bs := by
  induction bs with
  | nil => rfl
  | cons b bs ih =>
    rw [blockDiagSpec, blockDiagSpec, h b (by simp), ih fun x hx => h x (List.mem_cons_of_mem _ hx)]

theorem blockDiagSpec_mul (G H : (b : β) → Matrix (Fin (dim b)) (Fin (dim b)) ℝ) (bs : List β) :
    blockDiagSpec dim G bs * blockDiagSpec dim H bs = blockDiagSpec dim (fun b => G b * H b) bs := by
  induction bs with
  | nil => ext i; exact i.elim0
  | cons b bs ih =>
    rw [blockDiagSpec, blockDiagSpec, blockDiagSpec]
    rw [submatrix_mul_equiv]
    rw [fromBlocks_multiply, ih]
    simp

theorem blockDiagSpec_transpose (G : (b : β) → Matrix (Fin (dim b)) (Fin (dim b)) ℝ) (bs : List β) :
    (blockDiagSpec dim G bs)ᵀ = blockDiagSpec dim (fun b => (G b)ᵀ) bs := by
  induction bs with
  | nil => ext i; exact i.elim0
  | cons b bs ih =>
    rw [blockDiagSpec, blockDiagSpec, transpose_submatrix, fromBlocks_transpose, ih]
    simp

theorem blockDiagSpec_one (bs : List β) : blockDiagSpec dim (fun _ => 1) bs = 1 := by
  induction bs with
  | nil => ext i; exact i.elim0
  | cons b bs ih =>
    rw [blockDiagSpec, ih, fromBlocks_one]
    exact submatrix_one_equiv _

theorem blockDiagSpec_det (G : (b : β) → Matrix (Fin (dim b)) (Fin (dim b)) ℝ) (bs : List β) :
    (blockDiagSpec dim G bs).det = (bs.map fun b => (G b).det).prod := by
  induction bs with
  | nil => exact det_fin_zero
  | cons b bs ih =>
    rw [blockDiagSpec]
    rw [det_submatrix_equiv_self]
    rw [det_fromBlocks_zero₂₁, ih]
    simp

theorem stackApply_mul
    (f : (b : β) → {c : Nat} → Matrix (Fin (dim b)) (Fin c) ℝ → Matrix (Fin (dim b)) (Fin c) ℝ)
    (G : (b : β) → Matrix (Fin (dim b)) (Fin (dim b)) ℝ) (c : Nat) (bs : List β)
    (h : ∀ b ∈ bs, ∀ X : Matrix (Fin (dim b)) (Fin c) ℝ, f b X = G b * X) :
    ∀ X : Nat → Nat → ℝ,
    (of fun (i : Fin (stackedDim dim bs)) (j : Fin c) => stackApply dim f c bs X i j)
      = blockDiagSpec dim G bs * of fun (i : Fin (stackedDim dim bs)) (j : Fin c) => X i j := by
  induction bs with
  | nil => intro X; ext i; exact i.elim0
  | cons b bs ih =>
    intro X
    have hX : (of fun (i : Fin (stackedDim dim (b :: bs))) (j : Fin c) => X i j)
        = (fromRows (of fun (k : Fin (dim b)) (j : Fin c) => X k j)
            (of fun (k : Fin (stackedDim dim bs)) (j : Fin c) => X (dim b + k) j)).submatrix
            (stackEquiv dim b bs).symm id := by
      ext i j
      obtain ⟨s, rfl⟩ := (stackEquiv dim b bs).surjective i
      rcases s with s | s <;> simp
    rw [hX, blockDiagSpec]
    rw [submatrix_mul_equiv]
    rw [fromBlocks_mul_fromRows]
    refine (stackApply_cons dim f c b bs X).trans ?_
    rw [h b (by simp), ih (fun x hx => h x (List.mem_cons_of_mem _ hx))]
    simp

end algebra


/-! ## toDense and diagonal -/

theorem toDense_loop (bs : List SqBlock) : ∀ (i : Nat) (out : DMat),
    i + stackedDim SqBlock.dim bs ≤ out.rows → i + stackedDim SqBlock.dim bs ≤ out.cols →
    (∀ a c, i ≤ a ∨ i ≤ c → out.get a c = 0) →
    ∃ out', bs.foldlM (fun (st : Nat × DMat) b => (do
        let out ← st.2.setBlock st.1 st.1 b.mat
        pure (st.1 + b.dim, out) : Outcome (Nat × DMat))) (i, out)
          = .ok (i + stackedDim SqBlock.dim bs, out') ∧
      out'.rows = out.rows ∧ out'.cols = out.cols ∧
      (∀ x y, out'.get (i + x.1) (i + y.1) = denseSpec bs x y) ∧
      ∀ a c, a < i ∨ c < i → out'.get a c = out.get a c := by
  induction bs with
  | nil =>
    intro i out _ _ _
    exact ⟨out, rfl, rfl, rfl, fun x => x.elim0, fun _ _ _ => rfl⟩
  | cons b bs ih =>
    intro i out h1 h2 h3
    simp only [stackedDim] at h1 h2
    obtain ⟨out1, hs, hs1, hs2, hs3⟩ := DMat.setBlock_ok (A := out) (i := i) (j := i) b.mat
      (by omega) (by omega)
    obtain ⟨out', h4, h5, h6, h7, h8⟩ := ih (i + b.dim) out1 (by omega) (by omega) (by
      intro a c hac
      rw [hs3, dif_neg (by omega), h3 a c (by omega)])
    refine ⟨out', ?_, h5.trans hs1, h6.trans hs2, fun x y => ?_, fun a c hac => ?_⟩
    · rw [List.foldlM_cons]
      simp only [hs, bind, Except.bind, pure, Except.pure]
      simp only [bind, Except.bind, pure, Except.pure] at h4
      rw [h4, stackedDim, Nat.add_assoc]
    · obtain ⟨x, rfl⟩ := (stackEquiv SqBlock.dim b bs).surjective x
      obtain ⟨y, rfl⟩ := (stackEquiv SqBlock.dim b bs).surjective y
      rw [denseSpec, blockDiagSpec]
      rcases x with x | x <;> rcases y with y | y
      · simp only [stackEquiv_inl, submatrix_apply, Equiv.symm_apply_apply, fromBlocks_apply₁₁]
        rw [h8 _ _ (by omega), hs3, dif_pos (by omega)]
        congr 1 <;> ext <;> simp
      · simp only [stackEquiv_inl, stackEquiv_inr, submatrix_apply, Equiv.symm_apply_apply,
          fromBlocks_apply₁₂, Matrix.zero_apply]
        rw [h8 _ _ (by omega), hs3, dif_neg (by omega), h3 _ _ (by omega)]
      · simp only [stackEquiv_inl, stackEquiv_inr, submatrix_apply, Equiv.symm_apply_apply,
          fromBlocks_apply₂₁, Matrix.zero_apply]
        rw [h8 _ _ (by omega), hs3, dif_neg (by omega), h3 _ _ (by omega)]
      · simp only [stackEquiv_inr, submatrix_apply, Equiv.symm_apply_apply, fromBlocks_apply₂₂]
        rw [← Nat.add_assoc, ← Nat.add_assoc, h7]; rfl
    · rw [h8 _ _ (by omega), hs3, dif_neg (by omega)]

theorem diagonal_loop (bs : List SqBlock) : ∀ (i : Nat) (out : DMat),
    i + stackedDim SqBlock.dim bs ≤ out.rows → out.cols = 1 →
    ∃ out', bs.foldlM (fun (st : Nat × DMat) b => (do
        let out ← st.2.setBlock st.1 0 (of fun (i : Fin b.dim) (_ : Fin 1) => b.mat i i)
        pure (st.1 + b.dim, out) : Outcome (Nat × DMat))) (i, out)
          = .ok (i + stackedDim SqBlock.dim bs, out') ∧
      out'.rows = out.rows ∧ out'.cols = out.cols ∧
      (∀ x, out'.get (i + x.1) 0 = denseSpec bs x x) ∧
      ∀ a, a < i → out'.get a 0 = out.get a 0 := by
  induction bs with
  | nil =>
    intro i out _ _
    exact ⟨out, rfl, rfl, rfl, fun x => x.elim0, fun _ _ => rfl⟩
  | cons b bs ih =>
    intro i out h1 h2
    simp only [stackedDim] at h1 h2
    obtain ⟨out1, hs, hs1, hs2, hs3⟩ := DMat.setBlock_ok (A := out) (i := i) (j := 0)
      (of fun (i : Fin b.dim) (_ : Fin 1) => b.mat i i) (by omega) (by omega)
    obtain ⟨out', h4, h5, h6, h7, h8⟩ := ih (i + b.dim) out1 (by omega) (by omega)
    refine ⟨out', ?_, h5.trans hs1, h6.trans hs2, fun x => ?_, fun a hac => ?_⟩
    · rw [List.foldlM_cons]
      simp only [hs, bind, Except.bind, pure, Except.pure]
      simp only [bind, Except.bind, pure, Except.pure] at h4
      rw [h4, stackedDim, Nat.add_assoc]
    · obtain ⟨x, rfl⟩ := (stackEquiv SqBlock.dim b bs).surjective x
      rw [denseSpec, blockDiagSpec]
      rcases x with x | x
      · simp only [stackEquiv_inl, submatrix_apply, Equiv.symm_apply_apply, fromBlocks_apply₁₁]
        rw [h8 _ (by omega), hs3, dif_pos (by omega)]
        simp
      · simp only [stackEquiv_inr, submatrix_apply, Equiv.symm_apply_apply, fromBlocks_apply₂₂]
        rw [← Nat.add_assoc, h7]; rfl
    · rw [h8 _ (by omega), hs3, dif_neg (by omega)]

/-! ## The factored blocks -/

theorem blockLdlt_eq (ldlt : (d : Nat) → Matrix (Fin d) (Fin d) ℝ → Ldlt (Fin d)) (bs : List SqBlock) :
    blockLdlt ldlt bs = bs.map fun b => ⟨b.dim, ldlt b.dim b.mat⟩ := by
  have : ∀ acc, bs.foldl (fun out b => out ++ [(⟨b.dim, ldlt b.dim b.mat⟩ : LdltBlock)]) acc
      = acc ++ bs.map fun b => ⟨b.dim, ldlt b.dim b.mat⟩ := by
    induction bs with
    | nil => simp
    | cons b bs ih => intro acc; rw [List.foldl_cons, ih]; simp
  rw [blockLdlt, this, List.nil_append]

theorem stackedDim_map {β γ : Type} (dim : γ → Nat) (g : β → γ) (bs : List β) :
    stackedDim dim (bs.map g) = stackedDim (fun b => dim (g b)) bs := by
  induction bs with
  | nil => rfl
  | cons b bs ih => rw [List.map_cons, stackedDim, stackedDim, ih]

theorem blockRows_ldlt (ldlt : (d : Nat) → Matrix (Fin d) (Fin d) ℝ → Ldlt (Fin d)) (bs : List SqBlock) :
    blockRows LdltBlock.dim (blockLdlt ldlt bs) = stackedDim SqBlock.dim bs := by
  rw [blockRows_eq, blockLdlt_eq, stackedDim_map]

theorem blockRowLoop_map {β γ : Type} (dim : γ → Nat) (g : β → γ)
    (f : (b : γ) → {c : Nat} → Matrix (Fin (dim b)) (Fin c) ℝ → Matrix (Fin (dim b)) (Fin c) ℝ)
    (rhs : DMat) (bs : List β) (out : DMat) :
    blockRowLoop dim f rhs (bs.map g) out
      = blockRowLoop (fun b => dim (g b)) (fun b _ chunk => f (g b) chunk) rhs bs out := by
  rw [blockRowLoop, blockRowLoop, List.foldlM_map]

/-- The square root of a block used by `sqrt_solve`, with columns numbered from zero. -/
noncomputable def LdltBlock.root (b : LdltBlock) : Matrix (Fin b.dim) (Fin b.dim) ℝ :=
  b.factors.root.submatrix id (Fin.cast b.size_eq.symm)

theorem LdltBlock.root_mul (b : LdltBlock) {A : Matrix (Fin b.dim) (Fin b.dim) ℝ}
    (h : b.factors.Factors A) (hA : A.PosDef) : b.root * b.rootᵀ = A := by
  rw [← h.root_mul hA.posSemidef, LdltBlock.root, transpose_submatrix]
  exact submatrix_mul_equiv _ _ id (finCongr b.size_eq.symm) id

theorem LdltBlock.root_sqrtSolve (b : LdltBlock) {A : Matrix (Fin b.dim) (Fin b.dim) ℝ}
    (h : b.factors.Factors A) (hA : A.PosDef) {c : Nat} (X : Matrix (Fin b.dim) (Fin c) ℝ) :
    b.root * b.sqrtSolve X = X := by
  have := h.root_sqrtSolve hA X
  rw [LdltBlock.root, LdltBlock.sqrtSolve]
  exact (submatrix_mul_equiv _ _ id (finCongr b.size_eq.symm) id).trans this

/-! ## C33 -/

/-- C33: `rows()` and `cols()` are the size of the dense matrix. -/
theorem C33_rows (bs : List SqBlock) (ldlt : (d : Nat) → Matrix (Fin d) (Fin d) ℝ → Ldlt (Fin d)) :
    blockRows SqBlock.dim bs = stackedDim SqBlock.dim bs ∧
    blockRows LdltBlock.dim (blockLdlt ldlt bs) = stackedDim SqBlock.dim bs :=
  ⟨blockRows_eq _ _, blockRows_ldlt ldlt bs⟩

/-- C33: `toDense` is the dense block diagonal matrix. -/
theorem C33_to_dense (bs : List SqBlock) : ∃ out, blockToDense bs = .ok out ∧ out.Is (denseSpec bs) := by
  obtain ⟨out, h1, h2, h3, h4, -⟩ := toDense_loop bs 0
    ⟨blockRows SqBlock.dim bs, blockRows SqBlock.dim bs, fun _ _ => 0⟩
    (by simp [blockRows_eq]) (by simp [blockRows_eq]) fun _ _ _ => rfl
  refine ⟨out, ?_, h2.trans (blockRows_eq _ _), h3.trans (blockRows_eq _ _), fun i j => ?_⟩
  · rw [blockToDense, h1]; rfl
  · simpa using h4 i j

/-- C33: `diagonal` is the diagonal of the dense matrix. -/
theorem C33_diagonal (uninit : Nat → Nat → ℝ) (bs : List SqBlock) :
    ∃ out, blockDiagonalVector uninit bs = .ok out ∧
      out.Is (of fun i (_ : Fin 1) => denseSpec bs i i) := by
  obtain ⟨out, h1, h2, h3, h4, -⟩ := diagonal_loop bs 0
    ⟨blockRows SqBlock.dim bs, 1, uninit⟩ (by simp [blockRows_eq]) rfl
  refine ⟨out, ?_, h2.trans (blockRows_eq _ _), h3, fun i j => ?_⟩
  · rw [blockDiagonalVector, h1]; rfl
  · have := h4 i
    rw [Nat.zero_add] at this
    rw [Subsingleton.elim j 0]
    exact this

/-- C33: `operator*` is the product with the dense matrix. -/
theorem C33_product (b : Build) (bs : List SqBlock) (rhs : DMat)
    (hr : rhs.rows = stackedDim SqBlock.dim bs) :
    ∃ out, blockProduct b bs rhs = .ok out ∧
      out.Is (denseSpec bs * rhs.mat (stackedDim SqBlock.dim bs) rhs.cols) := by
  obtain ⟨out, h1, h2⟩ := blockRowLoop_spec SqBlock.dim (fun b _ chunk => b.mat * chunk) rhs bs
    (fun _ _ => 0) hr
  rw [stackApply_mul SqBlock.dim _ SqBlock.mat _ _ fun _ _ _ => rfl] at h2
  refine ⟨out, ?_, h2⟩
  rw [blockProduct, blockRows_eq, hr]
  simp only [decide_true, albatrossAssert_true]
  rw [← blockRows_eq]
  exact h1

/-- C33: a right hand side with the wrong number of rows is caught by the assertion. -/
theorem C33_wrong_rows (uninit : Nat → Nat → ℝ)
    (ldlt : (d : Nat) → Matrix (Fin d) (Fin d) ℝ → Ldlt (Fin d)) (bs : List SqBlock) (rhs : DMat)
    (hr : rhs.rows ≠ stackedDim SqBlock.dim bs) :
    blockProduct .debug bs rhs = .error .assertFail ∧
    blockLdltSolve .debug uninit (blockLdlt ldlt bs) rhs = .error .assertFail ∧
    blockLdltSqrtSolve .debug uninit (blockLdlt ldlt bs) rhs = .error .assertFail := by
  refine ⟨?_, ?_, ?_⟩
  · rw [blockProduct, blockRows_eq, decide_eq_false (Ne.symm hr)]; rfl
  · rw [blockLdltSolve, blockRows_ldlt, decide_eq_false (Ne.symm hr)]; rfl
  · rw [blockLdltSqrtSolve, blockRows_ldlt, decide_eq_false (Ne.symm hr)]; rfl

/-- C33: `solve` multiplies by the inverse of the dense matrix. -/
theorem C33_solve (b : Build) (uninit : Nat → Nat → ℝ)
    (ldlt : (d : Nat) → Matrix (Fin d) (Fin d) ℝ → Ldlt (Fin d)) (bs : List SqBlock) (rhs : DMat)
    (hf : ∀ x ∈ bs, (ldlt x.dim x.mat).Factors x.mat) (hu : IsUnit (denseSpec bs).det)
    (hr : rhs.rows = stackedDim SqBlock.dim bs) :
    ∃ out, blockLdltSolve b uninit (blockLdlt ldlt bs) rhs = .ok out ∧
      out.Is ((denseSpec bs)⁻¹ * rhs.mat (stackedDim SqBlock.dim bs) rhs.cols) := by
  have hx : ∀ x ∈ bs, IsUnit x.mat.det := by
    rw [denseSpec, blockDiagSpec_det, isUnit_iff_ne_zero] at hu
    intro x hx
    rw [isUnit_iff_ne_zero]
    intro h0
    exact hu (List.prod_eq_zero (List.mem_map.2 ⟨x, hx, h0⟩))
  obtain ⟨out, h1, h2⟩ := blockRowLoop_spec SqBlock.dim
    (fun x _ chunk => (⟨x.dim, ldlt x.dim x.mat⟩ : LdltBlock).solve chunk) rhs bs uninit hr
  rw [stackApply_mul SqBlock.dim _ (fun x => x.mat⁻¹) _ _ fun x hm X => ((hf x hm).represents (hx x hm)).2 _ X] at h2
  have hinv : (denseSpec bs)⁻¹ = blockDiagSpec SqBlock.dim (fun x => x.mat⁻¹) bs := by
    apply inv_eq_right_inv
    rw [denseSpec, blockDiagSpec_mul, blockDiagSpec_congr _ _ fun x hm => mul_nonsing_inv _ (hx x hm),
      blockDiagSpec_one]
  rw [hinv]
  refine ⟨out, ?_, h2⟩
  rw [blockLdltSolve, blockRows_ldlt, hr]
  simp only [decide_true, albatrossAssert_true]
  rw [blockLdlt_eq, blockRowLoop_map, ← blockRows_eq]
  exact h1

/-- C33: `sqrt_solve` solves with a square root of the dense matrix (the same one for every right hand
side). -/
theorem C33_sqrt_solve (b : Build)
    (ldlt : (d : Nat) → Matrix (Fin d) (Fin d) ℝ → Ldlt (Fin d)) (bs : List SqBlock)
    (hf : ∀ x ∈ bs, (ldlt x.dim x.mat).Factors x.mat) (hp : ∀ x ∈ bs, x.mat.PosDef) :
    ∃ S : Matrix (Fin (stackedDim SqBlock.dim bs)) (Fin (stackedDim SqBlock.dim bs)) ℝ,
      S * Sᵀ = denseSpec bs ∧
      ∀ (uninit : Nat → Nat → ℝ) (rhs : DMat), rhs.rows = stackedDim SqBlock.dim bs →
        ∃ out, blockLdltSqrtSolve b uninit (blockLdlt ldlt bs) rhs = .ok out ∧
          out.rows = stackedDim SqBlock.dim bs ∧ out.cols = rhs.cols ∧
          S * out.mat (stackedDim SqBlock.dim bs) rhs.cols = rhs.mat (stackedDim SqBlock.dim bs) rhs.cols := by
  let R : (x : SqBlock) → Matrix (Fin x.dim) (Fin x.dim) ℝ :=
    fun x => LdltBlock.root ⟨x.dim, ldlt x.dim x.mat⟩
  have hRR : ∀ x ∈ bs, R x * (R x)ᵀ = x.mat := fun x hx =>
    LdltBlock.root_mul ⟨x.dim, ldlt x.dim x.mat⟩ (hf x hx) (hp x hx)
  have hunit : ∀ x ∈ bs, IsUnit (R x).det := by
    intro x hx
    have h0 := (hp x hx).det_pos
    rw [← hRR x hx, det_mul, det_transpose] at h0
    rw [isUnit_iff_ne_zero]
    intro h
    rw [h] at h0
    simp at h0
  refine ⟨blockDiagSpec SqBlock.dim R bs, ?_, fun uninit rhs hr => ?_⟩
  · rw [blockDiagSpec_transpose, blockDiagSpec_mul, denseSpec]
    exact blockDiagSpec_congr _ _ hRR
  · obtain ⟨out, h1, h2⟩ := blockRowLoop_spec SqBlock.dim
      (fun x _ chunk => (⟨x.dim, ldlt x.dim x.mat⟩ : LdltBlock).sqrtSolve chunk) rhs bs uninit hr
    rw [stackApply_mul SqBlock.dim _ (fun x => (R x)⁻¹) _ _ fun x hm X => by
      have := LdltBlock.root_sqrtSolve ⟨x.dim, ldlt x.dim x.mat⟩ (hf x hm) (hp x hm) X
      change R x * _ = X at this
      rw [← this, nonsing_inv_mul_cancel_left _ _ (hunit x hm), this]] at h2
    refine ⟨out, ?_, h2.1, h2.2.1, ?_⟩
    · rw [blockLdltSqrtSolve, blockRows_ldlt, hr]
      simp only [decide_true, albatrossAssert_true]
      rw [blockLdlt_eq, blockRowLoop_map, ← blockRows_eq]
      exact h1
    · have : out.mat (stackedDim SqBlock.dim bs) rhs.cols
          = blockDiagSpec SqBlock.dim (fun x => (R x)⁻¹) bs *
            of fun (i : Fin (stackedDim SqBlock.dim bs)) (j : Fin rhs.cols) => rhs.get i j := by
        ext i j; exact h2.2.2 i j
      rw [this, ← Matrix.mul_assoc, blockDiagSpec_mul,
        blockDiagSpec_congr _ _ fun x hm => mul_nonsing_inv _ (hunit x hm), blockDiagSpec_one, Matrix.one_mul]
      rfl

/-- C33: `log_determinant` is the log determinant of the dense matrix. -/
theorem C33_log_determinant (ldlt : (d : Nat) → Matrix (Fin d) (Fin d) ℝ → Ldlt (Fin d))
    (bs : List SqBlock) (hf : ∀ x ∈ bs, (ldlt x.dim x.mat).Factors x.mat)
    (hp : ∀ x ∈ bs, x.mat.PosDef) :
    blockLogDeterminant (blockLdlt ldlt bs) = Real.log (denseSpec bs).det := by
  rw [blockLdlt_eq, denseSpec, blockDiagSpec_det]
  have : ∀ (bs : List SqBlock) (c : ℝ), (∀ x ∈ bs, (ldlt x.dim x.mat).Factors x.mat) →
      (∀ x ∈ bs, x.mat.PosDef) →
      (bs.map fun b => (⟨b.dim, ldlt b.dim b.mat⟩ : LdltBlock)).foldl
        (fun out b => out + b.factors.logDeterminant) c
        = c + Real.log (bs.map fun b => b.mat.det).prod := by
    intro bs
    induction bs with
    | nil => intro c _ _; simp
    | cons x bs ih =>
      intro c hf hp
      have h1 : 0 < x.mat.det := (hp x (by simp)).det_pos
      have h2 : 0 < (bs.map fun b => b.mat.det).prod := by
        apply List.prod_pos
        intro a ha
        obtain ⟨y, hy, rfl⟩ := List.mem_map.1 ha
        exact (hp y (List.mem_cons_of_mem _ hy)).det_pos
      rw [List.map_cons, List.foldl_cons, ih _ (fun y hy => hf y (List.mem_cons_of_mem _ hy))
        fun y hy => hp y (List.mem_cons_of_mem _ hy), List.map_cons, List.prod_cons,
        Real.log_mul h1.ne' h2.ne', (hf x (by simp)).det_eq, Real.log_prod]
      · rw [Ldlt.logDeterminant]; ring
      · intro i _
        exact ((hf x (by simp)).posDef_iff.1 (hp x (by simp)) i).ne'
  have h := this bs 0 hf hp
  rw [blockLogDeterminant, h, zero_add]

theorem stackedDim_congr {β : Type} (dim : β → Nat) (l r : List β) (h : l.map dim = r.map dim) :
    stackedDim dim l = stackedDim dim r := by
  have : ∀ l : List β, stackedDim dim l = (l.map dim).sum := by
    intro l
    induction l with
    | nil => rfl
    | cons b bs ih => rw [stackedDim, ih, List.map_cons, List.sum_cons]
  rw [this, this, h]

theorem denseSpec_cons (b : SqBlock) (bs : List SqBlock) (i j : Nat)
    (hi : i < stackedDim SqBlock.dim (b :: bs)) (hj : j < stackedDim SqBlock.dim (b :: bs)) :
    denseSpec (b :: bs) ⟨i, hi⟩ ⟨j, hj⟩
      = if h : i < b.dim ∧ j < b.dim then b.mat ⟨i, h.1⟩ ⟨j, h.2⟩
        else if h : b.dim ≤ i ∧ b.dim ≤ j then
          denseSpec bs ⟨i - b.dim, by have : stackedDim SqBlock.dim (b :: bs) = b.dim + stackedDim SqBlock.dim bs := rfl; omega⟩
            ⟨j - b.dim, by have : stackedDim SqBlock.dim (b :: bs) = b.dim + stackedDim SqBlock.dim bs := rfl; omega⟩
        else 0 := by
  obtain ⟨x, hx⟩ := (stackEquiv SqBlock.dim b bs).surjective ⟨i, hi⟩
  obtain ⟨y, hy⟩ := (stackEquiv SqBlock.dim b bs).surjective ⟨j, hj⟩
  have hi' : (stackEquiv SqBlock.dim b bs x).1 = i := by rw [hx]
  have hj' : (stackEquiv SqBlock.dim b bs y).1 = j := by rw [hy]
  rw [← hx, ← hy, denseSpec, blockDiagSpec]
  subst hi' hj'
  rcases x with x | x <;> rcases y with y | y
  · simp
  · simp
  · simp
  · simp [denseSpec]

theorem difference_loop (b : Build) (L R : List SqBlock) : ∀ (l r pl pr acc : List SqBlock),
    L = pl ++ l → R = pr ++ r → pl.length = pr.length → l.map SqBlock.dim = r.map SqBlock.dim →
    ∃ d, (List.range' pl.length l.length).foldlM (fun out i => (do
        let x ← vecGet L i
        let y ← vecGet R i
        albatrossAssert b (decide (x.dim * x.dim = y.dim * y.dim))
        let d ← x.sub y
        pure (out ++ [d]) : Outcome (List SqBlock))) acc = .ok (acc ++ d) ∧
      d.map SqBlock.dim = l.map SqBlock.dim ∧
      ∀ (i j : Nat) (h1 : i < stackedDim SqBlock.dim d) (h2 : j < stackedDim SqBlock.dim d)
        (h3 : i < stackedDim SqBlock.dim l) (h4 : j < stackedDim SqBlock.dim l)
        (h5 : i < stackedDim SqBlock.dim r) (h6 : j < stackedDim SqBlock.dim r),
        denseSpec d ⟨i, h1⟩ ⟨j, h2⟩ = denseSpec l ⟨i, h3⟩ ⟨j, h4⟩ - denseSpec r ⟨i, h5⟩ ⟨j, h6⟩ := by
  intro l
  induction l with
  | nil =>
    intro r pl pr acc _ _ _ _
    exact ⟨[], by simp [pure, Except.pure], rfl, fun i j h1 => absurd h1 (by simp [stackedDim])⟩
  | cons x l ih =>
    intro r pl pr acc hL hR hp hd
    cases r with
    | nil => simp at hd
    | cons y r =>
      rw [List.map_cons, List.map_cons, List.cons.injEq] at hd
      obtain ⟨d, h1, h2, h3⟩ := ih r (pl ++ [x]) (pr ++ [y])
        (acc ++ [⟨x.dim, x.mat - y.mat.submatrix (Fin.cast hd.1) (Fin.cast hd.1)⟩])
        (by rw [hL]; simp) (by rw [hR]; simp) (by simp [hp]) hd.2
      have hx : vecGet L pl.length = .ok x := by rw [hL]; simp [vecGet]
      have hy : vecGet R pl.length = .ok y := by rw [hR, hp]; simp [vecGet]
      have hs : x.sub y = .ok ⟨x.dim, x.mat - y.mat.submatrix (Fin.cast hd.1) (Fin.cast hd.1)⟩ := by
        rw [SqBlock.sub, dif_pos hd.1.symm]
      refine ⟨⟨x.dim, x.mat - y.mat.submatrix (Fin.cast hd.1) (Fin.cast hd.1)⟩ :: d, ?_, ?_, ?_⟩
      · rw [List.length_append, List.length_singleton] at h1
        rw [List.length_cons, List.range'_succ, List.foldlM_cons, hx]
        simp only [hy, hs, hd.1, decide_true, albatrossAssert_true, bind, Except.bind, pure, Except.pure]
        simp only [bind, Except.bind, pure, Except.pure] at h1
        rw [h1]; simp
      · rw [List.map_cons, List.map_cons, h2]
      · intro i j e1 e2 e3 e4 e5 e6
        rw [denseSpec_cons, denseSpec_cons, denseSpec_cons]
        obtain ⟨n, X⟩ := x
        obtain ⟨n', Y⟩ := y
        obtain ⟨hd1, hd2⟩ := hd
        simp only at hd1
        subst hd1
        simp only
        by_cases c1 : i < n ∧ j < n
        · rw [dif_pos c1, dif_pos c1, dif_pos c1]
          rfl
        · rw [dif_neg c1, dif_neg c1, dif_neg c1]
          by_cases c2 : n ≤ i ∧ n ≤ j
          · rw [dif_pos c2, dif_pos c2, dif_pos c2, h3]
          · rw [dif_neg c2, dif_neg c2, dif_neg c2, sub_zero]

/-- C33: `operator-` of two matrices with the same block sizes has these block sizes and subtracts the
dense matrices. -/
theorem C33_difference (b : Build) (lhs rhs : List SqBlock)
    (hd : lhs.map SqBlock.dim = rhs.map SqBlock.dim) :
    ∃ d, blockDifference b lhs rhs = .ok d ∧ d.map SqBlock.dim = lhs.map SqBlock.dim ∧
      ∀ (i j : Nat) (h1 : i < stackedDim SqBlock.dim d) (h2 : j < stackedDim SqBlock.dim d)
        (h3 : i < stackedDim SqBlock.dim lhs) (h4 : j < stackedDim SqBlock.dim lhs)
        (h5 : i < stackedDim SqBlock.dim rhs) (h6 : j < stackedDim SqBlock.dim rhs),
        denseSpec d ⟨i, h1⟩ ⟨j, h2⟩ = denseSpec lhs ⟨i, h3⟩ ⟨j, h4⟩ - denseSpec rhs ⟨i, h5⟩ ⟨j, h6⟩ := by
  have hlen : lhs.length = rhs.length := by simpa using congrArg List.length hd
  obtain ⟨d, h1, h2, h3⟩ := difference_loop b lhs rhs lhs rhs [] [] [] rfl rfl rfl hd
  refine ⟨d, ?_, h2, h3⟩
  have hst : stackedDim SqBlock.dim lhs = stackedDim SqBlock.dim rhs := stackedDim_congr _ _ _ hd
  rw [blockDifference, blockRows_eq, blockRows_eq, hst, hlen]
  simp only [decide_true, albatrossAssert_true]
  rw [List.range_eq_range', ← hlen]
  exact h1

theorem difference_mismatch (L R : List SqBlock) : ∀ (l r pl pr acc : List SqBlock),
    L = pl ++ l → R = pr ++ r → pl.length = pr.length → l.length = r.length → l.map SqBlock.dim ≠ r.map SqBlock.dim →
    (List.range' pl.length l.length).foldlM (fun out i => (do
        let x ← vecGet L i
        let y ← vecGet R i
        albatrossAssert .debug (decide (x.dim * x.dim = y.dim * y.dim))
        let d ← x.sub y
        pure (out ++ [d]) : Outcome (List SqBlock))) acc = .error .assertFail := by
  intro l
  induction l with
  | nil =>
    intro r pl pr acc _ _ _ hlen hne
    exact absurd (by rw [List.length_eq_zero_iff.1 hlen.symm]) hne
  | cons x l ih =>
    intro r pl pr acc hL hR hp hlen hne
    rcases r with _ | ⟨y, r⟩
    · simp at hlen
    have h1 : vecGet L pl.length = .ok x := by
      rw [hL]; simp [vecGet]
    have h2 : vecGet R pl.length = .ok y := by
      rw [hR, hp]; simp [vecGet]
    rw [List.length_cons, List.range'_succ, List.foldlM_cons, h1, except_ok_bind, h2, except_ok_bind]
    by_cases hd : x.dim * x.dim = y.dim * y.dim
    · have hd' : y.dim = x.dim := (Nat.mul_self_inj.1 hd).symm
      rw [decide_eq_true hd, albatrossAssert_true, except_ok_bind, SqBlock.sub, dif_pos hd', except_ok_bind, except_pure,
        except_ok_bind]
      have := ih r (pl ++ [x]) (pr ++ [y])
        (acc ++ [⟨x.dim, x.mat - y.mat.submatrix (Fin.cast hd'.symm) (Fin.cast hd'.symm)⟩])
        (by rw [hL, List.append_assoc]; rfl) (by rw [hR, List.append_assoc]; rfl) (by simp [hp]) (by simpa using hlen)
        (fun h => hne (by rw [List.map_cons, List.map_cons, h, hd']))
      rw [List.length_append, List.length_singleton] at this
      exact this
    · rw [decide_eq_false hd]
      rfl

/-- C33: `operator-` of two matrices whose block sizes differ stops at an assertion. -/
theorem C33_difference_rejects (lhs rhs : List SqBlock) (hd : lhs.map SqBlock.dim ≠ rhs.map SqBlock.dim) :
    blockDifference .debug lhs rhs = .error .assertFail := by
  unfold blockDifference
  by_cases h1 : blockRows SqBlock.dim lhs = blockRows SqBlock.dim rhs
  · rw [decide_eq_true h1, albatrossAssert_true, except_ok_bind]
    by_cases h2 : lhs.length = rhs.length
    · rw [decide_eq_true h2, albatrossAssert_true, except_ok_bind, List.range_eq_range']
      exact difference_mismatch lhs rhs lhs rhs [] [] [] rfl rfl rfl h2 hd
    · rw [decide_eq_false h2]
      rfl
  · rw [decide_eq_false h1]
    rfl

/-- Non-vacuity: a block and two blocks of the same total size. -/
example : blockDifference .debug [⟨2, 1⟩] [⟨1, 1⟩, ⟨1, 1⟩] = .error .assertFail :=
  C33_difference_rejects _ _ (by simp)

/-! ## Threads -/

/-- Entries of the map from block to first row, for the blocks from number `k` on. -/
def rowEntries {β : Type} (dim : β → Nat) : Nat → Nat → List β → List (Nat × Nat)
  | _, _, [] => []
  | k, row, b :: bs => (k, row) :: rowEntries dim (k + 1) (row + dim b) bs

theorem blockToRowMap_eq {β : Type} (b : Build) (dim : β → Nat) (bs : List β) :
    blockToRowMap b dim bs = .ok (rowEntries dim 0 0 bs) := by
  have : ∀ (bs : List β) (k row : Nat) (acc : SMap Nat Nat), (∀ x ∈ acc, x.1 < k) →
      (bs.zipIdx k).foldl (fun (st : Nat × SMap Nat Nat) bi =>
        (st.1 + dim bi.1, st.2.put bi.2 st.1)) (row, acc)
      = (row + stackedDim dim bs, acc ++ rowEntries dim k row bs) := by
    intro bs
    induction bs with
    | nil => intro k row acc _; simp [stackedDim, rowEntries]
    | cons x bs ih =>
      intro k row acc h
      rw [List.zipIdx_cons, List.foldl_cons]
      simp only
      rw [SMap.put, SMap.alter_of_gt _ h, ih]
      · simp [stackedDim, rowEntries, Nat.add_assoc]
      · intro y hy
        rw [List.mem_append] at hy
        rcases hy with hy | hy
        · exact Nat.lt_succ_of_lt (h y hy)
        · rw [List.mem_singleton] at hy; subst hy; exact Nat.lt_succ_self k
  have h := this bs 0 0 [] (by simp)
  rw [blockToRowMap, h, blockRows_eq]
  simp

theorem rowEntries_ge {β : Type} (dim : β → Nat) (bs : List β) :
    ∀ k row, ∀ x ∈ rowEntries dim k row bs, row ≤ x.2 := by
  induction bs with
  | nil => intro k row x hx; simp [rowEntries] at hx
  | cons b bs ih =>
    intro k row x hx
    rw [rowEntries, List.mem_cons] at hx
    rcases hx with rfl | hx
    · exact Nat.le_refl _
    · have := ih _ _ x hx; omega

section pool
variable {β : Type} (dim : β → Nat)
  (f : (b : β) → {c : Nat} → Matrix (Fin (dim b)) (Fin c) ℝ → Matrix (Fin (dim b)) (Fin c) ℝ)
  (rhs : DMat) (n : Nat)

/-- The writes of one block. -/
theorem fillOneBlock_ok (all : List β) (b : β) (k row : Nat) (hb : all[k]? = some b)
    (h1 : row + dim b ≤ rhs.rows) (h2 : row + dim b ≤ n) :
    (fillOneBlock dim f rhs n all (k, row)).result = .ok () ∧
    (∀ l ∈ (fillOneBlock dim f rhs n all (k, row)).writes.map Prod.fst, row ≤ l.1 ∧ l.1 < row + dim b) ∧
    ∀ (m : Nat × Nat → ℝ) (a c : Nat), writeAll m (fillOneBlock dim f rhs n all (k, row)).writes (a, c)
      = if h : (row ≤ a ∧ a < row + dim b) ∧ c < rhs.cols then
          f b (of fun (k : Fin (dim b)) (j : Fin rhs.cols) => rhs.get (row + k) j)
            ⟨a - row, by omega⟩ ⟨c, h.2⟩
        else m (a, c) := by
  have hf : fillOneBlock dim f rhs n all (k, row)
      = ⟨(List.finRange (dim b)).flatMap fun r : Fin (dim b) =>
          (List.finRange rhs.cols).map fun c : Fin rhs.cols =>
            ((row + r.1, c.1), f b (of fun (k : Fin (dim b)) (j : Fin rhs.cols) => rhs.get (row + k) j) r c),
          .ok ()⟩ := by
    simp only [fillOneBlock, hb, DMat.rowBlock, if_pos h1, if_pos h2]
  rw [hf]
  refine ⟨rfl, ?_, fun m a c => ?_⟩
  · intro l hl
    simp only [List.mem_map, List.mem_flatMap] at hl
    obtain ⟨w, ⟨r, -, c, -, rfl⟩, rfl⟩ := hl
    have := r.2
    simp only; omega
  · split
    · rename_i h
      obtain ⟨v, hv, he⟩ := writeAll_mem _ m (a, c) (show (a, c) ∈ List.map Prod.fst
          ((List.finRange (dim b)).flatMap fun r : Fin (dim b) =>
          (List.finRange rhs.cols).map fun c : Fin rhs.cols =>
            ((row + r.1, c.1), f b (of fun (k : Fin (dim b)) (j : Fin rhs.cols) => rhs.get (row + k) j) r c)) by
        simp only [List.mem_map, List.mem_flatMap]
        refine ⟨_, ⟨⟨a - row, by omega⟩, List.mem_finRange _, ⟨c, h.2⟩, List.mem_finRange _, rfl⟩, ?_⟩
        simp only [Prod.mk.injEq, and_true]; omega)
      rw [he]
      simp only [List.mem_map, List.mem_flatMap, Prod.mk.injEq] at hv
      obtain ⟨r, -, c', -, ⟨h3, h4⟩, h5⟩ := hv
      rw [← h5]
      congr 1
      · ext; simp only; omega
      · ext; exact h4
    · rename_i h
      apply writeAll_of_not_mem
      intro hm
      simp only [List.mem_map, List.mem_flatMap] at hm
      obtain ⟨w, ⟨r, -, c', -, rfl⟩, he⟩ := hm
      simp only [Prod.mk.injEq] at he
      have := r.2; have := c'.2
      exact h ⟨by omega, by omega⟩

theorem rowEntries_tasks (all : List β) : ∀ (bs pre : List β) (row : Nat), all = pre ++ bs →
    row + stackedDim dim bs ≤ rhs.rows → row + stackedDim dim bs ≤ n →
    (∀ x ∈ rowEntries dim pre.length row bs, (fillOneBlock dim f rhs n all x).result = .ok ()) ∧
    (∀ x ∈ rowEntries dim pre.length row bs,
      ∀ l ∈ (fillOneBlock dim f rhs n all x).writes.map Prod.fst, row ≤ l.1) ∧
    (rowEntries dim pre.length row bs).Pairwise (fun x y =>
      ∀ l ∈ (fillOneBlock dim f rhs n all x).writes.map Prod.fst,
        l ∉ (fillOneBlock dim f rhs n all y).writes.map Prod.fst) ∧
    ∀ (m : Nat × Nat → ℝ) (a c : Nat),
      writeAll m ((rowEntries dim pre.length row bs).map fun x =>
        (fillOneBlock dim f rhs n all x).writes).flatten (a, c)
      = if row ≤ a ∧ a < row + stackedDim dim bs ∧ c < rhs.cols then
          stackApply dim f rhs.cols bs (fun k j => rhs.get (row + k) j) (a - row) c else m (a, c) := by
  intro bs
  induction bs with
  | nil =>
    intro pre row _ _ _
    refine ⟨by simp [rowEntries], by simp [rowEntries], by simp [rowEntries], fun m a c => ?_⟩
    rw [if_neg]
    · simp [rowEntries, writeAll]
    · simp only [stackedDim]; omega
  | cons b bs ih =>
    intro pre row hall h1 h2
    simp only [stackedDim] at h1 h2
    obtain ⟨t1, t2, t3⟩ := fillOneBlock_ok dim f rhs n all b pre.length row
      (by rw [hall]; simp) (by omega) (by omega)
    obtain ⟨i1, i2, i3, i4⟩ := ih (pre ++ [b]) (row + dim b) (by rw [hall]; simp) (by omega) (by omega)
    rw [List.length_append, List.length_singleton] at i1 i2 i3 i4
    simp only [rowEntries]
    refine ⟨?_, ?_, ?_, fun m a c => ?_⟩
    · intro x hx
      rcases List.mem_cons.1 hx with rfl | hx
      · exact t1
      · exact i1 x hx
    · intro x hx l hl
      rcases List.mem_cons.1 hx with rfl | hx
      · exact (t2 l hl).1
      · have := i2 x hx l hl; omega
    · refine List.Pairwise.cons ?_ i3
      intro y hy l hl hl'
      have := (t2 l hl).2
      have := i2 y hy l hl'
      omega
    · rw [List.map_cons, List.flatten_cons, writeAll_append, i4, t3]
      simp only [stackedDim, stackApply]
      by_cases hc : c < rhs.cols
      · by_cases hi : row ≤ a
        · by_cases ha : a < row + dim b
          · rw [if_neg (by omega), dif_pos (by omega), if_pos (by omega), if_pos (by omega), dif_pos (by omega)]
          · by_cases ht : a < row + (dim b + stackedDim dim bs)
            · rw [if_pos (by omega), if_pos (by omega), if_neg (by omega)]
              have e1 : a - (row + dim b) = a - row - dim b := by omega
              rw [e1]
              simp only [Nat.add_assoc]
            · rw [if_neg (by omega), dif_neg (by omega), if_neg (by omega)]
        · rw [if_neg (by omega), dif_neg (by omega), if_neg (by omega)]
      · rw [if_neg (by omega), dif_neg (by omega), if_neg (by omega)]

/-- The pooled loop, for every schedule, does not throw and leaves the same matrix as the serial loop. -/
theorem blockRow_pool (bs : List β) (hr : rhs.rows = stackedDim dim bs) (T : Nat)
    (u : Nat × Nat → ℝ) (s : PoolState (Nat × Nat) ℝ Fault Unit)
    (h : PoolReach (blockRowCall dim f rhs (blockRows dim bs) bs (rowEntries dim 0 0 bs) T) u s)
    (r : Except Fault (List Unit)) (ho : s.outcome = some r) :
    (∃ l, r = .ok l) ∧ ∃ out, blockRowLoop dim f rhs bs ⟨blockRows dim bs, rhs.cols, fun i j => u (i, j)⟩ = .ok out ∧
      ∀ i j, s.mem (i, j) = out.get i j := by
  obtain ⟨i1, -, i3, i4⟩ := rowEntries_tasks dim f rhs (blockRows dim bs) bs bs [] 0 rfl (by omega)
    (by rw [blockRows_eq]; omega)
  rw [List.length_nil] at i1 i3 i4
  have hser := C17_apply_serial _ (rowEntries dim 0 0 bs) T u s h r ho
  obtain ⟨l, hl⟩ := mapM_const_ok (fun x => (fillOneBlock dim f rhs (blockRows dim bs) bs x).result)
    (rowEntries dim 0 0 bs) i1
  rw [applySerial, hl] at hser
  subst hser
  refine ⟨⟨l, rfl⟩, ?_⟩
  have hmem := C17_apply_memory _ (rowEntries dim 0 0 bs) T i3 u s h l ho
  obtain ⟨out, h1, -, -, h4⟩ := blockRowLoop_ok dim f rhs bs 0 ⟨blockRows dim bs, rhs.cols, fun i j => u (i, j)⟩
    (by omega) (by simp only [blockRows_eq]; omega) rfl
  refine ⟨out, by rw [blockRowLoop, h1]; rfl, fun i j => ?_⟩
  rw [hmem, i4, h4]

end pool

/-- C33, threads: for every schedule and number of threads, when the pooled `solve` or `sqrt_solve` has
returned it has not thrown and its output is the one of the serial function. -/
theorem C33_pool (b : Build) (blocks : List LdltBlock) (rhs : DMat)
    (hr : rhs.rows = stackedDim LdltBlock.dim blocks) (T : Nat) (u : Nat × Nat → ℝ) :
    ∃ rowMap, blockToRowMap b LdltBlock.dim blocks = .ok rowMap ∧
      (∀ (s : PoolState (Nat × Nat) ℝ Fault Unit) (r : Except Fault (List Unit)),
        PoolReach (blockRowCall LdltBlock.dim LdltBlock.solve rhs (blockRows LdltBlock.dim blocks) blocks
          rowMap T) u s → s.outcome = some r →
        (∃ l, r = .ok l) ∧ ∃ out, blockLdltSolve b (fun i j => u (i, j)) blocks rhs = .ok out ∧
          ∀ i j, s.mem (i, j) = out.get i j) ∧
      (∀ (s : PoolState (Nat × Nat) ℝ Fault Unit) (r : Except Fault (List Unit)),
        PoolReach (blockRowCall LdltBlock.dim LdltBlock.sqrtSolve rhs (blockRows LdltBlock.dim blocks)
          blocks rowMap T) u s → s.outcome = some r →
        (∃ l, r = .ok l) ∧ ∃ out, blockLdltSqrtSolve b (fun i j => u (i, j)) blocks rhs = .ok out ∧
          ∀ i j, s.mem (i, j) = out.get i j) := by
  refine ⟨_, blockToRowMap_eq b LdltBlock.dim blocks, fun s r h ho => ?_, fun s r h ho => ?_⟩
  · have := blockRow_pool LdltBlock.dim LdltBlock.solve rhs blocks hr T u s h r ho
    rw [blockLdltSolve, blockRows_eq, hr]
    simp only [decide_true, albatrossAssert_true]
    rw [blockRows_eq] at this
    exact this
  · have := blockRow_pool LdltBlock.dim LdltBlock.sqrtSolve rhs blocks hr T u s h r ho
    rw [blockLdltSqrtSolve, blockRows_eq, hr]
    simp only [decide_true, albatrossAssert_true]
    rw [blockRows_eq] at this
    exact this

/-! ## Example: blocks `[[2, 1], [1, 2]]` and `[3]`. -/

/-- The example blocks. -/
noncomputable def demoBlocks : List SqBlock := [⟨2, !![2, 1; 1, 2]⟩, ⟨1, !![3]⟩]

theorem demoBlocks_posDef : ∀ x ∈ demoBlocks, x.mat.PosDef := by
  intro x hx
  simp only [demoBlocks, List.mem_cons, List.not_mem_nil, or_false] at hx
  rcases hx with rfl | rfl
  · exact posDef_two (by norm_num) (by norm_num)
  · have h := Matrix.PosDef.diagonal (d := fun _ : Fin 1 => (3 : ℝ)) fun _ => by norm_num
    have e : (!![3] : Matrix (Fin 1) (Fin 1) ℝ) = diagonal fun _ => 3 := by
      ext i j; fin_cases i; fin_cases j; rfl
    rw [e]; exact h

/-- The hypotheses of C33 hold for two blocks of different sizes, and the dense matrix is not diagonal. -/
example : ∃ ldlt : (d : Nat) → Matrix (Fin d) (Fin d) ℝ → Ldlt (Fin d),
    (∀ x ∈ demoBlocks, (ldlt x.dim x.mat).Factors x.mat) ∧ (∀ x ∈ demoBlocks, x.mat.PosDef) ∧
    stackedDim SqBlock.dim demoBlocks = 3 ∧ blockLogDeterminant (blockLdlt ldlt demoBlocks) = Real.log 9 := by
  choose ldlt hl using fun d => exists_ldlt (Fin d)
  refine ⟨ldlt, fun x hx => hl _ _ (demoBlocks_posDef x hx), demoBlocks_posDef, rfl, ?_⟩
  rw [C33_log_determinant ldlt demoBlocks (fun x hx => hl _ _ (demoBlocks_posDef x hx)) demoBlocks_posDef,
    denseSpec, blockDiagSpec_det]
  have h2 : (!![2, 1; 1, 2] : Matrix (Fin 2) (Fin 2) ℝ).det = 3 := by rw [det_fin_two]; norm_num
  have h1 : (!![3] : Matrix (Fin 1) (Fin 1) ℝ).det = 3 := by simp
  change Real.log ((!![2, 1; 1, 2] : Matrix (Fin 2) (Fin 2) ℝ).det *
    ((!![3] : Matrix (Fin 1) (Fin 1) ℝ).det * 1)) = _
  rw [h1, h2]; norm_num

end Albatross
