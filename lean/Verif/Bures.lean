import Mathlib.Analysis.Matrix.PosDef
import Mathlib.Analysis.Matrix.Spectrum
import Mathlib.Analysis.InnerProductSpace.PiL2
import Mathlib.LinearAlgebra.Matrix.PosDef
import Mathlib.LinearAlgebra.Matrix.NonsingularInverse
import Mathlib.Algebra.Order.Star.Real
import Mathlib.Data.Matrix.ColumnRowPartitioned
import Mathlib.Tactic.NoncommRing

/-! # Square roots of covariance matrices and couplings

Facts about real positive semidefinite matrices used by `WassersteinProps`: square roots are unique, the polar
decomposition exists, and among all couplings of two covariances the cross covariance of largest trace is given
by the square root of `√B A √B`. -/

namespace Albatross.Bures

open Matrix

set_option linter.unusedSectionVars false

variable {n : Type} [Fintype n] [DecidableEq n]

/-- The spectral theorem for real symmetric matrices. -/
theorem exists_eigen {A : Matrix n n ℝ} (hA : A.IsSymm) :
    ∃ (V : Matrix n n ℝ) (d : n → ℝ), Vᵀ * V = 1 ∧ A = V * diagonal d * Vᵀ := by
  have h : A.IsHermitian := by
    rw [Matrix.IsHermitian, conjTranspose_eq_transpose_of_trivial]; exact hA
  refine ⟨(h.eigenvectorUnitary : Matrix n n ℝ), h.eigenvalues, ?_, ?_⟩
  · have := h.eigenvectorUnitary.2
    rw [Matrix.mem_unitaryGroup_iff'] at this
    rw [← conjTranspose_eq_transpose_of_trivial]
    exact this
  · have := h.spectral_theorem
    rw [Unitary.conjStarAlgAut_apply] at this
    rw [← conjTranspose_eq_transpose_of_trivial]
    conv_lhs => rw [this]
    rfl

theorem psd_symm {A : Matrix n n ℝ} (hA : A.PosSemidef) : Aᵀ = A := by
  have := hA.1
  rw [Matrix.IsHermitian, conjTranspose_eq_transpose_of_trivial] at this
  exact this

theorem psd_mul_transpose {m : Type} [Fintype m] (X : Matrix n m ℝ) : (X * Xᵀ).PosSemidef := by
  have := Matrix.posSemidef_self_mul_conjTranspose X
  rwa [conjTranspose_eq_transpose_of_trivial] at this

theorem psd_transpose_mul {m : Type} [Fintype m] (X : Matrix m n ℝ) : (Xᵀ * X).PosSemidef := by
  have := Matrix.posSemidef_conjTranspose_mul_self X
  rwa [conjTranspose_eq_transpose_of_trivial] at this

theorem psd_congr {m : Type} [Fintype m] [DecidableEq m] {A : Matrix n n ℝ} (hA : A.PosSemidef) (X : Matrix m n ℝ) :
    (X * A * Xᵀ).PosSemidef := by
  have := hA.mul_mul_conjTranspose_same X
  rwa [conjTranspose_eq_transpose_of_trivial] at this

theorem diagonal_psd {d : n → ℝ} (h : ∀ i, 0 ≤ d i) : (diagonal d).PosSemidef :=
  Matrix.PosSemidef.diagonal h

/-- The eigenvalues of a positive semidefinite matrix are not negative. -/
theorem eigen_nonneg {A V : Matrix n n ℝ} {d : n → ℝ} (hA : A.PosSemidef) (hV : Vᵀ * V = 1)
    (h : A = V * diagonal d * Vᵀ) (i : n) : 0 ≤ d i := by
  have h1 : (Vᵀ * A * V).PosSemidef := by
    have := psd_congr hA Vᵀ
    rwa [transpose_transpose] at this
  have h2 : Vᵀ * A * V = diagonal d := by
    rw [h]
    calc Vᵀ * (V * diagonal d * Vᵀ) * V = (Vᵀ * V) * diagonal d * (Vᵀ * V) := by simp only [Matrix.mul_assoc]
      _ = diagonal d := by rw [hV]; simp
  rw [h2] at h1
  have := h1.diag_nonneg (i := i)
  simpa using this

theorem trace_transpose_mul_self_nonneg {m : Type} [Fintype m] (X : Matrix m n ℝ) : 0 ≤ (Xᵀ * X).trace := by
  rw [Matrix.trace]
  refine Finset.sum_nonneg fun i _ => ?_
  simp only [diag_apply, mul_apply, transpose_apply]
  exact Finset.sum_nonneg fun j _ => mul_self_nonneg _

theorem trace_transpose_mul_self_eq_zero {m : Type} [Fintype m] {X : Matrix m n ℝ} (h : (Xᵀ * X).trace = 0) :
    X = 0 := by
  rw [← conjTranspose_eq_transpose_of_trivial] at h
  exact Matrix.trace_conjTranspose_mul_self_eq_zero_iff.mp h

/-- Positive semidefinite square roots are unique. -/
theorem sqrt_unique {S T : Matrix n n ℝ} (hS : S.PosSemidef) (hT : T.PosSemidef) (h : S * S = T * T) : S = T := by
  set D := S - T with hD
  have hDt : Dᵀ = D := by rw [hD, transpose_sub, psd_symm hS, psd_symm hT]
  have hanti : D * (S + T) = -((S + T) * D) := by
    rw [hD, eq_neg_iff_add_eq_zero]
    noncomm_ring
    rw [h]
    simp
  have h1 : (D * (S + T) * D).trace = 0 := by
    have e1 : (D * (S + T) * D).trace = -((S + T) * D * D).trace := by
      rw [hanti, Matrix.neg_mul, trace_neg]
    have e2 : (D * (S + T) * D).trace = ((S + T) * D * D).trace := by
      rw [Matrix.mul_assoc, trace_mul_comm]
    linarith
  have pS : (D * S * D).PosSemidef := by have := psd_congr hS D; rwa [hDt] at this
  have pT : (D * T * D).PosSemidef := by have := psd_congr hT D; rwa [hDt] at this
  have h2 : (D * S * D).trace + (D * T * D).trace = 0 := by
    rw [← h1, ← trace_add]; congr 1; noncomm_ring
  have h3 := pS.trace_nonneg
  have h4 := pT.trace_nonneg
  have zS : D * S * D = 0 := pS.trace_eq_zero_iff.mp (by linarith)
  have zT : D * T * D = 0 := pT.trace_eq_zero_iff.mp (by linarith)
  have h5 : D * D * D = 0 := by
    calc D * D * D = D * S * D - D * T * D := by
          conv_lhs => rw [show D * D * D = D * (S - T) * D from rfl]
          noncomm_ring
      _ = 0 := by rw [zS, zT, sub_zero]
  have h6 : D * D = 0 := by
    apply trace_transpose_mul_self_eq_zero
    rw [transpose_mul, hDt, ← Matrix.mul_assoc, h5, Matrix.zero_mul, trace_zero]
  have h7 : D = 0 := by
    apply trace_transpose_mul_self_eq_zero
    rw [hDt, h6, trace_zero]
  exact sub_eq_zero.mp (hD ▸ h7)

theorem orth_comm {W : Matrix n n ℝ} (h : Wᵀ * W = 1) : W * Wᵀ = 1 := _root_.mul_eq_one_comm.mp h

/-- A positive semidefinite square root exists. -/
theorem exists_sqrt {A : Matrix n n ℝ} (hA : A.PosSemidef) : ∃ S : Matrix n n ℝ, S.PosSemidef ∧ S * S = A := by
  obtain ⟨V, d, hV, h⟩ := exists_eigen (A := A) (psd_symm hA)
  have hd := eigen_nonneg hA hV h
  refine ⟨V * diagonal (fun i => Real.sqrt (d i)) * Vᵀ,
    psd_congr (diagonal_psd fun i => Real.sqrt_nonneg _) V, ?_⟩
  calc V * diagonal (fun i => Real.sqrt (d i)) * Vᵀ * (V * diagonal (fun i => Real.sqrt (d i)) * Vᵀ)
      = V * diagonal (fun i => Real.sqrt (d i)) * (Vᵀ * V) * (diagonal (fun i => Real.sqrt (d i)) * Vᵀ) := by
        simp only [Matrix.mul_assoc]
    _ = V * (diagonal (fun i => Real.sqrt (d i)) * diagonal (fun i => Real.sqrt (d i))) * Vᵀ := by
        rw [hV, Matrix.mul_one]; simp only [Matrix.mul_assoc]
    _ = A := by
        rw [diagonal_mul_diagonal]
        have : (fun i => Real.sqrt (d i) * Real.sqrt (d i)) = d := funext fun i => Real.mul_self_sqrt (hd i)
        rw [this, ← h]

/-- The polar decomposition: `M = W S` where `S = √(Mᵀ M)` and `W` is orthogonal. -/
theorem exists_polar {M S : Matrix n n ℝ} (hS : S.PosSemidef) (h : Mᵀ * M = S * S) :
    ∃ W : Matrix n n ℝ, Wᵀ * W = 1 ∧ M = W * S := by
  obtain ⟨V, s, hV, hSV⟩ := exists_eigen (A := S) (psd_symm hS)
  have hs := eigen_nonneg hS hV hSV
  have hV' := orth_comm hV
  -- the columns of `M V` are orthogonal with norms `s`
  have hMV : (M * V)ᵀ * (M * V) = diagonal (fun i => s i * s i) := by
    rw [transpose_mul]
    calc Vᵀ * Mᵀ * (M * V) = Vᵀ * (Mᵀ * M) * V := by simp only [Matrix.mul_assoc]
      _ = Vᵀ * (V * diagonal s * Vᵀ * (V * diagonal s * Vᵀ)) * V := by rw [h, hSV]
      _ = (Vᵀ * V) * diagonal s * (Vᵀ * V) * diagonal s * (Vᵀ * V) := by simp only [Matrix.mul_assoc]
      _ = diagonal (fun i => s i * s i) := by rw [hV]; simp [diagonal_mul_diagonal]
  let v : n → EuclideanSpace ℝ n := fun i => (WithLp.toLp 2 fun r => (s i)⁻¹ * (M * V) r i)
  let t : Set n := {i | s i ≠ 0}
  have hinner : ∀ i j, inner ℝ (v i) (v j) = (s i)⁻¹ * (s j)⁻¹ * (if i = j then s i * s i else 0) := by
    intro i j
    have e := congrFun (congrFun hMV i) j
    rw [mul_apply] at e
    simp only [transpose_apply, diagonal_apply] at e
    rw [← e]
    simp only [v, PiLp.inner_apply, RCLike.inner_apply, conj_trivial, Finset.mul_sum]
    refine Finset.sum_congr rfl fun r _ => by ring
  have hortho : Orthonormal ℝ (t.domRestrict v) := by
    rw [orthonormal_iff_ite]
    rintro ⟨i, hi⟩ ⟨j, hj⟩
    show inner ℝ (v i) (v j) = _
    rw [hinner]
    by_cases hij : i = j
    · subst hij
      have : s i ≠ 0 := hi
      simp; field_simp
    · simp [hij]
  obtain ⟨b, hb⟩ := hortho.exists_orthonormalBasis_extension_of_card_eq (by simp)
  let U : Matrix n n ℝ := Matrix.of fun r i => b i r
  have hU : Uᵀ * U = 1 := by
    ext i j
    rw [mul_apply]
    have := orthonormal_iff_ite.mp b.orthonormal i j
    simp only [PiLp.inner_apply, RCLike.inner_apply, conj_trivial] at this
    simp only [transpose_apply, U, Matrix.of_apply, one_apply]
    rw [← this]
    exact Finset.sum_congr rfl fun r _ => mul_comm _ _
  have hcol : M * V = U * diagonal s := by
    ext r i
    rw [mul_diagonal]
    by_cases hi : s i = 0
    · have e := congrFun (congrFun hMV i) i
      rw [mul_apply] at e
      simp only [transpose_apply, diagonal_apply_eq, hi, mul_zero] at e
      have := (Finset.sum_eq_zero_iff_of_nonneg (fun x _ => mul_self_nonneg _)).mp e r (Finset.mem_univ _)
      rw [hi, mul_zero]
      exact mul_self_eq_zero.mp this
    · simp only [U, Matrix.of_apply]
      rw [hb i hi]
      simp only [v]
      field_simp
  refine ⟨U * Vᵀ, ?_, ?_⟩
  · rw [transpose_mul, transpose_transpose]
    calc V * Uᵀ * (U * Vᵀ) = V * (Uᵀ * U) * Vᵀ := by simp only [Matrix.mul_assoc]
      _ = 1 := by rw [hU, Matrix.mul_one, hV']
  · calc M = M * V * Vᵀ := by rw [Matrix.mul_assoc, hV', Matrix.mul_one]
      _ = U * diagonal s * Vᵀ := by rw [hcol]
      _ = U * ((Vᵀ * V) * diagonal s * Vᵀ) := by rw [hV, Matrix.one_mul, Matrix.mul_assoc]
      _ = U * Vᵀ * S := by rw [hSV]; simp only [Matrix.mul_assoc]

/-- Rotating a positive semidefinite matrix does not increase its trace. -/
theorem trace_orth_mul_le {Q S : Matrix n n ℝ} (hQ : Qᵀ * Q = 1) (hS : S.PosSemidef) : (Q * S).trace ≤ S.trace := by
  obtain ⟨R, hR, hRS⟩ := exists_sqrt hS
  have hRt := psd_symm hR
  -- `‖R - R Qᵀ‖² ≥ 0`
  have h := trace_transpose_mul_self_nonneg (R - R * Qᵀ)
  have e : ((R - R * Qᵀ)ᵀ * (R - R * Qᵀ)).trace = 2 * S.trace - 2 * (Q * S).trace := by
    have e0 : (R - R * Qᵀ)ᵀ * (R - R * Qᵀ) = S - S * Qᵀ - Q * S + Q * S * Qᵀ := by
      rw [transpose_sub, transpose_mul, transpose_transpose, hRt, Matrix.sub_mul, Matrix.mul_sub, Matrix.mul_sub,
        ← Matrix.mul_assoc, ← Matrix.mul_assoc, hRS]
      rw [show Q * R * R = Q * S from by rw [Matrix.mul_assoc, hRS]]
      abel
    have e1 : (S * Qᵀ).trace = (Q * S).trace := by
      rw [← trace_transpose, transpose_mul, transpose_transpose, psd_symm hS]
    have e2 : (Q * S * Qᵀ).trace = S.trace := by
      rw [trace_mul_comm, ← Matrix.mul_assoc, hQ, Matrix.one_mul]
    rw [e0, trace_add, trace_sub, trace_sub, e1, e2]; ring
  linarith

/-- Any two square matrices with the same Gram matrix `X Xᵀ = R R`, `R` positive semidefinite. -/
theorem exists_right_polar {X R : Matrix n n ℝ} (hR : R.PosSemidef) (h : X * Xᵀ = R * R) :
    ∃ W : Matrix n n ℝ, Wᵀ * W = 1 ∧ X = R * W := by
  obtain ⟨W, hW, hX⟩ := exists_polar (M := Xᵀ) hR (by rw [transpose_transpose, h])
  refine ⟨Wᵀ, by rw [transpose_transpose, orth_comm hW], ?_⟩
  rw [← transpose_transpose X, hX, transpose_mul, psd_symm hR]

/-- The trace of `X Yᵀ` is at most that of the root of `RB (X Xᵀ) RB`, for square matrices. -/
theorem trace_mul_transpose_le {X Y RA RB S : Matrix n n ℝ} (hRA : RA.PosSemidef) (hRB : RB.PosSemidef)
    (hS : S.PosSemidef) (hX : X * Xᵀ = RA * RA) (hY : Y * Yᵀ = RB * RB) (hSS : S * S = RB * (RA * RA) * RB) :
    (X * Yᵀ).trace ≤ S.trace := by
  obtain ⟨W, hW, rfl⟩ := exists_right_polar hRA hX
  obtain ⟨V, hV, rfl⟩ := exists_right_polar hRB hY
  obtain ⟨U, hU, hM⟩ := exists_polar (M := RA * RB) hS (by
    rw [transpose_mul, psd_symm hRA, psd_symm hRB, hSS]; simp only [Matrix.mul_assoc])
  have hM' : RB * RA = S * Uᵀ := by
    have := congrArg Matrix.transpose hM
    rw [transpose_mul, transpose_mul, psd_symm hRA, psd_symm hRB, psd_symm hS] at this
    exact this
  have e : (RA * W * (RB * V)ᵀ).trace = ((Uᵀ * (W * Vᵀ)) * S).trace := by
    rw [transpose_mul, psd_symm hRB]
    calc (RA * W * (Vᵀ * RB)).trace = (RB * (RA * W * Vᵀ)).trace := by
          rw [← Matrix.mul_assoc, trace_mul_comm]
      _ = ((RB * RA) * (W * Vᵀ)).trace := by simp only [Matrix.mul_assoc]
      _ = (S * (Uᵀ * (W * Vᵀ))).trace := by rw [hM']; simp only [Matrix.mul_assoc]
      _ = _ := by rw [trace_mul_comm]
  rw [e]
  refine trace_orth_mul_le ?_ hS
  simp only [transpose_mul, transpose_transpose]
  calc V * Wᵀ * U * (Uᵀ * (W * Vᵀ)) = V * (Wᵀ * ((U * Uᵀ) * W)) * Vᵀ := by simp only [Matrix.mul_assoc]
    _ = 1 := by rw [orth_comm hU, Matrix.one_mul, hW, Matrix.mul_one, orth_comm hV]

theorem fromBlocks_psd {A : Matrix n n ℝ} (hA : A.PosSemidef) :
    (fromBlocks A 0 0 0 : Matrix (n ⊕ n) (n ⊕ n) ℝ).PosSemidef := by
  have h : (fromBlocks A 0 0 0 : Matrix (n ⊕ n) (n ⊕ n) ℝ) =
      (fromBlocks 1 0 0 0 : Matrix (n ⊕ n) (n ⊕ n) ℝ) * fromBlocks A 0 0 0 * (fromBlocks 1 0 0 0)ᵀ := by
    simp [fromBlocks_transpose, fromBlocks_multiply]
  obtain ⟨R, hR, rfl⟩ := exists_sqrt hA
  have : (fromBlocks (R * R) 0 0 0 : Matrix (n ⊕ n) (n ⊕ n) ℝ) = fromBlocks R 0 0 0 * (fromBlocks R 0 0 0)ᵀ := by
    simp [fromBlocks_transpose, fromBlocks_multiply, psd_symm hR]
  rw [this]
  exact psd_mul_transpose _

theorem trace_fromBlocks_corner (A : Matrix n n ℝ) :
    (fromBlocks A 0 0 0 : Matrix (n ⊕ n) (n ⊕ n) ℝ).trace = A.trace := by
  simp [Matrix.trace, Fintype.sum_sum_type]

/-- No coupling of the covariances `A` and `B` has a cross covariance of larger trace than the root of
`√B A √B`. -/
theorem coupling_le {A B C RA RB S : Matrix n n ℝ} (hC : (fromBlocks A C Cᵀ B).PosSemidef)
    (hRA : RA.PosSemidef) (hA : RA * RA = A) (hRB : RB.PosSemidef) (hB : RB * RB = B)
    (hS : S.PosSemidef) (hSS : S * S = RB * A * RB) : C.trace ≤ S.trace := by
  obtain ⟨Z, hZ, hZZ⟩ := exists_sqrt hC
  have hZt := psd_symm hZ
  let P : Matrix (n ⊕ n) (n ⊕ n) ℝ := fromBlocks 1 0 0 0
  let E : Matrix (n ⊕ n) (n ⊕ n) ℝ := fromBlocks 0 1 0 0
  have key := trace_mul_transpose_le (X := P * Z) (Y := E * Z) (RA := fromBlocks RA 0 0 0)
    (RB := fromBlocks RB 0 0 0) (S := fromBlocks S 0 0 0) (fromBlocks_psd hRA) (fromBlocks_psd hRB)
    (fromBlocks_psd hS)
    (by
      rw [transpose_mul, hZt, Matrix.mul_assoc, ← Matrix.mul_assoc Z, hZZ]
      simp [P, fromBlocks_transpose, fromBlocks_multiply, hA])
    (by
      rw [transpose_mul, hZt, Matrix.mul_assoc, ← Matrix.mul_assoc Z, hZZ]
      simp [E, fromBlocks_transpose, fromBlocks_multiply, hB])
    (by simp [fromBlocks_multiply, hSS, hA])
  rw [transpose_mul, hZt, Matrix.mul_assoc, ← Matrix.mul_assoc Z, hZZ] at key
  simpa [P, E, fromBlocks_transpose, fromBlocks_multiply, trace_fromBlocks_corner] using key

/-- A coupling from an orthogonal matrix. -/
theorem orth_coupling {A B RA RB W : Matrix n n ℝ} (hRA : RA.PosSemidef) (hA : RA * RA = A)
    (hRB : RB.PosSemidef) (hB : RB * RB = B) (hW : Wᵀ * W = 1) :
    (fromBlocks A (RA * W * RB) (RA * W * RB)ᵀ B).PosSemidef := by
  have h : fromBlocks A (RA * W * RB) (RA * W * RB)ᵀ B =
      (fromRows (RA * W) RB) * (fromRows (RA * W) RB)ᵀ := by
    rw [transpose_fromRows, fromRows_mul_fromCols]
    have e : RA * W * (RA * W)ᵀ = A := by
      rw [transpose_mul, psd_symm hRA]
      calc RA * W * (Wᵀ * RA) = RA * (W * Wᵀ) * RA := by simp only [Matrix.mul_assoc]
        _ = A := by rw [orth_comm hW, Matrix.mul_one, hA]
    rw [e, psd_symm hRB, hB]
    simp only [transpose_mul, psd_symm hRB, psd_symm hRA]
  rw [h]
  exact psd_mul_transpose _

end Albatross.Bures
