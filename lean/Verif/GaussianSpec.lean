import Mathlib.LinearAlgebra.Matrix.NonsingularInverse
import Mathlib.LinearAlgebra.Matrix.PosDef
import Mathlib.LinearAlgebra.Matrix.SchurComplement
import Mathlib.Analysis.Matrix.PosDef
import Mathlib.Analysis.Matrix.Order
import Mathlib.Analysis.SpecialFunctions.Log.Basic
import Mathlib.Analysis.SpecialFunctions.Trigonometric.Basic
import Mathlib.Algebra.Order.Star.Real
import Mathlib.Data.Matrix.ColumnRowPartitioned

/-! # Specification: Gaussian densities and conditional Gaussians

Independent of the model of the code.  Used to state C27-C30, C34-C36, C38-C40. -/

namespace Albatross

open Matrix

section
variable {a b : Type} [Fintype a] [DecidableEq a] [Fintype b] [DecidableEq b]

/-- Logarithm of the multivariate normal density with mean `μ` and covariance `S` at `y`. -/
noncomputable def gaussianLogPdf (μ : a → ℝ) (S : Matrix a a ℝ) (y : a → ℝ) : ℝ :=
  -(1 / 2) * ((y - μ) ⬝ᵥ (S⁻¹ *ᵥ (y - μ)) + Real.log S.det + Fintype.card a * Real.log (2 * Real.pi))

/-- `(μ, P)` is the conditional law of `f` given `z = y` when `(f, z)` is Gaussian with means `mf`, `mz`
and covariances `Sff`, `Sfz`, `Szz`: there are regression weights `W` for which `f - W z` is
uncorrelated with (hence independent of) `z`, the mean is the regression prediction and the covariance
that of the residual `f - W z`. -/
def IsGaussianConditional (mf : a → ℝ) (mz : b → ℝ) (Sff : Matrix a a ℝ) (Sfz : Matrix a b ℝ)
    (Szz : Matrix b b ℝ) (y : b → ℝ) (μ : a → ℝ) (P : Matrix a a ℝ) : Prop :=
  ∃ W : Matrix a b ℝ, Sfz - W * Szz = 0 ∧ μ = mf + W *ᵥ (y - mz) ∧
    P = Sff - W * Sfzᵀ - Sfz * Wᵀ + W * Szz * Wᵀ

omit [Fintype a] [DecidableEq a] in
theorem isGaussianConditional_iff {mf : a → ℝ} {mz : b → ℝ} {Sff : Matrix a a ℝ} {Sfz : Matrix a b ℝ}
    {Szz : Matrix b b ℝ} {y : b → ℝ} {μ : a → ℝ} {P : Matrix a a ℝ} (hs : Szzᵀ = Szz)
    (hz : IsUnit Szz.det) :
    IsGaussianConditional mf mz Sff Sfz Szz y μ P ↔
      μ = mf + (Sfz * Szz⁻¹) *ᵥ (y - mz) ∧ P = Sff - Sfz * Szz⁻¹ * Sfzᵀ := by
  have hsi : (Szz⁻¹)ᵀ = Szz⁻¹ := by rw [transpose_nonsing_inv, hs]
  have hP : Sff - Sfz * Szz⁻¹ * Sfzᵀ - Sfz * (Sfz * Szz⁻¹)ᵀ + Sfz * Szz⁻¹ * Szz * (Sfz * Szz⁻¹)ᵀ
      = Sff - Sfz * Szz⁻¹ * Sfzᵀ := by
    rw [transpose_mul, hsi, Matrix.nonsing_inv_mul_cancel_right _ _ hz]
    simp only [Matrix.mul_assoc]
    abel
  constructor
  · rintro ⟨W, hW, hμ, hP'⟩
    have : W = Sfz * Szz⁻¹ := by
      rw [sub_eq_zero.1 hW, Matrix.mul_nonsing_inv_cancel_right _ _ hz]
    subst this
    exact ⟨hμ, hP' ▸ hP⟩
  · rintro ⟨hμ, hP'⟩
    exact ⟨_, by rw [Matrix.nonsing_inv_mul_cancel_right _ _ hz, sub_self], hμ, hP'.trans hP.symm⟩

omit [Fintype a] [DecidableEq a] [DecidableEq b] in
/-- The conditional law is unique (also for singular covariances, on the support of `z`). -/
theorem IsGaussianConditional.unique {mf : a → ℝ} {mz : b → ℝ} {Sff : Matrix a a ℝ}
    {Sfz : Matrix a b ℝ} {Szz : Matrix b b ℝ} {y : b → ℝ} {μ μ' : a → ℝ} {P P' : Matrix a a ℝ}
    (hs : Szzᵀ = Szz) (hy : ∃ c, y - mz = Szz *ᵥ c)
    (h : IsGaussianConditional mf mz Sff Sfz Szz y μ P)
    (h' : IsGaussianConditional mf mz Sff Sfz Szz y μ' P') : μ = μ' ∧ P = P' := by
  obtain ⟨W, hW, hμ, hP⟩ := h
  obtain ⟨W', hW', hμ', hP'⟩ := h'
  obtain ⟨c, hc⟩ := hy
  have e := sub_eq_zero.1 hW
  have e' := sub_eq_zero.1 hW'
  constructor
  · rw [hμ, hμ', hc, mulVec_mulVec, mulVec_mulVec, ← e, ← e']
  · have hWT : Sfzᵀ = Szz * Wᵀ := by rw [e, transpose_mul, hs]
    have hWT' : Sfzᵀ = Szz * W'ᵀ := by rw [e', transpose_mul, hs]
    have h1 : W * Szz * Wᵀ = Sfz * Wᵀ := by rw [← e]
    have h2 : W' * Szz * W'ᵀ = Sfz * W'ᵀ := by rw [← e']
    have h3 : W * Sfzᵀ = Sfz * W'ᵀ := by rw [hWT', ← Matrix.mul_assoc, ← e]
    have h4 : W' * Sfzᵀ = Sfz * W'ᵀ := by rw [hWT', ← Matrix.mul_assoc, ← e']
    rw [hP, hP', h1, h2, h3, h4]
    abel

/-- What the specification means for densities: by Bayes' rule the joint density is the density of the
observation times the density of the conditional law. -/
theorem gaussian_bayes {mf : a → ℝ} {mz : b → ℝ} {Sff : Matrix a a ℝ} {Sfz : Matrix a b ℝ}
    {Szz : Matrix b b ℝ} (hpd : (fromBlocks Szz Sfzᵀ Sfz Sff).PosDef) {y : b → ℝ} {μ : a → ℝ}
    {P : Matrix a a ℝ} (h : IsGaussianConditional mf mz Sff Sfz Szz y μ P) (f : a → ℝ) :
    gaussianLogPdf (Sum.elim mz mf) (fromBlocks Szz Sfzᵀ Sfz Sff) (Sum.elim y f) =
      gaussianLogPdf mz Szz y + gaussianLogPdf μ P f := by
  have hz : Szz.PosDef := hpd.submatrix (e := (Sum.inl : b → b ⊕ a)) Sum.inl_injective
  have hzs : Szzᵀ = Szz := by
    have := hz.isHermitian.eq; rwa [conjTranspose_eq_transpose_of_trivial] at this
  have hzu : IsUnit Szz.det := (Matrix.isUnit_iff_isUnit_det _).1 hz.isUnit
  obtain ⟨hμ, hP⟩ := (isGaussianConditional_iff hzs hzu).1 h
  let := Matrix.invertibleOfIsUnitDet Szz hzu
  have hdet : (fromBlocks Szz Sfzᵀ Sfz Sff).det = Szz.det * P.det := by
    rw [det_fromBlocks₁₁, invOf_eq_nonsing_inv, hP]
  have hPu : IsUnit P.det := by
    have h1 := (Matrix.isUnit_iff_isUnit_det _).1 hpd.isUnit
    rw [hdet] at h1
    exact isUnit_of_mul_isUnit_right h1
  have hsi : (Szz⁻¹)ᵀ = Szz⁻¹ := by rw [transpose_nonsing_inv, hzs]
  -- the quadratic form
  have hq : (Sum.elim y f - Sum.elim mz mf) ⬝ᵥ ((fromBlocks Szz Sfzᵀ Sfz Sff)⁻¹ *ᵥ
      (Sum.elim y f - Sum.elim mz mf)) =
      (y - mz) ⬝ᵥ (Szz⁻¹ *ᵥ (y - mz)) + (f - μ) ⬝ᵥ (P⁻¹ *ᵥ (f - μ)) := by
    set dy := y - mz with hdy
    set e := f - μ with he
    have hfd : f - mf = e + (Sfz * Szz⁻¹) *ᵥ dy := by rw [he, hμ]; abel
    have hd : Sum.elim y f - Sum.elim mz mf = Sum.elim dy (f - mf) := by
      funext i; cases i <;> rfl
    -- solution of the block system
    set w := P⁻¹ *ᵥ e with hw
    set x : b ⊕ a → ℝ := Sum.elim (Szz⁻¹ *ᵥ (dy - Sfzᵀ *ᵥ w)) w with hx
    have hsol : fromBlocks Szz Sfzᵀ Sfz Sff *ᵥ x = Sum.elim dy (f - mf) := by
      rw [hx, fromBlocks_mulVec]
      have hc1 : Szz *ᵥ (Szz⁻¹ *ᵥ (dy - Sfzᵀ *ᵥ w)) = dy - Sfzᵀ *ᵥ w := by
        rw [mulVec_mulVec, Matrix.mul_nonsing_inv _ hzu, one_mulVec]
      have hc2 : P *ᵥ w = e := by
        rw [hw, mulVec_mulVec, Matrix.mul_nonsing_inv _ hPu, one_mulVec]
      simp only [Sum.elim_comp_inl, Sum.elim_comp_inr]
      congr 1
      · rw [hc1]; abel
      · rw [hfd, mulVec_mulVec, mulVec_sub, mulVec_mulVec]
        have : Sff = P + Sfz * Szz⁻¹ * Sfzᵀ := by rw [hP]; abel
        rw [this, add_mulVec, hc2]
        abel
    have hinv : (fromBlocks Szz Sfzᵀ Sfz Sff)⁻¹ *ᵥ (Sum.elim dy (f - mf)) = x := by
      rw [← hsol, mulVec_mulVec, Matrix.nonsing_inv_mul _ ((Matrix.isUnit_iff_isUnit_det _).1 hpd.isUnit),
        one_mulVec]
    rw [hd, hinv, hx, sumElim_dotProduct_sumElim, hfd, mulVec_sub, dotProduct_sub, add_dotProduct]
    have : dy ⬝ᵥ (Szz⁻¹ *ᵥ (Sfzᵀ *ᵥ w)) = ((Sfz * Szz⁻¹) *ᵥ dy) ⬝ᵥ w := by
      rw [mulVec_mulVec, dotProduct_mulVec, ← mulVec_transpose, transpose_mul, transpose_transpose, hsi]
    rw [this]
    ring
  unfold gaussianLogPdf
  rw [hq, hdet, Real.log_mul hzu.ne_zero hPu.ne_zero, Fintype.card_sum]
  push_cast
  ring

end

end Albatross
