import Verif.CvLawProps
import Verif.LogScore

/-! # Expected scores of predictions of held out rows

The random targets have mean `m₀` and covariance `A₀`; rows are predicted from the other rows by linear predictors. -/

namespace Albatross

open MeasureTheory ProbabilityTheory Matrix

variable {Ω : Type} [MeasurableSpace Ω] {P : Measure Ω} [IsProbabilityMeasure P]
variable {n κ : Type} [Fintype n] [DecidableEq n] [Fintype κ] [DecidableEq κ]

/-- The deviation of held out rows `s` from their prediction is this matrix times the deviation of all rows from their
mean. -/
noncomputable def heldOutWeights (A : Matrix n n ℝ) (s : κ → n) : Matrix κ n ℝ :=
  (A⁻¹.submatrix s s)⁻¹ * A⁻¹.submatrix s id

omit [Fintype κ] [DecidableEq κ] in
theorem selection_mul (A : Matrix n n ℝ) (hA : IsUnit A.det) (s : κ → n) :
    A⁻¹.submatrix s id * A = (1 : Matrix n n ℝ).submatrix s id := by
  rw [← Matrix.nonsing_inv_mul _ hA]
  ext i j
  simp [mul_apply]

omit [Fintype κ] [DecidableEq κ] in
theorem selection_mul_transpose (s : κ → n) (W : Matrix κ n ℝ) :
    (1 : Matrix n n ℝ).submatrix s id * Wᵀ = (W.submatrix id s)ᵀ := by
  ext i j
  simp [mul_apply, one_apply]

theorem heldOutWeights_own {A : Matrix n n ℝ} (hA : A.PosDef) {s : κ → n} (hs : Function.Injective s) :
    (heldOutWeights A s).submatrix id s = 1 := by
  have hB : (A⁻¹.submatrix s s).PosDef := hA.inv.submatrix hs
  rw [← nonsing_inv_mul _ ((Matrix.isUnit_iff_isUnit_det _).1 hB.isUnit)]
  ext i j
  simp [heldOutWeights, mul_apply]

/-- A predictor from the other rows: its errors are correlated with those of the best one like the best one's with
themselves. -/
theorem heldOut_cross {A : Matrix n n ℝ} (hA : A.PosDef) (s : κ → n) {W : Matrix κ n ℝ} (hW : W.submatrix id s = 1) :
    heldOutWeights A s * A * Wᵀ = (A⁻¹.submatrix s s)⁻¹ := by
  have hu : IsUnit A.det := (Matrix.isUnit_iff_isUnit_det _).1 hA.isUnit
  rw [heldOutWeights, Matrix.mul_assoc, Matrix.mul_assoc, ← Matrix.mul_assoc _ A, selection_mul A hu,
    selection_mul_transpose, hW, transpose_one, Matrix.mul_one]

theorem heldOut_excess {A : Matrix n n ℝ} (hA : A.PosDef) {s : κ → n} (hs : Function.Injective s) {W : Matrix κ n ℝ}
    (hW : W.submatrix id s = 1) :
    W * A * Wᵀ = (A⁻¹.submatrix s s)⁻¹ + (W - heldOutWeights A s) * A * (W - heldOutWeights A s)ᵀ := by
  have hB : (A⁻¹.submatrix s s).PosDef := hA.inv.submatrix hs
  have hAt : Aᵀ = A := by
    have := hA.isHermitian.eq; rwa [conjTranspose_eq_transpose_of_trivial] at this
  have hBt : ((A⁻¹.submatrix s s)⁻¹)ᵀ = (A⁻¹.submatrix s s)⁻¹ := by
    have := hB.inv.isHermitian.eq; rwa [conjTranspose_eq_transpose_of_trivial] at this
  have h1 := heldOut_cross hA s hW
  have h2 := heldOut_cross hA s (heldOutWeights_own hA hs)
  have h3 : W * A * (heldOutWeights A s)ᵀ = (A⁻¹.submatrix s s)⁻¹ := by
    have := congrArg transpose h1
    rwa [transpose_mul, transpose_mul, transpose_transpose, hAt, hBt, ← Matrix.mul_assoc] at this
  rw [transpose_sub, Matrix.sub_mul, Matrix.sub_mul, Matrix.mul_sub, Matrix.mul_sub, h1, h2, h3]
  abel

theorem trace_mul_psd {S N : Matrix κ κ ℝ} (hS : S.PosDef) (hN : N.PosSemidef) :
    0 ≤ (S * N).trace ∧ ((S * N).trace ≤ 0 → N = 0) := by
  obtain ⟨R, hR, hRR⟩ := Bures.exists_sqrt hS.posSemidef
  have hRt : Rᵀ = R := Bures.psd_symm hR
  have hu : IsUnit R.det := by
    have h := hS.det_pos
    rw [← hRR, det_mul] at h
    exact isUnit_iff_ne_zero.2 fun h0 => by rw [h0] at h; simp at h
  have h1 : (R * N * R).PosSemidef := by
    have := hN.conjTranspose_mul_mul_same R
    rwa [conjTranspose_eq_transpose_of_trivial, hRt] at this
  have h2 : (S * N).trace = (R * N * R).trace := by
    rw [← hRR, Matrix.mul_assoc, trace_mul_comm]
  rw [h2]
  refine ⟨h1.trace_nonneg, fun h => ?_⟩
  have h3 := h1.trace_eq_zero_iff.1 (le_antisymm h h1.trace_nonneg)
  have h4 : R⁻¹ * (R * N * R) * R⁻¹ = N := by
    rw [Matrix.mul_assoc R, ← Matrix.mul_assoc R⁻¹, nonsing_inv_mul _ hu, Matrix.one_mul, Matrix.mul_assoc,
      mul_nonsing_inv _ hu, Matrix.mul_one]
  rw [← h4, h3]
  simp

/-- Expected score of held out rows: no linear predictor from the other rows and no stated covariance are better than the
conditional ones, and only these are as good. -/
theorem heldOut_log_score {A : Matrix n n ℝ} {m₀ : n → ℝ} {Y : Ω → n → ℝ} (hY : HasMoments P Y m₀ A) (hA : A.PosDef)
    {s : κ → n} (hs : Function.Injective s) {W : Matrix κ n ℝ} (hW : W.submatrix id s = 1) (m : n → ℝ)
    {S : Matrix κ κ ℝ} (hS : S.PosDef) :
    Integrable (fun ω => -gaussianLogPdf 0 S (W *ᵥ (Y ω - m))) P ∧
    ∫ ω, -gaussianLogPdf 0 (A⁻¹.submatrix s s)⁻¹ (heldOutWeights A s *ᵥ (Y ω - m₀)) ∂P ≤
      ∫ ω, -gaussianLogPdf 0 S (W *ᵥ (Y ω - m)) ∂P ∧
    (∫ ω, -gaussianLogPdf 0 (A⁻¹.submatrix s s)⁻¹ (heldOutWeights A s *ᵥ (Y ω - m₀)) ∂P =
      ∫ ω, -gaussianLogPdf 0 S (W *ᵥ (Y ω - m)) ∂P →
      S = (A⁻¹.submatrix s s)⁻¹ ∧ W = heldOutWeights A s ∧ W *ᵥ m = W *ᵥ m₀) := by
  have hB : (A⁻¹.submatrix s s)⁻¹.PosDef := (hA.inv.submatrix hs).inv
  set T := (A⁻¹.submatrix s s)⁻¹ with hT
  have mom : ∀ (V : Matrix κ n ℝ) (c : n → ℝ),
      HasMoments P (fun ω => V *ᵥ (Y ω - c)) (V *ᵥ (m₀ - c)) (V * A * Vᵀ) := by
    intro V c
    have h := hY.affine V (-(V *ᵥ c))
    have e : ∀ v : n → ℝ, V *ᵥ v + -(V *ᵥ c) = V *ᵥ (v - c) := fun v => by rw [mulVec_sub, sub_eq_add_neg]
    simp only [e] at h
    exact h
  have hW0 := heldOutWeights_own hA hs
  have i1 := (mom W m).integral_log 0 S
  have i0 := (mom (heldOutWeights A s) m₀).integral_log 0 T
  rw [heldOut_excess hA hs hW0, sub_self, Matrix.zero_mul, Matrix.zero_mul, add_zero, sub_self, mulVec_zero, sub_zero,
    zero_dotProduct, add_zero, ← hT,
    nonsing_inv_mul _ ((Matrix.isUnit_iff_isUnit_det _).1 hB.isUnit), trace_one] at i0
  rw [heldOut_excess hA hs hW, ← hT, sub_zero, Matrix.mul_add, trace_add] at i1
  have hN : ((W - heldOutWeights A s) * A * (W - heldOutWeights A s)ᵀ).PosSemidef := by
    have := hA.posSemidef.mul_mul_conjTranspose_same (W - heldOutWeights A s)
    rwa [conjTranspose_eq_transpose_of_trivial] at this
  have t1 := trace_mul_psd hS.inv hN
  have t2 := inv_quadratic_nonneg hS (W *ᵥ (m₀ - m))
  have t3 := log_det_add_card_le hS hB
  refine ⟨i1.1, ?_, fun he => ?_⟩
  · rw [i0.2, i1.2]
    linarith [t1.1, t2.1, t3.1]
  · rw [i0.2, i1.2] at he
    have e1 := t1.2 (by linarith [t1.1, t2.1, t3.1])
    have e2 := t2.2 (by linarith [t1.1, t2.1, t3.1])
    have e3 := t3.2 (by linarith [t1.1, t2.1, t3.1])
    refine ⟨e3, ?_, ?_⟩
    · rw [← sub_eq_zero]
      ext k j
      have hk : (W - heldOutWeights A s) k ⬝ᵥ (A *ᵥ (W - heldOutWeights A s) k) = 0 := by
        have := congrFun (congrFun e1 k) k
        rw [Matrix.zero_apply, Matrix.mul_assoc] at this
        exact this
      by_contra hne
      have hpos := hA.dotProduct_mulVec_pos (x := (W - heldOutWeights A s) k) fun h0 => hne (congrFun h0 j)
      rw [star_trivial, hk] at hpos
      exact lt_irrefl _ hpos
    · rw [mulVec_sub, sub_eq_zero] at e2
      exact e2.symm

end Albatross
