import Verif.Bures
import Verif.NormalSpec
import Verif.GaussianSpec
import Mathlib.MeasureTheory.Function.L2Space

/-! # The expected negative log density of a normal distribution

Independent of the model: among all normal distributions the one with the mean and the covariance of a random vector
has the smallest expected negative log density. -/

namespace Albatross

open Matrix MeasureTheory ProbabilityTheory Bures

set_option linter.unusedSectionVars false

variable {n : Type} [Fintype n] [DecidableEq n]

/-- The logarithm of the determinant of a positive definite matrix is at most its trace minus the dimension; only the
identity attains it. -/
theorem log_det_le_trace {M : Matrix n n ℝ} (hM : M.PosDef) :
    Real.log M.det ≤ M.trace - Fintype.card n ∧ (Real.log M.det = M.trace - Fintype.card n → M = 1) := by
  obtain ⟨V, d, hV, hMd⟩ := exists_eigen (psd_symm hM.posSemidef)
  have hV' : V * Vᵀ = 1 := mul_eq_one_comm.1 hV
  have hd : ∀ i, 0 < d i := by
    have h1 : (Vᵀ * M * V).PosDef := by
      have h := hM.conjTranspose_mul_mul_same (B := V) (Matrix.mulVec_injective_of_isUnit (by
        exact (Matrix.isUnit_iff_isUnit_det _).2 (Matrix.isUnit_det_of_left_inverse hV)))
      rwa [conjTranspose_eq_transpose_of_trivial] at h
    have h2 : Vᵀ * M * V = diagonal d := by
      rw [hMd]
      calc Vᵀ * (V * diagonal d * Vᵀ) * V = (Vᵀ * V) * diagonal d * (Vᵀ * V) := by noncomm_ring
        _ = diagonal d := by rw [hV]; simp
    intro i
    rw [h2] at h1
    simpa using h1.diag_pos (i := i)
  have hdet : M.det = ∏ i, d i := by
    rw [hMd, det_mul, det_mul, det_diagonal, mul_right_comm, ← det_mul, hV', det_one, one_mul]
  have htr : M.trace = ∑ i, d i := by
    rw [hMd, trace_mul_comm, ← Matrix.mul_assoc, hV, Matrix.one_mul, trace_diagonal]
  have hlog : Real.log M.det = ∑ i, Real.log (d i) := by
    rw [hdet, Real.log_prod fun i _ => (hd i).ne']
  have hone : M.trace - Fintype.card n = ∑ i, (d i - 1) := by
    rw [htr, Finset.sum_sub_distrib]
    simp
  rw [hlog, hone]
  refine ⟨Finset.sum_le_sum fun i _ => Real.log_le_sub_one_of_pos (hd i), fun h => ?_⟩
  have hall : ∀ i, d i = 1 := by
    by_contra hc
    push Not at hc
    obtain ⟨i, hi⟩ := hc
    exact h.not_lt (Finset.sum_lt_sum (fun j _ => Real.log_le_sub_one_of_pos (hd j))
      ⟨i, Finset.mem_univ i, Real.log_lt_sub_one_of_pos (hd i) hi⟩)
  rw [hMd, show diagonal d = (1 : Matrix n n ℝ) by rw [← diagonal_one]; congr 1; funext i; exact hall i,
    Matrix.mul_one, hV']

/-- `log det T + n ≤ log det S + tr (S⁻¹ T)`, with equality only for `S = T`. -/
theorem log_det_add_card_le {S T : Matrix n n ℝ} (hS : S.PosDef) (hT : T.PosDef) :
    Real.log T.det + Fintype.card n ≤ Real.log S.det + (S⁻¹ * T).trace ∧
    (Real.log T.det + Fintype.card n = Real.log S.det + (S⁻¹ * T).trace → S = T) := by
  obtain ⟨R, hR, hRR⟩ := exists_sqrt hS.posSemidef
  have hRt : Rᵀ = R := psd_symm hR
  have hdS : 0 < S.det := hS.det_pos
  have hdR : R.det ≠ 0 := by
    intro h
    rw [← hRR, det_mul, h, zero_mul] at hdS
    exact lt_irrefl _ hdS
  have hu : IsUnit R.det := isUnit_iff_ne_zero.2 hdR
  have hit : (R⁻¹)ᵀ = R⁻¹ := by rw [transpose_nonsing_inv, hRt]
  have hM : (R⁻¹ * T * R⁻¹).PosDef := by
    have h := hT.conjTranspose_mul_mul_same (B := R⁻¹) (Matrix.mulVec_injective_of_isUnit (by
      rw [Matrix.isUnit_iff_isUnit_det]
      exact Matrix.isUnit_nonsing_inv_det _ hu))
    rwa [conjTranspose_eq_transpose_of_trivial, hit] at h
  have hSinv : S⁻¹ = R⁻¹ * R⁻¹ := by rw [← hRR, Matrix.mul_inv_rev]
  have htr : (R⁻¹ * T * R⁻¹).trace = (S⁻¹ * T).trace := by
    rw [trace_mul_comm, ← Matrix.mul_assoc, hSinv]
  have hdet : (R⁻¹ * T * R⁻¹).det = T.det / S.det := by
    rw [← hRR, det_mul, det_mul, det_mul, det_nonsing_inv, Ring.inverse_eq_inv]
    field_simp
  have h := log_det_le_trace hM
  rw [hdet, Real.log_div hT.det_pos.ne' hdS.ne', htr] at h
  refine ⟨by linarith [h.1], fun he => ?_⟩
  have h1 := h.2 (by linarith)
  have h2 : R * (R⁻¹ * T * R⁻¹) * R = T := by
    calc R * (R⁻¹ * T * R⁻¹) * R = (R * R⁻¹) * T * (R⁻¹ * R) := by noncomm_ring
      _ = T := by rw [mul_nonsing_inv _ hu, nonsing_inv_mul _ hu]; simp
  rw [← h2, h1, Matrix.mul_one, hRR]

/-- `Y` has finite second moments, mean `μ` and covariance `S`. -/
structure HasMoments {Ω : Type} [MeasurableSpace Ω] (P : Measure Ω) (Y : Ω → n → ℝ) (μ : n → ℝ)
    (S : Matrix n n ℝ) : Prop where
  memLp : ∀ i, MemLp (fun ω => Y ω i) 2 P
  mean : ∀ i, ∫ ω, Y ω i ∂P = μ i
  cov : ∀ i j, ∫ ω, (Y ω i - μ i) * (Y ω j - μ j) ∂P = S i j

variable {Ω : Type} [MeasurableSpace Ω] {P : Measure Ω} [IsProbabilityMeasure P]

theorem HasMoments.integrable_mul {Y : Ω → n → ℝ} {μ : n → ℝ} {S : Matrix n n ℝ} (h : HasMoments P Y μ S)
    (m : n → ℝ) (i j : n) : Integrable (fun ω => (Y ω i - m i) * (Y ω j - m j)) P :=
  ((h.memLp i).sub (memLp_const (m i))).integrable_mul ((h.memLp j).sub (memLp_const (m j)))

theorem HasMoments.integral_mul {Y : Ω → n → ℝ} {μ : n → ℝ} {S : Matrix n n ℝ} (h : HasMoments P Y μ S)
    (m : n → ℝ) (i j : n) :
    ∫ ω, (Y ω i - m i) * (Y ω j - m j) ∂P = S i j + (μ i - m i) * (μ j - m j) := by
  have hi : ∀ i, Integrable (fun ω => Y ω i) P := fun i => (h.memLp i).integrable (by norm_num)
  have e : ∀ ω, (Y ω i - m i) * (Y ω j - m j) = (Y ω i - μ i) * (Y ω j - μ j) +
      ((μ i - m i) * Y ω j + ((μ j - m j) * Y ω i + (m i * m j - μ i * μ j))) := fun ω => by ring
  have h1 : Integrable (fun ω => (μ j - m j) * Y ω i + (m i * m j - μ i * μ j)) P :=
    ((hi i).const_mul _).add (integrable_const _)
  have h2 : Integrable (fun ω => (μ i - m i) * Y ω j + ((μ j - m j) * Y ω i + (m i * m j - μ i * μ j))) P :=
    ((hi j).const_mul _).add h1
  simp_rw [e]
  rw [integral_add (h.integrable_mul μ i j) h2, integral_add ((hi j).const_mul _) h1,
    integral_add ((hi i).const_mul _) (integrable_const _), integral_const_mul, integral_const_mul, h.cov, h.mean,
    h.mean, integral_const]
  simp only [probReal_univ, one_smul]
  ring

theorem quadratic_sum (A : Matrix n n ℝ) (v : n → ℝ) : v ⬝ᵥ (A *ᵥ v) = ∑ i, ∑ j, A i j * (v i * v j) := by
  simp only [dotProduct, mulVec, Finset.mul_sum]
  exact Finset.sum_congr rfl fun i _ => Finset.sum_congr rfl fun j _ => by ring

/-- The expected value of a quadratic form. -/
theorem HasMoments.integral_quadratic {Y : Ω → n → ℝ} {μ : n → ℝ} {S : Matrix n n ℝ} (h : HasMoments P Y μ S)
    (A : Matrix n n ℝ) (m : n → ℝ) :
    Integrable (fun ω => (Y ω - m) ⬝ᵥ (A *ᵥ (Y ω - m))) P ∧
    ∫ ω, (Y ω - m) ⬝ᵥ (A *ᵥ (Y ω - m)) ∂P = (A * S).trace + (μ - m) ⬝ᵥ (A *ᵥ (μ - m)) := by
  have hS : ∀ i j, S i j = S j i := fun i j => by
    rw [← h.cov, ← h.cov]
    exact integral_congr_ae (Filter.Eventually.of_forall fun ω => mul_comm _ _)
  simp only [quadratic_sum, Pi.sub_apply]
  have hin : ∀ i, Integrable (fun ω => ∑ j, A i j * ((Y ω i - m i) * (Y ω j - m j))) P := fun i =>
    integrable_finsetSum _ fun j _ => (h.integrable_mul m i j).const_mul _
  constructor
  · exact integrable_finsetSum _ fun i _ => hin i
  · rw [integral_finsetSum _ fun i _ => hin i]
    have e : ∀ i, ∫ ω, ∑ j, A i j * ((Y ω i - m i) * (Y ω j - m j)) ∂P =
        ∑ j, (A i j * S j i + A i j * ((μ i - m i) * (μ j - m j))) := by
      intro i
      rw [integral_finsetSum _ fun j _ => (h.integrable_mul m i j).const_mul _]
      refine Finset.sum_congr rfl fun j _ => ?_
      rw [integral_const_mul, h.integral_mul m i j, hS i j]
      ring
    simp only [e, Finset.sum_add_distrib]
    rfl

/-- The expected negative log density. -/
theorem HasMoments.integral_log {Y : Ω → n → ℝ} {μ : n → ℝ} {T : Matrix n n ℝ} (h : HasMoments P Y μ T)
    (m : n → ℝ) (S : Matrix n n ℝ) : Integrable (fun ω => -gaussianLogPdf m S (Y ω)) P ∧
      ∫ ω, -gaussianLogPdf m S (Y ω) ∂P = 1 / 2 * ((S⁻¹ * T).trace + (μ - m) ⬝ᵥ (S⁻¹ *ᵥ (μ - m)) + (Real.log S.det +
        Fintype.card n * Real.log (2 * Real.pi))) := by
  have hq := h.integral_quadratic S⁻¹ m
  have e : ∀ ω, -gaussianLogPdf m S (Y ω) = 1 / 2 * ((Y ω - m) ⬝ᵥ (S⁻¹ *ᵥ (Y ω - m)) + (Real.log S.det +
      Fintype.card n * Real.log (2 * Real.pi))) := by
    intro ω
    unfold gaussianLogPdf
    ring
  simp_rw [e]
  refine ⟨(hq.1.add (integrable_const _)).const_mul _, ?_⟩
  rw [integral_const_mul, integral_add hq.1 (integrable_const _), hq.2, integral_const]
  simp only [probReal_univ, one_smul]

theorem inv_quadratic_nonneg {S : Matrix n n ℝ} (hS : S.PosDef) (v : n → ℝ) :
    0 ≤ v ⬝ᵥ (S⁻¹ *ᵥ v) ∧ (v ⬝ᵥ (S⁻¹ *ᵥ v) ≤ 0 → v = 0) := by
  have hpd : S⁻¹.PosDef := hS.inv
  constructor
  · have := hpd.posSemidef.dotProduct_mulVec_nonneg v
    simpa using this
  · intro h
    by_contra hne
    have := hpd.dotProduct_mulVec_pos hne
    simp only [star_trivial] at this
    linarith

/-- The expected negative log density is smallest for the mean and the covariance of the random vector, and only for
them. -/
theorem HasMoments.log_score {Y : Ω → n → ℝ} {μ : n → ℝ} {T : Matrix n n ℝ} (h : HasMoments P Y μ T)
    (hT : T.PosDef) (m : n → ℝ) {S : Matrix n n ℝ} (hS : S.PosDef) :
    ∫ ω, -gaussianLogPdf μ T (Y ω) ∂P ≤ ∫ ω, -gaussianLogPdf m S (Y ω) ∂P ∧
    (∫ ω, -gaussianLogPdf μ T (Y ω) ∂P = ∫ ω, -gaussianLogPdf m S (Y ω) ∂P → m = μ ∧ S = T) := by
  have hTT : (T⁻¹ * T).trace = Fintype.card n := by
    rw [nonsing_inv_mul _ ((Matrix.isUnit_iff_isUnit_det _).1 hT.isUnit), trace_one]
  have hq0 := inv_quadratic_nonneg hS (μ - m)
  have hkey := log_det_add_card_le hS hT
  rw [(h.integral_log m S).2, (h.integral_log μ T).2, hTT, sub_self]
  simp only [zero_dotProduct]
  refine ⟨by linarith [hkey.1, hq0.1], fun he => ⟨?_, hkey.2 (by linarith [hkey.1, hq0.1])⟩⟩
  exact (sub_eq_zero.1 (hq0.2 (by linarith [hkey.1]))).symm

theorem trace_inv_diagonal_mul {v : n → ℝ} (hv : ∀ i, 0 < v i) (T : Matrix n n ℝ) :
    ((diagonal v)⁻¹ * T).trace = ((diagonal v)⁻¹ * diagonal fun i => T i i).trace := by
  have hinv : (diagonal v)⁻¹ = diagonal fun i => (v i)⁻¹ := by
    apply Matrix.inv_eq_right_inv
    rw [diagonal_mul_diagonal, ← diagonal_one]
    congr 1
    funext i
    exact mul_inv_cancel₀ (hv i).ne'
  rw [hinv]
  simp [Matrix.trace, diagonal_mul]

/-- Among the normal distributions with independent coordinates, the one with the mean and the variances of the random
vector has the smallest expected negative log density, and only that one. -/
theorem HasMoments.log_score_diagonal {Y : Ω → n → ℝ} {μ : n → ℝ} {T : Matrix n n ℝ} (h : HasMoments P Y μ T)
    (hT : ∀ i, 0 < T i i) (m : n → ℝ) {v : n → ℝ} (hv : ∀ i, 0 < v i) :
    ∫ ω, -gaussianLogPdf μ (diagonal fun i => T i i) (Y ω) ∂P ≤ ∫ ω, -gaussianLogPdf m (diagonal v) (Y ω) ∂P ∧
    (∫ ω, -gaussianLogPdf μ (diagonal fun i => T i i) (Y ω) ∂P = ∫ ω, -gaussianLogPdf m (diagonal v) (Y ω) ∂P →
      m = μ ∧ ∀ i, v i = T i i) := by
  have hTd : (diagonal fun i => T i i).PosDef := Matrix.PosDef.diagonal hT
  have hvd : (diagonal v).PosDef := Matrix.PosDef.diagonal hv
  have hTT : ((diagonal fun i => T i i)⁻¹ * T).trace = Fintype.card n := by
    rw [trace_inv_diagonal_mul hT, nonsing_inv_mul _ ((Matrix.isUnit_iff_isUnit_det _).1 hTd.isUnit), trace_one]
  have hq0 := inv_quadratic_nonneg hvd (μ - m)
  have hkey := log_det_add_card_le hvd hTd
  rw [(h.integral_log m _).2, (h.integral_log μ _).2, hTT, sub_self, trace_inv_diagonal_mul hv]
  simp only [zero_dotProduct]
  refine ⟨by linarith [hkey.1, hq0.1], fun he => ⟨?_, fun i => ?_⟩⟩
  · exact (sub_eq_zero.1 (hq0.2 (by linarith [hkey.1]))).symm
  · have := congrFun (congrFun (hkey.2 (by linarith [hkey.1, hq0.1])) i) i
    simpa using this

/-- A normal vector has the moments of its name. -/
theorem IsNormal.hasMoments {X : Ω → n → ℝ} {μ : n → ℝ} {S : Matrix n n ℝ} (h : IsNormal P X μ S) :
    HasMoments P X μ S := by
  obtain ⟨hS, hX, hlaw⟩ := h
  set f : Ω → EuclideanSpace ℝ n := fun ω => WithLp.toLp 2 (X ω) with hf
  have hfm : AEMeasurable f P := (PiLp.continuous_toLp 2 _).measurable.comp_aemeasurable hX
  have hev : ∀ i, Measurable fun x : EuclideanSpace ℝ n => x i := fun i => by fun_prop
  have hmem : ∀ i, MemLp (fun x : EuclideanSpace ℝ n => x i) 2 (multivariateGaussian (WithLp.toLp 2 μ) S) := by
    intro i
    have h1 := measurePreserving_eval_multivariateGaussian (μ := WithLp.toLp 2 μ) hS (i := i)
    have h2 := memLp_id_gaussianReal (μ := μ i) (v := (S i i).toNNReal) 2
    exact h2.comp_measurePreserving h1
  have hmean : ∀ i, ∫ x : EuclideanSpace ℝ n, x i ∂multivariateGaussian (WithLp.toLp 2 μ) S = μ i := by
    intro i
    have h1 := measurePreserving_eval_multivariateGaussian (μ := WithLp.toLp 2 μ) hS (i := i)
    have h2 := integral_id_gaussianReal (μ := μ i) (v := (S i i).toNNReal)
    rw [← h1.map_eq, integral_map h1.measurable.aemeasurable (by fun_prop)] at h2
    exact h2
  refine ⟨fun i => ?_, fun i => ?_, fun i j => ?_⟩
  · have := hmem i
    rw [← hlaw] at this
    exact this.comp_of_map hfm
  · have := hmean i
    rw [← hlaw, integral_map hfm (hev i).aestronglyMeasurable] at this
    exact this
  · have := covariance_eval_multivariateGaussian (μ := WithLp.toLp 2 μ) hS i j
    unfold covariance at this
    rw [hmean, hmean, ← hlaw, integral_map hfm] at this
    · exact this
    · exact (((hev i).sub_const _).mul ((hev j).sub_const _)).aestronglyMeasurable

end Albatross
