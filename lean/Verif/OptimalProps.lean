import Verif.GpProps
import Verif.LogScore
import Mathlib.Probability.Distributions.Gaussian.HasGaussianLaw.Independence

/-! # A Gaussian process predicts as well as can be and states its own error (C118)

Specification: a random vector of process values and measured targets with the mean and the covariance of the model,
the expected square of the error of a prediction, and the order of positive semidefinite matrices. -/

namespace Albatross

open Matrix MeasureTheory ProbabilityTheory

set_option linter.unusedSectionVars false

variable {X n q : Type} [Fintype n] [DecidableEq n] [Fintype q] [DecidableEq q]
variable {Ω : Type} [MeasurableSpace Ω] {P : Measure Ω} [IsProbabilityMeasure P]

/-- The prior mean of the process at `xs` and of the measurements at `train`. -/
def jointMean (g : Gp X) (xs : q → X) (train : n → X) : q ⊕ n → ℝ :=
  Sum.elim (fun j => g.mean (xs j)) (fun i => g.mean (g.asMeas (train i)))

/-- The prior covariance of the process at `xs` and of the targets at `train`, which have errors of variance
`variance`. -/
def jointCovariance (g : Gp X) (xs : q → X) (train : n → X) (variance : n → ℝ) : Matrix (q ⊕ n) (q ⊕ n) ℝ :=
  of fun a b => match a, b with
    | .inl j, .inl j' => g.cov (xs j) (xs j')
    | .inl j, .inr i => g.cov (xs j) (train i)
    | .inr i, .inl j => g.cov (train i) (xs j)
    | .inr i, .inr i' => g.cov (g.asMeas (train i)) (g.asMeas (train i')) + if i = i' then variance i else 0

theorem jointCovariance_blocks (g : Gp X) (xs : q → X) (train : n → X) (v : n → ℝ) :
    jointCovariance g xs train v =
      fromBlocks (g.covMat xs xs) (g.covMat xs train) (g.covMat train xs) (obsCovariance g train v) := by
  ext a b
  cases a <;> cases b <;> rfl

/-- Affine images of a vector with given moments. -/
theorem HasMoments.affine {m : Type} [Fintype m] [DecidableEq m] {Y : Ω → n → ℝ} {μ : n → ℝ} {S : Matrix n n ℝ}
    (h : HasMoments P Y μ S) (M : Matrix m n ℝ) (c : m → ℝ) :
    HasMoments P (fun ω => M *ᵥ Y ω + c) (M *ᵥ μ + c) (M * S * Mᵀ) := by
  have hi : ∀ i, Integrable (fun ω => Y ω i) P := fun i => (h.memLp i).integrable (by norm_num)
  have hdiff : ∀ ω a, (M *ᵥ Y ω + c) a - (M *ᵥ μ + c) a = ∑ i, M a i * (Y ω i - μ i) := by
    intro ω a
    simp only [Pi.add_apply, mulVec, dotProduct, mul_sub, Finset.sum_sub_distrib]
    ring
  refine ⟨fun a => ?_, fun a => ?_, fun a b => ?_⟩
  · refine MemLp.add ?_ (memLp_const (c a))
    exact memLp_finsetSum _ fun i _ => (h.memLp i).const_mul (M a i)
  · simp only [Pi.add_apply, mulVec, dotProduct]
    have h1 : Integrable (fun ω => ∑ i, M a i * Y ω i) P := integrable_finsetSum _ fun i _ => (hi i).const_mul _
    rw [integral_add h1 (integrable_const _), integral_finsetSum _ fun i _ => (hi i).const_mul _, integral_const]
    simp only [integral_const_mul, h.mean, probReal_univ, one_smul]
  · simp only [hdiff, Finset.sum_mul_sum]
    have h2 : ∀ i j, Integrable (fun ω => M a i * (Y ω i - μ i) * (M b j * (Y ω j - μ j))) P := by
      intro i j
      refine ((h.integrable_mul μ i j).const_mul (M a i * M b j)).congr (Filter.Eventually.of_forall fun ω => ?_)
      simp only
      ring
    have h3 : ∀ i, Integrable (fun ω => ∑ j, M a i * (Y ω i - μ i) * (M b j * (Y ω j - μ j))) P := fun i =>
      integrable_finsetSum _ fun j _ => h2 i j
    rw [integral_finsetSum _ fun i _ => h3 i]
    simp only [mul_apply, transpose_apply, Finset.sum_mul]
    rw [Finset.sum_comm]
    refine Finset.sum_congr rfl fun i _ => ?_
    rw [integral_finsetSum _ fun j _ => h2 i j]
    refine Finset.sum_congr rfl fun j _ => ?_
    have e : ∀ ω, M a i * (Y ω i - μ i) * (M b j * (Y ω j - μ j)) =
        M a i * M b j * ((Y ω i - μ i) * (Y ω j - μ j)) := fun ω => by ring
    simp_rw [e]
    rw [integral_const_mul, h.cov]
    ring

/-- The regression weights of the model. -/
noncomputable def gpWeights (g : Gp X) (train : n → X) (variance : n → ℝ) (xs : q → X) : Matrix q n ℝ :=
  g.covMat xs train * (obsCovariance g train variance)⁻¹

/-- The matrix taking process values and targets to errors and targets. -/
noncomputable def errorMap (g : Gp X) (train : n → X) (variance : n → ℝ) (xs : q → X) : Matrix (q ⊕ n) (q ⊕ n) ℝ :=
  fromBlocks 1 (-gpWeights g train variance xs) 0 1

/-- The constant part. -/
noncomputable def errorConst (g : Gp X) (train : n → X) (variance : n → ℝ) (xs : q → X) : q ⊕ n → ℝ :=
  Sum.elim (fun j => (gpWeights g train variance xs *ᵥ fun i => g.mean (g.asMeas (train i))) j - g.mean (xs j)) 0

/-- The Pythagorean identity for uncorrelated errors. -/
theorem integral_sq_add_uncorrelated {R D : Ω → ℝ} (hR : MemLp R 2 P) (hD : MemLp D 2 P) (h : ∫ ω, R ω * D ω ∂P = 0) :
    ∫ ω, (R ω + D ω) ^ 2 ∂P = ∫ ω, R ω ^ 2 ∂P + ∫ ω, D ω ^ 2 ∂P := by
  have h1 : Integrable (fun ω => 2 * (R ω * D ω) + D ω ^ 2) P :=
    ((hR.integrable_mul hD).const_mul 2).add hD.integrable_sq
  have h2 : Integrable (fun ω => 2 * (R ω * D ω)) P := (hR.integrable_mul hD).const_mul 2
  have e : ∀ ω, (R ω + D ω) ^ 2 = R ω ^ 2 + (2 * (R ω * D ω) + D ω ^ 2) := fun ω => by ring
  simp_rw [e]
  rw [integral_add hR.integrable_sq h1, integral_add h2 hD.integrable_sq,
    integral_const_mul, h]
  ring

section

variable (g : Gp X) (hsym : ∀ x y, g.cov x y = g.cov y x) (ldlt : Matrix n n ℝ → Ldlt n) (train : n → X)
  (variance : n → ℝ)
  (hF : (ldlt (obsCovariance g train variance)).Factors (obsCovariance g train variance))
  (hA : IsUnit (obsCovariance g train variance).det) (xs : q → X)

include hsym hF hA

theorem predict_eq (y : n → ℝ) :
    g.predictJoint (g.fit ldlt train ⟨y, variance⟩) xs =
      ⟨fun j => g.mean (xs j) + (gpWeights g train variance xs *ᵥ fun i => y i - g.mean (g.asMeas (train i))) j,
        g.covMat xs xs - gpWeights g train variance xs * g.covMat train xs⟩ :=
  predictJoint_of_fitOf g hsym (fit_fitOf g hsym ldlt train ⟨y, variance⟩ hF hA) xs

theorem errorMap_apply (z : q ⊕ n → ℝ) :
    errorMap g train variance xs *ᵥ z + errorConst g train variance xs =
      Sum.elim (fun j => z (.inl j) -
        (g.predictJoint (g.fit ldlt train ⟨fun i => z (.inr i), variance⟩) xs).mean j) (fun i => z (.inr i)) := by
  rw [predict_eq g hsym ldlt train variance hF hA xs]
  have hz : z = Sum.elim (fun j => z (.inl j)) (fun i => z (.inr i)) := by
    funext a
    cases a <;> rfl
  rw [errorMap, hz, fromBlocks_mulVec]
  funext a
  cases a with
  | inl j =>
    have : (fun i => z (.inr i) - g.mean (g.asMeas (train i))) =
        (fun i => z (.inr i)) - fun i => g.mean (g.asMeas (train i)) := rfl
    simp only [errorConst, Pi.add_apply, Sum.elim_inl, one_mulVec, neg_mulVec, Pi.neg_apply, Function.comp_def,
      Sum.elim_inr, this, mulVec_sub, Pi.sub_apply]
    ring
  | inr i => simp [errorConst, Function.comp_def]

theorem errorMap_mean : errorMap g train variance xs *ᵥ jointMean g xs train + errorConst g train variance xs =
    Sum.elim (0 : q → ℝ) (fun i => g.mean (g.asMeas (train i))) := by
  rw [errorMap_apply g hsym ldlt train variance hF hA xs, predict_eq g hsym ldlt train variance hF hA xs]
  funext a
  cases a with
  | inl j =>
    have : (fun _ : n => (0 : ℝ)) = 0 := rfl
    simp [jointMean, this]
  | inr i => simp [jointMean]

theorem errorMap_covariance : errorMap g train variance xs * jointCovariance g xs train variance *
    (errorMap g train variance xs)ᵀ =
      fromBlocks (g.predictJoint (g.fit ldlt train ⟨0, variance⟩) xs).covariance 0 0 (obsCovariance g train variance) := by
  have hW : gpWeights g train variance xs * obsCovariance g train variance = g.covMat xs train := by
    rw [gpWeights, Matrix.nonsing_inv_mul_cancel_right _ _ hA]
  have hWt : obsCovariance g train variance * (gpWeights g train variance xs)ᵀ = g.covMat train xs := by
    have h := congrArg Matrix.transpose hW
    rwa [transpose_mul, obsCovariance_symm g hsym, covMat_transpose g hsym] at h
  rw [predict_eq g hsym ldlt train variance hF hA xs, jointCovariance_blocks, errorMap, fromBlocks_transpose,
    fromBlocks_multiply, fromBlocks_multiply]
  simp only [Matrix.one_mul, Matrix.zero_mul, zero_add, transpose_one, transpose_zero, Matrix.mul_one, Matrix.mul_zero,
    transpose_neg, Matrix.neg_mul, Matrix.mul_neg, hW]
  congr 1
  · rw [add_neg_cancel]
    simp only [Matrix.zero_mul, neg_zero, add_zero, ← sub_eq_add_neg]
  · rw [add_neg_cancel]
  · rw [hWt, add_neg_cancel]

/-- The covariance does not depend on the targets. -/
theorem predict_covariance_const (y : n → ℝ) :
    (g.predictJoint (g.fit ldlt train ⟨y, variance⟩) xs).covariance =
      (g.predictJoint (g.fit ldlt train ⟨0, variance⟩) xs).covariance := by
  rw [predict_eq g hsym ldlt train variance hF hA xs, predict_eq g hsym ldlt train variance hF hA xs]

/-- **C118**: a prediction states its own error.  Let process values and targets have the mean and the covariance of the
model (of any law).  Then the errors of the predicted means have mean zero, exactly the predicted covariance (which does
not depend on the targets), and are uncorrelated with the targets. -/
theorem C118_calibrated {Z : Ω → q ⊕ n → ℝ}
    (hZ : HasMoments P Z (jointMean g xs train) (jointCovariance g xs train variance)) :
    ∃ C : Matrix q q ℝ,
      (∀ ω, (g.predictJoint (g.fit ldlt train ⟨fun i => Z ω (.inr i), variance⟩) xs).covariance = C) ∧
      HasMoments P (fun ω j => Z ω (.inl j) -
        (g.predictJoint (g.fit ldlt train ⟨fun i => Z ω (.inr i), variance⟩) xs).mean j) 0 C ∧
      ∀ j i, ∫ ω, (Z ω (.inl j) -
        (g.predictJoint (g.fit ldlt train ⟨fun i => Z ω (.inr i), variance⟩) xs).mean j) *
          (Z ω (.inr i) - g.mean (g.asMeas (train i))) ∂P = 0 := by
  have h := hZ.affine (errorMap g train variance xs) (errorConst g train variance xs)
  rw [errorMap_mean g hsym ldlt train variance hF hA xs, errorMap_covariance g hsym ldlt train variance hF hA xs] at h
  simp only [errorMap_apply g hsym ldlt train variance hF hA xs] at h
  refine ⟨(g.predictJoint (g.fit ldlt train ⟨0, variance⟩) xs).covariance,
    fun ω => predict_covariance_const g hsym ldlt train variance hF hA xs _, ⟨fun j => ?_, fun j => ?_, fun j j' => ?_⟩,
    fun j i => ?_⟩
  · exact h.memLp (.inl j)
  · exact h.mean (.inl j)
  · exact h.cov (.inl j) (.inl j')
  · have := h.cov (.inl j) (.inr i)
    simpa using this

/-- The error in one direction, and its expected square. -/
theorem error_direction {Z : Ω → q ⊕ n → ℝ}
    (hZ : HasMoments P Z (jointMean g xs train) (jointCovariance g xs train variance)) (c : q → ℝ) (y : n → ℝ) :
    MemLp (fun ω => c ⬝ᵥ fun j => Z ω (.inl j) -
      (g.predictJoint (g.fit ldlt train ⟨fun i => Z ω (.inr i), variance⟩) xs).mean j) 2 P ∧
    ∫ ω, (c ⬝ᵥ fun j => Z ω (.inl j) -
      (g.predictJoint (g.fit ldlt train ⟨fun i => Z ω (.inr i), variance⟩) xs).mean j) ∂P = 0 ∧
    ∫ ω, (c ⬝ᵥ fun j => Z ω (.inl j) -
      (g.predictJoint (g.fit ldlt train ⟨fun i => Z ω (.inr i), variance⟩) xs).mean j) ^ 2 ∂P =
      c ⬝ᵥ ((g.predictJoint (g.fit ldlt train ⟨y, variance⟩) xs).covariance *ᵥ c) ∧
    ∀ i, ∫ ω, (c ⬝ᵥ fun j => Z ω (.inl j) -
      (g.predictJoint (g.fit ldlt train ⟨fun i => Z ω (.inr i), variance⟩) xs).mean j) *
        (Z ω (.inr i) - g.mean (g.asMeas (train i))) ∂P = 0 := by
  obtain ⟨C, hC, hm, hu⟩ := C118_calibrated g hsym ldlt train variance hF hA xs hZ
  have hCy : (g.predictJoint (g.fit ldlt train ⟨y, variance⟩) xs).covariance = C := by
    rw [predict_covariance_const g hsym ldlt train variance hF hA xs y]
    have : Nonempty Ω := by
      by_contra h
      rw [not_nonempty_iff] at h
      have := measure_univ (μ := P)
      rw [Set.univ_eq_empty_iff.2 h, measure_empty] at this
      exact zero_ne_one this
    obtain ⟨ω⟩ := this
    rw [← hC ω]
    exact (predict_covariance_const g hsym ldlt train variance hF hA xs _).symm
  rw [hCy]
  set R : Ω → q → ℝ := fun ω j => Z ω (.inl j) -
    (g.predictJoint (g.fit ldlt train ⟨fun i => Z ω (.inr i), variance⟩) xs).mean j with hR
  have ha := hm.affine (of fun (_ : Unit) j => c j) 0
  have e : ∀ ω, ((of fun (_ : Unit) j => c j) *ᵥ R ω + 0) () = c ⬝ᵥ R ω := fun ω => by simp [mulVec]
  have hmem : MemLp (fun ω => c ⬝ᵥ R ω) 2 P := by
    have := ha.memLp ()
    simpa only [e] using this
  refine ⟨hmem, ?_, ?_, fun i => ?_⟩
  · have := ha.mean ()
    simp only [e] at this
    rw [this]
    simp
  · have := ha.cov () ()
    simp only [e] at this
    simp only [mulVec_zero, Pi.zero_apply, add_zero, sub_zero, ← sq] at this
    rw [this]
    simp only [mul_apply, of_apply, transpose_apply, dotProduct, mulVec, Finset.mul_sum, Finset.sum_mul]
    rw [Finset.sum_comm]
    refine Finset.sum_congr rfl fun j _ => Finset.sum_congr rfl fun j' _ => by ring
  · have hY : ∀ i, MemLp (fun ω => Z ω (.inr i) - g.mean (g.asMeas (train i))) 2 P := fun i =>
      (hZ.memLp (.inr i)).sub (memLp_const _)
    have hin : ∀ j, Integrable (fun ω => R ω j * (Z ω (.inr i) - g.mean (g.asMeas (train i)))) P := fun j =>
      (hm.memLp j).integrable_mul (hY i)
    simp only [dotProduct, Finset.sum_mul, mul_assoc]
    rw [integral_finsetSum _ fun j _ => (hin j).const_mul _]
    refine Finset.sum_eq_zero fun j _ => ?_
    rw [integral_const_mul, hu j i, mul_zero]

/-- **C118**: the predicted mean is the best linear estimate.  For every combination `c` of process values (a single value,
a difference, ...), whatever the law with the mean and covariance of the model: the expected squared error of the
prediction is the predicted variance of the combination, and no affine function of the targets has a smaller one. -/
theorem C118_best_linear {Z : Ω → q ⊕ n → ℝ}
    (hZ : HasMoments P Z (jointMean g xs train) (jointCovariance g xs train variance)) (c : q → ℝ) (y : n → ℝ) :
    ∫ ω, ((c ⬝ᵥ fun j => Z ω (.inl j)) -
      c ⬝ᵥ (g.predictJoint (g.fit ldlt train ⟨fun i => Z ω (.inr i), variance⟩) xs).mean) ^ 2 ∂P =
      c ⬝ᵥ ((g.predictJoint (g.fit ldlt train ⟨y, variance⟩) xs).covariance *ᵥ c) ∧
    ∀ (a : ℝ) (w : n → ℝ), c ⬝ᵥ ((g.predictJoint (g.fit ldlt train ⟨y, variance⟩) xs).covariance *ᵥ c) ≤
      ∫ ω, ((c ⬝ᵥ fun j => Z ω (.inl j)) - (a + w ⬝ᵥ fun i => Z ω (.inr i))) ^ 2 ∂P := by
  obtain ⟨hmem, hmean, hsq, hunc⟩ := error_direction g hsym ldlt train variance hF hA xs hZ c y
  set R : Ω → ℝ := fun ω => c ⬝ᵥ fun j => Z ω (.inl j) -
    (g.predictJoint (g.fit ldlt train ⟨fun i => Z ω (.inr i), variance⟩) xs).mean j with hR
  have e : ∀ ω, (c ⬝ᵥ fun j => Z ω (.inl j)) -
      c ⬝ᵥ (g.predictJoint (g.fit ldlt train ⟨fun i => Z ω (.inr i), variance⟩) xs).mean = R ω := by
    intro ω
    rw [hR, ← dotProduct_sub]
    rfl
  simp_rw [e]
  refine ⟨hsq, fun a w => ?_⟩
  -- the difference of the two estimates is affine in the targets
  set v : n → ℝ := (gpWeights g train variance xs)ᵀ *ᵥ c - w with hv
  set d : ℝ := c ⬝ᵥ (fun j => g.mean (xs j)) - a - w ⬝ᵥ (fun i => g.mean (g.asMeas (train i))) with hd
  have hD : ∀ ω, (c ⬝ᵥ fun j => Z ω (.inl j)) - (a + w ⬝ᵥ fun i => Z ω (.inr i)) =
      R ω + (d + v ⬝ᵥ fun i => Z ω (.inr i) - g.mean (g.asMeas (train i))) := by
    intro ω
    rw [← e ω, predict_eq g hsym ldlt train variance hF hA xs]
    have h1 : (fun j => g.mean (xs j) + (gpWeights g train variance xs *ᵥ fun i =>
        Z ω (.inr i) - g.mean (g.asMeas (train i))) j) = (fun j => g.mean (xs j)) + gpWeights g train variance xs *ᵥ
        (fun i => Z ω (.inr i) - g.mean (g.asMeas (train i))) := rfl
    have h2 : (fun i => Z ω (.inr i)) = (fun i => Z ω (.inr i) - g.mean (g.asMeas (train i))) +
        fun i => g.mean (g.asMeas (train i)) := by
      funext i
      simp
    rw [h1, h2, hv, hd, dotProduct_add, dotProduct_add, sub_dotProduct, mulVec_transpose, ← dotProduct_mulVec]
    ring
  have hY : ∀ i, MemLp (fun ω => Z ω (.inr i) - g.mean (g.asMeas (train i))) 2 P := fun i =>
    (hZ.memLp (.inr i)).sub (memLp_const _)
  have hDm : MemLp (fun ω => d + v ⬝ᵥ fun i => Z ω (.inr i) - g.mean (g.asMeas (train i))) 2 P := by
    refine (memLp_const d).add ?_
    exact memLp_finsetSum _ fun i _ => (hY i).const_mul (v i)
  have h0 : ∫ ω, R ω * (d + v ⬝ᵥ fun i => Z ω (.inr i) - g.mean (g.asMeas (train i))) ∂P = 0 := by
    have h1 : ∀ i, Integrable (fun ω => v i * (R ω * (Z ω (.inr i) - g.mean (g.asMeas (train i))))) P := fun i =>
      (hmem.integrable_mul (hY i)).const_mul _
    have h2 : Integrable (fun ω => ∑ i, v i * (R ω * (Z ω (.inr i) - g.mean (g.asMeas (train i))))) P :=
      integrable_finsetSum _ fun i _ => h1 i
    have h3 : ∀ ω, R ω * (d + v ⬝ᵥ fun i => Z ω (.inr i) - g.mean (g.asMeas (train i))) =
        d * R ω + ∑ i, v i * (R ω * (Z ω (.inr i) - g.mean (g.asMeas (train i)))) := by
      intro ω
      rw [mul_add, dotProduct, Finset.mul_sum, mul_comm]
      congr 1
      exact Finset.sum_congr rfl fun i _ => by ring
    simp_rw [h3]
    rw [integral_add ((hmem.integrable (by norm_num)).const_mul d) h2, integral_finsetSum _ fun i _ => h1 i,
      integral_const_mul, hmean, mul_zero, zero_add]
    refine Finset.sum_eq_zero fun i _ => ?_
    rw [integral_const_mul, hunc i, mul_zero]
  simp_rw [hD]
  rw [integral_sq_add_uncorrelated hmem hDm h0, hsq]
  exact le_add_of_nonneg_right (integral_nonneg fun ω => sq_nonneg _)

/-- **C118**: if moreover process values and targets are jointly normal, the errors are normal with the predicted
covariance and independent of the targets. -/
theorem C118_normal {Z : Ω → q ⊕ n → ℝ}
    (hZ : IsNormal P Z (jointMean g xs train) (jointCovariance g xs train variance)) (y : n → ℝ) :
    IsNormal P (fun ω j => Z ω (.inl j) -
      (g.predictJoint (g.fit ldlt train ⟨fun i => Z ω (.inr i), variance⟩) xs).mean j) 0
      (g.predictJoint (g.fit ldlt train ⟨y, variance⟩) xs).covariance ∧
    IndepFun (fun ω j => Z ω (.inl j) -
      (g.predictJoint (g.fit ldlt train ⟨fun i => Z ω (.inr i), variance⟩) xs).mean j)
      (fun ω i => Z ω (.inr i)) P := by
  have h := hZ.affine (errorMap g train variance xs) (errorConst g train variance xs)
  rw [errorMap_mean g hsym ldlt train variance hF hA xs, errorMap_covariance g hsym ldlt train variance hF hA xs] at h
  simp only [errorMap_apply g hsym ldlt train variance hF hA xs] at h
  constructor
  · have h1 := h.affine (of fun (j : q) (a : q ⊕ n) => if a = .inl j then (1 : ℝ) else 0) 0
    have e : ∀ v : q ⊕ n → ℝ, (of fun (j : q) (a : q ⊕ n) => if a = .inl j then (1 : ℝ) else 0) *ᵥ v + 0 =
        fun j => v (.inl j) := by
      intro v
      funext j
      simp [mulVec, dotProduct]
    simp only [e, Sum.elim_inl] at h1
    have e2 : (of fun (j : q) (a : q ⊕ n) => if a = .inl j then (1 : ℝ) else 0) *
        fromBlocks (g.predictJoint (g.fit ldlt train ⟨0, variance⟩) xs).covariance 0 0
          (obsCovariance g train variance) * (of fun (j : q) (a : q ⊕ n) => if a = .inl j then (1 : ℝ) else 0)ᵀ =
        (g.predictJoint (g.fit ldlt train ⟨y, variance⟩) xs).covariance := by
      rw [predict_covariance_const g hsym ldlt train variance hF hA xs y]
      ext j j'
      simp [mul_apply]
    rw [e2] at h1
    exact h1
  · have hm := h.hasMoments
    set V : Ω → q ⊕ n → ℝ := fun ω => Sum.elim (fun j => Z ω (.inl j) -
      (g.predictJoint (g.fit ldlt train ⟨fun i => Z ω (.inr i), variance⟩) xs).mean j) (fun i => Z ω (.inr i)) with hV
    have hG : HasGaussianLaw (fun ω => (WithLp.toLp 2 (V ω) : EuclideanSpace ℝ (q ⊕ n))) P := by
      refine ⟨?_⟩
      rw [h.2.2]
      infer_instance
    let L : EuclideanSpace ℝ (q ⊕ n) →L[ℝ] (q → ℝ) × (n → ℝ) :=
      LinearMap.toContinuousLinearMap
        { toFun := fun x => (fun j => x (.inl j), fun i => x (.inr i))
          map_add' := fun _ _ => rfl
          map_smul' := fun _ _ => rfl }
    have hL := hG.map L
    have hp : HasGaussianLaw (fun ω => (fun j => V ω (.inl j), fun i => V ω (.inr i))) P := hL
    refine HasGaussianLaw.indepFun_of_covariance_eval (X := fun j ω => V ω (.inl j)) (Y := fun i ω => V ω (.inr i)) hp
      fun j i => ?_
    have := hm.cov (.inl j) (.inr i)
    unfold covariance
    rw [hm.mean (.inl j), hm.mean (.inr i), this]
    simp

/-- **C118**: then no estimate at all, linear or not, has a smaller expected squared error than the prediction, and only
the prediction itself (almost surely) has the same. -/
theorem C118_best {Z : Ω → q ⊕ n → ℝ}
    (hZ : IsNormal P Z (jointMean g xs train) (jointCovariance g xs train variance)) (c : q → ℝ) (y : n → ℝ)
    {h : (n → ℝ) → ℝ} (hh : Measurable h) (hh2 : MemLp (fun ω => h fun i => Z ω (.inr i)) 2 P) :
    c ⬝ᵥ ((g.predictJoint (g.fit ldlt train ⟨y, variance⟩) xs).covariance *ᵥ c) ≤
      ∫ ω, ((c ⬝ᵥ fun j => Z ω (.inl j)) - h fun i => Z ω (.inr i)) ^ 2 ∂P ∧
    (∫ ω, ((c ⬝ᵥ fun j => Z ω (.inl j)) - h fun i => Z ω (.inr i)) ^ 2 ∂P =
      c ⬝ᵥ ((g.predictJoint (g.fit ldlt train ⟨y, variance⟩) xs).covariance *ᵥ c) ↔
      ∀ᵐ ω ∂P, (h fun i => Z ω (.inr i)) =
        c ⬝ᵥ (g.predictJoint (g.fit ldlt train ⟨fun i => Z ω (.inr i), variance⟩) xs).mean) := by
  obtain ⟨hmem, hmean, hsq, -⟩ := error_direction g hsym ldlt train variance hF hA xs hZ.hasMoments c y
  have hind := (C118_normal g hsym ldlt train variance hF hA xs hZ y).2
  set R : Ω → ℝ := fun ω => c ⬝ᵥ fun j => Z ω (.inl j) -
    (g.predictJoint (g.fit ldlt train ⟨fun i => Z ω (.inr i), variance⟩) xs).mean j with hR
  set p : (n → ℝ) → ℝ := fun y => c ⬝ᵥ (g.predictJoint (g.fit ldlt train ⟨y, variance⟩) xs).mean with hp
  have hpe : p = fun y => c ⬝ᵥ (fun j => g.mean (xs j)) + c ⬝ᵥ (gpWeights g train variance xs *ᵥ
      fun i => y i - g.mean (g.asMeas (train i))) := by
    funext y
    rw [hp]
    simp only
    rw [predict_eq g hsym ldlt train variance hF hA xs, ← dotProduct_add]
    rfl
  have hc : Measurable fun r : q → ℝ => c ⬝ᵥ r := by
    unfold dotProduct
    fun_prop
  have hindR : IndepFun R (fun ω i => Z ω (.inr i)) P := hind.comp hc measurable_id
  have hsqR : ∫ ω, R ω ^ 2 ∂P = c ⬝ᵥ ((g.predictJoint (g.fit ldlt train ⟨y, variance⟩) xs).covariance *ᵥ c) := hsq
  have hpy : ∀ y, c ⬝ᵥ (g.predictJoint (g.fit ldlt train ⟨y, variance⟩) xs).mean = p y := fun y => rfl
  clear_value p R
  have hpm : Measurable p := by
    rw [hpe]
    unfold dotProduct mulVec dotProduct
    fun_prop
  have hp2 : MemLp (fun ω => p fun i => Z ω (.inr i)) 2 P := by
    rw [hpe]
    have h1 : ∀ j, MemLp (fun ω => (gpWeights g train variance xs *ᵥ
        fun i => Z ω (.inr i) - g.mean (g.asMeas (train i))) j) 2 P := fun j =>
      memLp_finsetSum _ fun i _ => (((hZ.hasMoments.memLp (.inr i)).sub (memLp_const _)).const_mul _)
    have h2 : MemLp (fun ω => c ⬝ᵥ (gpWeights g train variance xs *ᵥ
        fun i => Z ω (.inr i) - g.mean (g.asMeas (train i)))) 2 P :=
      memLp_finsetSum _ fun j _ => (h1 j).const_mul _
    have h3 : MemLp (fun _ : Ω => c ⬝ᵥ fun j => g.mean (xs j)) 2 P := memLp_const _
    have h4 : MemLp (fun ω => (c ⬝ᵥ fun j => g.mean (xs j)) + c ⬝ᵥ (gpWeights g train variance xs *ᵥ
        fun i => Z ω (.inr i) - g.mean (g.asMeas (train i)))) 2 P := h3.add h2
    exact h4
  have hD2 : MemLp (fun ω => (p fun i => Z ω (.inr i)) - h fun i => Z ω (.inr i)) 2 P := hp2.sub hh2
  have e : ∀ ω, (c ⬝ᵥ fun j => Z ω (.inl j)) - h (fun i => Z ω (.inr i)) =
      R ω + ((p fun i => Z ω (.inr i)) - h fun i => Z ω (.inr i)) := by
    intro ω
    have : R ω = (c ⬝ᵥ fun j => Z ω (.inl j)) - p fun i => Z ω (.inr i) := by
      rw [hR, hp, ← dotProduct_sub]
      rfl
    rw [this]
    ring
  have h0 : ∫ ω, R ω * ((p fun i => Z ω (.inr i)) - h fun i => Z ω (.inr i)) ∂P = 0 := by
    have hD : IndepFun R (fun ω => (p fun i => Z ω (.inr i)) - h fun i => Z ω (.inr i)) P :=
      hindR.comp measurable_id (hpm.sub hh)
    rw [hD.integral_fun_mul_eq_mul_integral hmem.1 hD2.1, hmean, zero_mul]
  have hval : ∫ ω, ((c ⬝ᵥ fun j => Z ω (.inl j)) - h fun i => Z ω (.inr i)) ^ 2 ∂P =
      c ⬝ᵥ ((g.predictJoint (g.fit ldlt train ⟨y, variance⟩) xs).covariance *ᵥ c) +
      ∫ ω, ((p fun i => Z ω (.inr i)) - h fun i => Z ω (.inr i)) ^ 2 ∂P := by
    simp_rw [e]
    rw [integral_sq_add_uncorrelated hmem hD2 h0, hsqR]
  simp only [hpy]
  rw [hval]
  refine ⟨le_add_of_nonneg_right (integral_nonneg fun ω => sq_nonneg _), ?_⟩
  rw [add_eq_left, integral_eq_zero_iff_of_nonneg (fun ω => sq_nonneg _) hD2.integrable_sq]
  constructor
  · intro hz
    filter_upwards [hz] with ω hω
    have : (p fun i => Z ω (.inr i)) - h (fun i => Z ω (.inr i)) = 0 := by simpa using hω
    linarith
  · intro hz
    filter_upwards [hz] with ω hω
    show ((p fun i => Z ω (.inr i)) - h fun i => Z ω (.inr i)) ^ 2 = 0
    rw [hω, sub_self]
    norm_num

end

/-! ## More data -/

/-- Among all weights the regression weights give the smallest error covariance. -/
theorem conditional_le {a b : Type} [Fintype a] [DecidableEq a] [Fintype b] [DecidableEq b] {Sff : Matrix a a ℝ}
    {Sfz W V : Matrix a b ℝ} {Szz : Matrix b b ℝ} (hz : Szz.PosSemidef) (hW : W * Szz = Sfz) :
    ((Sff - V * Sfzᵀ - Sfz * Vᵀ + V * Szz * Vᵀ) - (Sff - W * Sfzᵀ)).PosSemidef := by
  have ht : Szzᵀ = Szz := Bures.psd_symm hz
  have hWt : Szz * Wᵀ = Sfzᵀ := by
    rw [← hW, transpose_mul, ht]
  have e : (Sff - V * Sfzᵀ - Sfz * Vᵀ + V * Szz * Vᵀ) - (Sff - W * Sfzᵀ) = (V - W) * Szz * (V - W)ᵀ := by
    rw [transpose_sub, Matrix.sub_mul, Matrix.mul_sub, Matrix.sub_mul, Matrix.sub_mul, hW, Matrix.mul_assoc V Szz Wᵀ,
      hWt]
    have h : Sfz * Wᵀ = W * Sfzᵀ := by
      rw [← hWt, ← Matrix.mul_assoc, hW]
    rw [h]
    abel
  rw [e]
  exact Bures.psd_congr hz _

/-- **C118**: more data never make a prediction less certain.  If the larger set of training data contains the smaller (its
points and the variances of its targets), the covariance predicted from the larger is at most that predicted from the
smaller, for all combinations of process values; the targets do not matter. -/
theorem C118_more_data {m : Type} [Fintype m] [DecidableEq m] (g : Gp X) (hsym : ∀ x y, g.cov x y = g.cov y x)
    (ldlt : Matrix n n ℝ → Ldlt n) (ldlt' : Matrix m m ℝ → Ldlt m) (train : n → X) (variance : n → ℝ)
    (hpd : (obsCovariance g train variance).PosDef) {sub : m → n} (hsub : Function.Injective sub)
    (hF : (ldlt (obsCovariance g train variance)).Factors (obsCovariance g train variance))
    (hF' : (ldlt' (obsCovariance g (fun k => train (sub k)) fun k => variance (sub k))).Factors
      (obsCovariance g (fun k => train (sub k)) fun k => variance (sub k))) (xs : q → X) (y : n → ℝ) (y' : m → ℝ) :
    ((g.predictJoint (g.fit ldlt' (fun k => train (sub k)) ⟨y', fun k => variance (sub k)⟩) xs).covariance -
      (g.predictJoint (g.fit ldlt train ⟨y, variance⟩) xs).covariance).PosSemidef := by
  have hA : IsUnit (obsCovariance g train variance).det := (Matrix.isUnit_iff_isUnit_det _).1 hpd.isUnit
  have hs : obsCovariance g (fun k => train (sub k)) (fun k => variance (sub k)) =
      (obsCovariance g train variance).submatrix sub sub := by
    ext k k'
    simp [obsCovariance, hsub.eq_iff]
  have hpd' : (obsCovariance g (fun k => train (sub k)) fun k => variance (sub k)).PosDef := by
    rw [hs]
    exact hpd.submatrix hsub
  have hA' : IsUnit (obsCovariance g (fun k => train (sub k)) fun k => variance (sub k)).det :=
    (Matrix.isUnit_iff_isUnit_det _).1 hpd'.isUnit
  rw [predict_eq g hsym ldlt train variance hF hA xs, predict_eq g hsym ldlt' _ _ hF' hA' xs]
  simp only
  set W := gpWeights g train variance xs with hW
  set W' := gpWeights g (fun k => train (sub k)) (fun k => variance (sub k)) xs with hW'
  -- the weights of the smaller set, with zeros for the other data
  let E : Matrix m n ℝ := of fun k i => if i = sub k then 1 else 0
  have hWz : W * obsCovariance g train variance = g.covMat xs train := by
    rw [hW, gpWeights, Matrix.nonsing_inv_mul_cancel_right _ _ hA]
  have hWz' : W' * obsCovariance g (fun k => train (sub k)) (fun k => variance (sub k)) =
      g.covMat xs fun k => train (sub k) := by
    rw [hW', gpWeights, Matrix.nonsing_inv_mul_cancel_right _ _ hA']
  have hEc : E * (g.covMat xs train)ᵀ = (g.covMat xs fun k => train (sub k))ᵀ := by
    ext k j
    simp [E, mul_apply, Gp.covMat]
  have hEE : E * obsCovariance g train variance * Eᵀ =
      obsCovariance g (fun k => train (sub k)) (fun k => variance (sub k)) := by
    rw [hs]
    ext k k'
    simp [E, mul_apply]
  have h := conditional_le (Sff := g.covMat xs xs) (V := W' * E) hpd.posSemidef hWz
  have e1 : W' * E * (g.covMat xs train)ᵀ = W' * g.covMat (fun k => train (sub k)) xs := by
    rw [Matrix.mul_assoc, hEc, covMat_transpose g hsym]
  have e2 : g.covMat xs train * (W' * E)ᵀ = W' * g.covMat (fun k => train (sub k)) xs := by
    have h1 := congrArg Matrix.transpose e1
    rw [transpose_mul, transpose_transpose] at h1
    rw [h1]
    -- symmetric
    have h2 : W' * g.covMat (fun k => train (sub k)) xs = W' * obsCovariance g (fun k => train (sub k))
        (fun k => variance (sub k)) * W'ᵀ := by
      have h3 := congrArg Matrix.transpose hWz'
      rw [transpose_mul, obsCovariance_symm g hsym, covMat_transpose g hsym] at h3
      rw [← h3, Matrix.mul_assoc]
    rw [h2, transpose_mul, transpose_mul, transpose_transpose, obsCovariance_symm g hsym, Matrix.mul_assoc]
  have e3 : W' * E * obsCovariance g train variance * (W' * E)ᵀ = W' * g.covMat (fun k => train (sub k)) xs := by
    have h3 := congrArg Matrix.transpose hWz'
    rw [transpose_mul, obsCovariance_symm g hsym, covMat_transpose g hsym] at h3
    rw [transpose_mul]
    calc W' * E * obsCovariance g train variance * (Eᵀ * W'ᵀ)
        = W' * (E * obsCovariance g train variance * Eᵀ) * W'ᵀ := by simp only [Matrix.mul_assoc]
      _ = _ := by rw [hEE, Matrix.mul_assoc, h3]
  rw [e1, e2, e3, covMat_transpose g hsym, sub_add_cancel] at h
  exact h

/-- A process of variance one, seen directly. -/
def oneGp : Gp Unit where
  cov := fun _ _ => 1
  mean := fun _ => 3
  asMeas := id

theorem oneGp_obs : (obsCovariance oneGp (fun _ : Fin 2 => ()) fun _ => 1).PosDef := by
  have h : obsCovariance oneGp (fun _ : Fin 2 => ()) (fun _ => 1) = !![2, 1; 1, 2] := by
    ext i j
    fin_cases i <;> fin_cases j <;> norm_num [obsCovariance, oneGp]
  rw [h]
  exact posDef_two (by norm_num) (by norm_num)

theorem oneGp_joint :
    (jointCovariance oneGp (fun _ : Fin 1 => ()) (fun _ : Fin 2 => ()) fun _ => 1).PosSemidef := by
  have e : jointCovariance oneGp (fun _ : Fin 1 => ()) (fun _ : Fin 2 => ()) (fun _ => 1) =
      vecMulVec 1 (star 1) + diagonal (Sum.elim 0 1) := by
    ext a b
    rcases a with a | a <;> rcases b with b | b <;>
      simp [jointCovariance, oneGp, vecMulVec, diagonal]
  rw [e]
  refine (posSemidef_vecMulVec_self_star _).add (PosSemidef.diagonal fun a => ?_)
  rcases a with a | a <;> simp

/-- The hypotheses can be met: a constant process measured twice with errors of variance one; process value and targets
jointly normal. -/
example : ∃ (ldlt : Matrix (Fin 2) (Fin 2) ℝ → Ldlt (Fin 2)) (ldlt' : Matrix (Fin 1) (Fin 1) ℝ → Ldlt (Fin 1))
    (P : Measure (EuclideanSpace ℝ (Fin 1 ⊕ Fin 2))) (_ : IsProbabilityMeasure P)
    (Z : EuclideanSpace ℝ (Fin 1 ⊕ Fin 2) → Fin 1 ⊕ Fin 2 → ℝ),
    (∀ x y, oneGp.cov x y = oneGp.cov y x) ∧
    (obsCovariance oneGp (fun _ : Fin 2 => ()) fun _ => 1).PosDef ∧
    (ldlt (obsCovariance oneGp (fun _ : Fin 2 => ()) fun _ => 1)).Factors
      (obsCovariance oneGp (fun _ : Fin 2 => ()) fun _ => 1) ∧
    (ldlt' (obsCovariance oneGp (fun _ : Fin 1 => ()) fun _ => 1)).Factors
      (obsCovariance oneGp (fun _ : Fin 1 => ()) fun _ => 1) ∧
    IsNormal P Z (jointMean oneGp (fun _ => ()) fun _ => ())
      (jointCovariance oneGp (fun _ => ()) (fun _ => ()) fun _ => 1) ∧
    HasMoments P Z (jointMean oneGp (fun _ => ()) fun _ => ())
      (jointCovariance oneGp (fun _ => ()) (fun _ => ()) fun _ => 1) := by
  obtain ⟨ldlt, hl⟩ := exists_ldlt (Fin 2)
  obtain ⟨ldlt', hl'⟩ := exists_ldlt (Fin 1)
  have hN := exists_isNormal (jointMean oneGp (fun _ : Fin 1 => ()) fun _ : Fin 2 => ()) oneGp_joint
  have h1 : (obsCovariance oneGp (fun _ : Fin 1 => ()) fun _ => 1).PosDef := by
    have := oneGp_obs.submatrix (e := fun _ : Fin 1 => (0 : Fin 2)) (Function.injective_of_subsingleton _)
    have e : obsCovariance oneGp (fun _ : Fin 1 => ()) (fun _ => 1) =
        (obsCovariance oneGp (fun _ : Fin 2 => ()) fun _ => 1).submatrix (fun _ : Fin 1 => (0 : Fin 2)) fun _ => 0 := by
      ext a b
      fin_cases a
      fin_cases b
      simp [obsCovariance, oneGp]
    rw [e]
    exact this
  exact ⟨ldlt, ldlt', _, inferInstance, _, fun _ _ => rfl, oneGp_obs, hl _ oneGp_obs, hl' _ h1, hN, hN.hasMoments⟩

end Albatross
