import Mathlib.Probability.Distributions.Gaussian.Multivariate
import Mathlib.Probability.Independence.CharacteristicFunction
import Mathlib.Probability.Independence.Integration

/-! # Specification: normally distributed random vectors

Independent of the model of the code.  Used to state C43 and C60. -/

namespace Albatross

open Matrix MeasureTheory ProbabilityTheory WithLp

variable {Ω : Type} [MeasurableSpace Ω] {n m : Type} [Fintype n] [DecidableEq n] [Fintype m] [DecidableEq m]

/-- The random vector `X` has the (possibly degenerate) normal law with mean `μ` and covariance `S`. -/
def IsNormal (P : Measure Ω) (X : Ω → n → ℝ) (μ : n → ℝ) (S : Matrix n n ℝ) : Prop :=
  S.PosSemidef ∧ AEMeasurable X P ∧
    P.map (fun ω => (toLp 2 (X ω) : EuclideanSpace ℝ n)) = multivariateGaussian (toLp 2 μ) S

/-- The characteristic function determines the law. -/
theorem isNormal_iff {P : Measure Ω} [IsProbabilityMeasure P] {X : Ω → n → ℝ} {μ : n → ℝ}
    {S : Matrix n n ℝ} :
    IsNormal P X μ S ↔ S.PosSemidef ∧ AEMeasurable X P ∧ ∀ t : n → ℝ,
      ∫ ω, Complex.exp ((t ⬝ᵥ X ω : ℝ) * Complex.I) ∂P =
        Complex.exp ((t ⬝ᵥ μ : ℝ) * Complex.I - (t ⬝ᵥ S *ᵥ t : ℝ) / 2) := by
  unfold IsNormal
  refine and_congr_right fun hS => and_congr_right fun hX => ?_
  have hX' : AEMeasurable (fun ω => (toLp 2 (X ω) : EuclideanSpace ℝ n)) P :=
    (PiLp.continuous_toLp 2 _).measurable.comp_aemeasurable hX
  have hc : ∀ t : n → ℝ, charFun (P.map fun ω => (toLp 2 (X ω) : EuclideanSpace ℝ n)) (toLp 2 t) =
      ∫ ω, Complex.exp ((t ⬝ᵥ X ω : ℝ) * Complex.I) ∂P := by
    intro t
    rw [charFun_apply, integral_map hX' (Measurable.aestronglyMeasurable (by fun_prop))]
    congr with ω
  have hg : ∀ t : n → ℝ, charFun (multivariateGaussian (toLp 2 μ) S) (toLp 2 t) =
      Complex.exp ((t ⬝ᵥ μ : ℝ) * Complex.I - (t ⬝ᵥ S *ᵥ t : ℝ) / 2) := by
    intro t
    rw [charFun_multivariateGaussian hS]
    congr 3
    simp [PiLp.inner_apply, dotProduct, mul_comm]
  constructor
  · intro h t
    rw [← hc, ← hg, h]
  · intro h
    have := Measure.isProbabilityMeasure_map (μ := P) hX'
    refine Measure.ext_of_charFun ?_
    funext t
    have e : t = toLp 2 (ofLp t) := rfl
    rw [e, hc, hg, h]

/-- Affine images. -/
theorem IsNormal.affine {P : Measure Ω} [IsProbabilityMeasure P] {X : Ω → n → ℝ} {μ : n → ℝ}
    {S : Matrix n n ℝ} (h : IsNormal P X μ S) (M : Matrix m n ℝ) (c : m → ℝ) :
    IsNormal P (fun ω => M *ᵥ X ω + c) (M *ᵥ μ + c) (M * S * Mᵀ) := by
  rw [isNormal_iff] at h ⊢
  obtain ⟨hS, hX, h⟩ := h
  refine ⟨?_, ?_, fun t => ?_⟩
  · have := hS.mul_mul_conjTranspose_same M
    rwa [conjTranspose_eq_transpose_of_trivial] at this
  · refine AEMeasurable.add_const ?_ c
    have hM : Measurable fun x : n → ℝ => M *ᵥ x :=
      (Continuous.matrix_mulVec continuous_const continuous_id).measurable
    exact hM.comp_aemeasurable hX
  · have e : ∀ x : n → ℝ, t ⬝ᵥ (M *ᵥ x + c) = (Mᵀ *ᵥ t) ⬝ᵥ x + t ⬝ᵥ c := by
      intro x
      rw [dotProduct_add, dotProduct_mulVec, ← mulVec_transpose]
    have hq : t ⬝ᵥ (M * S * Mᵀ) *ᵥ t = (Mᵀ *ᵥ t) ⬝ᵥ S *ᵥ (Mᵀ *ᵥ t) := by
      rw [← mulVec_mulVec, ← mulVec_mulVec, dotProduct_mulVec, ← mulVec_transpose]
    rw [hq, e]
    simp only [e, Complex.ofReal_add, add_mul, Complex.exp_add]
    rw [integral_mul_const, h, ← Complex.exp_add]
    congr 1
    ring

/-- Sums of independent vectors. -/
theorem IsNormal.add {P : Measure Ω} [IsProbabilityMeasure P] {X Y : Ω → n → ℝ} {μ ν : n → ℝ}
    {S T : Matrix n n ℝ} (hX : IsNormal P X μ S) (hY : IsNormal P Y ν T) (hXY : IndepFun X Y P) :
    IsNormal P (fun ω => X ω + Y ω) (μ + ν) (S + T) := by
  rw [isNormal_iff] at hX hY ⊢
  obtain ⟨hS, hX, h⟩ := hX
  obtain ⟨hT, hY, h'⟩ := hY
  refine ⟨hS.add hT, hX.add hY, fun t => ?_⟩
  have hm : Measurable fun x : n → ℝ => Complex.exp ((t ⬝ᵥ x : ℝ) * Complex.I) := by
    unfold dotProduct; fun_prop
  have := hXY.integral_fun_comp_mul_comp hX hY (f := fun x : n → ℝ => Complex.exp ((t ⬝ᵥ x : ℝ) * Complex.I))
    (g := fun x : n → ℝ => Complex.exp ((t ⬝ᵥ x : ℝ) * Complex.I)) hm.aestronglyMeasurable
    hm.aestronglyMeasurable
  simp only [dotProduct_add, Complex.ofReal_add, add_mul, Complex.exp_add]
  rw [this, h, h', ← Complex.exp_add, add_mulVec, dotProduct_add, Complex.ofReal_add]
  congr 1
  ring

/-- The normal laws of the specification exist. -/
theorem exists_isNormal (μ : n → ℝ) {S : Matrix n n ℝ} (hS : S.PosSemidef) :
    IsNormal (multivariateGaussian (toLp 2 μ) S) (fun x => ofLp x) μ S := by
  refine ⟨hS, (PiLp.continuous_ofLp 2 _).measurable.aemeasurable, ?_⟩
  exact Measure.map_id

/-- A standard normal vector: independent coordinates with mean zero and variance one. -/
theorem isNormal_standard (k : Type) [Fintype k] [DecidableEq k] :
    IsNormal (Measure.pi fun _ : k => gaussianReal 0 1) (fun z => z) 0 1 := by
  refine ⟨Matrix.PosSemidef.one, aemeasurable_id', ?_⟩
  have : (toLp 2 (0 : k → ℝ) : EuclideanSpace ℝ k) = 0 := rfl
  rw [this, multivariateGaussian_zero_one]
  exact map_pi_eq_stdGaussian

end Albatross
