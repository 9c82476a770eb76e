import Verif.ParametersProps
import Mathlib.Probability.Distributions.Gaussian.Real
import Mathlib.Analysis.Real.Pi.Bounds
import Mathlib.Analysis.Complex.ExponentialBounds

/-! # Prior log densities: C42 -/

namespace Albatross

open MeasureTheory ProbabilityTheory

/-! ## Specification: the densities -/

/-- Density of the normal distribution with mean `mu` and standard deviation `sigma`. -/
noncomputable def normalDensity (mu sigma x : ℝ) : ℝ :=
  gaussianPDFReal mu (sigma ^ 2).toNNReal x

/-- Density of `exp(Z)` with `Z` normal. -/
noncomputable def logNormalDensity (mu sigma x : ℝ) : ℝ := normalDensity mu sigma (Real.log x) / x

/-- Density of `|Z|` with `Z` normal with mean zero, on the positive half line. -/
noncomputable def halfNormalDensity (sigma x : ℝ) : ℝ := 2 * normalDensity 0 sigma x

theorem log_normalDensity (mu sigma x : ℝ) (hs : 0 < sigma) :
    Real.log (normalDensity mu sigma x) =
      -(1 / 2) * log2Pi - Real.log sigma - ((x - mu) / sigma) ^ 2 / 2 := by
  have hpi : 0 < 2 * Real.pi := by positivity
  unfold normalDensity gaussianPDFReal
  rw [Real.coe_toNNReal _ (sq_nonneg sigma), Real.log_mul (by positivity) (Real.exp_pos _).ne',
    Real.log_exp, Real.log_inv]
  rw [Real.log_sqrt (by positivity), Real.log_mul hpi.ne' (by positivity), Real.log_pow, log2Pi]
  push_cast
  field_simp
  ring

theorem normalDensity_pos (mu sigma x : ℝ) (hs : 0 < sigma) : 0 < normalDensity mu sigma x :=
  gaussianPDFReal_pos _ _ _ (by
    rw [Ne, Real.toNNReal_eq_zero, not_le]; positivity)

/-! ## Uniform priors -/

/-- The uniform priors are right: inside the bounds the log of `1 / (upper - lower)`, `-inf`
outside, and the density integrates to one. -/
theorem C42_uniform (l u : ℝ) (h : l < u) :
    (∀ x, l ≤ x → x ≤ u →
      (Prior.uniform (.fin l) (.fin u)).logPdf (.fin x) = .fin (Real.log (1 / (u - l))) ∧
      (Prior.logScaleUniform (.fin l) (.fin u)).logPdf (.fin x) = .fin (Real.log (1 / (u - l)))) ∧
    (∀ x, (x < l ∨ u < x) →
      (Prior.uniform (.fin l) (.fin u)).logPdf (.fin x) = .ninf ∧
      (Prior.logScaleUniform (.fin l) (.fin u)).logPdf (.fin x) = .ninf) ∧
    ∫ _ in l..u, Real.exp (Real.log (1 / (u - l))) = 1 := by
  have hp : 0 < u - l := sub_pos.2 h
  refine ⟨fun x h1 h2 => ?_, fun x hx => ?_, ?_⟩
  · have e : -(Dbl.fin u - Dbl.fin l).log = .fin (Real.log (1 / (u - l))) := by
      rw [Dbl.fin_sub, Dbl.log_fin hp, Dbl.fin_neg, one_div, Real.log_inv]
    simp only [Prior.logPdf, Dbl.fin_le, h1, h2, and_self, if_true, e]
  · have : ¬ (l ≤ x ∧ x ≤ u) := by rintro ⟨h1, h2⟩; rcases hx with h | h <;> linarith
    simp only [Prior.logPdf, Dbl.fin_le, if_neg this, and_self]
  · rw [intervalIntegral.integral_const, Real.exp_log (by positivity)]
    simp [hp.ne']

/-- The improper priors: zero on the support, `-inf` outside. -/
theorem C42_improper (x : ℝ) :
    Prior.uninformative.logPdf (.fin x) = .fin 0 ∧ Prior.fixed.logPdf (.fin x) = .fin 0 ∧
    Prior.positive.logPdf (.fin x) = (if 0 < x then .fin 0 else .ninf) ∧
    Prior.nonNegative.logPdf (.fin x) = (if 0 ≤ x then .fin 0 else .ninf) := by
  refine ⟨rfl, rfl, ?_, ?_⟩
  · by_cases h : 0 < x <;> simp [Prior.logPdf, h]
  · by_cases h : 0 ≤ x <;> simp [Prior.logPdf, h]

/-! ## Gaussian priors -/

theorem gaussian_logPdf (mu sigma x : ℝ) (hs : 0 < sigma) :
    (Prior.gaussian (.fin mu) (.fin sigma)).logPdf (.fin x) =
      .fin (-(log2Pi * Real.log sigma) - ((x - mu) / sigma) ^ 2 / 2) := by
  simp only [Prior.logPdf, Dbl.fin_sub, Dbl.fin_div hs.ne', Dbl.log_fin hs, Dbl.fin_mul, Dbl.fin_add]
  congr 1; ring

theorem log2Pi_pos : 0 < log2Pi := Real.log_pos (by linarith [Real.pi_gt_three])

theorem log2Pi_gt_one : 1 < log2Pi := by
  rw [log2Pi, Real.lt_log_iff_exp_lt (by positivity)]
  linarith [Real.exp_one_lt_three, Real.pi_gt_three]

/-- Part of C42 for the Gaussian prior: as a function of `x` the value is right up to a constant (so
maximum a posteriori estimates are unaffected); the constant depends on `sigma` and is not zero in
general, see `C42_gaussian_not_normalised`. -/
theorem C42_gaussian_partial (mu sigma : ℝ) (hs : 0 < sigma) : ∃ c : ℝ, ∀ x : ℝ,
    (Prior.gaussian (.fin mu) (.fin sigma)).logPdf (.fin x) =
      .fin (Real.log (normalDensity mu sigma x) + c) := by
  refine ⟨log2Pi / 2 + Real.log sigma - log2Pi * Real.log sigma, fun x => ?_⟩
  rw [gaussian_logPdf mu sigma x hs, log_normalDensity mu sigma x hs]
  congr 1; ring

/-- The Gaussian prior's `log_pdf` is the log of the normal density iff
`(log 2π - 1) log sigma = log 2π / 2`; in particular it is wrong for every `sigma ≤ 1`. -/
theorem C42_gaussian_exact_iff (mu sigma x : ℝ) (hs : 0 < sigma) :
    (Prior.gaussian (.fin mu) (.fin sigma)).logPdf (.fin x) =
      .fin (Real.log (normalDensity mu sigma x)) ↔
    (log2Pi - 1) * Real.log sigma = log2Pi / 2 := by
  rw [gaussian_logPdf mu sigma x hs, log_normalDensity mu sigma x hs, Dbl.fin.injEq]
  constructor <;> intro h <;> linarith

/-- The code does not satisfy the claim for the Gaussian prior with `sigma ≤ 1`, at any point. -/
theorem C42_gaussian_not_normalised (mu sigma x : ℝ) (hs : 0 < sigma) (h1 : sigma ≤ 1) :
    (Prior.gaussian (.fin mu) (.fin sigma)).logPdf (.fin x) ≠
      .fin (Real.log (normalDensity mu sigma x)) := by
  rw [Ne, C42_gaussian_exact_iff mu sigma x hs]
  have h2 := Real.log_nonpos hs.le h1
  have h3 := log2Pi_gt_one
  intro h
  nlinarith [mul_nonneg (sub_nonneg.2 h3.le) (neg_nonneg.2 h2)]

/-- Concretely, the default Gaussian prior at zero returns `0` instead of `-log(2π) / 2`. -/
example : (Prior.gaussian (.fin 0) (.fin 1)).logPdf (.fin 0) = .fin 0 ∧
    Real.log (normalDensity 0 1 0) = -(1 / 2) * log2Pi := by
  constructor
  · rw [gaussian_logPdf 0 1 0 one_pos]; simp
  · rw [log_normalDensity 0 1 0 one_pos]; simp

/-! ## Positive Gaussian prior -/

theorem positiveGaussian_logPdf (mu sigma x : ℝ) (hs : 0 < sigma) :
    (Prior.positiveGaussian (.fin mu) (.fin sigma)).logPdf (.fin x) =
      .fin (-(log2Pi * Real.log sigma) - ((x - mu) / sigma) ^ 2 / 2 + log2) := by
  simp only [Prior.logPdf, Dbl.fin_sub, Dbl.fin_div hs.ne', Dbl.log_fin hs, Dbl.fin_mul, Dbl.fin_add]
  congr 1; ring

/-- Part of C42 for the positive Gaussian prior with `mu = 0`: right up to a constant on its
support. -/
theorem C42_positive_gaussian_partial (sigma : ℝ) (hs : 0 < sigma) : ∃ c : ℝ, ∀ x : ℝ,
    (Prior.positiveGaussian (.fin 0) (.fin sigma)).logPdf (.fin x) =
      .fin (Real.log (halfNormalDensity sigma x) + c) := by
  refine ⟨log2Pi / 2 + Real.log sigma - log2Pi * Real.log sigma, fun x => ?_⟩
  rw [positiveGaussian_logPdf 0 sigma x hs, halfNormalDensity,
    Real.log_mul two_ne_zero (normalDensity_pos _ _ _ hs).ne', log_normalDensity 0 sigma x hs, log2]
  congr 1; ring

/-- The code does not satisfy the claim for the positive Gaussian prior: for `sigma ≤ 1` the value on
the support is not the log density, and outside the support it is finite for every `mu` and
`sigma`. -/
theorem C42_positive_gaussian_wrong :
    (∀ sigma x : ℝ, 0 < sigma → sigma ≤ 1 →
      (Prior.positiveGaussian (.fin 0) (.fin sigma)).logPdf (.fin x) ≠
        .fin (Real.log (halfNormalDensity sigma x))) ∧
    (∀ mu sigma x : ℝ, 0 < sigma → x < 0 →
      (Prior.positiveGaussian (.fin mu) (.fin sigma)).logPdf (.fin x) ≠ .ninf) := by
  refine ⟨fun sigma x hs h1 => ?_, fun mu sigma x hs _ => ?_⟩
  · rw [positiveGaussian_logPdf 0 sigma x hs, halfNormalDensity,
      Real.log_mul two_ne_zero (normalDensity_pos _ _ _ hs).ne', log_normalDensity 0 sigma x hs, log2,
      Ne, Dbl.fin.injEq]
    have h2 := Real.log_nonpos hs.le h1
    have h3 := log2Pi_gt_one
    intro h
    nlinarith [mul_nonneg (sub_nonneg.2 h3.le) (neg_nonneg.2 h2)]
  · rw [positiveGaussian_logPdf mu sigma x hs]; simp

/-! ## Log normal prior -/

theorem logNormal_logPdf (mu sigma x : ℝ) (hs : 0 < sigma) (hx : 0 < x) :
    (Prior.logNormal (.fin mu) (.fin sigma)).logPdf (.fin x) =
      .fin (-(1 / 2) * log2Pi - Real.log sigma - Real.log x - ((Real.log x - mu) / sigma) ^ 2) := by
  simp only [Prior.logPdf, Dbl.log_fin hx, Dbl.log_fin hs, Dbl.fin_sub, Dbl.fin_div hs.ne',
    Dbl.fin_mul]
  congr 1; ring

theorem log_logNormalDensity (mu sigma x : ℝ) (hs : 0 < sigma) (hx : 0 < x) :
    Real.log (logNormalDensity mu sigma x) =
      -(1 / 2) * log2Pi - Real.log sigma - Real.log x - ((Real.log x - mu) / sigma) ^ 2 / 2 := by
  rw [logNormalDensity, Real.log_div (normalDensity_pos _ _ _ hs).ne' hx.ne',
    log_normalDensity mu sigma _ hs]
  ring

/-- Part of C42 for the log normal prior: the value is the log density of the log normal distribution
with standard deviation `sigma / √2`, up to a constant; it is the right value at the median only. -/
theorem C42_log_normal_partial (mu sigma : ℝ) (hs : 0 < sigma) :
    (∀ x : ℝ, 0 < x → (Prior.logNormal (.fin mu) (.fin sigma)).logPdf (.fin x) =
      .fin (Real.log (logNormalDensity mu (sigma / √2) x) - Real.log 2 / 2)) ∧
    (∀ x : ℝ, 0 < x → ((Prior.logNormal (.fin mu) (.fin sigma)).logPdf (.fin x) =
      .fin (Real.log (logNormalDensity mu sigma x)) ↔ x = Real.exp mu)) := by
  refine ⟨fun x hx => ?_, fun x hx => ?_⟩
  · rw [logNormal_logPdf mu sigma x hs hx, log_logNormalDensity mu _ x (by positivity) hx,
      Real.log_div hs.ne' (by positivity), Real.log_sqrt (by norm_num)]
    congr 1
    have : ((Real.log x - mu) / (sigma / √2)) ^ 2 = 2 * ((Real.log x - mu) / sigma) ^ 2 := by
      rw [div_div_eq_mul_div, mul_div_assoc, mul_pow, div_pow, div_pow, Real.sq_sqrt (by norm_num)]
      ring
    rw [this]; ring
  · rw [logNormal_logPdf mu sigma x hs hx, log_logNormalDensity mu _ x hs hx, Dbl.fin.injEq]
    constructor
    · intro h
      have h0 : ((Real.log x - mu) / sigma) ^ 2 = 0 := by linarith
      have h1 : Real.log x - mu = 0 := by
        have := pow_eq_zero_iff (two_ne_zero) |>.1 h0
        rcases div_eq_zero_iff.1 this with h | h
        · exact h
        · exact absurd h hs.ne'
      rw [← Real.exp_log hx]; congr 1; linarith
    · rintro rfl
      simp

/-- The code does not satisfy the claim for the log normal prior, and not only by a constant: the
error between two points of the support differs, so estimates change. -/
theorem C42_log_normal_wrong : ¬ ∃ c : ℝ, ∀ x : ℝ, 0 < x →
    (Prior.logNormal (.fin 0) (.fin 1)).logPdf (.fin x) =
      .fin (Real.log (logNormalDensity 0 1 x) + c) := by
  rintro ⟨c, h⟩
  have h1 := h 1 one_pos
  have h2 := h (Real.exp 1) (Real.exp_pos 1)
  rw [logNormal_logPdf 0 1 _ one_pos one_pos, log_logNormalDensity 0 1 _ one_pos one_pos,
    Dbl.fin.injEq] at h1
  rw [logNormal_logPdf 0 1 _ one_pos (Real.exp_pos 1),
    log_logNormalDensity 0 1 _ one_pos (Real.exp_pos 1), Dbl.fin.injEq] at h2
  simp at h1 h2
  linarith

/-- At the edge of the support the log normal prior is NaN rather than `-inf`. -/
theorem C42_log_normal_at_zero (mu sigma : ℝ) (hs : 0 < sigma) :
    (Prior.logNormal (.fin mu) (.fin sigma)).logPdf (.fin 0) = .nan := by
  have h1 : Dbl.log (.fin 0) = .ninf := by simp [Dbl.log]
  have h2 : (Dbl.ninf - .fin mu) / .fin sigma = .ninf := by
    show (if sigma < 0 then Dbl.pinf else Dbl.ninf) = _
    rw [if_neg hs.le.not_gt]
  simp only [Prior.logPdf, h1, h2, Dbl.log_fin hs, Dbl.fin_mul, Dbl.fin_sub]
  rfl

end Albatross
