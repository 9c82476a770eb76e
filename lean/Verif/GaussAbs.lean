import Verif.Metrics
import Verif.NormalSpec

/-! # Absolute moments of the normal distribution

Independent of the model apart from the definition of `erf`. -/

namespace Albatross

open MeasureTheory ProbabilityTheory Set Filter Topology

/-- The density is the derivative of `- v * density` divided by `x - m`. -/
theorem hasDerivAt_pdf (m : ℝ) {v : NNReal} (hv : v ≠ 0) (x : ℝ) :
    HasDerivAt (fun x => -(v : ℝ) * gaussianPDFReal m v x) ((x - m) * gaussianPDFReal m v x) x := by
  have hv' : (v : ℝ) ≠ 0 := by exact_mod_cast hv
  have h1 : HasDerivAt (fun x : ℝ => -(x - m) ^ 2 / (2 * v)) (-(x - m) / v) x := by
    have h : HasDerivAt (fun x : ℝ => (x - m) ^ 2) (2 * (x - m)) x := by
      have h0 : HasDerivAt (fun x : ℝ => x - m) 1 x := (hasDerivAt_id x).sub_const m
      have h3 := h0.mul h0
      refine (h3.congr_of_eventuallyEq (Eventually.of_forall fun y => ?_)).congr_deriv ?_
      · simp only [Pi.mul_apply]
        ring
      · ring
    refine ((h.const_mul (-(1 / (2 * (v : ℝ))))).congr_of_eventuallyEq
      (Eventually.of_forall fun y => ?_)).congr_deriv ?_
    · ring
    · field_simp
  have h2 := (h1.exp.const_mul ((Real.sqrt (2 * Real.pi * v))⁻¹)).const_mul (-(v : ℝ))
  refine (h2.congr_of_eventuallyEq (Eventually.of_forall fun y => rfl)).congr_deriv ?_
  unfold gaussianPDFReal
  field_simp

theorem tendsto_pdf_atTop (m : ℝ) {v : NNReal} (hv : v ≠ 0) :
    Tendsto (fun x => -(v : ℝ) * gaussianPDFReal m v x) atTop (𝓝 0) := by
  have hv' : (0 : ℝ) < v := by positivity
  have h : Tendsto (fun x : ℝ => -(x - m) ^ 2 / (2 * v)) atTop atBot := by
    have h1 : Tendsto (fun x : ℝ => (x - m) ^ 2) atTop atTop :=
      (tendsto_pow_atTop (by norm_num)).comp (tendsto_atTop_add_const_right _ (-m) tendsto_id)
    have h2 : Tendsto (fun x : ℝ => (x - m) ^ 2 / (2 * v)) atTop atTop :=
      h1.atTop_div_const (by positivity)
    have h3 := tendsto_neg_atTop_atBot.comp h2
    refine h3.congr fun x => ?_
    simp only [Function.comp]
    ring
  have h2 := ((Real.tendsto_exp_atBot.comp h).const_mul ((Real.sqrt (2 * Real.pi * v))⁻¹)).const_mul (-(v : ℝ))
  simpa [gaussianPDFReal] using h2

theorem tendsto_pdf_atBot (m : ℝ) {v : NNReal} (hv : v ≠ 0) :
    Tendsto (fun x => -(v : ℝ) * gaussianPDFReal m v x) atBot (𝓝 0) := by
  have h := (tendsto_pdf_atTop (-m) hv).comp tendsto_neg_atBot_atTop
  refine h.congr fun x => ?_
  simp only [Function.comp, gaussianPDFReal]
  congr 3
  ring

theorem integrable_mul_pdf (m : ℝ) {v : NNReal} (hv : v ≠ 0) :
    Integrable fun x => x * gaussianPDFReal m v x := by
  have h : Integrable (fun x : ℝ => x) (gaussianReal m v) := (memLp_id_gaussianReal 1).integrable (by norm_num)
  rw [gaussianReal_of_var_ne_zero m hv, integrable_withDensity_iff_integrable_smul₀'
    (measurable_gaussianPDF m v).aemeasurable (by simp [gaussianPDF_lt_top])] at h
  refine h.congr (Eventually.of_forall fun x => ?_)
  simp only [toReal_gaussianPDF, smul_eq_mul]
  ring

theorem integrable_sub_mul_pdf (m : ℝ) {v : NNReal} (hv : v ≠ 0) :
    Integrable fun x => (x - m) * gaussianPDFReal m v x := by
  have h := (integrable_mul_pdf m hv).sub ((integrable_gaussianPDFReal m v).const_mul m)
  refine h.congr (Eventually.of_forall fun x => ?_)
  simp only [Pi.sub_apply]
  ring

theorem erf_neg (x : ℝ) : erf (-x) = -erf x := by
  unfold erf
  have h : (∫ t in (0 : ℝ)..-x, Real.exp (-t ^ 2)) = -∫ t in (0 : ℝ)..x, Real.exp (-t ^ 2) := by
    have h1 := intervalIntegral.integral_comp_neg (fun t : ℝ => Real.exp (-t ^ 2)) (a := 0) (b := x)
    simp only [neg_sq, neg_zero] at h1
    rw [h1, intervalIntegral.integral_symm]
  rw [h]
  ring

theorem mul_erf_abs (m s : ℝ) : |m| * erf (|m| / s) = m * erf (m / s) := by
  rcases abs_cases m with ⟨h, _⟩ | ⟨h, _⟩
  · rw [h]
  · rw [h, neg_div, erf_neg]
    ring

/-- The mass between zero and twice the mean. -/
theorem pdf_interval (m : ℝ) {v : NNReal} (hv : v ≠ 0) :
    ∫ x in (0 : ℝ)..2 * m, gaussianPDFReal m v x = erf (m / Real.sqrt (2 * v)) := by
  have hv' : (0 : ℝ) < v := by positivity
  set s := Real.sqrt (2 * (v : ℝ)) with hs
  have hspos : 0 < s := Real.sqrt_pos.2 (by positivity)
  have hs2 : s ^ 2 = 2 * v := Real.sq_sqrt (by positivity)
  have hpdf : ∀ x, gaussianPDFReal m v x = (Real.sqrt Real.pi)⁻¹ * s⁻¹ * Real.exp (-(x / s - m / s) ^ 2) := by
    intro x
    unfold gaussianPDFReal
    have h1 : Real.sqrt (2 * Real.pi * v) = s * Real.sqrt Real.pi := by
      rw [hs, ← Real.sqrt_mul (by positivity)]
      congr 1
      ring
    rw [h1, mul_inv]
    congr 1
    · ring
    · congr 1
      rw [← sub_div, div_pow, hs2]
      ring
  simp only [hpdf]
  rw [intervalIntegral.integral_const_mul]
  have h2 := intervalIntegral.integral_comp_div_sub (fun t : ℝ => Real.exp (-t ^ 2)) (a := 0) (b := 2 * m)
    hspos.ne' (m / s)
  rw [h2, smul_eq_mul, zero_div, zero_sub, show 2 * m / s - m / s = m / s by ring]
  unfold erf
  have h3 : (∫ t in -(m / s)..m / s, Real.exp (-t ^ 2)) = 2 * ∫ t in (0 : ℝ)..m / s, Real.exp (-t ^ 2) := by
    have hi : ∀ a b : ℝ, IntervalIntegrable (fun t : ℝ => Real.exp (-t ^ 2)) volume a b := fun a b =>
      (by fun_prop : Continuous fun t : ℝ => Real.exp (-t ^ 2)).intervalIntegrable a b
    rw [← intervalIntegral.integral_add_adjacent_intervals (hi (-(m / s)) 0) (hi 0 (m / s))]
    have h4 := intervalIntegral.integral_comp_neg (fun t : ℝ => Real.exp (-t ^ 2)) (a := 0) (b := m / s)
    simp only [neg_sq, neg_zero] at h4
    rw [← h4]
    ring
  rw [h3]
  field_simp

/-- The mean of the absolute value of a normal variable. -/
theorem integral_abs_gaussianReal (m : ℝ) {v : NNReal} (hv : v ≠ 0) :
    ∫ x, |x| ∂gaussianReal m v =
      Real.sqrt (2 * v / Real.pi) * Real.exp (-m ^ 2 / (2 * v)) + m * erf (m / Real.sqrt (2 * v)) := by
  have hv' : (0 : ℝ) < v := by positivity
  rw [integral_gaussianReal_eq_integral_smul hv]
  have hi := integrable_mul_pdf m hv
  have hs := integrable_sub_mul_pdf m hv
  have hp := integrable_gaussianPDFReal m v
  have habs : Integrable fun x => gaussianPDFReal m v x • |x| := by
    refine hi.abs.congr (Eventually.of_forall fun x => ?_)
    simp only [smul_eq_mul]
    rw [abs_mul, abs_of_nonneg (gaussianPDFReal_nonneg m v x), mul_comm]
  rw [← intervalIntegral.integral_Iic_add_Ioi (b := 0) habs.integrableOn habs.integrableOn]
  have hneg : ∫ x in Iic (0 : ℝ), gaussianPDFReal m v x • |x| =
      -((∫ x in Iic (0 : ℝ), (x - m) * gaussianPDFReal m v x) + m * ∫ x in Iic (0 : ℝ), gaussianPDFReal m v x) := by
    rw [← integral_const_mul, ← integral_add hs.integrableOn (hp.const_mul m).integrableOn, ← integral_neg]
    refine setIntegral_congr_fun measurableSet_Iic fun x hx => ?_
    simp only [smul_eq_mul]
    rw [abs_of_nonpos hx]
    ring
  have hpos : ∫ x in Ioi (0 : ℝ), gaussianPDFReal m v x • |x| =
      (∫ x in Ioi (0 : ℝ), (x - m) * gaussianPDFReal m v x) + m * ∫ x in Ioi (0 : ℝ), gaussianPDFReal m v x := by
    rw [← integral_const_mul, ← integral_add hs.integrableOn (hp.const_mul m).integrableOn]
    refine setIntegral_congr_fun measurableSet_Ioi fun x hx => ?_
    simp only [smul_eq_mul]
    rw [abs_of_pos hx]
    ring
  have h1 : ∫ x in Ioi (0 : ℝ), (x - m) * gaussianPDFReal m v x = v * gaussianPDFReal m v 0 := by
    rw [integral_Ioi_of_hasDerivAt_of_tendsto' (fun x _ => hasDerivAt_pdf m hv x) hs.integrableOn
      (tendsto_pdf_atTop m hv)]
    ring
  have h2 : ∫ x in Iic (0 : ℝ), (x - m) * gaussianPDFReal m v x = -(v * gaussianPDFReal m v 0) := by
    rw [integral_Iic_of_hasDerivAt_of_tendsto' (fun x _ => hasDerivAt_pdf m hv x) hs.integrableOn
      (tendsto_pdf_atBot m hv)]
    ring
  have h3 : ∫ x in Iic (0 : ℝ), gaussianPDFReal m v x = ∫ x in Ioi (2 * m), gaussianPDFReal m v x := by
    rw [← integral_Ici_eq_integral_Ioi]
    have h := (Measure.measurePreserving_sub_left (volume : Measure ℝ) (2 * m)).setIntegral_preimage_emb
      (MeasurableEquiv.subLeft (2 * m)).measurableEmbedding (gaussianPDFReal m v) (Ici (2 * m))
    rw [← h]
    have hset : (fun x => 2 * m - x) ⁻¹' Ici (2 * m) = Iic 0 := by
      ext x
      simp
    rw [hset]
    refine setIntegral_congr_fun measurableSet_Iic fun x _ => ?_
    simp only [gaussianPDFReal]
    congr 3
    ring
  have h4 : (∫ x in Ioi (0 : ℝ), gaussianPDFReal m v x) - ∫ x in Ioi (2 * m), gaussianPDFReal m v x =
      erf (m / Real.sqrt (2 * v)) := by
    rw [intervalIntegral.integral_Ioi_sub_Ioi' hp.integrableOn hp.integrableOn, pdf_interval m hv]
  have h5 : 2 * (v * gaussianPDFReal m v 0) = Real.sqrt (2 * v / Real.pi) * Real.exp (-m ^ 2 / (2 * v)) := by
    unfold gaussianPDFReal
    have h6 : 2 * (v : ℝ) * (Real.sqrt (2 * Real.pi * v))⁻¹ = Real.sqrt (2 * v / Real.pi) := by
      rw [eq_comm, Real.sqrt_eq_iff_mul_self_eq (by positivity) (by positivity)]
      rw [show 2 * (v : ℝ) * (Real.sqrt (2 * Real.pi * v))⁻¹ * (2 * (v : ℝ) * (Real.sqrt (2 * Real.pi * v))⁻¹) =
        4 * v ^ 2 * (Real.sqrt (2 * Real.pi * v) ^ 2)⁻¹ by ring]
      rw [Real.sq_sqrt (by positivity)]
      field_simp
      ring
    rw [← h6]
    simp only [zero_sub, neg_sq]
    ring
  rw [hneg, hpos, h1, h2, h3, ← h5, ← h4]
  ring

/-- The second moment of a normal variable. -/
theorem integral_sq_gaussianReal (m : ℝ) (v : NNReal) : ∫ x, x ^ 2 ∂gaussianReal m v = m ^ 2 + v := by
  have h := variance_eq_sub (memLp_id_gaussianReal (μ := m) (v := v) 2)
  rw [variance_id_gaussianReal] at h
  simp only [Pi.pow_apply, id, integral_id_gaussianReal] at h
  linarith

/-- Differences of coordinates of a normal vector are normal. -/
theorem IsNormal.sub_law {Ω : Type} [MeasurableSpace Ω] {n : Type} [Fintype n] [DecidableEq n] {P : Measure Ω}
    [IsProbabilityMeasure P] {X : Ω → n → ℝ} {μ : n → ℝ} {S : Matrix n n ℝ} (h : IsNormal P X μ S) (i j : n)
    {v : NNReal} (hv : (v : ℝ) = S i i + S j j - 2 * S i j) :
    P.map (fun ω => X ω j - X ω i) = gaussianReal (μ j - μ i) v := by
  have hsymm : S j i = S i j := by
    have := h.1.isHermitian.apply i j
    simpa using this
  rw [isNormal_iff] at h
  obtain ⟨-, hX, hc⟩ := h
  have hm : AEMeasurable (fun ω => X ω j - X ω i) P := by
    have h1 : Measurable fun x : n → ℝ => x j - x i := by fun_prop
    exact h1.comp_aemeasurable hX
  have := Measure.isProbabilityMeasure_map (μ := P) hm
  refine Measure.ext_of_charFun ?_
  funext t
  rw [charFun_apply_real, integral_map hm (Measurable.aestronglyMeasurable (by fun_prop)), charFun_gaussianReal]
  have h1 := hc (fun k => t * ((if k = j then 1 else 0) - (if k = i then 1 else 0)))
  have e1 : ∀ x : n → ℝ, (fun k => t * ((if k = j then (1 : ℝ) else 0) - (if k = i then 1 else 0))) ⬝ᵥ x =
      t * (x j - x i) := by
    intro x
    simp only [dotProduct, mul_assoc, ← Finset.mul_sum]
    simp [sub_mul, Finset.sum_sub_distrib]
  have e2 : (fun k => t * ((if k = j then (1 : ℝ) else 0) - (if k = i then 1 else 0))) ⬝ᵥ
      S.mulVec (fun k => t * ((if k = j then (1 : ℝ) else 0) - (if k = i then 1 else 0))) = t ^ 2 * v := by
    rw [e1, hv]
    have e3 : ∀ k, S.mulVec (fun k => t * ((if k = j then (1 : ℝ) else 0) - (if k = i then 1 else 0))) k =
        t * (S k j - S k i) := by
      intro k
      rw [Matrix.mulVec, dotProduct_comm, e1]
    rw [e3, e3, hsymm]
    ring
  rw [e2] at h1
  simp only [e1] at h1
  convert h1 using 1
  · congr 1
    funext ω
    push_cast
    ring_nf
  · congr 1
    push_cast
    ring

end Albatross
