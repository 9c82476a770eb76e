import Verif.NormalSpec
import Verif.QuadratureAccuracy
import Mathlib.MeasureTheory.Integral.Pi
import Mathlib.MeasureTheory.Constructions.HaarToSphere
import Mathlib.MeasureTheory.Measure.Lebesgue.VolumeOfBalls
import Mathlib.MeasureTheory.Integral.IntegralEqImproper

/-! # The law of the squared length of a normal vector

The squared length of a standard normal vector has the chi squared density: the density of the vector depends on its
length only, and integrals over space of such functions are integrals over the length. -/

namespace Albatross

open MeasureTheory ProbabilityTheory Set

set_option linter.unusedSectionVars false

variable {ι : Type} [Fintype ι] [DecidableEq ι]

/-- The joint density of independent standard normal variables. -/
noncomputable def stdDensity (x : ι → ℝ) : ℝ := ∏ i, gaussianPDFReal 0 1 (x i)

theorem stdDensity_nonneg (x : ι → ℝ) : 0 ≤ stdDensity x :=
  Finset.prod_nonneg fun i _ => gaussianPDFReal_nonneg 0 1 (x i)

theorem measurable_stdDensity : Measurable (stdDensity (ι := ι)) :=
  Finset.measurable_fun_prod _ fun i _ => (measurable_gaussianPDFReal 0 1).comp (measurable_pi_apply i)

theorem integrable_stdDensity : Integrable (stdDensity (ι := ι)) :=
  Integrable.fintype_prod fun _ => integrable_gaussianPDFReal 0 1

/-- Independent standard normal variables have that density. -/
theorem pi_gaussian_withDensity :
    Measure.pi (fun _ : ι => gaussianReal 0 1) = volume.withDensity fun x => ENNReal.ofReal (stdDensity x) := by
  refine Measure.pi_eq fun s hs => ?_
  have hms : MeasurableSet (pi univ s) := MeasurableSet.univ_pi hs
  rw [withDensity_apply _ hms, ← ofReal_integral_eq_lintegral_ofReal integrable_stdDensity.integrableOn
    (Filter.Eventually.of_forall stdDensity_nonneg)]
  have h1 : ∫ x in pi univ s, stdDensity x = ∏ i, ∫ x in s i, gaussianPDFReal 0 1 x := by
    rw [← integral_indicator hms]
    have : ∀ x : ι → ℝ, (pi univ s).indicator stdDensity x = ∏ i, (s i).indicator (gaussianPDFReal 0 1) (x i) := by
      intro x
      by_cases h : x ∈ pi univ s
      · rw [indicator_of_mem h]
        exact Finset.prod_congr rfl fun i _ => (indicator_of_mem (h i (mem_univ i)) _).symm
      · rw [indicator_of_notMem h]
        have : ∃ i, x i ∉ s i := by
          by_contra hc
          push Not at hc
          exact h fun i _ => hc i
        obtain ⟨i, hi⟩ := this
        exact (Finset.prod_eq_zero (Finset.mem_univ i) (indicator_of_notMem hi _)).symm
    simp_rw [this]
    rw [integral_fintype_prod_volume_eq_prod]
    exact Finset.prod_congr rfl fun i _ => integral_indicator (hs i)
  rw [h1, ENNReal.ofReal_prod_of_nonneg fun i _ => setIntegral_nonneg (hs i) fun x _ => gaussianPDFReal_nonneg 0 1 x]
  exact Finset.prod_congr rfl fun i _ => (gaussianReal_apply_eq_integral 0 one_ne_zero (s i)).symm

theorem stdDensity_eq (x : EuclideanSpace ℝ ι) :
    stdDensity (WithLp.ofLp x) = (√(2 * Real.pi))⁻¹ ^ Fintype.card ι * Real.exp (-‖x‖ ^ 2 / 2) := by
  unfold stdDensity gaussianPDFReal
  simp only [NNReal.coe_one, mul_one, sub_zero]
  rw [Finset.prod_mul_distrib, Finset.prod_const, Finset.card_univ, ← Real.exp_sum, EuclideanSpace.real_norm_sq_eq,
    ← Finset.sum_div, Finset.sum_neg_distrib]

/-- The chi squared density with `k` degrees of freedom. -/
noncomputable def chiDensity (k t : ℝ) : ℝ := t ^ (k / 2 - 1) * Real.exp (-t / 2) / (2 ^ (k / 2) * Real.Gamma (k / 2))

/-- The probability that the squared length of a standard normal vector does not exceed `x`. -/
theorem std_squared_norm_le [Nonempty ι] (x : ℝ) :
    (Measure.pi fun _ : ι => gaussianReal 0 1).real {z | ∑ i, z i ^ 2 ≤ x} =
      ∫ t in Ioi (0 : ℝ), (Iic x).indicator (chiDensity (Fintype.card ι)) t := by
  set k := Fintype.card ι with hk
  have hk0 : 0 < k := Fintype.card_pos
  have hms : MeasurableSet {z : ι → ℝ | ∑ i, z i ^ 2 ≤ x} := by
    refine measurableSet_le ?_ measurable_const
    fun_prop
  have h1 : (Measure.pi fun _ : ι => gaussianReal 0 1).real {z | ∑ i, z i ^ 2 ≤ x} =
      ∫ z in {z : ι → ℝ | ∑ i, z i ^ 2 ≤ x}, stdDensity z := by
    rw [Measure.real, pi_gaussian_withDensity, withDensity_apply _ hms,
      ← ofReal_integral_eq_lintegral_ofReal integrable_stdDensity.integrableOn
        (Filter.Eventually.of_forall stdDensity_nonneg),
      ENNReal.toReal_ofReal (setIntegral_nonneg hms fun x _ => stdDensity_nonneg x)]
  set f : ℝ → ℝ := fun r => if r ^ 2 ≤ x then (√(2 * Real.pi))⁻¹ ^ k * Real.exp (-r ^ 2 / 2) else 0 with hf
  have h2 : ∫ z in {z : ι → ℝ | ∑ i, z i ^ 2 ≤ x}, stdDensity z = ∫ y : EuclideanSpace ℝ ι, f ‖y‖ := by
    rw [← integral_indicator hms, ← (PiLp.volume_preserving_ofLp ι).integral_comp
      (MeasurableEquiv.toLp 2 (ι → ℝ)).symm.measurableEmbedding]
    refine integral_congr_ae (Filter.Eventually.of_forall fun y => ?_)
    simp only [indicator_apply, mem_ofPred_eq, stdDensity_eq, hf, EuclideanSpace.real_norm_sq_eq]
    rfl
  rw [h1, h2, integral_fun_norm_addHaar, finrank_euclideanSpace, ← hk]
  have hvol : (volume : Measure (EuclideanSpace ℝ ι)).real (Metric.ball 0 1) =
      √Real.pi ^ k / Real.Gamma (k / 2 + 1) := by
    rw [Measure.real, EuclideanSpace.volume_ball]
    simp only [ENNReal.ofReal_one, one_pow, one_mul]
    exact ENNReal.toReal_ofReal (by positivity)
  rw [hvol, ← integral_comp_rpow_Ioi_of_pos (g := (Iic x).indicator (chiDensity k)) (two_pos : (0 : ℝ) < 2)]
  rw [nsmul_eq_mul, smul_eq_mul, ← integral_const_mul, ← integral_const_mul]
  refine setIntegral_congr_fun measurableSet_Ioi fun r hr => ?_
  have hr0 : 0 < r := hr
  have hG : Real.Gamma ((k : ℝ) / 2 + 1) = k / 2 * Real.Gamma (k / 2) := Real.Gamma_add_one (by positivity)
  have hG0 : 0 < Real.Gamma ((k : ℝ) / 2) := Real.Gamma_pos_of_pos (by positivity)
  simp only [smul_eq_mul, indicator_apply, mem_Iic, Real.rpow_two, hf]
  by_cases h : r ^ 2 ≤ x
  · rw [if_pos h, if_pos h, hG, chiDensity]
    have e1 : (r ^ 2) ^ ((k : ℝ) / 2 - 1) * r = r ^ (k - 1) := by
      rw [← Real.rpow_natCast r 2, ← Real.rpow_mul hr0.le]
      nth_rewrite 2 [← Real.rpow_one r]
      rw [← Real.rpow_add hr0, ← Real.rpow_natCast r (k - 1), Nat.cast_sub hk0]
      congr 1
      push_cast
      ring
    have e2 : (√(2 * Real.pi))⁻¹ ^ k * √Real.pi ^ k = ((2 : ℝ) ^ ((k : ℝ) / 2))⁻¹ := by
      have hp : 0 < √Real.pi := Real.sqrt_pos.2 Real.pi_pos
      rw [← mul_pow, Real.sqrt_mul (by norm_num), mul_inv, mul_assoc, inv_mul_cancel₀ hp.ne', mul_one, inv_pow,
        Real.sqrt_eq_rpow, ← Real.rpow_natCast, ← Real.rpow_mul (by norm_num)]
      congr 2
      ring
    have e3 : r ^ ((2 : ℝ) - 1) = r := by
      norm_num
    rw [e3, ← e1]
    have hkk : (k : ℝ) ≠ 0 := by positivity
    have h2k : (0 : ℝ) < 2 ^ ((k : ℝ) / 2) := by positivity
    have e4 : (√(2 * Real.pi))⁻¹ ^ k * √Real.pi ^ k * 2 ^ ((k : ℝ) / 2) = 1 := by
      rw [e2, inv_mul_cancel₀ h2k.ne']
    field_simp
    linear_combination e4
  · rw [if_neg h, if_neg h]
    ring

/-! ## The distribution function -/

/-- The chi squared distribution function with `k` degrees of freedom. -/
noncomputable def chiCdf (k x : ℝ) : ℝ := ∫ t in (0 : ℝ)..x, chiDensity k t

theorem chiDensity_pos {k t : ℝ} (hk : 0 < k) (ht : 0 < t) : 0 < chiDensity k t := by
  have := Real.Gamma_pos_of_pos (by linarith : 0 < k / 2)
  unfold chiDensity
  positivity

theorem chiDensity_eq_gdens {k t : ℝ} (hk : 0 < k) (ht : 0 < t) : chiDensity k t = gdens (k / 2) (2⁻¹ * t) / 2 := by
  have hG := Real.Gamma_pos_of_pos (by linarith : 0 < k / 2)
  have h2 : (0 : ℝ) < 2 ^ (k / 2) := by positivity
  unfold chiDensity gdens
  have h3 : ((2 : ℝ)⁻¹) ^ (k / 2 - 1) = 2 / 2 ^ (k / 2) := by
    rw [Real.inv_rpow (by norm_num), Real.rpow_sub_one (by norm_num), inv_div]
  rw [Real.mul_rpow (by norm_num) ht.le, h3, show -(2⁻¹ * t) = -t / 2 by ring]
  field_simp

theorem integrableOn_chiDensity {k : ℝ} (hk : 0 < k) : IntegrableOn (chiDensity k) (Ioi 0) := by
  have h := gdens_integrableOn (a := k / 2) (by linarith)
  have h1 : IntegrableOn (fun t => gdens (k / 2) (2⁻¹ * t)) (Ioi 0) := by
    rw [integrableOn_Ioi_comp_mul_left_iff _ _ (by norm_num)]
    simpa using h
  have h2 : IntegrableOn (fun t => gdens (k / 2) (2⁻¹ * t) / 2) (Ioi 0) := h1.div_const 2
  exact h2.congr_fun (fun t ht => (chiDensity_eq_gdens hk ht).symm) measurableSet_Ioi

theorem integral_chiDensity {k : ℝ} (hk : 0 < k) : ∫ t in Ioi (0 : ℝ), chiDensity k t = 1 := by
  rw [setIntegral_congr_fun measurableSet_Ioi fun t ht => chiDensity_eq_gdens hk ht, integral_div,
    integral_comp_mul_left_Ioi (fun t => gdens (k / 2) t) 0 (by norm_num : (0 : ℝ) < 2⁻¹)]
  have htot : ∫ t in Ioi (0 : ℝ), gdens (k / 2) t = 1 := by
    simpa [rising_zero] using (gdens_moment (by linarith : 0 < k / 2) 0).2
  rw [mul_zero, htot]
  norm_num

theorem chiDensity_interval {k l u : ℝ} (hk : 0 < k) (hl : 0 ≤ l) (hlu : l ≤ u) :
    IntervalIntegrable (chiDensity k) volume l u := by
  rw [intervalIntegrable_iff_integrableOn_Ioc_of_le hlu]
  exact (integrableOn_chiDensity hk).mono_set fun t ht => lt_of_le_of_lt hl ht.1

theorem chiCdf_zero (k : ℝ) : chiCdf k 0 = 0 := intervalIntegral.integral_same

theorem chiCdf_lt {k x y : ℝ} (hk : 0 < k) (hx : 0 ≤ x) (hxy : x < y) : chiCdf k x < chiCdf k y := by
  have h := intervalIntegral.integral_add_adjacent_intervals (chiDensity_interval hk le_rfl hx)
    (chiDensity_interval hk hx hxy.le)
  have hp := intervalIntegral.intervalIntegral_pos_of_pos_on (chiDensity_interval hk hx hxy.le)
    (fun t ht => chiDensity_pos hk (lt_of_le_of_lt hx ht.1)) hxy
  unfold chiCdf
  linarith

theorem chiCdf_le_iff {k x y : ℝ} (hk : 0 < k) (hx : 0 ≤ x) (hy : 0 ≤ y) : chiCdf k x ≤ chiCdf k y ↔ x ≤ y := by
  constructor
  · intro h
    by_contra hc
    exact absurd (chiCdf_lt hk hy (not_le.1 hc)) (not_lt.2 h)
  · intro h
    rcases h.eq_or_lt with rfl | h
    · exact le_rfl
    · exact (chiCdf_lt hk hx h).le

theorem chiCdf_nonneg {k x : ℝ} (hk : 0 < k) (hx : 0 ≤ x) : 0 ≤ chiCdf k x := by
  rw [← chiCdf_zero k]
  exact (chiCdf_le_iff hk le_rfl hx).2 hx

theorem chiCdf_le_one {k x : ℝ} (hk : 0 < k) (hx : 0 ≤ x) : chiCdf k x ≤ 1 := by
  rw [← integral_chiDensity hk, chiCdf, intervalIntegral.integral_of_le hx]
  refine setIntegral_mono_set (integrableOn_chiDensity hk) ?_ (Filter.Eventually.of_forall fun t ht => ht.1)
  exact (ae_restrict_iff' measurableSet_Ioi).2 (Filter.Eventually.of_forall fun t ht => (chiDensity_pos hk ht).le)

/-- Every probability below one is reached. -/
theorem exists_chiCdf_eq {k p : ℝ} (hk : 0 < k) (hp : 0 ≤ p) (hp1 : p < 1) : ∃ x, 0 ≤ x ∧ chiCdf k x = p := by
  have ht : Filter.Tendsto (chiCdf k) Filter.atTop (nhds 1) := by
    rw [← integral_chiDensity hk]
    exact intervalIntegral_tendsto_integral_Ioi 0 (integrableOn_chiDensity hk) Filter.tendsto_id
  obtain ⟨N, hN⟩ := ((ht.eventually (lt_mem_nhds hp1)).and (Filter.eventually_ge_atTop 0)).exists
  have hc : ContinuousOn (chiCdf k) (Icc 0 N) := by
    have := intervalIntegral.continuousOn_primitive_interval (μ := volume) (f := chiDensity k) (a := 0) (b := N) (by
      rw [uIcc_of_le hN.2]
      have := (chiDensity_interval hk le_rfl hN.2)
      rw [intervalIntegrable_iff_integrableOn_Icc_of_le hN.2] at this
      exact this)
    rwa [uIcc_of_le hN.2] at this
  obtain ⟨x, hx, hxp⟩ := intermediate_value_Icc hN.2 hc
    (show p ∈ Icc (chiCdf k 0) (chiCdf k N) from ⟨by rw [chiCdf_zero]; exact hp, hN.1.le⟩)
  exact ⟨x, hx.1, hxp⟩

theorem std_squared_norm_cdf [Nonempty ι] {x : ℝ} (hx : 0 ≤ x) :
    (Measure.pi fun _ : ι => gaussianReal 0 1).real {z | ∑ i, z i ^ 2 ≤ x} = chiCdf (Fintype.card ι) x := by
  rw [std_squared_norm_le, chiCdf, intervalIntegral.integral_of_le hx, ← integral_indicator measurableSet_Ioi,
    ← integral_indicator measurableSet_Ioc]
  congr 1
  funext t
  simp only [indicator_apply, mem_Ioi, mem_Iic, mem_Ioc]
  by_cases h1 : 0 < t <;> by_cases h2 : t ≤ x <;> simp [h1, h2]

/-! ## Normal vectors -/

variable {Ω : Type} [MeasurableSpace Ω] {P : Measure Ω} [IsProbabilityMeasure P]

open Matrix

/-- Whitening: with `L Lᵀ = S` the vector `L⁻¹ (Y - μ)` is standard normal. -/
theorem IsNormal.whiten {Y : Ω → ι → ℝ} {μ : ι → ℝ} {S L : Matrix ι ι ℝ} (h : IsNormal P Y μ S) (hL : L * Lᵀ = S)
    (hdet : L.det ≠ 0) : P.map (fun ω => L⁻¹ *ᵥ (Y ω - μ)) = Measure.pi fun _ : ι => gaussianReal 0 1 := by
  have hu : IsUnit L.det := isUnit_iff_ne_zero.2 hdet
  have h1 := h.affine L⁻¹ (-(L⁻¹ *ᵥ μ))
  rw [add_neg_cancel, ← hL] at h1
  have e : L⁻¹ * (L * Lᵀ) * (L⁻¹)ᵀ = 1 := by
    rw [← Matrix.mul_assoc, Matrix.nonsing_inv_mul _ hu, Matrix.one_mul, ← Matrix.transpose_mul,
      Matrix.nonsing_inv_mul _ hu, transpose_one]
  rw [e] at h1
  have e2 : (fun ω => L⁻¹ *ᵥ Y ω + -(L⁻¹ *ᵥ μ)) = fun ω => L⁻¹ *ᵥ (Y ω - μ) := by
    funext ω
    rw [Matrix.mulVec_sub, sub_eq_add_neg]
  rw [e2] at h1
  have h2 := (isNormal_standard ι)
  have h3 := h1.2.2.trans h2.2.2.symm
  have hm1 : AEMeasurable (fun ω => L⁻¹ *ᵥ (Y ω - μ)) P := h1.2.1
  have hto : Measurable (fun v : ι → ℝ => (WithLp.toLp 2 v : EuclideanSpace ℝ ι)) :=
    (PiLp.continuous_toLp 2 _).measurable
  have hof : Measurable (fun v : EuclideanSpace ℝ ι => (WithLp.ofLp v : ι → ℝ)) := (PiLp.continuous_ofLp 2 _).measurable
  have h4 := congrArg (fun M => M.map (fun v : EuclideanSpace ℝ ι => (WithLp.ofLp v : ι → ℝ))) h3
  simp only at h4
  have hm2 : AEMeasurable (fun ω => (WithLp.toLp 2 (L⁻¹ *ᵥ (Y ω - μ)) : EuclideanSpace ℝ ι)) P := hto.comp_aemeasurable hm1
  rw [AEMeasurable.map_map_of_aemeasurable hof.aemeasurable hm2, Measure.map_map hof hto] at h4
  have e3 : ((fun v : EuclideanSpace ℝ ι => (WithLp.ofLp v : ι → ℝ)) ∘ fun v : ι → ℝ => WithLp.toLp 2 v) = id := rfl
  rw [e3, Measure.map_id] at h4
  exact h4

/-- The squared Mahalanobis distance of a normal vector from its mean has the chi squared law. -/
theorem IsNormal.mahalanobis_le [Nonempty ι] {Y : Ω → ι → ℝ} {μ : ι → ℝ} {S L : Matrix ι ι ℝ} (h : IsNormal P Y μ S)
    (hL : L * Lᵀ = S) (hdet : L.det ≠ 0) {x : ℝ} (hx : 0 ≤ x) :
    P.real {ω | ∑ i, (L⁻¹ *ᵥ (Y ω - μ)) i ^ 2 ≤ x} = chiCdf (Fintype.card ι) x := by
  have hm : AEMeasurable (fun ω => L⁻¹ *ᵥ (Y ω - μ)) P := by
    have := (h.affine L⁻¹ (-(L⁻¹ *ᵥ μ))).2.1
    refine this.congr (Filter.Eventually.of_forall fun ω => ?_)
    simp only
    rw [Matrix.mulVec_sub, sub_eq_add_neg]
  rw [← std_squared_norm_cdf (ι := ι) hx, ← h.whiten hL hdet, Measure.real, Measure.real,
    Measure.map_apply_of_aemeasurable hm (measurableSet_le (by fun_prop) measurable_const)]
  rfl

/-- The probability integral transform: the distribution function of the squared distance is uniform. -/
theorem IsNormal.mahalanobis_uniform [Nonempty ι] {Y : Ω → ι → ℝ} {μ : ι → ℝ} {S L : Matrix ι ι ℝ} (h : IsNormal P Y μ S)
    (hL : L * Lᵀ = S) (hdet : L.det ≠ 0) {p : ℝ} (hp : 0 ≤ p) (hp1 : p ≤ 1) :
    P.real {ω | chiCdf (Fintype.card ι) (∑ i, (L⁻¹ *ᵥ (Y ω - μ)) i ^ 2) ≤ p} = p := by
  have hk : (0 : ℝ) < Fintype.card ι := by exact_mod_cast Fintype.card_pos
  have hq : ∀ ω, 0 ≤ ∑ i, (L⁻¹ *ᵥ (Y ω - μ)) i ^ 2 := fun ω => Finset.sum_nonneg fun i _ => sq_nonneg _
  rcases hp1.eq_or_lt with rfl | hlt
  · have : {ω | chiCdf (Fintype.card ι) (∑ i, (L⁻¹ *ᵥ (Y ω - μ)) i ^ 2) ≤ 1} = univ :=
      eq_univ_of_forall fun ω => chiCdf_le_one hk (hq ω)
    rw [this, probReal_univ]
  · obtain ⟨x, hx, hxp⟩ := exists_chiCdf_eq hk hp hlt
    have : {ω | chiCdf (Fintype.card ι) (∑ i, (L⁻¹ *ᵥ (Y ω - μ)) i ^ 2) ≤ p} =
        {ω | ∑ i, (L⁻¹ *ᵥ (Y ω - μ)) i ^ 2 ≤ x} := by
      ext ω
      change _ ≤ p ↔ _ ≤ x
      rw [← hxp]
      exact chiCdf_le_iff hk (hq ω) hx
    rw [this, h.mahalanobis_le hL hdet hx, hxp]

/-- The same for the complement. -/
theorem IsNormal.mahalanobis_uniform_gt [Nonempty ι] {Y : Ω → ι → ℝ} {μ : ι → ℝ} {S L : Matrix ι ι ℝ}
    (h : IsNormal P Y μ S) (hL : L * Lᵀ = S) (hdet : L.det ≠ 0) {p : ℝ} (hp : 0 ≤ p) (hp1 : p ≤ 1) :
    P.real {ω | p < chiCdf (Fintype.card ι) (∑ i, (L⁻¹ *ᵥ (Y ω - μ)) i ^ 2)} = 1 - p := by
  have hk : (0 : ℝ) < Fintype.card ι := by exact_mod_cast Fintype.card_pos
  have hq : ∀ ω, 0 ≤ ∑ i, (L⁻¹ *ᵥ (Y ω - μ)) i ^ 2 := fun ω => Finset.sum_nonneg fun i _ => sq_nonneg _
  rcases hp1.eq_or_lt with rfl | hlt
  · have : {ω | 1 < chiCdf (Fintype.card ι) (∑ i, (L⁻¹ *ᵥ (Y ω - μ)) i ^ 2)} = ∅ :=
      eq_empty_of_forall_notMem fun ω => not_lt.2 (chiCdf_le_one hk (hq ω))
    rw [this, measureReal_empty, sub_self]
  · obtain ⟨x, hx, hxp⟩ := exists_chiCdf_eq hk hp hlt
    have hm : AEMeasurable (fun ω => L⁻¹ *ᵥ (Y ω - μ)) P := by
      have := (h.affine L⁻¹ (-(L⁻¹ *ᵥ μ))).2.1
      refine this.congr (Filter.Eventually.of_forall fun ω => ?_)
      simp only
      rw [Matrix.mulVec_sub, sub_eq_add_neg]
    have hmq : NullMeasurableSet {ω | ∑ i, (L⁻¹ *ᵥ (Y ω - μ)) i ^ 2 ≤ x} P := by
      have h1 : Measurable fun v : ι → ℝ => ∑ i, v i ^ 2 := by fun_prop
      exact nullMeasurableSet_le (h1.comp_aemeasurable hm) aemeasurable_const
    have : {ω | p < chiCdf (Fintype.card ι) (∑ i, (L⁻¹ *ᵥ (Y ω - μ)) i ^ 2)} =
        {ω | ∑ i, (L⁻¹ *ᵥ (Y ω - μ)) i ^ 2 ≤ x}ᶜ := by
      ext ω
      change p < _ ↔ ¬ _ ≤ x
      rw [← hxp, ← chiCdf_le_iff hk (hq ω) hx, not_le]
    rw [this, Measure.real, prob_compl_eq_one_sub₀ hmq, ENNReal.toReal_sub_of_le prob_le_one ENNReal.one_ne_top,
      ENNReal.toReal_one]
    have h2 := h.mahalanobis_le hL hdet hx
    rw [Measure.real] at h2
    rw [h2, hxp]

end Albatross
