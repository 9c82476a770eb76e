import Verif.Psd
import Mathlib.Analysis.SpecialFunctions.Gaussian.GaussianIntegral
import Mathlib.Analysis.SpecialFunctions.ImproperIntegrals
import Mathlib.Analysis.SpecialFunctions.Trigonometric.InverseDeriv
import Mathlib.MeasureTheory.Integral.IntegralEqImproper
import Mathlib.MeasureTheory.Measure.Haar.NormedSpace
import Mathlib.Geometry.Euclidean.Angle.Unoriented.Basic

/-! # Positive semi-definite functions of distances and angles -/

open MeasureTheory Filter

namespace Albatross

namespace IsPSD

variable {X : Type} {k : X → X → ℝ}

/-- Mixtures. -/
theorem integral {Ω : Type} [MeasurableSpace Ω] (μ : Measure Ω) (k : Ω → X → X → ℝ) (hk : ∀ ω, IsPSD (k ω))
    (hint : ∀ x y, Integrable (fun ω => k ω x y) μ) : IsPSD fun x y => ∫ ω, k ω x y ∂μ := by
  refine ⟨fun x y => by simp only [(hk _).1 x y], fun n x w => ?_⟩
  have : ∑ i, ∑ j, w i * w j * ∫ ω, k ω (x i) (x j) ∂μ = ∫ ω, ∑ i, ∑ j, w i * w j * k ω (x i) (x j) ∂μ := by
    rw [integral_finsetSum _ fun i _ => integrable_finsetSum _ fun j _ => (hint _ _).const_mul _]
    refine Finset.sum_congr rfl fun i _ => ?_
    rw [integral_finsetSum _ fun j _ => (hint _ _).const_mul _]
    exact Finset.sum_congr rfl fun j _ => (integral_const_mul _ _).symm
  rw [this]
  exact integral_nonneg fun ω => (hk ω).2 n x w

/-- Mixtures over a set. -/
theorem setIntegral {Ω : Type} [MeasurableSpace Ω] (μ : Measure Ω) (s : Set Ω) (hs : MeasurableSet s)
    (k : Ω → X → X → ℝ) (hk : ∀ ω ∈ s, IsPSD (k ω)) (hint : ∀ x y, IntegrableOn (fun ω => k ω x y) s μ) :
    IsPSD fun x y => ∫ ω in s, k ω x y ∂μ := by
  classical
  have h := integral μ (fun ω x y => s.indicator (fun ω => k ω x y) ω) (fun ω => ?_)
    fun x y => (integrable_indicator_iff hs).2 (hint x y)
  · refine cast (congrArg IsPSD ?_) h
    funext x y
    exact integral_indicator hs
  · by_cases hω : ω ∈ s
    · simpa [hω] using hk ω hω
    · simpa [hω] using IsPSD.zero

/-- The covariance of the differences to a point. -/
theorem centred (hk : IsPSD k) (o : X) : IsPSD fun x y => k x y - k x o - k o y + k o o := by
  refine ⟨fun x y => by dsimp only; rw [hk.1 x y, hk.1 x o, hk.1 o y]; ring, fun n x w => ?_⟩
  have h := hk.2 (n + 1) (Fin.cons o x) (Fin.cons (-∑ i, w i) w)
  simp only [Fin.sum_univ_succ, Fin.cons_zero, Fin.cons_succ] at h
  refine h.trans_eq ?_
  have e1 : ∑ i, ∑ j, w i * w j * (k (x i) (x j) - k (x i) o - k o (x j) + k o o) =
      ∑ i, ∑ j, w i * w j * k (x i) (x j) - (∑ i, w i * k (x i) o) * ∑ j, w j - (∑ i, w i) * ∑ j, w j * k o (x j) +
        (∑ i, w i) * (∑ j, w j) * k o o := by
    rw [Finset.sum_mul_sum, Finset.sum_mul_sum, Finset.sum_mul_sum, Finset.sum_mul, ← Finset.sum_sub_distrib,
      ← Finset.sum_sub_distrib, ← Finset.sum_add_distrib]
    refine Finset.sum_congr rfl fun i _ => ?_
    rw [Finset.sum_mul, ← Finset.sum_sub_distrib, ← Finset.sum_sub_distrib, ← Finset.sum_add_distrib]
    exact Finset.sum_congr rfl fun j _ => by ring
  rw [e1, Finset.sum_add_distrib]
  have e2 : ∑ i, w i * -(∑ i, w i) * k (x i) o = -((∑ i, w i * k (x i) o) * ∑ j, w j) := by
    generalize ∑ i, w i = W
    rw [Finset.sum_mul, ← Finset.sum_neg_distrib]
    exact Finset.sum_congr rfl fun i _ => by ring
  have e3 : ∑ j, -(∑ i, w i) * w j * k o (x j) = -((∑ i, w i) * ∑ j, w j * k o (x j)) := by
    generalize ∑ i, w i = W
    rw [Finset.mul_sum, ← Finset.sum_neg_distrib]
    exact Finset.sum_congr rfl fun i _ => by ring
  rw [e2, e3]
  ring

end IsPSD

/-! ## The square root as a mixture -/

theorem one_sub_exp_bounds {z : ℝ} (hz : 0 ≤ z) : 0 ≤ 1 - Real.exp (-z) ∧ 1 - Real.exp (-z) ≤ 1 ∧ 1 - Real.exp (-z) ≤ z := by
  refine ⟨?_, ?_, ?_⟩
  · have := Real.exp_le_one_iff.2 (neg_nonpos.2 hz); linarith
  · have := Real.exp_pos (-z); linarith
  · have := Real.add_one_le_exp (-z); linarith

theorem integrable_one_sub_exp {s : ℝ} (hs : 0 ≤ s) : Integrable fun x : ℝ => 1 - Real.exp (-(s / x ^ 2)) := by
  refine (integrable_inv_one_add_sq.const_mul (1 + s)).mono' (Measurable.aestronglyMeasurable (by fun_prop)) (ae_of_all _ fun x => ?_)
  obtain ⟨h0, h1, h2⟩ := one_sub_exp_bounds (z := s / x ^ 2) (by positivity)
  rw [Real.norm_of_nonneg h0, ← div_eq_mul_inv, le_div_iff₀ (by positivity), mul_add, mul_one]
  refine add_le_add h1 ?_
  by_cases hx : x = 0
  · subst hx; simpa using hs
  · calc _ ≤ s / x ^ 2 * x ^ 2 := by gcongr
      _ = s := by field_simp

/-- The constant of the mixture. -/
noncomputable def rootConstant : ℝ := ∫ x : ℝ, (1 - Real.exp (-(1 / x ^ 2)))

theorem rootConstant_pos : 0 < rootConstant := by
  unfold rootConstant
  rw [integral_pos_iff_support_of_nonneg (fun x => (one_sub_exp_bounds (by positivity)).1)
    (integrable_one_sub_exp zero_le_one)]
  refine lt_of_lt_of_le ?_ (measure_mono (show Set.Ioo (0 : ℝ) 1 ⊆ _ from fun x hx => ?_))
  · simp
  · rw [Function.mem_support]
    have : 0 < 1 / x ^ 2 := by have := hx.1; positivity
    have : Real.exp (-(1 / x ^ 2)) < 1 := (Real.exp_lt_exp.2 (neg_lt_zero.2 this)).trans_eq Real.exp_zero
    exact (sub_pos.2 this).ne'

theorem sqrt_mixture {s : ℝ} (hs : 0 ≤ s) : ∫ x : ℝ, (1 - Real.exp (-(s / x ^ 2))) = rootConstant * Real.sqrt s := by
  rcases hs.eq_or_lt with rfl | hs
  · simp
  · have h := Measure.integral_comp_div (fun x : ℝ => 1 - Real.exp (-(1 / x ^ 2))) (Real.sqrt s)
    rw [abs_of_pos (Real.sqrt_pos.2 hs), smul_eq_mul, mul_comm] at h
    rw [rootConstant, ← h]
    congr 1
    funext x
    rw [div_pow, Real.sq_sqrt hs.le, one_div_div]

section Distance

variable {E : Type} [NormedAddCommGroup E] [InnerProductSpace ℝ E]

theorem gauss_psd {t : ℝ} (ht : 0 ≤ t) : IsPSD fun x y : E => Real.exp (-(t * ‖x - y‖ ^ 2)) := by
  have hin : IsPSD fun x y : E => inner ℝ x y := IsPSD.of_matrix fun n x => Matrix.posSemidef_gram ℝ x
  have h := (IsPSD.rank_one fun x : E => Real.exp (-(t * ‖x‖ ^ 2))).mul (hin.smul (c := 2 * t) (by positivity)).exp
  refine cast (congrArg IsPSD ?_) h
  funext x y
  rw [← Real.exp_add, ← Real.exp_add, norm_sub_sq_real]
  congr 1
  ring

/-- The square root of the squared distance, moved by a constant, is a variogram. -/
theorem root_centred {v : ℝ} (hv : 0 ≤ v) : IsPSD fun x y : E =>
    Real.sqrt (‖x‖ ^ 2 + v) + Real.sqrt (‖y‖ ^ 2 + v) - Real.sqrt (‖x - y‖ ^ 2 + v) - Real.sqrt v := by
  have hq : ∀ s : ℝ, 0 ≤ s → Real.sqrt s = rootConstant⁻¹ * ∫ x : ℝ, (1 - Real.exp (-(s / x ^ 2))) := by
    intro s hs
    rw [sqrt_mixture hs, inv_mul_cancel_left₀ rootConstant_pos.ne']
  have hI : ∀ s : ℝ, 0 ≤ s → Integrable fun x : ℝ => 1 - Real.exp (-((s + v) / x ^ 2)) :=
    fun s hs => integrable_one_sub_exp (by positivity)
  have e : ∀ (x y : E) (u : ℝ), (1 - Real.exp (-((‖x‖ ^ 2 + v) / u ^ 2))) + (1 - Real.exp (-((‖y‖ ^ 2 + v) / u ^ 2))) -
      (1 - Real.exp (-((‖x - y‖ ^ 2 + v) / u ^ 2))) - (1 - Real.exp (-((0 + v) / u ^ 2))) =
      Real.exp (-(v / u ^ 2)) * (Real.exp (-(1 / u ^ 2 * ‖x - y‖ ^ 2)) - Real.exp (-(1 / u ^ 2 * ‖x - 0‖ ^ 2)) -
        Real.exp (-(1 / u ^ 2 * ‖0 - y‖ ^ 2)) + Real.exp (-(1 / u ^ 2 * ‖(0 : E) - 0‖ ^ 2))) := by
    intro x y u
    have : ∀ s : ℝ, Real.exp (-((s + v) / u ^ 2)) = Real.exp (-(v / u ^ 2)) * Real.exp (-(1 / u ^ 2 * s)) := by
      intro s
      rw [← Real.exp_add]
      congr 1
      ring
    simp only [this, sub_zero, zero_sub, norm_neg, norm_zero]
    ring_nf
  have h := (IsPSD.integral (volume : Measure ℝ) (fun (u : ℝ) (x y : E) => Real.exp (-(v / u ^ 2)) *
      (Real.exp (-(1 / u ^ 2 * ‖x - y‖ ^ 2)) - Real.exp (-(1 / u ^ 2 * ‖x - 0‖ ^ 2)) -
        Real.exp (-(1 / u ^ 2 * ‖0 - y‖ ^ 2)) + Real.exp (-(1 / u ^ 2 * ‖(0 : E) - 0‖ ^ 2))))
    (fun u => ((gauss_psd (E := E) (t := 1 / u ^ 2) (by positivity)).centred 0).smul (Real.exp_pos _).le)
    fun x y => by
      simp only [← e]
      exact (((hI _ (by positivity)).add (hI _ (by positivity))).sub (hI _ (by positivity))).sub (hI 0 le_rfl)).smul
      (inv_pos.2 rootConstant_pos).le
  refine cast (congrArg IsPSD ?_) h
  funext x y
  simp only [← e]
  have i1 := hI (‖x‖ ^ 2) (by positivity)
  have i2 := hI (‖y‖ ^ 2) (by positivity)
  have i3 := hI (‖x - y‖ ^ 2) (by positivity)
  have i12 : Integrable fun u : ℝ =>
      (1 - Real.exp (-((‖x‖ ^ 2 + v) / u ^ 2))) + (1 - Real.exp (-((‖y‖ ^ 2 + v) / u ^ 2))) := i1.add i2
  have i123 : Integrable fun u : ℝ => (1 - Real.exp (-((‖x‖ ^ 2 + v) / u ^ 2))) +
      (1 - Real.exp (-((‖y‖ ^ 2 + v) / u ^ 2))) - (1 - Real.exp (-((‖x - y‖ ^ 2 + v) / u ^ 2))) := i12.sub i3
  rw [integral_sub i123 (hI 0 le_rfl), integral_sub i12 i3, integral_add i1 i2, mul_sub, mul_sub, mul_add, ← hq _ (by positivity),
    ← hq _ (by positivity), ← hq _ (by positivity), ← hq _ (by positivity), zero_add]

theorem exp_root_psd {v : ℝ} (hv : 0 ≤ v) : IsPSD fun x y : E => Real.exp (-Real.sqrt (‖x - y‖ ^ 2 + v)) := by
  have h := ((IsPSD.rank_one fun x : E => Real.exp (-Real.sqrt (‖x‖ ^ 2 + v))).mul (root_centred (E := E) hv).exp).smul
    (Real.exp_pos (Real.sqrt v)).le
  refine cast (congrArg IsPSD ?_) h
  funext x y
  rw [← Real.exp_add, ← Real.exp_add, ← Real.exp_add]
  congr 1
  ring

theorem hasDerivAt_sqrt_add {s w : ℝ} (h : 0 < s + w) :
    HasDerivAt (fun w => Real.sqrt (s + w)) (1 / (2 * Real.sqrt (s + w))) w := by
  simpa using ((hasDerivAt_id w).const_add s).sqrt h.ne'

/-- `(1 + r) exp(-r)` as a mixture. -/
theorem matern32_mixture {s : ℝ} (hs : 0 ≤ s) :
    IntegrableOn (fun w => 1 / 2 * Real.exp (-Real.sqrt (s + w))) (Set.Ioi 0) ∧
    ∫ w in Set.Ioi 0, 1 / 2 * Real.exp (-Real.sqrt (s + w)) = (1 + Real.sqrt s) * Real.exp (-Real.sqrt s) := by
  have hc : ContinuousWithinAt (fun w => -((1 + Real.sqrt (s + w)) * Real.exp (-Real.sqrt (s + w)))) (Set.Ici 0) 0 :=
    (by fun_prop : Continuous fun w => -((1 + Real.sqrt (s + w)) * Real.exp (-Real.sqrt (s + w)))).continuousWithinAt
  have hd : ∀ w ∈ Set.Ioi (0 : ℝ), HasDerivAt (fun w => -((1 + Real.sqrt (s + w)) * Real.exp (-Real.sqrt (s + w))))
      (1 / 2 * Real.exp (-Real.sqrt (s + w))) w := by
    intro w hw
    have hp : 0 < s + w := add_pos_of_nonneg_of_pos hs hw
    have h1 := hasDerivAt_sqrt_add hp
    have hr := Real.sqrt_pos.2 hp
    refine (((h1.const_add 1).mul h1.neg.exp).neg).congr_deriv ?_
    simp only [Pi.neg_apply]
    field_simp
    ring
  have hl : Tendsto (fun w => -((1 + Real.sqrt (s + w)) * Real.exp (-Real.sqrt (s + w)))) atTop (nhds 0) := by
    have h1 : Tendsto (fun w => Real.sqrt (s + w)) atTop atTop :=
      Real.tendsto_sqrt_atTop.comp (tendsto_atTop_add_const_left _ _ tendsto_id)
    have h2 : Tendsto (fun r : ℝ => -((1 + r) * Real.exp (-r))) atTop (nhds 0) := by
      have a := Real.tendsto_pow_mul_exp_neg_atTop_nhds_zero 0
      have b := Real.tendsto_pow_mul_exp_neg_atTop_nhds_zero 1
      have := (a.add b).neg
      simp only [pow_zero, one_mul, pow_one, add_zero, neg_zero] at this
      simpa [add_mul] using this
    exact h2.comp h1
  refine ⟨integrableOn_Ioi_deriv_of_nonneg hc hd (fun w _ => by positivity) hl, ?_⟩
  rw [integral_Ioi_of_hasDerivAt_of_nonneg hc hd (fun w _ => by positivity) hl]
  simp

/-- `(1 + r + r² / 3) exp(-r)` as a mixture. -/
theorem matern52_mixture {s : ℝ} (hs : 0 ≤ s) :
    IntegrableOn (fun w => 1 / 6 * ((1 + Real.sqrt (s + w)) * Real.exp (-Real.sqrt (s + w)))) (Set.Ioi 0) ∧
    ∫ w in Set.Ioi 0, 1 / 6 * ((1 + Real.sqrt (s + w)) * Real.exp (-Real.sqrt (s + w))) =
      (1 + Real.sqrt s + Real.sqrt s * Real.sqrt s / 3) * Real.exp (-Real.sqrt s) := by
  set g : ℝ → ℝ := fun w =>
    -((1 + Real.sqrt (s + w) + Real.sqrt (s + w) * Real.sqrt (s + w) / 3) * Real.exp (-Real.sqrt (s + w))) with hg
  have hc : ContinuousWithinAt g (Set.Ici 0) 0 := (by rw [hg]; fun_prop : Continuous g).continuousWithinAt
  have hd : ∀ w ∈ Set.Ioi (0 : ℝ), HasDerivAt g
      (1 / 6 * ((1 + Real.sqrt (s + w)) * Real.exp (-Real.sqrt (s + w)))) w := by
    intro w hw
    have hp : 0 < s + w := add_pos_of_nonneg_of_pos hs hw
    have h1 := hasDerivAt_sqrt_add hp
    have hr := Real.sqrt_pos.2 hp
    refine ((((h1.const_add 1).add ((h1.mul h1).div_const 3)).mul h1.neg.exp).neg).congr_deriv ?_
    simp only [Pi.add_apply, Pi.mul_apply, Pi.neg_apply]
    field_simp
    ring
  have hl : Tendsto g atTop (nhds 0) := by
    have h1 : Tendsto (fun w => Real.sqrt (s + w)) atTop atTop :=
      Real.tendsto_sqrt_atTop.comp (tendsto_atTop_add_const_left _ _ tendsto_id)
    have h2 : Tendsto (fun r : ℝ => -((1 + r + r * r / 3) * Real.exp (-r))) atTop (nhds 0) := by
      have a := Real.tendsto_pow_mul_exp_neg_atTop_nhds_zero 0
      have b := Real.tendsto_pow_mul_exp_neg_atTop_nhds_zero 1
      have c := (Real.tendsto_pow_mul_exp_neg_atTop_nhds_zero 2).const_mul (1 / 3)
      have := ((a.add b).add c).neg
      simp only [add_zero, neg_zero, mul_zero] at this
      refine this.congr fun r => ?_
      ring
    exact h2.comp h1
  refine ⟨integrableOn_Ioi_deriv_of_nonneg hc hd (fun w _ => by positivity) hl, ?_⟩
  rw [integral_Ioi_of_hasDerivAt_of_nonneg hc hd (fun w _ => by positivity) hl]
  simp [hg]

theorem matern32_root_psd {v : ℝ} (hv : 0 ≤ v) : IsPSD fun x y : E =>
    (1 + Real.sqrt (‖x - y‖ ^ 2 + v)) * Real.exp (-Real.sqrt (‖x - y‖ ^ 2 + v)) := by
  have h := IsPSD.setIntegral volume (Set.Ioi (0 : ℝ)) measurableSet_Ioi
    (fun (w : ℝ) (x y : E) => 1 / 2 * Real.exp (-Real.sqrt (‖x - y‖ ^ 2 + (v + w))))
    (fun w hw => (exp_root_psd (E := E) (add_nonneg hv (le_of_lt hw))).smul (by norm_num))
    fun x y => by simpa only [← add_assoc] using (matern32_mixture (s := ‖x - y‖ ^ 2 + v) (by positivity)).1
  refine cast (congrArg IsPSD ?_) h
  funext x y
  simp only [← add_assoc]
  exact (matern32_mixture (by positivity)).2

theorem matern52_root_psd : IsPSD fun x y : E =>
    (1 + ‖x - y‖ + ‖x - y‖ * ‖x - y‖ / 3) * Real.exp (-‖x - y‖) := by
  have h := IsPSD.setIntegral volume (Set.Ioi (0 : ℝ)) measurableSet_Ioi
    (fun (w : ℝ) (x y : E) => 1 / 6 * ((1 + Real.sqrt (‖x - y‖ ^ 2 + w)) * Real.exp (-Real.sqrt (‖x - y‖ ^ 2 + w))))
    (fun w hw => (matern32_root_psd (E := E) (le_of_lt hw)).smul (by norm_num))
    fun x y => (matern52_mixture (s := ‖x - y‖ ^ 2) (by positivity)).1
  refine cast (congrArg IsPSD ?_) h
  funext x y
  rw [(matern52_mixture (by positivity)).2, Real.sqrt_sq (norm_nonneg _)]

end Distance

/-! ## Angles -/

theorem inv_sqrt_psd {X : Type} {c : X → X → ℝ} (hc : IsPSD c) (hlt : ∀ x y, |c x y| < 1) :
    IsPSD fun x y => 1 / Real.sqrt (1 - c x y ^ 2) := by
  have hb : ∀ x y, 0 < 1 - c x y ^ 2 := fun x y => by
    have := (sq_lt_one_iff_abs_lt_one _).2 (hlt x y); linarith
  have e : ∀ x y (u : ℝ), Real.exp (-(1 - c x y ^ 2) * u ^ 2) = Real.exp (-u ^ 2) * Real.exp (u ^ 2 * c x y ^ 2) := by
    intro x y u
    rw [← Real.exp_add]
    congr 1
    ring
  have h := (IsPSD.integral (volume : Measure ℝ) (fun u x y => Real.exp (-u ^ 2) * Real.exp (u ^ 2 * c x y ^ 2))
    (fun u => (((hc.pow 2).smul (sq_nonneg u)).exp).smul (Real.exp_pos _).le) fun x y => by
      simp only [← e]
      exact integrable_exp_neg_mul_sq (hb x y)).smul (c := 1 / Real.sqrt Real.pi) (by positivity)
  refine cast (congrArg IsPSD ?_) h
  funext x y
  simp only [← e]
  rw [integral_gaussian, Real.sqrt_div Real.pi_pos.le]
  have := Real.sqrt_pos.2 Real.pi_pos
  field_simp

theorem arcsin_psd {X : Type} {c : X → X → ℝ} (hc : IsPSD c) (hle : ∀ x y, |c x y| ≤ 1) :
    IsPSD fun x y => Real.arcsin (c x y) := by
  have hlt : ∀ {u : ℝ}, u ∈ Set.Icc (0 : ℝ) 1 → u ≠ 1 → ∀ x y, |u * c x y| < 1 := by
    intro u hu h1 x y
    rw [abs_mul, abs_of_nonneg hu.1]
    have h2 : u < 1 := lt_of_le_of_ne hu.2 h1
    have := hle x y
    have := abs_nonneg (c x y)
    nlinarith [hu.1]
  have step : ∀ r : ℝ, 0 ≤ r → r < 1 → IsPSD fun x y => Real.arcsin (r * c x y) := by
    intro r h0 h1
    have hcont : ∀ x y, ContinuousOn (fun u : ℝ => c x y * (1 / Real.sqrt (1 - (u * c x y) ^ 2))) (Set.Icc 0 r) := by
      intro x y
      refine continuousOn_const.mul (continuousOn_const.div (by fun_prop) fun u hu => ?_)
      have := hlt (u := u) ⟨hu.1, hu.2.trans h1.le⟩ (hu.2.trans_lt h1).ne x y
      have := (sq_lt_one_iff_abs_lt_one _).2 this
      exact (Real.sqrt_pos.2 (by linarith)).ne'
    have h := IsPSD.setIntegral volume (Set.Ioc (0 : ℝ) r) measurableSet_Ioc
      (fun u x y => c x y * (1 / Real.sqrt (1 - (u * c x y) ^ 2)))
      (fun u hu => hc.mul (inv_sqrt_psd (hc.smul hu.1.le)
        (hlt ⟨hu.1.le, hu.2.trans h1.le⟩ (hu.2.trans_lt h1).ne)))
      fun x y => ((hcont x y).integrableOn_Icc).mono_set Set.Ioc_subset_Icc_self
    refine cast (congrArg IsPSD ?_) h
    funext x y
    rw [← intervalIntegral.integral_of_le h0, intervalIntegral.integral_eq_sub_of_hasDerivAt
      (f := fun u => Real.arcsin (u * c x y))]
    · simp
    · intro u hu
      rw [Set.uIcc_of_le h0] at hu
      have := hlt (u := u) ⟨hu.1, hu.2.trans h1.le⟩ (hu.2.trans_lt h1).ne x y
      rw [abs_lt] at this
      have hd := (Real.hasDerivAt_arcsin this.1.ne' this.2.ne).comp u ((hasDerivAt_id u).mul_const (c x y))
      refine hd.congr_deriv ?_
      simp [mul_comm]
    · exact ((Set.uIcc_of_le h0).symm ▸ hcont x y).intervalIntegrable
  refine IsPSD.limit (k := fun m x y => Real.arcsin ((1 - 1 / ((m : ℝ) + 1)) * c x y)) (fun m => step _ ?_ ?_)
    fun x y => ?_
  · have : 1 / ((m : ℝ) + 1) ≤ 1 := by rw [div_le_one (by positivity)]; linarith [Nat.cast_nonneg (α := ℝ) m]
    linarith
  · have : 0 < 1 / ((m : ℝ) + 1) := by positivity
    linarith
  · have h1 : Tendsto (fun m : ℕ => (1 - 1 / ((m : ℝ) + 1)) * c x y) atTop (nhds ((1 - 0) * c x y)) :=
      (tendsto_const_nhds.sub tendsto_one_div_add_atTop_nhds_zero_nat).mul_const _
    rw [sub_zero, one_mul] at h1
    exact (Real.continuous_arcsin.tendsto _).comp h1

section Angle

open InnerProductGeometry

variable {E : Type} [NormedAddCommGroup E] [InnerProductSpace ℝ E]

theorem cos_psd : IsPSD fun x y : E => Real.cos (angle x y) := by
  have hin : IsPSD fun x y : E => inner ℝ x y := IsPSD.of_matrix fun n x => Matrix.posSemidef_gram ℝ x
  have h := (IsPSD.rank_one fun x : E => ‖x‖⁻¹).mul hin
  refine cast (congrArg IsPSD ?_) h
  funext x y
  rw [cos_angle, div_eq_mul_inv, mul_inv]
  ring

theorem exp_angle_psd {a : ℝ} (ha : 0 ≤ a) : IsPSD fun x y : E => Real.exp (-(a * angle x y)) := by
  have h := (((arcsin_psd (cos_psd (E := E)) fun x y => Real.abs_cos_le_one _).smul ha).exp).smul
    (Real.exp_pos (-(a * (Real.pi / 2)))).le
  refine cast (congrArg IsPSD ?_) h
  funext x y
  rw [← Real.exp_add]
  congr 1
  have : Real.arcsin (Real.cos (angle x y)) = Real.pi / 2 - angle x y := by
    rw [← Real.arccos_cos (angle_nonneg x y) (angle_le_pi x y), Real.cos_arccos (Real.neg_one_le_cos _) (Real.cos_le_one _),
      Real.arccos]
    ring
  rw [this]
  ring

/-- The point at angle `t` of a circle. -/
noncomputable def circlePoint (u v : E) (t : ℝ) : E := Real.cos t • u + Real.sin t • v

variable {u v : E}

theorem circlePoint_inner (hu : ‖u‖ = 1) (hv : ‖v‖ = 1) (huv : inner ℝ u v = 0) (s t : ℝ) :
    inner ℝ (circlePoint u v s) (circlePoint u v t) = Real.cos (t - s) := by
  simp only [circlePoint, inner_add_left, inner_add_right, inner_smul_left, inner_smul_right, huv,
    real_inner_comm u v, real_inner_self_eq_norm_sq, hu, hv, Real.cos_sub]
  simp

theorem circlePoint_norm (hu : ‖u‖ = 1) (hv : ‖v‖ = 1) (huv : inner ℝ u v = 0) (t : ℝ) : ‖circlePoint u v t‖ = 1 := by
  have h := circlePoint_inner hu hv huv t t
  rw [real_inner_self_eq_norm_sq, sub_self, Real.cos_zero] at h
  nlinarith [norm_nonneg (circlePoint u v t)]

theorem circlePoint_angle (hu : ‖u‖ = 1) (hv : ‖v‖ = 1) (huv : inner ℝ u v = 0) {s t d : ℝ}
    (h : Real.cos (t - s) = Real.cos d) (h0 : 0 ≤ d) (h1 : d ≤ Real.pi) :
    angle (circlePoint u v s) (circlePoint u v t) = d := by
  rw [angle, circlePoint_inner hu hv huv, circlePoint_norm hu hv huv, circlePoint_norm hu hv huv, mul_one, div_one, h,
    Real.arccos_cos h0 h1]

/-- A function of the angle that is flat at zero and falling at `π` has a negative form on four points of a circle. -/
theorem flat_not_psd (hu : ‖u‖ = 1) (hv : ‖v‖ = 1) (huv : inner ℝ u v = 0) {f : ℝ → ℝ} {f' : ℝ}
    (h0 : HasDerivAt f 0 0) (h1 : HasDerivAt f f' Real.pi) (hf : f' < 0) :
    ∃ (x : Fin 4 → E) (w : Fin 4 → ℝ), (∀ i, x i ≠ 0) ∧ ∑ i, ∑ j, w i * w j * f (angle (x i) (x j)) < 0 := by
  have hg : HasDerivAt (fun e => f 0 - f e + (f Real.pi - f (Real.pi - e))) f' 0 := by
    have a := (hasDerivAt_const (0 : ℝ) (f 0)).sub h0
    have h1' : HasDerivAt f f' (Real.pi - 0) := by simpa using h1
    have b := (hasDerivAt_const (0 : ℝ) (f Real.pi)).sub (h1'.comp (0 : ℝ) ((hasDerivAt_id (0 : ℝ)).const_sub Real.pi))
    exact (a.add b).congr_deriv (by simp)
  have hs := (hasDerivAt_iff_tendsto_slope.1 hg).eventually (gt_mem_nhds hf)
  have hs' : ∀ᶠ e in nhdsWithin (0 : ℝ) (Set.Ioi 0), f 0 - f e + (f Real.pi - f (Real.pi - e)) < 0 := by
    have := hs.filter_mono (nhdsWithin_mono (0 : ℝ) (fun x hx => (ne_of_gt hx : x ≠ 0) : Set.Ioi (0 : ℝ) ⊆ {0}ᶜ))
    filter_upwards [this, self_mem_nhdsWithin] with e he hpos
    rw [slope_def_field] at he
    simp only [sub_self, sub_zero, add_zero] at he
    have hpos : (0 : ℝ) < e := hpos
    rw [div_lt_iff₀ hpos, zero_mul] at he
    linarith
  have hlt : ∀ᶠ e in nhdsWithin (0 : ℝ) (Set.Ioi 0), e < Real.pi :=
    (gt_mem_nhds Real.pi_pos).filter_mono nhdsWithin_le_nhds
  obtain ⟨e, he, hepi, hpos⟩ := (hs'.and (hlt.and self_mem_nhdsWithin)).exists
  have hpos : (0 : ℝ) < e := hpos
  refine ⟨fun i => circlePoint u v (![0, e, Real.pi, Real.pi + e] i), ![1, -1, 1, -1], fun i h => ?_, ?_⟩
  · have := circlePoint_norm hu hv huv (![0, e, Real.pi, Real.pi + e] i)
    simp only at h
    rw [h, norm_zero] at this
    exact zero_ne_one this
  have hsym : ∀ s t, angle (circlePoint u v s) (circlePoint u v t) = angle (circlePoint u v t) (circlePoint u v s) :=
    fun s t => angle_comm _ _
  have hself : ∀ s, angle (circlePoint u v s) (circlePoint u v s) = 0 := fun s =>
    circlePoint_angle hu hv huv (by simp) le_rfl Real.pi_pos.le
  have a01 : angle (circlePoint u v 0) (circlePoint u v e) = e :=
    circlePoint_angle hu hv huv (by simp) hpos.le hepi.le
  have a02 : angle (circlePoint u v 0) (circlePoint u v Real.pi) = Real.pi :=
    circlePoint_angle hu hv huv (by simp) Real.pi_pos.le le_rfl
  have a03 : angle (circlePoint u v 0) (circlePoint u v (Real.pi + e)) = Real.pi - e :=
    circlePoint_angle hu hv huv (by simp [Real.cos_add]) (by linarith) (by linarith)
  have a12 : angle (circlePoint u v e) (circlePoint u v Real.pi) = Real.pi - e :=
    circlePoint_angle hu hv huv rfl (by linarith) (by linarith)
  have a13 : angle (circlePoint u v e) (circlePoint u v (Real.pi + e)) = Real.pi :=
    circlePoint_angle hu hv huv (by congr 1; ring) Real.pi_pos.le le_rfl
  have a23 : angle (circlePoint u v Real.pi) (circlePoint u v (Real.pi + e)) = e :=
    circlePoint_angle hu hv huv (by congr 1; ring) hpos.le hepi.le
  simp only [Fin.sum_univ_four, Matrix.cons_val_zero, Matrix.cons_val_one, Matrix.cons_val, hself, a01, a02, a03, a12, a13, a23,
    hsym e 0, hsym Real.pi 0, hsym (Real.pi + e) 0, hsym Real.pi e, hsym (Real.pi + e) e, hsym (Real.pi + e) Real.pi]
  linarith

end Angle

end Albatross
