import Mathlib.MeasureTheory.Measure.Lebesgue.EqHaar
import Mathlib.MeasureTheory.Function.JacobianOneDim
import Mathlib.MeasureTheory.Integral.Marginal
import Mathlib.Analysis.Calculus.Deriv.Inv
import Mathlib.MeasureTheory.Measure.Prod
import Mathlib.MeasureTheory.Constructions.BorelSpace.Real
import Mathlib.Analysis.SpecialFunctions.Pow.Real
import Mathlib.MeasureTheory.Function.SpecialFunctions.Basic

/-! # The stretch move leaves the target distribution invariant

One walker moves along the line through another one; densities are with respect to volume in `d` dimensions. -/

namespace Albatross

open MeasureTheory Set

open scoped ENNReal

variable {d : Nat}

/-- The stretch factor. -/
noncomputable def stretchZ (a p : ℝ) : ℝ := ((a - 1) * p + 1) ^ 2 / a

/-- The point `z` times as far from `c` as `x`. -/
def lineY (z : ℝ) (c x : Fin d → ℝ) : Fin d → ℝ := fun i => c i + z * (x i - c i)

/-- The same with the small steps in coordinates that coincide. -/
noncomputable def nudgedY (z : ℝ) (c x : Fin d → ℝ) : Fin d → ℝ := fun i =>
  if x i - c i = 0 then c i + z * (1 / 10 ^ 6) else c i + z * (x i - c i)

/-- One move of a walker at `x` along the line through `c`, with the draws `p` and `r`. -/
noncomputable def walk (f : (Fin d → ℝ) → ℝ) (a : ℝ) (c x : Fin d → ℝ) (p r : ℝ) : Fin d → ℝ :=
  if r < stretchZ a p ^ ((d : ℝ) - 1) * f (nudgedY (stretchZ a p) c x) / f x then nudgedY (stretchZ a p) c x else x

/-! ## Changes of variables -/

theorem stretchZ_pos {a p : ℝ} (ha : 1 < a) (hp : 0 ≤ p) : 0 < stretchZ a p := by
  unfold stretchZ
  have : 0 < (a - 1) * p + 1 := by nlinarith
  positivity

theorem measurable_lineY (z : ℝ) (c : Fin d → ℝ) : Measurable (lineY z c) := by
  unfold lineY
  fun_prop

/-- Stretching by `z` multiplies volumes by `z ^ d`. -/
theorem lintegral_lineY {z : ℝ} (hz : 0 < z) (c : Fin d → ℝ) {G : (Fin d → ℝ) → ℝ≥0∞} (hG : Measurable G) :
    ∫⁻ x, G (lineY z c x) = ENNReal.ofReal ((z ^ d)⁻¹) * ∫⁻ y, G y := by
  have h1 : ∀ x, G (lineY z c x) = (fun w => G (c + w)) ((fun w => z • w) (x - c)) := by
    intro x
    simp only
    congr 1
  simp_rw [h1]
  have h2 := lintegral_sub_right_eq_self (μ := (volume : Measure (Fin d → ℝ)))
    (fun w => G (c + z • w)) c
  rw [show (∫⁻ x, (fun w => G (c + w)) ((fun w => z • w) (x - c))) = ∫⁻ x, G (c + z • (x - c)) from rfl, h2]
  have h3 : ∫⁻ w, G (c + z • w) = ∫⁻ w, G (c + w) ∂(Measure.map (fun w : Fin d → ℝ => z • w) volume) := by
    exact (lintegral_map (f := fun w => G (c + w)) (hG.comp (measurable_const_add c)) (measurable_const_smul z)).symm
  rw [h3, Measure.map_addHaar_smul volume hz.ne', lintegral_smul_measure, lintegral_add_left_eq_self]
  simp only [Module.finrank_fintype_fun_eq_card, Fintype.card_fin, smul_eq_mul]
  rw [abs_of_pos (by positivity)]

/-- The substitution `z ↦ 1 / z` in terms of the uniform draw. -/
theorem lintegral_stretchZ {a : ℝ} (ha : 1 < a) (K : ℝ → ℝ≥0∞) :
    ∫⁻ p in Ico (0 : ℝ) 1, ENNReal.ofReal ((stretchZ a p)⁻¹) * K ((stretchZ a p)⁻¹) =
      ∫⁻ p in Ico (0 : ℝ) 1, K (stretchZ a p) := by
  rw [← restrict_Ioo_eq_restrict_Ico]
  have ha1 : a - 1 ≠ 0 := by linarith
  have ha0 : 0 < a := by linarith
  set φ : ℝ → ℝ := fun p => (a / ((a - 1) * p + 1) - 1) / (a - 1) with hφ
  have hs : ∀ p ∈ Ioo (0 : ℝ) 1, 1 < (a - 1) * p + 1 ∧ (a - 1) * p + 1 < a := by
    intro p hp
    constructor <;> nlinarith [hp.1, hp.2]
  have hmap : ∀ p ∈ Ioo (0 : ℝ) 1, φ p ∈ Ioo (0 : ℝ) 1 := by
    intro p hp
    obtain ⟨h1, h2⟩ := hs p hp
    have h3 : 1 < a / ((a - 1) * p + 1) := (one_lt_div (by linarith)).2 h2
    have h4 : a / ((a - 1) * p + 1) < a := div_lt_self ha0 h1
    refine ⟨div_pos (by linarith) (by linarith), (div_lt_one (by linarith)).2 (by linarith)⟩
  have hinv : ∀ p ∈ Ioo (0 : ℝ) 1, φ (φ p) = p := by
    intro p hp
    obtain ⟨h1, -⟩ := hs p hp
    have hne : (a - 1) * p + 1 ≠ 0 := by linarith
    simp only [hφ]
    rw [mul_div_cancel₀ _ ha1, sub_add_cancel, div_div_cancel₀ ha0.ne', add_sub_cancel_right,
      mul_div_cancel_left₀ _ ha1]
  have himg : φ '' Ioo (0 : ℝ) 1 = Ioo (0 : ℝ) 1 := by
    ext q
    constructor
    · rintro ⟨p, hp, rfl⟩
      exact hmap p hp
    · intro hq
      exact ⟨φ q, hmap q hq, hinv q hq⟩
  have hinj : InjOn φ (Ioo (0 : ℝ) 1) := fun p hp q hq h => by
    rw [← hinv p hp, ← hinv q hq, h]
  have hder : ∀ p ∈ Ioo (0 : ℝ) 1, HasDerivWithinAt φ (-(a / ((a - 1) * p + 1) ^ 2)) (Ioo 0 1) p := by
    intro p hp
    obtain ⟨h1, -⟩ := hs p hp
    have hne : (a - 1) * p + 1 ≠ 0 := by linarith
    have hl : HasDerivAt (fun p : ℝ => (a - 1) * p + 1) (a - 1) p := by
      simpa using ((hasDerivAt_id p).const_mul (a - 1)).add_const 1
    have h2 := ((HasDerivAt.fun_div (hasDerivAt_const p a) hl hne).sub_const 1).div_const (a - 1)
    refine (h2.congr_deriv ?_).hasDerivWithinAt
    field_simp
    ring
  have h := lintegral_image_eq_lintegral_abs_deriv_mul measurableSet_Ioo hder hinj (fun p => K (stretchZ a p))
  rw [himg] at h
  rw [h]
  refine setLIntegral_congr_fun measurableSet_Ioo fun p hp => ?_
  obtain ⟨h1, -⟩ := hs p hp
  have hne : (a - 1) * p + 1 ≠ 0 := by linarith
  have e1 : |(-(a / ((a - 1) * p + 1) ^ 2))| = (stretchZ a p)⁻¹ := by
    rw [abs_neg, abs_of_pos (by positivity), stretchZ, inv_div]
  have e2 : stretchZ a (φ p) = (stretchZ a p)⁻¹ := by
    simp only [stretchZ, hφ]
    rw [mul_div_cancel₀ _ ha1, sub_add_cancel, div_pow, inv_div]
    field_simp
  rw [e1, e2]

/-! ## Detailed balance -/

theorem lineY_inv {z : ℝ} (hz : 0 < z) (c x : Fin d → ℝ) : lineY z⁻¹ c (lineY z c x) = x := by
  funext i
  simp only [lineY]
  field_simp
  ring

/-- The flow of probability from `x` to the point `z` times as far from `c`. -/
noncomputable def flow (f : (Fin d → ℝ) → ℝ) (c : Fin d → ℝ) (z : ℝ) (x : Fin d → ℝ) : ℝ :=
  min (f x) (z ^ ((d : ℝ) - 1) * f (lineY z c x))

theorem measurable_flow {f : (Fin d → ℝ) → ℝ} (hf : Measurable f) (c : Fin d → ℝ) (a : ℝ) :
    Measurable fun q : (Fin d → ℝ) × ℝ => flow f c (stretchZ a q.2) q.1 := by
  have hz : Measurable fun q : (Fin d → ℝ) × ℝ => stretchZ a q.2 := by
    unfold stretchZ
    fun_prop
  have hl : Measurable fun q : (Fin d → ℝ) × ℝ => lineY (stretchZ a q.2) c q.1 := by
    unfold lineY
    refine measurable_pi_lambda _ fun i => ?_
    exact measurable_const.add (hz.mul (((measurable_pi_apply i).comp measurable_fst).sub measurable_const))
  unfold flow
  exact (hf.comp measurable_fst).min ((hz.pow_const _).mul (hf.comp hl))

theorem measurable_lineY_pair (c : Fin d → ℝ) (a : ℝ) :
    Measurable fun q : (Fin d → ℝ) × ℝ => lineY (stretchZ a q.2) c q.1 := by
  have hz : Measurable fun q : (Fin d → ℝ) × ℝ => stretchZ a q.2 := by
    unfold stretchZ
    fun_prop
  unfold lineY
  refine measurable_pi_lambda _ fun i => ?_
  exact measurable_const.add (hz.mul (((measurable_pi_apply i).comp measurable_fst).sub measurable_const))

/-- At a fixed factor the flow out of the points equals the flow into them at the inverse factor. -/
theorem flow_balance {f : (Fin d → ℝ) → ℝ} (hf : Measurable f) {z : ℝ} (hz : 0 < z) (c : Fin d → ℝ)
    {F : (Fin d → ℝ) → ℝ≥0∞} (hF : Measurable F) :
    ∫⁻ x, ENNReal.ofReal (flow f c z x) * F (lineY z c x) =
      ENNReal.ofReal z⁻¹ * ∫⁻ x, ENNReal.ofReal (flow f c z⁻¹ x) * F x := by
  set G : (Fin d → ℝ) → ℝ≥0∞ := fun y =>
    ENNReal.ofReal (min (f (lineY z⁻¹ c y)) (z ^ ((d : ℝ) - 1) * f y)) * F y with hG
  have hGm : Measurable G := by
    refine Measurable.mul (Measurable.ennreal_ofReal ?_) hF
    exact (hf.comp (measurable_lineY _ c)).min (measurable_const.mul hf)
  have h1 : ∀ x, ENNReal.ofReal (flow f c z x) * F (lineY z c x) = G (lineY z c x) := by
    intro x
    simp only [hG, lineY_inv hz, flow]
  simp_rw [h1]
  rw [lintegral_lineY hz c hGm, ← lintegral_const_mul _ hGm, ← lintegral_const_mul]
  · refine lintegral_congr fun y => ?_
    simp only [hG, flow]
    rw [← mul_assoc, ← mul_assoc, ← ENNReal.ofReal_mul (by positivity), ← ENNReal.ofReal_mul (by positivity)]
    congr 2
    have e : (z ^ d)⁻¹ = z⁻¹ * z⁻¹ ^ ((d : ℝ) - 1) := by
      rw [Real.inv_rpow hz.le, Real.rpow_sub_one hz.ne', Real.rpow_natCast]
      field_simp
    have e2 : z⁻¹ ^ ((d : ℝ) - 1) * z ^ ((d : ℝ) - 1) = 1 := by
      rw [← Real.mul_rpow (by positivity) hz.le, inv_mul_cancel₀ hz.ne', Real.one_rpow]
    have hpow : 0 ≤ z⁻¹ ^ ((d : ℝ) - 1) := by positivity
    rw [e, mul_assoc, mul_min_of_nonneg _ _ hpow, ← mul_assoc (z⁻¹ ^ ((d : ℝ) - 1)), e2, one_mul, min_comm]
  · refine Measurable.mul (Measurable.ennreal_ofReal ?_) hF
    exact hf.min (measurable_const.mul (hf.comp (measurable_lineY _ c)))

/-- Detailed balance of the proposals. -/
theorem flow_balance_draws {f : (Fin d → ℝ) → ℝ} (hf : Measurable f) {a : ℝ} (ha : 1 < a) (c : Fin d → ℝ)
    {F : (Fin d → ℝ) → ℝ≥0∞} (hF : Measurable F) :
    ∫⁻ x, ∫⁻ p in Ico (0 : ℝ) 1, ENNReal.ofReal (flow f c (stretchZ a p) x) * F (lineY (stretchZ a p) c x) =
      ∫⁻ x, ∫⁻ p in Ico (0 : ℝ) 1, ENNReal.ofReal (flow f c (stretchZ a p) x) * F x := by
  have hm := (measurable_flow hf c a).ennreal_ofReal
  have hR : ∫⁻ x, ∫⁻ p in Ico (0 : ℝ) 1, ENNReal.ofReal (flow f c (stretchZ a p) x) * F x =
      ∫⁻ p in Ico (0 : ℝ) 1, ∫⁻ x, ENNReal.ofReal (flow f c (stretchZ a p) x) * F x :=
    lintegral_lintegral_swap ((hm.mul (hF.comp measurable_fst)).aemeasurable)
  rw [hR, lintegral_lintegral_swap ((hm.mul (hF.comp (measurable_lineY_pair c a))).aemeasurable)]
  have h1 : ∀ p ∈ Ico (0 : ℝ) 1,
      ∫⁻ x, ENNReal.ofReal (flow f c (stretchZ a p) x) * F (lineY (stretchZ a p) c x) =
      ENNReal.ofReal (stretchZ a p)⁻¹ * ∫⁻ x, ENNReal.ofReal (flow f c (stretchZ a p)⁻¹ x) * F x :=
    fun p hp => flow_balance hf (stretchZ_pos ha hp.1) c hF
  rw [setLIntegral_congr_fun measurableSet_Ico h1]
  exact lintegral_stretchZ ha fun z => ∫⁻ x, ENNReal.ofReal (flow f c z x) * F x

/-! ## Acceptance -/

/-- The second uniform draw. -/
theorem lintegral_accept {ρ : ℝ} (u v : ℝ≥0∞) :
    ∫⁻ r in Ico (0 : ℝ) 1, (if r < ρ then u else v) =
      ENNReal.ofReal (min 1 ρ) * u + ENNReal.ofReal (1 - max 0 (min 1 ρ)) * v := by
  have hm : MeasurableSet (Iio ρ) := measurableSet_Iio
  have h1 : ∀ r : ℝ, (if r < ρ then u else v) = (Iio ρ).indicator (fun _ => u) r + (Iio ρ)ᶜ.indicator (fun _ => v) r := by
    intro r
    by_cases h : r < ρ
    · simp [h]
    · simp [h, not_lt.1 h]
  simp_rw [h1]
  rw [lintegral_add_left (measurable_const.indicator hm), lintegral_indicator_const hm,
    lintegral_indicator_const hm.compl, Measure.restrict_apply hm, Measure.restrict_apply hm.compl]
  have e1 : Iio ρ ∩ Ico (0 : ℝ) 1 = Ico 0 (min 1 ρ) := by
    ext r
    simp only [mem_inter_iff, mem_Iio, mem_Ico, lt_min_iff]
    tauto
  have e2 : (Iio ρ)ᶜ ∩ Ico (0 : ℝ) 1 = Ico (max 0 ρ) 1 := by
    ext r
    simp only [mem_inter_iff, mem_compl_iff, mem_Iio, not_lt, mem_Ico, max_le_iff]
    tauto
  rw [e1, e2, Real.volume_Ico, Real.volume_Ico, sub_zero, mul_comm u, mul_comm v]
  congr 2
  rcases le_total ρ 1 with h | h
  · rw [min_eq_right h]
  · rw [min_eq_left h, max_eq_right (by linarith : (0 : ℝ) ≤ ρ), max_eq_right (zero_le_one' ℝ), sub_self,
      ENNReal.ofReal_zero, ENNReal.ofReal_of_nonpos (by linarith)]

theorem nudgedY_eq {z : ℝ} {c x : Fin d → ℝ} (h : ∀ i, x i ≠ c i) : nudgedY z c x = lineY z c x := by
  funext i
  unfold nudgedY lineY
  rw [if_neg (sub_ne_zero.2 (h i))]

/-- The flow out of a point, split by acceptance. -/
theorem walk_split {f : (Fin d → ℝ) → ℝ} (hf : Measurable f) (h0 : ∀ x, 0 ≤ f x) {a : ℝ} (ha : 1 < a)
    (c : Fin d → ℝ) {F : (Fin d → ℝ) → ℝ≥0∞} (hF : Measurable F) {x : Fin d → ℝ} (hx : ∀ i, x i ≠ c i) :
    ENNReal.ofReal (f x) * ∫⁻ p in Ico (0 : ℝ) 1, ∫⁻ r in Ico (0 : ℝ) 1, F (walk f a c x p r) =
      (∫⁻ p in Ico (0 : ℝ) 1, ENNReal.ofReal (flow f c (stretchZ a p) x) * F (lineY (stretchZ a p) c x)) +
      ∫⁻ p in Ico (0 : ℝ) 1, ENNReal.ofReal (f x - flow f c (stretchZ a p) x) * F x := by
  have hmono : ∀ x p, flow f c (stretchZ a p) x ≤ f x := fun x p => min_le_left _ _
  have hfl0 : ∀ x, ∀ p ∈ Ico (0 : ℝ) 1, 0 ≤ flow f c (stretchZ a p) x := fun x p hp =>
    le_min (h0 x) (mul_nonneg (Real.rpow_nonneg (stretchZ_pos ha hp.1).le _) (h0 _))
  have hm := measurable_flow hf c a
  rw [← lintegral_const_mul' _ _ ENNReal.ofReal_ne_top, ← lintegral_add_left]
  · refine setLIntegral_congr_fun measurableSet_Ico fun p hp => ?_
    have hz := stretchZ_pos ha hp.1
    simp only [walk, nudgedY_eq hx]
    have e : ∀ r : ℝ, F (if r < stretchZ a p ^ ((d : ℝ) - 1) * f (lineY (stretchZ a p) c x) / f x
        then lineY (stretchZ a p) c x else x) =
        if r < stretchZ a p ^ ((d : ℝ) - 1) * f (lineY (stretchZ a p) c x) / f x
        then F (lineY (stretchZ a p) c x) else F x := fun r => by split <;> rfl
    simp_rw [e]
    rw [lintegral_accept]
    set g := stretchZ a p ^ ((d : ℝ) - 1) * f (lineY (stretchZ a p) c x) with hg
    have hg0 : 0 ≤ g := mul_nonneg (Real.rpow_nonneg hz.le _) (h0 _)
    rcases (h0 x).eq_or_lt with hfx | hfx
    · have : flow f c (stretchZ a p) x = 0 := le_antisymm (by rw [hfx]; exact hmono x p) (hfl0 x p hp)
      rw [this, ← hfx]
      simp
    · have hr0 : 0 ≤ min 1 (g / f x) := le_min zero_le_one (div_nonneg hg0 (h0 x))
      rw [max_eq_right hr0, mul_add, ← mul_assoc, ← mul_assoc, ← ENNReal.ofReal_mul (h0 x),
        ← ENNReal.ofReal_mul (h0 x)]
      have e1 : f x * min 1 (g / f x) = flow f c (stretchZ a p) x := by
        rw [mul_min_of_nonneg _ _ (h0 x), mul_one, mul_div_cancel₀ _ hfx.ne']
        rfl
      rw [mul_sub, mul_one, e1]
  · exact ((hm.comp (measurable_const.prodMk measurable_id)).ennreal_ofReal).mul
      (hF.comp ((measurable_lineY_pair c a).comp (measurable_const.prodMk measurable_id)))

/-- **One move leaves the density invariant.** -/
theorem walk_invariant {f : (Fin d → ℝ) → ℝ} (hf : Measurable f) (h0 : ∀ x, 0 ≤ f x) {a : ℝ} (ha : 1 < a)
    (c : Fin d → ℝ) {F : (Fin d → ℝ) → ℝ≥0∞} (hF : Measurable F) :
    ∫⁻ x, ENNReal.ofReal (f x) * ∫⁻ p in Ico (0 : ℝ) 1, ∫⁻ r in Ico (0 : ℝ) 1, F (walk f a c x p r) =
      ∫⁻ x, ENNReal.ofReal (f x) * F x := by
  have hae : ∀ᵐ x : Fin d → ℝ, ∀ i, x i ≠ c i := by
    rw [ae_all_iff]
    intro i
    exact Measure.ae_eval_ne (μ := fun _ : Fin d => (volume : Measure ℝ)) i (c i)
  have hmono : ∀ x p, flow f c (stretchZ a p) x ≤ f x := fun x p => min_le_left _ _
  have hfl0 : ∀ x, ∀ p ∈ Ico (0 : ℝ) 1, 0 ≤ flow f c (stretchZ a p) x := fun x p hp =>
    le_min (h0 x) (mul_nonneg (Real.rpow_nonneg (stretchZ_pos ha hp.1).le _) (h0 _))
  have hm := measurable_flow hf c a
  have hmA : Measurable fun x => ∫⁻ p in Ico (0 : ℝ) 1,
      ENNReal.ofReal (flow f c (stretchZ a p) x) * F (lineY (stretchZ a p) c x) :=
    Measurable.lintegral_prod_right' (f := fun q : (Fin d → ℝ) × ℝ =>
      ENNReal.ofReal (flow f c (stretchZ a q.2) q.1) * F (lineY (stretchZ a q.2) c q.1))
      (hm.ennreal_ofReal.mul (hF.comp (measurable_lineY_pair c a)))
  have hmB : Measurable fun x => ∫⁻ p in Ico (0 : ℝ) 1, ENNReal.ofReal (flow f c (stretchZ a p) x) * F x :=
    Measurable.lintegral_prod_right' (f := fun q : (Fin d → ℝ) × ℝ =>
      ENNReal.ofReal (flow f c (stretchZ a q.2) q.1) * F q.1) (hm.ennreal_ofReal.mul (hF.comp measurable_fst))
  rw [lintegral_congr_ae (hae.mono fun x hx => walk_split hf h0 ha c hF hx), lintegral_add_left hmA, flow_balance_draws hf ha c hF, ← lintegral_add_left hmB]
  refine lintegral_congr fun x => ?_
  have hmx : Measurable fun p => ENNReal.ofReal (flow f c (stretchZ a p) x) * F x :=
    Measurable.mul_const ((hm.comp (measurable_const.prodMk measurable_id)).ennreal_ofReal) _
  rw [← lintegral_add_left hmx]
  have e : ∀ p ∈ Ico (0 : ℝ) 1, ENNReal.ofReal (flow f c (stretchZ a p) x) * F x +
      ENNReal.ofReal (f x - flow f c (stretchZ a p) x) * F x = ENNReal.ofReal (f x) * F x := by
    intro p hp
    rw [← add_mul, ← ENNReal.ofReal_add (hfl0 x p hp) (sub_nonneg.2 (hmono x p)), add_sub_cancel]
  rw [setLIntegral_congr_fun measurableSet_Ico e, setLIntegral_const, Real.volume_Ico]
  simp

end Albatross
