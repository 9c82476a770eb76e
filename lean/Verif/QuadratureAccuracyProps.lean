import Verif.QuadratureAccuracy
import Verif.IncompleteGammaWholeProps

/-! # C93: the incomplete gamma function of the code against the integral, for every shape from one half on -/

namespace Albatross

open MeasureTheory Set

theorem quad_error_bound {a z E : ℝ} (ha : 10 ≤ a) (hz : 0 < z)
    (h : |glSumOn (igLower a z) (igUpper a z) (gdens a) - ∫ x in igLower a z..igUpper a z, gdens a x| ≤ E) :
    |glSumOn (igLower a z) (igUpper a z) (gdens a) - lowerGamma a z| ≤ E + 43 / 10 ^ 9 := by
  have h2 := lowerGamma_bounds ha hz
  rw [abs_le] at h h2 ⊢
  constructor <;> linarith [h.1, h.2, h2.1, h2.2]

theorem quad_error {a z : ℝ} (ha : 10 ≤ a) (hz : 0 < z) :
    |glSumOn (igLower a z) (igUpper a z) (gdens a) - lowerGamma a z| ≤ 7 / 10 ^ 5 ∧
      (15 ≤ a → |glSumOn (igLower a z) (igUpper a z) (gdens a) - lowerGamma a z| ≤ 3 / 10 ^ 6) ∧
      (20 ≤ a → |glSumOn (igLower a z) (igUpper a z) (gdens a) - lowerGamma a z| ≤ 1 / 10 ^ 6) := by
  rcases le_total a 15 with h15 | h15
  · have h := quad_error_bound ha hz (quad_10 ha h15 hz)
    refine ⟨h.trans (by norm_num), fun h' => ?_, fun h' => absurd h' (by linarith)⟩
    exact (quad_error_bound ha hz (quad_15 h' (by linarith) hz)).trans (by norm_num)
  rcases le_or_gt 20 a with h20 | h20
  · have h := quad_error_bound ha hz (quad_20 h20 hz)
    exact ⟨h.trans (by norm_num), fun _ => h.trans (by norm_num), fun _ => h.trans (by norm_num)⟩
  · have h := quad_error_bound ha hz (quad_15 h15 h20.le hz)
    exact ⟨h.trans (by norm_num), fun _ => h.trans (by norm_num), fun h' => absurd h' (by linarith)⟩

theorem incompleteGamma_quad (b : Build) {a z : ℝ} (ha : 10 ≤ a) (hz : dblEpsilon ≤ z) :
    incompleteGamma b (.fin a) (.fin z) = .ok (.fin (glSumOn (igLower a z) (igUpper a z) (gdens a))) := by
  have heps0 : 0 < dblEpsilon := by unfold dblEpsilon; positivity
  have heps : dblEpsilon ≤ 1 / 4 := by unfold dblEpsilon; norm_num
  simp only [incompleteGamma, Dbl.isNan, Bool.or_self, Bool.false_eq_true, if_false, Dbl.fin_lt]
  rw [if_neg (by linarith), if_neg (by linarith), if_neg (by linarith), if_neg (by linarith)]
  exact igQuadrature_fin b (by linarith) (by linarith)

theorem half_le_Gamma_succ {a : ℝ} (ha : 1 / 2 ≤ a) : 1 / 2 ≤ Real.Gamma (a + 1) := by
  have key : ∀ x : ℝ, 2 ≤ x → 1 ≤ Real.Gamma x := fun x hx => by
    have := Real.Gamma_strictMonoOn_Ici.monotoneOn (Set.mem_Ici.2 le_rfl) (Set.mem_Ici.2 hx) hx
    rwa [Real.Gamma_two] at this
  rcases le_total 1 a with h | h
  · linarith [key (a + 1) (by linarith)]
  · have h1 := key (a + 1 + 1) (by linarith)
    rw [Real.Gamma_add_one (by linarith)] at h1
    have := Real.Gamma_pos_of_pos (by linarith : 0 < a + 1)
    nlinarith

/-- Below the machine epsilon the integral is small. -/
theorem lowerGamma_tiny {a z : ℝ} (ha : 1 / 2 ≤ a) (hz0 : 0 ≤ z) (hz : z < dblEpsilon) :
    0 ≤ lowerGamma a z ∧ lowerGamma a z ≤ 1 / 10 ^ 7 := by
  have ha0 : 0 < a := by linarith
  have hG := Real.Gamma_pos_of_pos ha0
  refine ⟨div_nonneg (lowerIntegral_nonneg hz0) hG.le, ?_⟩
  have h1 : ∫ t in (0 : ℝ)..z, t ^ (a - 1) * Real.exp (-t) ≤ ∫ t in (0 : ℝ)..z, t ^ (a - 1) := by
    refine intervalIntegral.integral_mono_on hz0 (gammaIntegrand_integrable ha0 z)
      (intervalIntegral.intervalIntegrable_rpow' (by linarith)) fun t ht => ?_
    exact mul_le_of_le_one_right (Real.rpow_nonneg ht.1 _) (Real.exp_le_one_iff.2 (by linarith [ht.1]))
  rw [integral_rpow (Or.inl (by linarith)), sub_add_cancel, Real.zero_rpow ha0.ne', sub_zero] at h1
  have heps : dblEpsilon ≤ (1 / 10 ^ 7 / 2) ^ 2 := by unfold dblEpsilon; norm_num
  have h2 : z ^ a ≤ 1 / 10 ^ 7 / 2 := by
    have hz1 : z ≤ (1 / 10 ^ 7 / 2) ^ 2 := by linarith
    calc z ^ a ≤ z ^ (1 / 2 : ℝ) :=
          Real.rpow_le_rpow_of_exponent_ge_of_imp hz0 (hz1.trans (by norm_num)) ha (by intro _ h; linarith)
      _ ≤ ((1 / 10 ^ 7 / 2 : ℝ) ^ 2) ^ (1 / 2 : ℝ) := Real.rpow_le_rpow hz0 hz1 (by norm_num)
      _ = _ := by rw [← Real.sqrt_eq_rpow, Real.sqrt_sq (by norm_num)]
  have h3 := half_le_Gamma_succ ha
  rw [Real.Gamma_add_one ha0.ne'] at h3
  unfold lowerGamma
  rw [div_le_iff₀ hG]
  refine h1.trans ?_
  rw [div_le_iff₀ ha0]
  nlinarith

theorem incompleteGamma_tiny (b : Build) {a z : ℝ} (ha : 0 ≤ a) (hz : z < dblEpsilon) :
    incompleteGamma b (.fin a) (.fin z) = .ok (.fin 0) := by
  simp only [incompleteGamma, Dbl.isNan, Bool.or_self, Bool.false_eq_true, if_false, Dbl.fin_lt]
  rw [if_neg (by linarith), if_pos hz]
  rfl

/-! ## The properties -/

/-- C93: for `a ≥ 10` the quadrature with a hundred nodes between the bounds the code chooses, in exact arithmetic
but with the rounded table of nodes and weights it carries, is within `7e-5` of the regularised lower incomplete
gamma integral, within `3e-6` from `a = 15` on and within `1e-6` from `a = 20` on, for every argument. -/
theorem C93_quadrature_accuracy (b : Build) (a z : ℝ) (ha : 10 ≤ a) (hz : dblEpsilon ≤ z) :
    ∃ v, incompleteGamma b (.fin a) (.fin z) = .ok (.fin v) ∧
      |v - (∫ t in (0 : ℝ)..z, t ^ (a - 1) * Real.exp (-t)) / Real.Gamma a| ≤ 7 / 10 ^ 5 ∧
      (15 ≤ a → |v - (∫ t in (0 : ℝ)..z, t ^ (a - 1) * Real.exp (-t)) / Real.Gamma a| ≤ 3 / 10 ^ 6) ∧
      (20 ≤ a → |v - (∫ t in (0 : ℝ)..z, t ^ (a - 1) * Real.exp (-t)) / Real.Gamma a| ≤ 1 / 10 ^ 6) := by
  have heps0 : 0 < dblEpsilon := by unfold dblEpsilon; positivity
  exact ⟨_, incompleteGamma_quad b ha hz, quad_error ha (by linarith)⟩

example : (10 : ℝ) ≤ 100 ∧ dblEpsilon ≤ 95 ∧ (15 : ℝ) ≤ 100 ∧ (20 : ℝ) ≤ 100 := by
  unfold dblEpsilon
  norm_num

/-- C93: for `a ≥ 10` and an infinite argument the quadrature is within the same distance of one. -/
theorem C93_quadrature_infinite (b : Build) (a : ℝ) (ha : 10 ≤ a) :
    ∃ v, incompleteGamma b (.fin a) .pinf = .ok (.fin v) ∧ |v - 1| ≤ 7 / 10 ^ 5 ∧
      (20 ≤ a → |v - 1| ≤ 11 / 10 ^ 7) := by
  have heps0 : 0 < dblEpsilon := by unfold dblEpsilon; positivity
  have heps : dblEpsilon ≤ 1 / 4 := by unfold dblEpsilon; norm_num
  have hs := Real.sqrt_nonneg (a + 1)
  set w := a + 13 * Real.sqrt (a + 1) with hw
  have hw0 : 0 < w := by linarith
  have hb : igBounds (.fin a) .pinf = igBounds (.fin a) (.fin w) := by
    rw [igBounds_fin (by linarith)]
    have hs1 : Dbl.sqrt (.fin a) = .fin (Real.sqrt a) := if_neg (by linarith)
    have hs2 : Dbl.sqrt (.fin a + .fin 1) = .fin (Real.sqrt (a + 1)) := by
      rw [Dbl.fin_add]; exact if_neg (by linarith)
    have e1 : ∀ y : ℝ, stdMin .pinf (.fin y) = .fin y := fun y => if_pos trivial
    have e2 : ∀ x y : ℝ, stdMax (.fin x) (.fin y) = .fin (max x y) := by
      intro x y
      unfold stdMax
      by_cases h : x < y
      · rw [if_pos (by exact h), max_eq_right h.le]
      · rw [if_neg (by exact h), max_eq_left (not_lt.1 h)]
    unfold igBounds
    rw [hs1, hs2, e1]
    simp only [Dbl.fin_mul, Dbl.fin_add, Dbl.fin_sub]
    rw [e1, e2]
    unfold igLower igUpper
    rw [← hw, min_self, min_eq_right (by linarith : a ≤ w)]
  have hq : incompleteGamma b (.fin a) .pinf = incompleteGamma b (.fin a) (.fin w) := by
    rw [incompleteGamma_quad b ha (by linarith), ← igQuadrature_fin b (by linarith) hw0]
    have h1 : ¬ (Dbl.pinf < Dbl.fin dblEpsilon) := fun h => h
    simp only [incompleteGamma, Dbl.isNan, Bool.or_self, Bool.false_eq_true, if_false, Dbl.fin_lt]
    rw [if_neg (by linarith), if_neg h1, if_neg (by linarith), if_neg (by linarith)]
    unfold igQuadrature
    rw [hb]
  have hone : 1 - lowerGamma a w ≤ 42 / 10 ^ 9 := by
    have h0 : 0 < a := by linarith
    have htot : ∫ t in Ioi (0 : ℝ), gdens a t = 1 := by simpa [rising_zero] using (gdens_moment h0 0).2
    have hsplit := intervalIntegral.integral_interval_add_Ioi (f := gdens a) (a := 0) (b := w)
      (gdens_integrableOn h0) ((gdens_integrableOn h0).mono_set (Ioi_subset_Ioi hw0.le))
    rw [htot] at hsplit
    rw [lowerGamma_eq_gdens]
    have := mass_above ha
    rw [← hw] at this
    linarith
  have hle := lowerGamma_le_one (a := a) (z := w) (by linarith) hw0.le
  have h10 : (a ≤ 15 → |glSumOn (igLower a w) (igUpper a w) (gdens a) - lowerGamma a w| ≤ 6 / 10 ^ 5 + 43 / 10 ^ 9) ∧
      (15 ≤ a → |glSumOn (igLower a w) (igUpper a w) (gdens a) - lowerGamma a w| ≤ 3 / 10 ^ 6) ∧
      (20 ≤ a → |glSumOn (igLower a w) (igUpper a w) (gdens a) - lowerGamma a w| ≤ 1 / 10 ^ 6) :=
    ⟨fun h => quad_error_bound ha hw0 (quad_10 ha h hw0), (quad_error ha hw0).2⟩
  refine ⟨_, hq.trans (incompleteGamma_quad b ha (by linarith)), ?_, fun h => ?_⟩
  · rcases le_total a 15 with h | h
    · have := h10.1 h
      rw [abs_le] at this ⊢
      constructor <;> linarith [this.1, this.2]
    · have := h10.2.1 h
      rw [abs_le] at this ⊢
      constructor <;> linarith [this.1, this.2]
  · have := h10.2.2 h
    rw [abs_le] at this ⊢
    constructor <;> linarith [this.1, this.2]

example : (10 : ℝ) ≤ 25 ∧ (20 : ℝ) ≤ 25 := by norm_num

/-- C93: `incomplete_gamma(a, z)` is the regularised lower incomplete gamma integral to within `7e-5` for every shape
`a ≥ 1/2` and every finite argument `z ≥ 0`; outside `10 ≤ a < 20` it is so to within `1e-6`. -/
theorem C93_accuracy (b : Build) (a z : ℝ) (ha : 1 / 2 ≤ a) (hz : 0 ≤ z) :
    ∃ v, incompleteGamma b (.fin a) (.fin z) = .ok (.fin v) ∧
      |v - (∫ t in (0 : ℝ)..z, t ^ (a - 1) * Real.exp (-t)) / Real.Gamma a| ≤ 7 / 10 ^ 5 ∧
      (a < 10 ∨ 20 ≤ a → |v - (∫ t in (0 : ℝ)..z, t ^ (a - 1) * Real.exp (-t)) / Real.Gamma a| ≤ 1 / 10 ^ 6) := by
  rcases lt_or_ge z dblEpsilon with he | he
  · have h := lowerGamma_tiny ha hz he
    have h' : |0 - (∫ t in (0 : ℝ)..z, t ^ (a - 1) * Real.exp (-t)) / Real.Gamma a| ≤ 1 / 10 ^ 7 := by
      rw [zero_sub, abs_neg]; exact (abs_of_nonneg h.1).trans_le h.2
    exact ⟨0, incompleteGamma_tiny b (by linarith) he, h'.trans (by norm_num), fun _ => h'.trans (by norm_num)⟩
  rcases lt_or_ge a 10 with h | h
  · obtain ⟨v, h1, h2⟩ := C93_accuracy_uniform_partial b a z ha h he
    exact ⟨v, h1, h2.trans (by norm_num), fun _ => h2⟩
  · obtain ⟨v, h1, h2, _, h4⟩ := C93_quadrature_accuracy b a z h he
    refine ⟨v, h1, h2, ?_⟩
    rintro (h' | h')
    · linarith
    · exact h4 h'

example : (1 : ℝ) / 2 ≤ 12 ∧ (0 : ℝ) ≤ 11 := by norm_num

/-- C93: `chi_squared_cdf(x, dof)` is the probability that a chi squared variable with `dof` degrees of freedom is
below `x`, that is the integral of its density, to within `7e-5` for every `dof ≥ 1` and every finite `x ≥ 0`;
outside `20 ≤ dof < 40` it is so to within `1e-6`. -/
theorem C93_chi_squared_accuracy (b : Build) (x dof : ℝ) (hd : 1 ≤ dof) (hx : 0 ≤ x) :
    ∃ v, chiSquaredCdf b (.fin x) (.fin dof) = .ok (.fin v) ∧
      |v - ∫ t in (0 : ℝ)..x, t ^ (dof / 2 - 1) * Real.exp (-t / 2) / (2 ^ (dof / 2) * Real.Gamma (dof / 2))| ≤
        7 / 10 ^ 5 ∧
      (dof < 20 ∨ 40 ≤ dof →
        |v - ∫ t in (0 : ℝ)..x, t ^ (dof / 2 - 1) * Real.exp (-t / 2) / (2 ^ (dof / 2) * Real.Gamma (dof / 2))| ≤
          1 / 10 ^ 6) := by
  have heps0 : 0 < dblEpsilon := by unfold dblEpsilon; positivity
  rcases hx.eq_or_lt with rfl | hx0
  · refine ⟨0, ?_, by simp; norm_num, by simp⟩
    unfold chiSquaredCdf
    rw [if_neg (by simp [Dbl.isNan]), if_neg (by simp; linarith), if_pos (by rw [Dbl.fin_lt]; linarith)]
    rfl
  rw [chi_integral_eq (by linarith : 0 < dof) hx0]
  rcases lt_or_ge x dblEpsilon with he | he
  · have h := lowerGamma_tiny (a := 1 / 2 * dof) (z := 1 / 2 * x) (by linarith) (by linarith) (by linarith)
    have h' : |0 - lowerGamma (1 / 2 * dof) (1 / 2 * x)| ≤ 1 / 10 ^ 7 := by
      rw [zero_sub, abs_neg]; exact (abs_of_nonneg h.1).trans_le h.2
    refine ⟨0, ?_, h'.trans (by norm_num), fun _ => h'.trans (by norm_num)⟩
    unfold chiSquaredCdf
    rw [if_neg (by simp [Dbl.isNan]; linarith), if_neg (by simp; linarith), if_pos (by rw [Dbl.fin_lt]; linarith)]
    rfl
  · obtain ⟨v, h1, h2, h3⟩ := C93_accuracy b (1 / 2 * dof) (1 / 2 * x) (by linarith) (by linarith)
    refine ⟨v, ?_, h2, fun h => h3 ?_⟩
    · unfold chiSquaredCdf chiSquaredCdfUnsafe
      rw [if_neg (by simp [Dbl.isNan]; linarith), if_neg (by simp; linarith), if_neg (by rw [Dbl.fin_lt]; linarith),
        if_neg (by simp), Dbl.fin_mul, Dbl.fin_mul, h1]
    · rcases h with h | h
      · left; linarith
      · right; linarith

example : (1 : ℝ) ≤ 30 ∧ (0 : ℝ) ≤ 28 := by norm_num

end Albatross
