import Verif.RoundedCode
import Verif.Kernels
import Mathlib.Analysis.Calculus.MeanValue
import Mathlib.Analysis.SpecialFunctions.ExpDeriv
import Mathlib.Analysis.Complex.ExponentialBounds

/-! # Errors of rounded computations

`Close N S y x`: the computed `y` is as near to the exact `x`, which is at most `S`, as `N` roundings allow. -/

namespace Albatross

/-- `y` is `x` up to `N` roundings relative to `S`. -/
def Close (N : Nat) (S y x : ℝ) : Prop := |x| ≤ S ∧ |y - x| ≤ ((1 + 2⁻¹ ^ 53) ^ N - 1) * S

namespace Close

variable {N M : Nat} {S T x y a b : ℝ}

theorem growth_nonneg (N : Nat) : (0 : ℝ) ≤ (1 + 2⁻¹ ^ 53) ^ N - 1 := by
  have : (1 : ℝ) ≤ (1 + 2⁻¹ ^ 53) ^ N := one_le_pow₀ (by norm_num)
  linarith

theorem growth_mono (h : N ≤ M) : ((1 : ℝ) + 2⁻¹ ^ 53) ^ N - 1 ≤ (1 + 2⁻¹ ^ 53) ^ M - 1 := by
  have : ((1 : ℝ) + 2⁻¹ ^ 53) ^ N ≤ (1 + 2⁻¹ ^ 53) ^ M := pow_le_pow_right₀ (by norm_num) h
  linarith

theorem scale_nonneg (h : Close N S y x) : 0 ≤ S := (abs_nonneg x).trans h.1

theorem refl (x : ℝ) : Close 0 |x| x x := ⟨le_rfl, by simp⟩

theorem mono (h : Close N S y x) (hN : N ≤ M) (hS : S ≤ T) : Close M T y x :=
  ⟨h.1.trans hS, h.2.trans (mul_le_mul (growth_mono hN) hS h.scale_nonneg (growth_nonneg M))⟩

theorem abs_le (h : Close N S y x) : |y| ≤ (1 + 2⁻¹ ^ 53) ^ N * S := by
  have h1 : |y| ≤ |y - x| + |x| := by simpa using abs_add_le (y - x) x
  have := h.1
  have := h.2
  linarith

/-- A further relative error. -/
theorem trans (h : Close N S y x) {z : ℝ} (hz : |z - y| ≤ ((1 + 2⁻¹ ^ 53) ^ M - 1) * |y|) : Close (N + M) S z x := by
  refine ⟨h.1, ?_⟩
  have h1 : |z - x| ≤ |z - y| + |y - x| := by simpa using abs_add_le (z - y) (y - x)
  have h2 := mul_le_mul_of_nonneg_left h.abs_le (growth_nonneg M)
  have h3 := h.2
  rw [pow_add]
  linarith

theorem fl (r : Rounding) (h : Close N S y x) : Close (N + 1) S (r.fl y) x :=
  h.trans (by simpa using r.error y)

theorem mul (h : Close N S y x) (h' : Close M T b a) : Close (N + M) (S * T) (y * b) (x * a) := by
  refine ⟨by rw [abs_mul]; exact mul_le_mul h.1 h'.1 (abs_nonneg a) h.scale_nonneg, ?_⟩
  have e : y * b - x * a = (y - x) * b + x * (b - a) := by ring
  have h1 : |y * b - x * a| ≤ |y - x| * |b| + |x| * |b - a| := by
    rw [e, ← abs_mul, ← abs_mul]
    exact abs_add_le _ _
  have h2 : |y - x| * |b| ≤ ((1 + 2⁻¹ ^ 53) ^ N - 1) * S * ((1 + 2⁻¹ ^ 53) ^ M * T) :=
    mul_le_mul h.2 h'.abs_le (abs_nonneg b) (mul_nonneg (growth_nonneg N) h.scale_nonneg)
  have h3 : |x| * |b - a| ≤ S * (((1 + 2⁻¹ ^ 53) ^ M - 1) * T) :=
    mul_le_mul h.1 h'.2 (abs_nonneg _) h.scale_nonneg
  rw [pow_add]
  linarith

theorem add (h : Close N S y x) (h' : Close N T b a) : Close N (S + T) (y + b) (x + a) := by
  refine ⟨(abs_add_le _ _).trans (add_le_add h.1 h'.1), ?_⟩
  have e : y + b - (x + a) = (y - x) + (b - a) := by ring
  rw [e, mul_add]
  exact (abs_add_le _ _).trans (add_le_add h.2 h'.2)

theorem div (h : Close N S y x) {l : ℝ} (hl : 0 < l) : Close N (S / l) (y / l) (x / l) := by
  refine ⟨by rw [abs_div, abs_of_pos hl]; exact div_le_div_of_nonneg_right h.1 hl.le, ?_⟩
  rw [← sub_div, abs_div, abs_of_pos hl, ← mul_div_assoc]
  exact div_le_div_of_nonneg_right h.2 hl.le

theorem abs (h : Close N S y x) : Close N S |y| |x| :=
  ⟨by rw [abs_abs]; exact h.1, (abs_abs_sub_abs_le_abs_sub _ _).trans h.2⟩

end Close

/-- Powers are dominated by the exponential. -/
theorem pow_mul_exp_neg_le (n : Nat) (hn : n ≠ 0) {w : ℝ} (hw : 0 ≤ w) : w ^ n * Real.exp (-w) ≤ (n / 2.718) ^ n := by
  have hn0 : (0 : ℝ) < n := by positivity
  have h1 : w / n ≤ Real.exp (w / n - 1) := by simpa using Real.add_one_le_exp (w / n - 1)
  have h2 : (w / n) ^ n ≤ Real.exp (w - n) := by
    calc (w / n) ^ n ≤ Real.exp (w / n - 1) ^ n := pow_le_pow_left₀ (by positivity) h1 n
      _ = Real.exp (w - n) := by
        rw [← Real.exp_nat_mul]
        congr 1
        field_simp
  have he : (2.718 : ℝ) ^ n ≤ Real.exp n := by
    have : Real.exp n = Real.exp 1 ^ n := by rw [← Real.exp_nat_mul, mul_one]
    rw [this]
    exact pow_le_pow_left₀ (by norm_num) (by linarith [Real.exp_one_gt_d9]) n
  rw [div_pow, div_le_iff₀ (by positivity)] at h2
  calc w ^ n * Real.exp (-w) ≤ Real.exp (w - n) * n ^ n * Real.exp (-w) :=
        mul_le_mul_of_nonneg_right h2 (Real.exp_pos _).le
    _ = n ^ n * Real.exp (-n) := by
        have : Real.exp (w - n) * Real.exp (-w) = Real.exp (-n) := by rw [← Real.exp_add]; congr 1; ring
        rw [← this]; ring
    _ ≤ (n / 2.718) ^ n := by
        rw [Real.exp_neg, div_pow, ← div_eq_mul_inv]
        exact div_le_div_of_nonneg_left (by positivity) (by positivity) he

/-- How a relative error of the argument shows in a function whose derivative is dominated by a decreasing exponential. -/
theorem argument_error {f f' : ℝ → ℝ} (hf : ∀ t, HasDerivAt f (f' t) t) {z z' ε : ℝ} (hz : 0 ≤ z) (hε0 : 0 ≤ ε)
    (h : |z' - z| ≤ ε * z) {B : ℝ} (hB : ∀ t, (1 - ε) * z ≤ t → t ≤ (1 + ε) * z → |f' t| ≤ B) :
    |f z' - f z| ≤ B * (ε * z) := by
  obtain ⟨h1, h2⟩ := abs_le.1 h
  have hεz : 0 ≤ ε * z := mul_nonneg hε0 hz
  have hm := (convex_Icc ((1 - ε) * z) ((1 + ε) * z)).norm_image_sub_le_of_norm_hasDerivWithin_le (f := f) (f' := f') (C := B)
    (fun t _ => (hf t).hasDerivWithinAt) (fun t ht => hB t ht.1 ht.2)
    (x := z) (y := z') ⟨by linarith, by linarith⟩ ⟨by linarith, by linarith⟩
  rw [Real.norm_eq_abs, Real.norm_eq_abs] at hm
  have hB0 : 0 ≤ B := (abs_nonneg _).trans (hB z (by linarith) (by linarith))
  exact hm.trans (mul_le_mul_of_nonneg_left h hB0)

theorem exp_argument {z z' ε : ℝ} (hz : 0 ≤ z) (hε0 : 0 ≤ ε) (hε : ε < 1) (h : |z' - z| ≤ ε * z) :
    |Real.exp (-z') - Real.exp (-z)| ≤ 0.37 * (ε / (1 - ε)) := by
  have hd : ∀ t : ℝ, HasDerivAt (fun t => Real.exp (-t)) (-Real.exp (-t)) t := fun t => by
    simpa using (hasDerivAt_neg t).exp
  have h1 := argument_error hd hz hε0 h (B := Real.exp (-((1 - ε) * z))) fun t ht _ => by
    rw [abs_neg, Real.abs_exp]
    exact Real.exp_le_exp.2 (by linarith)
  refine h1.trans ?_
  have hq : 0 < 1 - ε := by linarith
  have h2 := pow_mul_exp_neg_le 1 one_ne_zero (w := (1 - ε) * z) (mul_nonneg hq.le hz)
  norm_num at h2
  have e : Real.exp (-((1 - ε) * z)) * (ε * z) = (1 - ε) * z * Real.exp (-((1 - ε) * z)) * (ε / (1 - ε)) := by
    field_simp
  rw [e]
  exact mul_le_mul_of_nonneg_right (h2.trans (by norm_num)) (div_nonneg hε0 hq.le)

theorem matern32_argument {z z' ε : ℝ} (hz : 0 ≤ z) (hε0 : 0 ≤ ε) (hε : ε < 1) (h : |z' - z| ≤ ε * z) :
    |(1 + z') * Real.exp (-z') - (1 + z) * Real.exp (-z)| ≤ 0.55 * (ε * (1 + ε) / (1 - ε) ^ 2) := by
  have hd : ∀ t : ℝ, HasDerivAt (fun t => (1 + t) * Real.exp (-t)) (-(t * Real.exp (-t))) t := fun t => by
    have := ((hasDerivAt_id t).const_add 1).mul (hasDerivAt_neg t).exp
    refine this.congr_deriv ?_
    simp only [id]
    ring
  have hq : 0 < 1 - ε := by linarith
  have h1 := argument_error hd hz hε0 h (B := (1 + ε) * z * Real.exp (-((1 - ε) * z))) fun t ht ht' => by
    have ht0 : 0 ≤ t := (mul_nonneg hq.le hz).trans ht
    rw [abs_neg, abs_mul, Real.abs_exp, abs_of_nonneg ht0]
    exact mul_le_mul ht' (Real.exp_le_exp.2 (by linarith)) (Real.exp_pos _).le (by positivity)
  refine h1.trans ?_
  have h2 := pow_mul_exp_neg_le 2 two_ne_zero (w := (1 - ε) * z) (mul_nonneg hq.le hz)
  norm_num at h2
  have e : (1 + ε) * z * Real.exp (-((1 - ε) * z)) * (ε * z) =
      ((1 - ε) * z) ^ 2 * Real.exp (-((1 - ε) * z)) * (ε * (1 + ε) / (1 - ε) ^ 2) := by
    field_simp
  rw [e]
  exact mul_le_mul_of_nonneg_right (h2.trans (by norm_num)) (by positivity)

theorem matern52_argument {z z' ε : ℝ} (hz : 0 ≤ z) (hε0 : 0 ≤ ε) (hε : ε < 1) (h : |z' - z| ≤ ε * z) :
    |(1 + z' + z' * z' / 3) * Real.exp (-z') - (1 + z + z * z / 3) * Real.exp (-z)| ≤
      0.64 * (ε * (1 + ε) ^ 2 / (1 - ε) ^ 3) := by
  have hd : ∀ t : ℝ, HasDerivAt (fun t => (1 + t + t * t / 3) * Real.exp (-t)) (-((t + t * t) / 3 * Real.exp (-t))) t := fun t => by
    have := (((hasDerivAt_id t).const_add 1).add (((hasDerivAt_id t).mul (hasDerivAt_id t)).div_const 3)).mul
      (hasDerivAt_neg t).exp
    refine this.congr_deriv ?_
    simp only [id, Pi.add_apply, Pi.mul_apply]
    ring
  have hq : 0 < 1 - ε := by linarith
  have h1 := argument_error hd hz hε0 h
    (B := ((1 + ε) * z + (1 + ε) * z * ((1 + ε) * z)) / 3 * Real.exp (-((1 - ε) * z))) fun t ht ht' => by
    have ht0 : 0 ≤ t := (mul_nonneg hq.le hz).trans ht
    rw [abs_neg, abs_mul, Real.abs_exp, abs_of_nonneg (by positivity)]
    refine mul_le_mul ?_ (Real.exp_le_exp.2 (by linarith)) (Real.exp_pos _).le (by positivity)
    have : t * t ≤ (1 + ε) * z * ((1 + ε) * z) := mul_le_mul ht' ht' ht0 (by positivity)
    linarith
  refine h1.trans ?_
  have h2 := pow_mul_exp_neg_le 2 two_ne_zero (w := (1 - ε) * z) (mul_nonneg hq.le hz)
  have h3 := pow_mul_exp_neg_le 3 three_ne_zero (w := (1 - ε) * z) (mul_nonneg hq.le hz)
  norm_num at h2 h3
  set w := (1 - ε) * z with hw
  set E := Real.exp (-w)
  have hzw : z = w / (1 - ε) := by rw [hw]; field_simp
  have e : ((1 + ε) * z + (1 + ε) * z * ((1 + ε) * z)) / 3 * E * (ε * z) =
      (w ^ 2 * E / 3 * ((1 - ε) / (1 + ε)) + w ^ 3 * E / 3) * (ε * (1 + ε) ^ 2 / (1 - ε) ^ 3) := by
    rw [hzw]
    have : 1 + ε ≠ 0 := by linarith
    field_simp
  rw [e]
  refine mul_le_mul_of_nonneg_right ?_ (by positivity)
  have hr : (1 - ε) / (1 + ε) ≤ 1 := by rw [div_le_one (by linarith)]; linarith
  have hE : 0 ≤ w ^ 2 * E / 3 := by have := (Real.exp_pos (-w)).le; positivity
  have := mul_le_mul_of_nonneg_left hr hE
  linarith

end Albatross
