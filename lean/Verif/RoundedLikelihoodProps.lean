import Verif.RoundedLikelihood
import Verif.RoundedStatsProps
import Mathlib.Analysis.Real.Pi.Bounds
import Mathlib.Analysis.Real.Pi.Irrational

/-! # C145: the likelihood of independent deviations in doubles -/

namespace Albatross

open Finset

/-- The negative logarithm of the density of the normal distribution with mean zero. -/
noncomputable def exactNll (d v : ℝ) : ℝ := d ^ 2 / (2 * v) + Real.log (2 * Real.pi * v) / 2

/-- The logarithm of the library is accurate to two units of rounding (about one unit in the last place). -/
def AccurateLog (log : ℝ → ℝ) : Prop := ∀ x, 0 < x → |log x - Real.log x| ≤ 2⁻¹ ^ 52 * |Real.log x|

variable (r : Rounding) {log : ℝ → ℝ}

theorem mPi_close : Close 2 Real.pi r.mPi Real.pi := by
  have h1 := Real.pi_gt_d20
  have h2 := Real.pi_lt_d20
  have h3 := r.error 3.14159265358979323846
  refine ⟨(abs_of_pos Real.pi_pos).le, ?_⟩
  rw [Rounding.mPi]
  rw [abs_of_pos (by norm_num : (0 : ℝ) < 3.14159265358979323846), abs_le] at h3
  have h4 : ((1 + 2⁻¹ ^ 53 : ℝ) ^ 2 - 1) * 3.14159265358979323846 ≤ ((1 + 2⁻¹ ^ 53) ^ 2 - 1) * Real.pi :=
    mul_le_mul_of_nonneg_left h1.le (Close.growth_nonneg 2)
  refine le_trans ?_ h4
  norm_num at h1 h2 h3 ⊢
  rw [abs_le]
  constructor <;> linarith [h3.1, h3.2]

/-- The error of an argument of the logarithm is an absolute error of its value. -/
theorem Close.logarithm {x y : ℝ} (hx : 0 < x) (h : Close 4 x y x) : 0 < y ∧ Close 5 (|Real.log x| + 1) (Real.log y) (Real.log x) := by
  obtain ⟨h1, h2⟩ := _root_.abs_le.1 h.2
  have hy : 0 < y := by
    have : ((1 + 2⁻¹ ^ 53 : ℝ) ^ 4 - 1) * x < 1 * x := mul_lt_mul_of_pos_right (by norm_num) hx
    linarith
  refine ⟨hy, by linarith, ?_⟩
  have hg := mul_le_mul_of_nonneg_left (show (1 : ℝ) ≤ |Real.log x| + 1 by linarith [abs_nonneg (Real.log x)])
    (Close.growth_nonneg 5)
  refine le_trans ?_ hg
  rw [← Real.log_div hy.ne' hx.ne', mul_one, _root_.abs_le]
  have hup : y / x ≤ (1 + 2⁻¹ ^ 53) ^ 4 := by rw [div_le_iff₀ hx]; linarith
  have hlo : 2 - (1 + 2⁻¹ ^ 53) ^ 4 ≤ y / x := by rw [le_div_iff₀ hx]; linarith
  have hpos : 0 < y / x := by positivity
  constructor
  · have h3 := Real.one_sub_inv_le_log_of_pos hpos
    have h4 : (y / x)⁻¹ ≤ (2 - (1 + 2⁻¹ ^ 53) ^ 4)⁻¹ := inv_anti₀ (by norm_num) hlo
    have h5 : (2 - (1 + 2⁻¹ ^ 53 : ℝ) ^ 4)⁻¹ ≤ (1 + 2⁻¹ ^ 53) ^ 5 := by
      rw [inv_le_iff_one_le_mul₀ (by norm_num)]
      norm_num
    linarith
  · have h3 := Real.log_le_sub_one_of_pos hpos
    have h4 : (1 + 2⁻¹ ^ 53 : ℝ) ^ 4 ≤ (1 + 2⁻¹ ^ 53) ^ 5 := pow_le_pow_right₀ (by norm_num) (by norm_num)
    linarith

theorem normalNll_close (hlog : AccurateLog log) (d : ℝ) {v : ℝ} (hv : 0 < v) :
    Close 9 (d ^ 2 / (2 * v) + (|Real.log (2 * Real.pi * v)| + 1) / 2) (r.normalNll log d v) (exactNll d v) := by
  have hpv : 0 < 2 * Real.pi * v := by have := Real.pi_pos; positivity
  -- the quadratic term
  have hq : Close 4 (d ^ 2 / (2 * v)) (r.fl (r.fl (-d * d) / r.fl (2 * v))) (-(d ^ 2 / (2 * v))) := by
    have h1 := (Close.refl (-d * d)).fl r
    have h := (h1.mul (Close.reciprocal r (show 0 < 2 * v by positivity))).fl r
    have e1 : |(-d * d)| * (1 / (2 * v)) = d ^ 2 / (2 * v) := by
      rw [neg_mul, abs_neg, abs_mul_self]; ring
    have e2 : -d * d * (1 / (2 * v)) = -(d ^ 2 / (2 * v)) := by ring
    rw [e1, e2, mul_one_div] at h
    exact h
  -- the argument of the logarithm
  have harg : Close 4 (2 * Real.pi * v) (r.fl (r.fl (2 * r.mPi) * v)) (2 * Real.pi * v) := by
    have h1 := ((Close.refl (2 : ℝ)).mul (mPi_close r)).fl r
    have h2 := (h1.mul (Close.refl v)).fl r
    rw [abs_of_pos (by norm_num : (0 : ℝ) < 2), abs_of_pos hv] at h2
    exact h2
  obtain ⟨hy, hl⟩ := Close.logarithm hpv harg
  have hlib : Close 7 (|Real.log (2 * Real.pi * v)| + 1) (log (r.fl (r.fl (2 * r.mPi) * v))) (Real.log (2 * Real.pi * v)) :=
    hl.trans (M := 2) ((hlog _ hy).trans (two_roundings _ (abs_nonneg _)))
  have hhalf := ((Close.refl (1 / 2 : ℝ)).mul hlib).fl r
  rw [abs_of_pos (by norm_num : (0 : ℝ) < 1 / 2)] at hhalf
  -- their difference
  have hsub : Close 9 (d ^ 2 / (2 * v) + 1 / 2 * (|Real.log (2 * Real.pi * v)| + 1)) (r.normalLogPdf log d v)
      (-(d ^ 2 / (2 * v)) + -(1 / 2 * Real.log (2 * Real.pi * v))) := by
    have hn : Close 8 (1 / 2 * (|Real.log (2 * Real.pi * v)| + 1))
        (-r.fl (1 / 2 * log (r.fl (r.fl (2 * r.mPi) * v)))) (-(1 / 2 * Real.log (2 * Real.pi * v))) := by
      refine ⟨by rw [abs_neg]; exact hhalf.1, ?_⟩
      rw [← neg_sub', abs_neg]
      exact hhalf.2
    have := ((hq.mono (M := 8) (by omega) le_rfl).add hn).fl r
    rw [← sub_eq_add_neg (r.fl _)] at this
    exact this
  have e : exactNll d v = -(-(d ^ 2 / (2 * v)) + -(1 / 2 * Real.log (2 * Real.pi * v))) := by rw [exactNll]; ring
  rw [e, Rounding.normalNll]
  refine ⟨?_, ?_⟩
  · rw [abs_neg]
    exact hsub.1.trans_eq (by ring)
  · rw [← neg_sub', abs_neg]
    exact hsub.2.trans_eq (by ring)

/-- C145, partial: the likelihood of `n` independent deviations is the exact one up to `n + 9` roundings of the sum of the
absolute terms and half a unit per deviation. Missing: the error is small relative to the likelihood, which is false
(`C145_relative_false`). -/
theorem C145_nll_partial (hlog : AccurateLog log) {n : Nat} (deviation : Fin n → ℝ) {variances : Fin n → ℝ}
    (hv : ∀ i, 0 < variances i) :
    |r.diagonalNll log deviation variances - ∑ i, exactNll (deviation i) (variances i)| ≤
      ((1 + 2⁻¹ ^ 53) ^ (n + 9) - 1) *
        ∑ i, (deviation i ^ 2 / (2 * variances i) + (|Real.log (2 * Real.pi * variances i)| + 1) / 2) := by
  have h0 : Close 9 0 (0 : ℝ) 0 := ⟨by simp, by simp⟩
  have h := Close.loop r (fun i => normalNll_close r hlog (deviation i) (hv i)) (List.finRange n) le_rfl h0
  rw [List.length_finRange, sum_finRange, sum_finRange, zero_add, zero_add, add_comm 9 n] at h
  exact h.2

/-- C145: a deviation and its opposite have the same likelihood. -/
theorem C145_even (log : ℝ → ℝ) (d v : ℝ) : r.normalNll log (-d) v = r.normalNll log d v := by
  simp only [Rounding.normalNll, Rounding.normalLogPdf, neg_neg, mul_neg, neg_mul]

theorem normalNll_mono (log : ℝ → ℝ) {d d' v : ℝ} (hv : 0 < v) (h : |d| ≤ |d'|) :
    r.normalNll log d v ≤ r.normalNll log d' v := by
  have h2v : 0 ≤ r.fl (2 * v) := by
    have := r.mono (show (0 : ℝ) ≤ 2 * v by positivity)
    rwa [r.of_double isDouble_zero] at this
  have hsq : -d' * d' ≤ -d * d := by
    have := mul_self_le_mul_self (abs_nonneg d) h
    rw [abs_mul_abs_self, abs_mul_abs_self] at this
    linarith
  exact neg_le_neg (r.mono (sub_le_sub_right (r.mono (div_le_div_of_nonneg_right (r.mono hsq) h2v)) _))

/-- C145: larger deviations never have a smaller negative log likelihood: rounding does not turn the order around. -/
theorem C145_monotone (log : ℝ → ℝ) {n : Nat} {deviation deviation' variances : Fin n → ℝ} (hv : ∀ i, 0 < variances i)
    (h : ∀ i, |deviation i| ≤ |deviation' i|) :
    r.diagonalNll log deviation variances ≤ r.diagonalNll log deviation' variances := by
  have hl : ∀ (l : List (Fin n)) {a b : ℝ}, a ≤ b →
      l.foldl (fun nll i => r.fl (nll + r.normalNll log (deviation i) (variances i))) a ≤
        l.foldl (fun nll i => r.fl (nll + r.normalNll log (deviation' i) (variances i))) b := by
    intro l
    induction l with
    | nil => intro a b hab; exact hab
    | cons i l ih => intro a b hab; exact ih (r.mono (add_le_add hab (normalNll_mono r log (hv i) (h i))))
  exact hl _ le_rfl

/-- C145 is false of relative errors: there is a variance, near `1 / (2 π)`, at which the likelihood of a deviation of zero
is computed as zero although it is not. -/
theorem C145_relative_false (hlog : AccurateLog log) : ∃ v : ℝ, IsDouble v ∧ 0 < v ∧
    r.diagonalNll log (fun _ : Fin 1 => 0) (fun _ => v) = 0 ∧ exactNll 0 v ≠ 0 := by
  obtain ⟨v, hv⟩ : ∃ v : ℝ, v = 5734161139222659 * 2 ^ (-55 : ℤ) := ⟨_, rfl⟩
  have h0 : r.fl 0 = 0 := r.of_double isDouble_zero
  have hv0 : 0 < v := by rw [hv]; positivity
  refine ⟨v, ⟨5734161139222659, -55, by norm_num, by rw [hv]; norm_num⟩, hv0, ?_, ?_⟩
  · have hpi : r.mPi = 7074237752028440 * 2 ^ (-51 : ℤ) := by
      rw [Rounding.mPi, r.eq_of_close 1 7074237752028440 (by norm_num) (by norm_num) (by norm_num [abs_lt])]
      norm_num
    have h2pi : r.fl (2 * r.mPi) = 7074237752028440 * 2 ^ (-50 : ℤ) := by
      rw [hpi, r.of_double ⟨7074237752028440, -50, by norm_num, by norm_num⟩]
      norm_num
    have hone : r.fl (r.fl (2 * r.mPi) * v) = 1 := by
      rw [h2pi, hv, r.eq_of_close 0 4503599627370496 (by norm_num) (by norm_num) (by norm_num [abs_lt])]
      norm_num
    have hl : log 1 = 0 := by simpa using hlog 1 one_pos
    have : r.normalNll log 0 v = 0 := by
      simp only [Rounding.normalNll, Rounding.normalLogPdf, hone, hl, neg_zero, mul_zero, h0, zero_div, sub_zero]
    simp only [Rounding.diagonalNll, List.finRange_succ, List.finRange_zero, List.map_nil, List.foldl_cons, List.foldl_nil,
      this, add_zero, h0]
  · intro h
    have hpv : 0 < 2 * Real.pi * v := by have := Real.pi_pos; positivity
    have hl : Real.log (2 * Real.pi * v) = 0 := by
      rw [exactNll] at h
      norm_num at h
      simpa using h
    rw [Real.log_eq_zero] at hl
    rcases hl with h | h | h
    · exact hpv.ne' h
    · refine irrational_pi ⟨2 ^ 54 / 5734161139222659, ?_⟩
      rw [hv] at h
      have : Real.pi = 1 / (2 * (5734161139222659 * 2 ^ (-55 : ℤ))) := by
        rw [eq_div_iff (by positivity), ← h]
        ring
      rw [this]
      norm_num
    · linarith

/-- Roundings and a logarithm as the theorems want them, and a hundred deviations with positive variances. -/
example : Nonempty Rounding ∧ AccurateLog Real.log ∧ (∀ i : Fin 100, (0 : ℝ) < (i : ℕ) + 1) ∧
    ∀ i : Fin 100, |((i : ℕ) : ℝ)| ≤ |((i : ℕ) : ℝ) + 1| := by
  refine ⟨exists_rounding, fun x _ => by rw [sub_self, abs_zero]; positivity, fun i => by positivity, fun i => ?_⟩
  rw [abs_of_nonneg (by positivity), abs_of_nonneg (by positivity)]
  linarith

end Albatross
