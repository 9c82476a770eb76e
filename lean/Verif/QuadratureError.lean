import Verif.QuadratureKernel
import Mathlib.MeasureTheory.Integral.IntervalIntegral.IntegrationByParts

/-!
# The error of the fifty point rule on a function with derivatives

Helper lemmas for C93: Taylor's formula with the integral remainder, turned into the formula of Peano for the error of
the Gauss-Legendre tables.
-/

namespace Albatross

open scoped Nat
open MeasureTheory

/-- Taylor's formula for a chain of derivatives. -/
theorem taylor_chain (F : ℕ → ℝ → ℝ) (n : ℕ) (hF : ∀ j ≤ n, ∀ x, HasDerivAt (F j) (F (j + 1) x) x)
    (hc : Continuous (F (n + 1))) (c x : ℝ) :
    F 0 x = ∑ j ∈ Finset.range (n + 1), F j c * ((x - c) ^ j / j !) +
      ∫ t in c..x, (x - t) ^ n / n ! * F (n + 1) t := by
  induction n with
  | zero =>
    have := intervalIntegral.integral_eq_sub_of_hasDerivAt (a := c) (b := x) (fun t _ => hF 0 le_rfl t)
      (hc.intervalIntegrable _ _)
    simp only [zero_add, Finset.range_one, Finset.sum_singleton, pow_zero, Nat.factorial_zero, Nat.cast_one, div_one,
      mul_one, one_mul]
    simp only [zero_add] at this
    rw [this]; ring
  | succ n ih =>
    have hc' : Continuous (F (n + 1)) := by
      rw [continuous_iff_continuousAt]
      exact fun t => (hF (n + 1) le_rfl t).continuousAt
    rw [ih (fun j hj => hF j (hj.trans (Nat.le_succ n))) hc', Finset.sum_range_succ _ (n + 1), add_assoc]
    congr 1
    have hfs : ((n + 1)! : ℝ) = (n + 1) * n ! := by rw [Nat.factorial_succ]; push_cast; ring
    have hn : (n ! : ℝ) ≠ 0 := by positivity
    have hd : ∀ t, HasDerivAt (fun t => -((x - t) ^ (n + 1) / (n + 1)!)) ((x - t) ^ n / n !) t := by
      intro t
      have h1 := (((hasDerivAt_id t).const_sub x).fun_pow (n + 1)).div_const ((n + 1)! : ℝ)
      refine h1.neg.congr_deriv ?_
      simp only [Nat.add_sub_cancel]
      rw [hfs]; push_cast; field_simp
      rfl
    have hp := intervalIntegral.integral_deriv_mul_eq_sub (a := c) (b := x)
      (u := fun t => -((x - t) ^ (n + 1) / (n + 1)!)) (u' := fun t => (x - t) ^ n / n !)
      (v := F (n + 1)) (v' := F (n + 2)) (fun t _ => hd t) (fun t _ => hF (n + 1) le_rfl t)
      (Continuous.intervalIntegrable (by fun_prop) _ _) (hc.intervalIntegrable _ _)
    have i1 : IntervalIntegrable (fun t => (x - t) ^ n / n ! * F (n + 1) t) volume c x :=
      Continuous.intervalIntegrable (by fun_prop) _ _
    have hc2 : Continuous (F (n + 2)) := hc
    have i2 : IntervalIntegrable (fun t => -((x - t) ^ (n + 1) / (n + 1)!) * F (n + 2) t) volume c x :=
      Continuous.intervalIntegrable (by fun_prop) _ _
    rw [intervalIntegral.integral_add i1 i2] at hp
    simp only [neg_mul, intervalIntegral.integral_neg, sub_self, ne_eq, Nat.add_eq_zero_iff, one_ne_zero, and_false,
      not_false_eq_true, zero_pow, zero_div, zero_mul, neg_zero] at hp
    linarith [mul_comm ((x - c) ^ (n + 1) / ((n + 1)! : ℝ)) (F (n + 1) c)]

theorem ppow_continuous {m : ℕ} : Continuous (ppow m) := by
  unfold ppow; fun_prop

theorem peano_continuous {m : ℕ} : Continuous (peano m) := by
  have h : Continuous fun t => glSum fun x => ppow m (x - t) := by
    unfold glSum
    generalize glWeights.zip glPoints = l
    induction l with
    | nil => simpa using continuous_const
    | cons a l ih =>
      simp only [List.map_cons, List.sum_cons]
      exact (continuous_const.mul (ppow_continuous.comp (by fun_prop))).add ih
  exact h.sub (ppow_continuous.comp (by fun_prop))

theorem integral_ppow {m : ℕ} (hm : 1 ≤ m) {g : ℝ → ℝ} (hg : Continuous g) {x : ℝ} (h2 : x ≤ 1) (h1 : -1 ≤ x) :
    ∫ t in (-1 : ℝ)..x, (x - t) ^ m / m ! * g t = ∫ t in (-1 : ℝ)..1, ppow m (x - t) * g t := by
  have hc : Continuous fun t => ppow m (x - t) * g t := (ppow_continuous.comp (by fun_prop)).mul hg
  rw [← intervalIntegral.integral_add_adjacent_intervals (hc.intervalIntegrable (-1) x) (hc.intervalIntegrable x 1)]
  have e1 : ∫ t in (-1 : ℝ)..x, ppow m (x - t) * g t = ∫ t in (-1 : ℝ)..x, (x - t) ^ m / m ! * g t := by
    refine intervalIntegral.integral_congr fun t ht => ?_
    rw [Set.uIcc_of_le h1] at ht
    simp only [ppow]
    rw [max_eq_left (by linarith [ht.2])]
  have e2 : ∫ t in x..1, ppow m (x - t) * g t = 0 := by
    rw [intervalIntegral.integral_congr (g := fun _ => (0 : ℝ))]
    · simp
    · intro t ht
      rw [Set.uIcc_of_le h2] at ht
      simp only [ppow]
      rw [max_eq_right (by linarith [ht.1]), zero_pow (by omega)]
      simp
  rw [e1, e2, add_zero]

/-- Peano's formula for the error of the tables on a function with `m + 1` derivatives. -/
theorem glSum_peano (F : ℕ → ℝ → ℝ) {m : ℕ} (hm : 1 ≤ m) (hF : ∀ j ≤ m, ∀ x, HasDerivAt (F j) (F (j + 1) x) x)
    (hc : Continuous (F (m + 1))) :
    glSum (F 0) - ∫ x in (-1 : ℝ)..1, F 0 x =
      ∑ j ∈ Finset.range (m + 1), F j (-1) / j ! * (glSum (fun x => (x + 1) ^ j) - 2 ^ (j + 1) / (j + 1)) +
        ∫ t in (-1 : ℝ)..1, peano m t * F (m + 1) t := by
  have hcj : ∀ j ≤ m, Continuous (F j) := fun j hj =>
    continuous_iff_continuousAt.2 fun t => (hF j hj t).continuousAt
  -- the integral
  have hint : ∫ x in (-1 : ℝ)..1, F 0 x = ∑ j ∈ Finset.range (m + 1), F j (-1) / j ! * (2 ^ (j + 1) / (j + 1)) +
      ∫ t in (-1 : ℝ)..1, ppow (m + 1) (1 - t) * F (m + 1) t := by
    have h := taylor_chain (fun j => match j with
      | 0 => fun x => ∫ t in (-1 : ℝ)..x, F 0 t
      | j + 1 => F j) (m + 1) (by
        intro j hj x
        cases j with
        | zero => exact ((hcj 0 (by omega)).integral_hasStrictDerivAt (-1) x).hasDerivAt
        | succ j => exact hF j (by omega) x) hc (-1) 1
    rw [Finset.sum_range_succ'] at h
    simp only [intervalIntegral.integral_same, zero_mul, add_zero] at h
    rw [h]
    congr 1
    · refine Finset.sum_congr rfl fun j _ => ?_
      rw [Nat.factorial_succ]
      push_cast
      have : (j ! : ℝ) ≠ 0 := by positivity
      have : (j : ℝ) + 1 ≠ 0 := by positivity
      norm_num
      field_simp
    · exact integral_ppow (by omega) hc le_rfl (by norm_num)
  -- the sum
  have hpt : ∀ x ∈ glWeights.zip glPoints, -1 ≤ x.2 ∧ x.2 ≤ 1 := fun x hx => by
    have := glPoints_lt x.2 (List.of_mem_zip (show (x.1, x.2) ∈ _ from hx)).2
    exact ⟨this.1.le, this.2.le⟩
  have hsum : glSum (F 0) = ∑ j ∈ Finset.range (m + 1), F j (-1) / j ! * glSum (fun x => (x + 1) ^ j) +
      ∫ t in (-1 : ℝ)..1, glSum (fun x => ppow m (x - t)) * F (m + 1) t := by
    unfold glSum
    revert hpt
    generalize glWeights.zip glPoints = l
    intro hpt
    induction l with
    | nil => simp
    | cons a l ih =>
      simp only [List.map_cons, List.sum_cons]
      rw [ih fun x hx => hpt x (List.mem_cons_of_mem _ hx)]
      have ha := hpt a List.mem_cons_self
      have ht := taylor_chain F m hF hc (-1) a.2
      rw [integral_ppow hm hc ha.2 ha.1] at ht
      rw [ht]
      have i1 : IntervalIntegrable (fun t => a.1 * ppow m (a.2 - t) * F (m + 1) t) volume (-1) 1 :=
        Continuous.intervalIntegrable ((continuous_const.mul (ppow_continuous.comp (by fun_prop))).mul hc) _ _
      have i2 : IntervalIntegrable (fun t => (l.map fun x => x.1 * ppow m (x.2 - t)).sum * F (m + 1) t)
          volume (-1) 1 := by
        refine Continuous.intervalIntegrable (Continuous.mul ?_ hc) _ _
        clear ih hpt
        induction l with
        | nil => simpa using continuous_const
        | cons b l ih =>
          simp only [List.map_cons, List.sum_cons]
          exact (continuous_const.mul (ppow_continuous.comp (by fun_prop))).add ih
      simp only [add_mul, mul_add]
      rw [intervalIntegral.integral_add i1 i2, Finset.sum_add_distrib, Finset.mul_sum]
      have e1 : ∫ t in (-1 : ℝ)..1, a.1 * ppow m (a.2 - t) * F (m + 1) t =
          a.1 * ∫ t in (-1 : ℝ)..1, ppow m (a.2 - t) * F (m + 1) t := by
        rw [← intervalIntegral.integral_const_mul]
        refine intervalIntegral.integral_congr fun t _ => ?_
        ring
      have e2 : ∑ j ∈ Finset.range (m + 1), a.1 * (F j (-1) * ((a.2 - -1) ^ j / j !)) =
          ∑ j ∈ Finset.range (m + 1), F j (-1) / j ! * (a.1 * (a.2 + 1) ^ j) :=
        Finset.sum_congr rfl fun j _ => by rw [sub_neg_eq_add]; ring
      rw [e1, e2]
      ring
  have i3 : IntervalIntegrable (fun t => glSum (fun x => ppow m (x - t)) * F (m + 1) t) volume (-1) 1 := by
    have : (fun t => glSum (fun x => ppow m (x - t)) * F (m + 1) t) =
        fun t => (peano m t + ppow (m + 1) (1 - t)) * F (m + 1) t := by
      funext t; rw [peano]; ring
    rw [this]
    exact Continuous.intervalIntegrable
      ((peano_continuous.add (ppow_continuous.comp (by fun_prop))).mul hc) _ _
  have i4 : IntervalIntegrable (fun t => ppow (m + 1) (1 - t) * F (m + 1) t) volume (-1) 1 :=
    Continuous.intervalIntegrable ((ppow_continuous.comp (by fun_prop)).mul hc) _ _
  have e : ∫ t in (-1 : ℝ)..1, peano m t * F (m + 1) t =
      (∫ t in (-1 : ℝ)..1, glSum (fun x => ppow m (x - t)) * F (m + 1) t) -
        ∫ t in (-1 : ℝ)..1, ppow (m + 1) (1 - t) * F (m + 1) t := by
    rw [← intervalIntegral.integral_sub i3 i4]
    refine intervalIntegral.integral_congr fun t _ => ?_
    simp only [peano]; ring
  rw [hsum, hint, e]
  have : ∑ j ∈ Finset.range (m + 1), F j (-1) / j ! * (glSum (fun x => (x + 1) ^ j) - 2 ^ (j + 1) / ((j : ℝ) + 1)) =
      ∑ j ∈ Finset.range (m + 1), F j (-1) / j ! * glSum (fun x => (x + 1) ^ j) -
        ∑ j ∈ Finset.range (m + 1), F j (-1) / j ! * (2 ^ (j + 1) / ((j : ℝ) + 1)) := by
    rw [← Finset.sum_sub_distrib]
    exact Finset.sum_congr rfl fun j _ => by ring
  rw [this]
  ring

open Polynomial in
theorem glSum_shift_error {j : ℕ} (hj : j < 100) :
    |glSum (fun x => (x + 1) ^ j) - 2 ^ (j + 1) / ((j : ℝ) + 1)| ≤ 2 ^ j / 10 ^ 32 := by
  have hd : ((X + 1 : ℝ[X]) ^ j).natDegree < 100 :=
    lt_of_le_of_lt (by rw [show (1 : ℝ[X]) = C 1 from rfl, natDegree_pow_X_add_C]) hj
  have h := C79_exactness ((X + 1 : ℝ[X]) ^ j) hd
  have e : ∫ x in (-1 : ℝ)..1, ((X + 1 : ℝ[X]) ^ j).eval x = 2 ^ (j + 1) / ((j : ℝ) + 1) := by
    simp only [eval_pow, eval_add, eval_X, eval_one]
    rw [intervalIntegral.integral_comp_add_right (fun x => x ^ j), integral_pow]
    norm_num
  rw [e] at h
  simp only [eval_pow, eval_add, eval_X, eval_one] at h
  refine h.trans ?_
  have e2 : ∑ m ∈ Finset.range 100, |((X + 1 : ℝ[X]) ^ j).coeff m| = 2 ^ j := by
    have e3 : ∀ m, |((X + 1 : ℝ[X]) ^ j).coeff m| = ((X + 1 : ℝ[X]) ^ j).coeff m := fun m => by
      rw [coeff_X_add_one_pow]; exact abs_of_nonneg (by positivity)
    simp only [e3]
    have := Polynomial.eval_eq_sum_range' hd (1 : ℝ)
    simp only [one_pow, mul_one, eval_pow, eval_add, eval_X, eval_one] at this
    rw [← this]; norm_num
  rw [e2]
  apply le_of_eq
  ring

/-- The bound of the error: the derivatives at the left end cost the rounding of the tables, the last derivative
costs its integral times the bound of the kernel. -/
theorem glSum_error (F : ℕ → ℝ → ℝ) {m : ℕ} (hm : 1 ≤ m) (hm' : m < 99)
    (hF : ∀ j ≤ m, ∀ x, HasDerivAt (F j) (F (j + 1) x) x) (hc : Continuous (F (m + 1))) {B : ℝ}
    (hB : ∀ t, -1 ≤ t → t ≤ 1 → |peano m t| ≤ B) :
    |glSum (F 0) - ∫ x in (-1 : ℝ)..1, F 0 x| ≤
      ∑ j ∈ Finset.range (m + 1), |F j (-1)| / j ! * (2 ^ j / 10 ^ 32) + B * ∫ t in (-1 : ℝ)..1, |F (m + 1) t| := by
  rw [glSum_peano F hm hF hc]
  refine (abs_add_le _ _).trans (add_le_add ?_ ?_)
  · refine (Finset.abs_sum_le_sum_abs _ _).trans (Finset.sum_le_sum fun j hj => ?_)
    rw [abs_mul, abs_div, abs_of_pos (by positivity : (0 : ℝ) < j !)]
    exact mul_le_mul_of_nonneg_left (glSum_shift_error (by have := Finset.mem_range.1 hj; omega)) (by positivity)
  · refine (intervalIntegral.abs_integral_le_integral_abs (by norm_num)).trans ?_
    rw [← intervalIntegral.integral_const_mul]
    refine intervalIntegral.integral_mono_on (by norm_num) ?_ ?_ fun t ht => ?_
    · exact Continuous.intervalIntegrable ((peano_continuous.mul hc).abs) _ _
    · exact Continuous.intervalIntegrable (continuous_const.mul hc.abs) _ _
    · rw [abs_mul]
      exact mul_le_mul_of_nonneg_right (hB t ht.1 ht.2) (abs_nonneg _)

/-- The same for the rescaled rule on an interval. -/
theorem glSumOn_error (f : ℕ → ℝ → ℝ) {m : ℕ} (hm : 1 ≤ m) (hm' : m < 99)
    (hf : ∀ j ≤ m, ∀ x, HasDerivAt (f j) (f (j + 1) x) x) (hc : Continuous (f (m + 1))) {B : ℝ}
    (hB : ∀ t, -1 ≤ t → t ≤ 1 → |peano m t| ≤ B) {l u h : ℝ} (hh : h = (u - l) / 2) (hlu : l ≤ u) :
    |glSumOn l u (f 0) - ∫ x in l..u, f 0 x| ≤
      ∑ j ∈ Finset.range (m + 1), h ^ (j + 1) * |f j l| / j ! * (2 ^ j / 10 ^ 32) +
        B * (h ^ (m + 1) * ∫ t in l..u, |f (m + 1) t|) := by
  have hh0 : 0 ≤ h := by rw [hh]; linarith
  set c := (u + l) / 2 with hcdef
  have hl : h * -1 + c = l := by rw [hh, hcdef]; ring
  have hu : h * 1 + c = u := by rw [hh, hcdef]; ring
  have h1 : glSumOn l u (f 0) = h * glSum (fun s => f 0 (h * s + c)) := by
    unfold glSumOn glSum
    rw [← List.sum_map_mul_left]
    congr 1
    apply List.map_congr_left
    rintro x -
    have : (u - l) * (1 / 2) * x.2 + 1 / 2 * (u + l) = h * x.2 + c := by rw [hh, hcdef]; ring
    rw [this, hh]; ring
  have h2 : ∫ x in l..u, f 0 x = h * ∫ s in (-1 : ℝ)..1, f 0 (h * s + c) := by
    rw [intervalIntegral.mul_integral_comp_mul_add, hl, hu]
  have h3 : ∫ x in l..u, |f (m + 1) x| = h * ∫ s in (-1 : ℝ)..1, |f (m + 1) (h * s + c)| := by
    rw [intervalIntegral.mul_integral_comp_mul_add (f := fun x => |f (m + 1) x|), hl, hu]
  have key := glSum_error (fun j s => h ^ j * f j (h * s + c)) hm hm' (by
    intro j hj s
    have hin : HasDerivAt (fun s => h * s + c) h s := by
      simpa using ((hasDerivAt_id s).const_mul h).add_const c
    have := ((hf j hj (h * s + c)).comp s hin).const_mul (h ^ j)
    refine this.congr_deriv ?_
    rw [pow_succ]; ring) (by fun_prop) hB
  simp only [pow_zero, one_mul] at key
  rw [h1, h2, ← mul_sub, abs_mul, abs_of_nonneg hh0]
  refine (mul_le_mul_of_nonneg_left key hh0).trans (le_of_eq ?_)
  rw [mul_add, Finset.mul_sum, h3, hl]
  congr 1
  · refine Finset.sum_congr rfl fun j _ => ?_
    rw [abs_mul, abs_of_nonneg (pow_nonneg hh0 j), pow_succ]; ring
  · simp only [abs_mul, abs_of_nonneg (pow_nonneg hh0 (m + 1))]
    rw [intervalIntegral.integral_const_mul]; ring

end Albatross
