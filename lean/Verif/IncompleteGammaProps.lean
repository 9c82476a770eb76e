import Verif.StatsProps
import Mathlib.Analysis.SpecialFunctions.Gamma.Basic
import Mathlib.Analysis.SpecialFunctions.Exponential
import Mathlib.MeasureTheory.Integral.IntervalIntegral.FundThmCalculus
import Mathlib.Analysis.SpecialFunctions.Integrals.Basic
import Mathlib.Analysis.Complex.ExponentialBounds
import Mathlib.Analysis.SpecialFunctions.Gaussian.GaussianIntegral
import Mathlib.Analysis.Real.Pi.Bounds

/-! # C93: how close the incomplete gamma function of the code is to the integral -/

namespace Albatross

open scoped BigOperators
open Filter Topology MeasureTheory

/-! ## Specification vocabulary -/

/-- The regularised lower incomplete gamma function. -/
noncomputable def lowerGamma (a z : ℝ) : ℝ := (∫ t in (0 : ℝ)..z, t ^ (a - 1) * Real.exp (-t)) / Real.Gamma a

/-! ## Kummer's function -/

/-- `x (x + 1) ... (x + n - 1)`. -/
noncomputable def rising (x : ℝ) (n : ℕ) : ℝ := ∏ i ∈ Finset.range n, (x + i)

theorem rising_zero (x : ℝ) : rising x 0 = 1 := by simp [rising]

theorem rising_succ (x : ℝ) (n : ℕ) : rising x (n + 1) = rising x n * (x + n) := by
  simp [rising, Finset.prod_range_succ]

theorem rising_succ' (x : ℝ) (n : ℕ) : rising x (n + 1) = x * rising (x + 1) n := by
  unfold rising
  rw [Finset.prod_range_succ', mul_comm]
  congr 1
  · simp
  · refine Finset.prod_congr rfl fun i _ => ?_
    push_cast; ring

theorem rising_pos {x : ℝ} (h : 0 < x) (n : ℕ) : 0 < rising x n :=
  Finset.prod_pos fun i _ => by positivity

theorem rising_nonneg {x : ℝ} (h : 0 ≤ x) (n : ℕ) : 0 ≤ rising x n :=
  Finset.prod_nonneg fun i _ => by positivity

/-- The terms of Kummer's function. -/
noncomputable def kummerTerm (α β z : ℝ) (n : ℕ) : ℝ := rising α n / rising β n * (z ^ n / n.factorial)

/-- Kummer's function. -/
noncomputable def kummer (α β z : ℝ) : ℝ := ∑' n, kummerTerm α β z n

theorem kummerTerm_nonneg {α β z : ℝ} (hα : 0 ≤ α) (hβ : 0 < β) (hz : 0 ≤ z) (n : ℕ) : 0 ≤ kummerTerm α β z n :=
  mul_nonneg (div_nonneg (rising_nonneg hα n) (rising_pos hβ n).le) (by positivity)

theorem rising_le {α β : ℝ} (hα : 0 ≤ α) (h : α ≤ β) (n : ℕ) : rising α n ≤ rising β n :=
  Finset.prod_le_prod (fun i _ => by positivity) fun i _ => by linarith

theorem kummerTerm_le {α β z : ℝ} (hα : 0 ≤ α) (hβ : 0 < β) (h : α ≤ β) (hz : 0 ≤ z) (n : ℕ) :
    kummerTerm α β z n ≤ z ^ n / n.factorial := by
  have : rising α n / rising β n ≤ 1 := (div_le_one (rising_pos hβ n)).2 (rising_le hα h n)
  calc kummerTerm α β z n ≤ 1 * (z ^ n / n.factorial) := mul_le_mul_of_nonneg_right this (by positivity)
    _ = _ := one_mul _

theorem kummer_summable {α β z : ℝ} (hα : 0 ≤ α) (hβ : 0 < β) (h : α ≤ β) (hz : 0 ≤ z) :
    Summable (kummerTerm α β z) :=
  Summable.of_nonneg_of_le (kummerTerm_nonneg hα hβ hz) (kummerTerm_le hα hβ h hz) (Real.summable_pow_div_factorial z)

theorem kummerTerm_zero (α β z : ℝ) : kummerTerm α β z 0 = 1 := by simp [kummerTerm, rising_zero]

theorem one_le_kummer {α β z : ℝ} (hα : 0 ≤ α) (hβ : 0 < β) (h : α ≤ β) (hz : 0 ≤ z) : 1 ≤ kummer α β z := by
  have := (kummer_summable hα hβ h hz).le_tsum 0 fun n _ => kummerTerm_nonneg hα hβ hz n
  rwa [kummerTerm_zero] at this

theorem kummer_le_exp {α β z : ℝ} (hα : 0 ≤ α) (hβ : 0 < β) (h : α ≤ β) (hz : 0 ≤ z) :
    kummer α β z ≤ Real.exp z := by
  have h1 := (kummer_summable hα hβ h hz).tsum_le_tsum (kummerTerm_le hα hβ h hz) (Real.summable_pow_div_factorial z)
  rw [Real.exp_eq_exp_ℝ, NormedSpace.exp_eq_tsum_div]
  exact h1

theorem kummer_zero_left (β z : ℝ) : kummer 0 β z = 1 := by
  unfold kummer
  rw [tsum_eq_single 0, kummerTerm_zero]
  intro n hn
  obtain ⟨m, rfl⟩ := Nat.exists_eq_succ_of_ne_zero hn
  simp [kummerTerm, rising_succ']

theorem kummer_head {α β z : ℝ} (hα : 0 ≤ α) (hβ : 0 < β) (h : α ≤ β) (hz : 0 ≤ z) :
    kummer α β z = 1 + ∑' n, kummerTerm α β z (n + 1) := by
  unfold kummer
  rw [(kummer_summable hα hβ h hz).tsum_eq_zero_add, kummerTerm_zero]

/-- The first of Gauss' contiguous relations. -/
theorem kummer_contiguous_odd {α β z : ℝ} (hα : 0 ≤ α) (hβ : 0 < β) (h : α ≤ β) (hz : 0 ≤ z) :
    kummer α β z = kummer (α + 1) (β + 1) z - (β - α) / (β * (β + 1)) * z * kummer (α + 1) (β + 2) z := by
  have hs1 := kummer_summable hα hβ h hz
  have hs2 := kummer_summable (α := α + 1) (β := β + 1) (z := z) (by linarith) (by linarith) (by linarith) hz
  have hs3 := kummer_summable (α := α + 1) (β := β + 2) (z := z) (by linarith) (by linarith) (by linarith) hz
  rw [kummer_head hα hβ h hz, kummer_head (α := α + 1) (β := β + 1) (by linarith) (by linarith) (by linarith) hz]
  unfold kummer
  rw [← tsum_mul_left, add_sub_assoc]
  congr 1
  rw [← ((summable_nat_add_iff 1).2 hs2).tsum_sub (hs3.mul_left _)]
  refine tsum_congr fun n => ?_
  have hb := rising_pos (x := β + 2) (by linarith) n
  have hn : (0 : ℝ) < n.factorial := by positivity
  have hc : (0 : ℝ) < n + 1 := by positivity
  unfold kummerTerm
  rw [rising_succ' α, rising_succ (α + 1), rising_succ' β, rising_succ' (β + 1)]
  have e : rising (β + 1) n * (β + 1 + n) = (β + 1) * rising (β + 1 + 1) n := by rw [← rising_succ, rising_succ']
  have e2 : β + 1 + 1 = β + 2 := by ring
  rw [e2] at e ⊢
  have hβn : (0 : ℝ) < β + 1 + n := by positivity
  have e3 : rising (β + 1) n = (β + 1) * rising (β + 2) n / (β + 1 + n) := by rw [eq_div_iff hβn.ne', e]
  rw [e3, pow_succ, Nat.factorial_succ]
  push_cast
  have : (0 : ℝ) < β + 1 := by linarith
  field_simp
  ring

/-- The second. -/
theorem kummer_contiguous_even {α β z : ℝ} (hα : 0 ≤ α) (hβ : 0 < β) (h : α ≤ β) (hz : 0 ≤ z) :
    kummer α β z = kummer α (β + 1) z + α / (β * (β + 1)) * z * kummer (α + 1) (β + 2) z := by
  have hs1 := kummer_summable hα hβ h hz
  have hs2 := kummer_summable (α := α) (β := β + 1) (z := z) (by linarith) (by linarith) (by linarith) hz
  have hs3 := kummer_summable (α := α + 1) (β := β + 2) (z := z) (by linarith) (by linarith) (by linarith) hz
  rw [kummer_head hα hβ h hz, kummer_head (α := α) (β := β + 1) (by linarith) (by linarith) (by linarith) hz]
  unfold kummer
  rw [← tsum_mul_left, add_assoc]
  congr 1
  rw [← ((summable_nat_add_iff 1).2 hs2).tsum_add (hs3.mul_left _)]
  refine tsum_congr fun n => ?_
  have hb := rising_pos (x := β + 2) (by linarith) n
  have hn : (0 : ℝ) < n.factorial := by positivity
  have hc : (0 : ℝ) < n + 1 := by positivity
  unfold kummerTerm
  rw [rising_succ' α, rising_succ' β, rising_succ' (β + 1)]
  have e : rising (β + 1) n * (β + 1 + n) = (β + 1) * rising (β + 1 + 1) n := by rw [← rising_succ, rising_succ']
  have e2 : β + 1 + 1 = β + 2 := by ring
  rw [e2] at e ⊢
  have hβn : (0 : ℝ) < β + 1 + n := by positivity
  have e3 : rising (β + 1) n = (β + 1) * rising (β + 2) n / (β + 1 + n) := by rw [eq_div_iff hβn.ne', e]
  rw [e3, pow_succ, Nat.factorial_succ]
  push_cast
  have : (0 : ℝ) < β + 1 := by linarith
  field_simp
  ring

/-! ## The integral as a series -/

theorem gammaIntegrand_integrable {a : ℝ} (ha : 0 < a) (z : ℝ) :
    IntervalIntegrable (fun t : ℝ => t ^ (a - 1) * Real.exp (-t)) volume 0 z :=
  (intervalIntegral.intervalIntegrable_rpow' (by linarith)).mul_continuousOn (by fun_prop)

/-- Integration by parts. -/
theorem lowerIntegral_succ {a z : ℝ} (ha : 0 < a) (hz : 0 ≤ z) :
    (∫ t in (0 : ℝ)..z, t ^ (a - 1) * Real.exp (-t)) =
      z ^ a * Real.exp (-z) / a + (∫ t in (0 : ℝ)..z, t ^ (a + 1 - 1) * Real.exp (-t)) / a := by
  have hd : ∀ x ∈ Set.Ioo 0 z, HasDerivAt (fun t : ℝ => t ^ a * Real.exp (-t))
      (a * (x ^ (a - 1) * Real.exp (-x)) - x ^ (a + 1 - 1) * Real.exp (-x)) x := by
    intro x hx
    have h1 := Real.hasDerivAt_rpow_const (x := x) (p := a) (Or.inl hx.1.ne')
    have h2 : HasDerivAt (fun t : ℝ => Real.exp (-t)) (-Real.exp (-x)) x := by
      simpa using (hasDerivAt_neg x).exp
    refine (h1.mul h2).congr_deriv ?_
    rw [show a + 1 - 1 = a by ring]; ring
  have hint := ((gammaIntegrand_integrable ha z).const_mul a).sub
    (gammaIntegrand_integrable (show 0 < a + 1 by linarith) z)
  have hc : ContinuousOn (fun t : ℝ => t ^ a * Real.exp (-t)) (Set.Icc 0 z) := by
    refine ContinuousOn.mul ?_ (by fun_prop)
    exact (Real.continuous_rpow_const ha.le).continuousOn
  have h := intervalIntegral.integral_eq_sub_of_hasDerivAt_of_le hz hc hd hint
  rw [intervalIntegral.integral_sub ((gammaIntegrand_integrable ha z).const_mul a)
    (gammaIntegrand_integrable (show 0 < a + 1 by linarith) z), intervalIntegral.integral_const_mul,
    Real.zero_rpow ha.ne', zero_mul, sub_zero] at h
  rw [← add_div, eq_div_iff ha.ne']
  linarith

theorem lowerIntegral_nonneg {a z : ℝ} (hz : 0 ≤ z) : 0 ≤ ∫ t in (0 : ℝ)..z, t ^ (a - 1) * Real.exp (-t) :=
  intervalIntegral.integral_nonneg hz fun _ ht => mul_nonneg (Real.rpow_nonneg ht.1 _) (Real.exp_pos _).le

theorem lowerIntegral_le {a z : ℝ} (ha : 0 < a) (hz : 0 ≤ z) :
    (∫ t in (0 : ℝ)..z, t ^ (a - 1) * Real.exp (-t)) ≤ z ^ a / a := by
  have h1 : (∫ t in (0 : ℝ)..z, t ^ (a - 1) * Real.exp (-t)) ≤ ∫ t in (0 : ℝ)..z, t ^ (a - 1) := by
    refine intervalIntegral.integral_mono_on hz (gammaIntegrand_integrable ha z)
      (intervalIntegral.intervalIntegrable_rpow' (by linarith)) fun t ht => ?_
    refine mul_le_of_le_one_right (Real.rpow_nonneg ht.1 _) ?_
    rw [Real.exp_le_one_iff]; linarith [ht.1]
  refine h1.trans_eq ?_
  rw [integral_rpow (Or.inl (by linarith))]
  rw [sub_add_cancel, Real.zero_rpow ha.ne', sub_zero]

theorem lowerIntegral_iterate {a z : ℝ} (ha : 0 < a) (hz : 0 ≤ z) (n : ℕ) :
    (∫ t in (0 : ℝ)..z, t ^ (a - 1) * Real.exp (-t)) =
      z ^ a * Real.exp (-z) / a * ∑ k ∈ Finset.range n, z ^ k / rising (a + 1) k +
        (∫ t in (0 : ℝ)..z, t ^ (a + n - 1) * Real.exp (-t)) / rising a n := by
  induction n with
  | zero => simp [rising_zero]
  | succ n ih =>
    have hn : (0 : ℝ) < a + n := by positivity
    rw [ih, lowerIntegral_succ hn hz, Finset.sum_range_succ, rising_succ, mul_add]
    have h1 := rising_pos ha n
    have h2 := rising_pos (x := a + 1) (by linarith) n
    have e : rising a n * (a + n) = a * rising (a + 1) n := by rw [← rising_succ, rising_succ']
    have e1 : z ^ (a + n) = z ^ a * z ^ n := by
      rcases hz.eq_or_lt with rfl | hz
      · rw [Real.zero_rpow hn.ne', Real.zero_rpow ha.ne', zero_mul]
      · rw [Real.rpow_add hz, Real.rpow_natCast]
    rw [add_div, div_div, div_div, mul_comm (a + (n : ℝ)) (rising a n), e, e1, ← add_assoc]
    push_cast
    congr 1
    · congr 1
      field_simp
    · rw [add_assoc a]

/-- The integral in terms of Kummer's function. -/
theorem lowerIntegral_eq {a z : ℝ} (ha : 0 < a) (hz : 0 ≤ z) :
    (∫ t in (0 : ℝ)..z, t ^ (a - 1) * Real.exp (-t)) = z ^ a * Real.exp (-z) / a * kummer 1 (a + 1) z := by
  have hterm : ∀ k, kummerTerm 1 (a + 1) z k = z ^ k / rising (a + 1) k := by
    intro k
    have : rising 1 k = k.factorial := by
      induction k with
      | zero => simp [rising_zero]
      | succ k ih => rw [rising_succ, ih, Nat.factorial_succ]; push_cast; ring
    unfold kummerTerm
    rw [this]
    have : (k.factorial : ℝ) ≠ 0 := by positivity
    have h2 := rising_pos (x := a + 1) (by linarith) k
    field_simp
  have hsum := kummer_summable (α := 1) (β := a + 1) (z := z) zero_le_one (by linarith) (by linarith) hz
  have h1 : Tendsto (fun n => z ^ a * Real.exp (-z) / a * ∑ k ∈ Finset.range n, z ^ k / rising (a + 1) k) atTop
      (𝓝 (z ^ a * Real.exp (-z) / a * kummer 1 (a + 1) z)) := by
    refine Tendsto.const_mul _ ?_
    have := hsum.hasSum.tendsto_sum_nat
    refine this.congr fun n => Finset.sum_congr rfl fun k _ => hterm k
  have h2 : Tendsto (fun n : ℕ => (∫ t in (0 : ℝ)..z, t ^ (a + n - 1) * Real.exp (-t)) / rising a n) atTop (𝓝 0) := by
    have h3 : Tendsto (fun n => z ^ a / a * kummerTerm 1 (a + 1) z n) atTop (𝓝 0) := by
      simpa using hsum.tendsto_atTop_zero.const_mul (z ^ a / a)
    refine squeeze_zero (fun n => div_nonneg (lowerIntegral_nonneg hz) (rising_pos ha n).le) (fun n => ?_) h3
    have hn : (0 : ℝ) < a + n := by positivity
    have hr := rising_pos ha n
    have hr2 := rising_pos (x := a + 1) (by linarith) n
    have e : rising a n * (a + n) = a * rising (a + 1) n := by rw [← rising_succ, rising_succ']
    have e1 : z ^ (a + n) = z ^ a * z ^ n := by
      rcases hz.eq_or_lt with rfl | hz
      · rw [Real.zero_rpow hn.ne', Real.zero_rpow ha.ne', zero_mul]
      · rw [Real.rpow_add hz, Real.rpow_natCast]
    calc (∫ t in (0 : ℝ)..z, t ^ (a + n - 1) * Real.exp (-t)) / rising a n ≤ z ^ (a + n) / (a + n) / rising a n :=
          div_le_div_of_nonneg_right (lowerIntegral_le hn hz) hr.le
      _ = z ^ a / a * kummerTerm 1 (a + 1) z n := by
          rw [hterm, div_div, mul_comm (a + (n : ℝ)) (rising a n), e, e1]
          field_simp
  have h3 : Tendsto (fun _ : ℕ => ∫ t in (0 : ℝ)..z, t ^ (a - 1) * Real.exp (-t)) atTop
      (𝓝 (z ^ a * Real.exp (-z) / a * kummer 1 (a + 1) z + 0)) := by
    refine (h1.add h2).congr fun n => ?_
    exact (lowerIntegral_iterate ha hz n).symm
  rw [add_zero] at h3
  exact tendsto_nhds_unique tendsto_const_nhds h3

theorem lowerIntegral_le_Gamma {a z : ℝ} (ha : 0 < a) (hz : 0 ≤ z) :
    (∫ t in (0 : ℝ)..z, t ^ (a - 1) * Real.exp (-t)) ≤ Real.Gamma a := by
  rw [Real.Gamma_eq_integral ha, intervalIntegral.integral_of_le hz]
  have hi := Real.GammaIntegral_convergent ha
  have : ∀ t : ℝ, t ^ (a - 1) * Real.exp (-t) = Real.exp (-t) * t ^ (a - 1) := fun t => mul_comm _ _
  simp only [this]
  refine setIntegral_mono_set hi ?_ (Set.Ioc_subset_Ioi_self.eventuallyLE)
  filter_upwards [ae_restrict_mem measurableSet_Ioi] with t ht
  exact mul_nonneg (Real.exp_pos _).le (Real.rpow_nonneg (le_of_lt ht) _)

theorem lowerGamma_le_one {a z : ℝ} (ha : 0 < a) (hz : 0 ≤ z) : lowerGamma a z ≤ 1 :=
  (div_le_one (Real.Gamma_pos_of_pos ha)).2 (lowerIntegral_le_Gamma ha hz)

/-! ## The continued fraction with its exact tails -/

/-- The numerators of the continued fraction, over the reals. -/
noncomputable def cfNum (a z : ℝ) (n : ℕ) : ℝ :=
  if n % 2 = 0 then 1 / 2 * n * z else -(a - 1 + 1 / 2 * (n + 1)) * z

theorem cfNum_even (a z : ℝ) (k : ℕ) : cfNum a z (2 * k) = k * z := by
  unfold cfNum
  rw [if_pos (by omega)]
  push_cast; ring

theorem cfNum_odd (a z : ℝ) (k : ℕ) : cfNum a z (2 * k + 1) = -((a + k) * z) := by
  unfold cfNum
  rw [if_neg (by omega)]
  push_cast; ring

/-- The Kummer functions behind the tails. -/
noncomputable def cfMu (a z : ℝ) (n : ℕ) : ℝ := kummer ((n + 1) / 2 : ℕ) (a + n) z

theorem half_le' {a : ℝ} (ha : 0 < a) (n : ℕ) : (((n + 1) / 2 : ℕ) : ℝ) ≤ a + n := by
  have : (n + 1) / 2 ≤ n := by omega
  have h : (((n + 1) / 2 : ℕ) : ℝ) ≤ n := by exact_mod_cast this
  linarith

theorem one_le_cfMu {a z : ℝ} (ha : 0 < a) (hz : 0 ≤ z) (n : ℕ) : 1 ≤ cfMu a z n :=
  one_le_kummer (by positivity) (by positivity) (half_le' ha n) hz

theorem cfMu_pos {a z : ℝ} (ha : 0 < a) (hz : 0 ≤ z) (n : ℕ) : 0 < cfMu a z n :=
  zero_lt_one.trans_le (one_le_cfMu ha hz n)

theorem cfMu_le {a z : ℝ} (ha : 0 < a) (hz : 0 ≤ z) (n : ℕ) : cfMu a z n ≤ Real.exp z :=
  kummer_le_exp (by positivity) (by positivity) (half_le' ha n) hz

theorem cfMu_rec {a z : ℝ} (ha : 0 < a) (hz : 0 ≤ z) (m : ℕ) :
    cfMu a z m = cfMu a z (m + 1) + cfNum a z (m + 1) / ((a + m) * (a + m + 1)) * cfMu a z (m + 2) := by
  obtain ⟨k, rfl | rfl⟩ : ∃ k, m = 2 * k ∨ m = 2 * k + 1 := ⟨m / 2, by omega⟩
  · have h := kummer_contiguous_odd (α := k) (β := a + 2 * k) (z := z) (by positivity) (by positivity)
      (by have : (0 : ℝ) ≤ k := by positivity
          linarith) hz
    unfold cfMu
    rw [cfNum_odd, show (2 * k + 1) / 2 = k by omega, show (2 * k + 1 + 1) / 2 = k + 1 by omega,
      show (2 * k + 2 + 1) / 2 = k + 1 by omega]
    push_cast
    rw [show a + (2 * (k : ℝ) + 1) = a + 2 * k + 1 by ring, show a + (2 * (k : ℝ) + 2) = a + 2 * k + 2 by ring, h]
    ring
  · have h := kummer_contiguous_even (α := k + 1) (β := a + 2 * k + 1) (z := z) (by positivity) (by positivity)
      (by have : (0 : ℝ) ≤ k := by positivity
          linarith) hz
    unfold cfMu
    rw [show 2 * k + 1 + 1 = 2 * (k + 1) by ring, cfNum_even, show 2 * (k + 1) / 2 = k + 1 by omega,
      show (2 * (k + 1) + 1) / 2 = k + 1 by omega, show (2 * k + 1 + 2 + 1) / 2 = k + 2 by omega]
    push_cast
    rw [show a + (2 * (k : ℝ) + 1) = a + 2 * k + 1 by ring, show a + 2 * ((k : ℝ) + 1) = a + 2 * k + 1 + 1 by ring,
      show a + (2 * (k : ℝ) + 1 + 2) = a + 2 * k + 1 + 2 by ring, h, show (k : ℝ) + 1 + 1 = k + 2 by ring]
    ring

/-- The exact value of the continued fraction from depth `n` on. -/
noncomputable def cfTail (a z : ℝ) (n : ℕ) : ℝ := (a + n - 1) * cfMu a z (n - 1) / cfMu a z n

theorem cfTail_pos {a z : ℝ} (ha : 0 < a) (hz : 0 ≤ z) {n : ℕ} (hn : 1 ≤ n) : 0 < cfTail a z n := by
  have : (1 : ℝ) ≤ n := by exact_mod_cast hn
  exact div_pos (mul_pos (by linarith) (cfMu_pos ha hz _)) (cfMu_pos ha hz _)

theorem cfTail_rec {a z : ℝ} (ha : 0 < a) (hz : 0 ≤ z) {n : ℕ} (hn : 1 ≤ n) :
    cfTail a z n = (a + n - 1) + cfNum a z n / cfTail a z (n + 1) := by
  obtain ⟨m, rfl⟩ := Nat.exists_eq_add_of_le' hn
  have h := cfMu_rec ha hz m
  have h1 := cfMu_pos ha hz (m + 1)
  have h2 := cfMu_pos ha hz (m + 2)
  have hm : (0 : ℝ) < a + m := by positivity
  have hm1 : (0 : ℝ) < a + m + 1 := by positivity
  unfold cfTail
  simp only [Nat.add_sub_cancel]
  push_cast
  rw [show a + ((m : ℝ) + 1) - 1 = a + m by ring, show a + ((m : ℝ) + 1 + 1) - 1 = a + m + 1 by ring, h,
    show m + 1 + 1 = m + 2 by ring]
  field_simp

/-- The regularised incomplete gamma function is `z^a e^(-z) / Γ(a)` over the exact continued fraction. -/
theorem lowerGamma_eq_tail {a z : ℝ} (ha : 0 < a) (hz : 0 < z) :
    lowerGamma a z = Real.exp (a * Real.log z - z) / Real.Gamma a / cfTail a z 1 := by
  have h0 : cfMu a z 0 = 1 := by
    unfold cfMu
    simp [kummer_zero_left]
  have h1 : cfMu a z 1 = kummer 1 (a + 1) z := by
    unfold cfMu
    norm_num
  have hp := cfMu_pos ha hz.le 1
  unfold lowerGamma cfTail
  rw [lowerIntegral_eq ha hz.le, show 1 - 1 = 0 from rfl, h0, ← h1, Real.rpow_def_of_pos hz, ← Real.exp_add,
    show Real.log z * a + -z = a * Real.log z - z by ring]
  have hG := Real.Gamma_pos_of_pos ha
  rw [show a + ((1 : ℕ) : ℝ) - 1 = a by push_cast; ring]
  field_simp

/-! ## The recursion the code evaluates, over the reals -/

/-- The code's continued fraction at depth `55 - j`, over the reals. -/
noncomputable def cfCode (a z : ℝ) : ℕ → ℝ
  | 0 => a + 54
  | j + 1 => (a + (54 - j : ℕ) - 1) + cfNum a z (54 - j) / cfCode a z j

/-- The code's continued fraction from depth `n` on. -/
noncomputable def cfC (a z : ℝ) (n : ℕ) : ℝ := cfCode a z (55 - n)

theorem cfC_last (a z : ℝ) : cfC a z 55 = a + 54 := rfl

theorem cfC_rec (a z : ℝ) {n : ℕ} (h : n ≤ 54) : cfC a z n = (a + n - 1) + cfNum a z n / cfC a z (n + 1) := by
  unfold cfC
  rw [show 55 - n = (54 - n) + 1 by omega, show 55 - (n + 1) = 54 - n by omega, cfCode,
    show 54 - (54 - n) = n by omega]

/-- The bound on the error after `i` pairs of steps from the bottom. -/
noncomputable def cfErr : ℕ → ℝ
  | 0 => 12
  | i + 1 => 9 / (24 - (i : ℝ)) ^ 2 * cfErr i

theorem cfErr_nonneg (i : ℕ) : 0 ≤ cfErr i := by
  induction i with
  | zero => norm_num [cfErr]
  | succ i ih => exact mul_nonneg (by positivity) ih

theorem cfErr_small : cfErr 22 ≤ 2 / 10 ^ 25 := by
  norm_num [cfErr]

theorem odd_floor {a z k X : ℝ} (ha : 0 < a) (hz : z ≤ 12) (hk : 3 < k) (hX : a + 2 * k + 1 ≤ X) :
    (a + 2 * k) * (1 - 3 / k) ≤ (a + 2 * k) + -((a + k) * z) / X := by
  have hX0 : 0 < X := by linarith
  have h1 : (a + k) * z / X ≤ (a + k) * 12 / (a + 2 * k + 1) := by gcongr
  have h2 : (a + k) * 12 / (a + 2 * k + 1) ≤ (a + 2 * k) * (3 / k) := by
    rw [mul_div_assoc', div_le_div_iff₀ (by linarith) (by linarith)]
    nlinarith [mul_pos ha (by linarith : 0 < k), mul_pos ha ha]
  rw [neg_div]
  linarith

theorem cfTail_even_floor {a z : ℝ} (ha : 0 < a) (hz : 0 ≤ z) (k : ℕ) : a + 2 * k + 1 ≤ cfTail a z (2 * k + 2) := by
  rw [cfTail_rec ha hz (by omega), show 2 * k + 2 = 2 * (k + 1) by ring, cfNum_even]
  have := cfTail_pos ha hz (n := 2 * (k + 1) + 1) (by omega)
  have h2 : 0 ≤ ((k + 1 : ℕ) : ℝ) * z / cfTail a z (2 * (k + 1) + 1) := by positivity
  push_cast at *
  linarith

theorem cfTail_odd_floor {a z : ℝ} (ha : 0 < a) (hz0 : 0 ≤ z) (hz : z ≤ 12) {k : ℕ} (hk : 3 < k) :
    (a + 2 * k) * (1 - 3 / k) ≤ cfTail a z (2 * k + 1) := by
  rw [cfTail_rec ha hz0 (by omega), cfNum_odd]
  have hk' : (3 : ℝ) < k := by exact_mod_cast hk
  have := odd_floor ha hz hk' (cfTail_even_floor ha hz0 k)
  push_cast
  linarith

theorem div_diff {x c t : ℝ} (hc : 0 < c) (ht : 0 < t) : |x / c - x / t| = |x| * |c - t| / (c * t) := by
  rw [div_sub_div _ _ hc.ne' ht.ne', abs_div, abs_of_pos (mul_pos hc ht), show x * t - c * x = -(x * (c - t)) by ring,
    abs_neg, abs_mul]

/-- One pair of steps up the fraction: the floors are kept and the error shrinks. -/
theorem cfC_step {a z B : ℝ} (ha : 0 < a) (hz0 : 0 ≤ z) (hz : z ≤ 12) {k : ℕ} (hk : 5 ≤ k) (hk' : k ≤ 26)
    (hf : (a + 2 * (k + 1)) * (1 - 3 / (k + 1)) ≤ cfC a z (2 * k + 3))
    (he : |cfC a z (2 * k + 3) - cfTail a z (2 * k + 3)| ≤ B) :
    a + 2 * k + 1 ≤ cfC a z (2 * k + 2) ∧ (a + 2 * k) * (1 - 3 / k) ≤ cfC a z (2 * k + 1) ∧
      |cfC a z (2 * k + 1) - cfTail a z (2 * k + 1)| ≤ 9 / ((k : ℝ) - 2) ^ 2 * B := by
  have hkr : (5 : ℝ) ≤ k := by exact_mod_cast hk
  have hB : 0 ≤ B := (abs_nonneg _).trans he
  have hfl : (a + 2 * (k + 1)) * (1 - 3 / ((k : ℝ) + 1)) = (a + 2 * k + 2) * ((k - 2) / (k + 1)) := by
    field_simp; ring
  have hpos : 0 < (a + 2 * k + 2) * (((k : ℝ) - 2) / (k + 1)) := mul_pos (by linarith) (div_pos (by linarith) (by linarith))
  rw [hfl] at hf
  have hft := cfTail_odd_floor ha hz0 hz (k := k + 1) (by omega)
  push_cast at hft
  rw [hfl, show 2 * (k + 1) + 1 = 2 * k + 3 by ring] at hft
  have hC3 := hpos.trans_le hf
  have hT3 := hpos.trans_le hft
  have hr2 := cfC_rec a z (n := 2 * k + 2) (by omega)
  have ht2 := cfTail_rec ha hz0 (n := 2 * k + 2) (by omega)
  have hn2 : cfNum a z (2 * k + 2) = (k + 1) * z := by
    rw [show 2 * k + 2 = 2 * (k + 1) by ring, cfNum_even]; push_cast; ring
  rw [hn2] at hr2 ht2
  push_cast at hr2 ht2
  have hf2 : a + 2 * k + 1 ≤ cfC a z (2 * k + 2) := by
    have : 0 ≤ ((k : ℝ) + 1) * z / cfC a z (2 * k + 2 + 1) := by
      have : 0 < cfC a z (2 * k + 2 + 1) := hC3
      positivity
    linarith
  have hr1 := cfC_rec a z (n := 2 * k + 1) (by omega)
  have ht1 := cfTail_rec ha hz0 (n := 2 * k + 1) (by omega)
  rw [cfNum_odd] at hr1 ht1
  push_cast at hr1 ht1
  have hft2 := cfTail_even_floor ha hz0 (z := z) k
  refine ⟨hf2, ?_, ?_⟩
  · have := odd_floor ha hz (by linarith : (3 : ℝ) < k) hf2
    rw [hr1]
    linarith
  · have e2 : |cfC a z (2 * k + 2) - cfTail a z (2 * k + 2)| ≤
        (k + 1) * 12 * B / (((a + 2 * k + 2) * (((k : ℝ) - 2) / (k + 1))) * ((a + 2 * k + 2) * (((k : ℝ) - 2) / (k + 1)))) := by
      rw [hr2, ht2, add_sub_add_left_eq_sub, div_diff hC3 hT3, abs_of_nonneg (by positivity)]
      gcongr
    have e1 : |cfC a z (2 * k + 1) - cfTail a z (2 * k + 1)| ≤ (a + k) * 12 *
        ((k + 1) * 12 * B / (((a + 2 * k + 2) * (((k : ℝ) - 2) / (k + 1))) * ((a + 2 * k + 2) * (((k : ℝ) - 2) / (k + 1))))) /
        ((a + 2 * k + 1) * (a + 2 * k + 1)) := by
      have hC2 : 0 < cfC a z (2 * k + 1 + 1) := by
        show 0 < cfC a z (2 * k + 2)
        linarith
      rw [hr1, ht1, add_sub_add_left_eq_sub, div_diff hC2 (by linarith), abs_neg, abs_of_nonneg (by positivity)]
      gcongr
    refine e1.trans ?_
    have hk2 : (0 : ℝ) < k - 2 := by linarith
    have eq : (a + k) * 12 *
        ((k + 1) * 12 * B / (((a + 2 * k + 2) * (((k : ℝ) - 2) / (k + 1))) * ((a + 2 * k + 2) * (((k : ℝ) - 2) / (k + 1))))) /
        ((a + 2 * k + 1) * (a + 2 * k + 1)) =
        9 / ((k : ℝ) - 2) ^ 2 * B * ((4 * ((a + k) * (k + 1)) / (a + 2 * k + 1) ^ 2) * ((2 * (k + 1)) ^ 2 / (a + 2 * k + 2) ^ 2)) := by
      field_simp
      ring
    rw [eq]
    have f1 : 4 * ((a + k) * ((k : ℝ) + 1)) / (a + 2 * k + 1) ^ 2 ≤ 1 := by
      rw [div_le_one (by positivity)]
      nlinarith [sq_nonneg (a - 1)]
    have f2 : (2 * ((k : ℝ) + 1)) ^ 2 / (a + 2 * k + 2) ^ 2 ≤ 1 := by
      rw [div_le_one (by positivity)]
      apply pow_le_pow_left₀ (by positivity)
      linarith
    apply mul_le_of_le_one_right (by positivity)
    exact mul_le_one₀ f1 (by positivity) f2

theorem cfC_segment {a z : ℝ} (ha : 0 < a) (hz0 : 0 ≤ z) (hz : z ≤ 12) (i : ℕ) (hi : i ≤ 22) :
    (a + 2 * (27 - i : ℕ)) * (1 - 3 / (27 - i : ℕ)) ≤ cfC a z (2 * (27 - i) + 1) ∧
      |cfC a z (2 * (27 - i) + 1) - cfTail a z (2 * (27 - i) + 1)| ≤ cfErr i ∧
      ∀ n, 2 * (27 - i) + 1 ≤ n → n ≤ 55 → 0 < cfC a z n := by
  induction i with
  | zero =>
    refine ⟨?_, ?_, ?_⟩
    · show (a + 2 * (27 : ℕ)) * (1 - 3 / (27 : ℕ)) ≤ cfC a z 55
      rw [cfC_last]; push_cast; linarith
    · show |cfC a z 55 - cfTail a z 55| ≤ 12
      rw [cfC_last, cfTail_rec ha hz0 (by omega), show 55 = 2 * 27 + 1 from rfl, cfNum_odd]
      have h := cfTail_even_floor ha hz0 (z := z) 27
      push_cast at h ⊢
      have hp : 0 < cfTail a z 56 := by linarith
      rw [show a + 54 - (a + 55 - 1 + -((a + 27) * z) / cfTail a z 56) = (a + 27) * z / cfTail a z 56 by ring, abs_of_nonneg (by positivity), div_le_iff₀ hp]
      nlinarith
    · intro n h1 h2
      obtain rfl : n = 55 := by omega
      rw [cfC_last]; linarith
  | succ i ih =>
    obtain ⟨hf, he, hp⟩ := ih (by omega)
    obtain ⟨k, hk⟩ : ∃ k, 27 - (i + 1) = k := ⟨_, rfl⟩
    have hki : 27 - i = k + 1 := by omega
    have hkr : (24 : ℝ) - i = k - 2 := by
      have : k + i = 26 := by omega
      have : (k : ℝ) + i = 26 := by exact_mod_cast this
      linarith
    rw [hki] at hf he hp
    rw [hk]
    rw [show 2 * (k + 1) + 1 = 2 * k + 3 by ring] at hf he hp
    push_cast at hf
    obtain ⟨h2, h1, e⟩ := cfC_step ha hz0 hz (k := k) (by omega) (by omega) hf he
    refine ⟨h1, ?_, ?_⟩
    · rw [cfErr, hkr]; exact e
    · have hkr5 : (5 : ℝ) ≤ k := by
        have : 5 ≤ k := by omega
        exact_mod_cast this
      intro n hn hn'
      rcases Nat.lt_or_ge n (2 * k + 3) with hlt | hge
      · obtain rfl | rfl : n = 2 * k + 1 ∨ n = 2 * k + 2 := by omega
        · refine lt_of_lt_of_le (mul_pos (by positivity) ?_) h1
          rw [sub_pos, div_lt_one (by linarith)]; linarith
        · linarith
      · exact hp n hge hn'

/-! ## The top of the fraction -/

theorem cfNum_ratio {a z : ℝ} (ha : 1 / 2 ≤ a) (hz0 : 0 ≤ z) (hz : z ≤ 12) (m : ℕ) :
    |cfNum a z (m + 1) / ((a + m) * (a + m + 1))| ≤ 8 := by
  have hpos : 0 < (a + m) * (a + m + 1) := by positivity
  rw [abs_div, abs_of_pos hpos, div_le_iff₀ hpos]
  obtain ⟨k, rfl | rfl⟩ : ∃ k, m = 2 * k ∨ m = 2 * k + 1 := ⟨m / 2, by omega⟩
  · have hk : (0 : ℝ) ≤ k := by positivity
    rw [cfNum_odd, abs_neg, abs_of_nonneg (by positivity)]
    push_cast
    have h1 : (a + k) * z ≤ (a + k) * 12 := by gcongr
    have h2 : (a + k) * 12 ≤ (a + 2 * k) * 12 := by linarith
    have h3 : (a + 2 * k) * 12 ≤ (a + 2 * k) * (8 * (a + 2 * k + 1)) := by
      apply mul_le_mul_of_nonneg_left _ (by positivity)
      linarith
    linarith
  · have hk : (0 : ℝ) ≤ k := by positivity
    rw [show 2 * k + 1 + 1 = 2 * (k + 1) by ring, cfNum_even, abs_of_nonneg (by positivity)]
    push_cast
    have h1 : ((k : ℝ) + 1) * z ≤ (k + 1) * 12 := by gcongr
    nlinarith

/-- The code's fraction from depth `11 - j` on is the quotient of two numbers near the exact Kummer functions. -/
theorem cfC_top {a z d : ℝ} (ha : 1 / 2 ≤ a) (hz0 : 0 ≤ z) (hz : z ≤ 12) (hd : 4 ^ 11 * d ≤ 1 / 10 ^ 13)
    (hd0 : 0 ≤ d) (h11 : |cfC a z 11 - cfTail a z 11| * cfMu a z 11 ≤ d * (a + 10)) (j : ℕ) (hj : j ≤ 10) :
    ∃ W W' : ℝ, |W - cfMu a z (11 - j)| ≤ 4 ^ j * d ∧ |W' - cfMu a z (10 - j)| ≤ 4 ^ (j + 1) * d ∧
      cfC a z (11 - j) = (a + (10 - j : ℕ)) * W' / W := by
  have ha0 : 0 < a := by linarith
  have hpow : ∀ i ≤ 11, 4 ^ i * d ≤ 1 / 10 ^ 13 := fun i hi =>
    (mul_le_mul_of_nonneg_right (pow_le_pow_right₀ (by norm_num) hi) hd0).trans hd
  induction j with
  | zero =>
    have hm := cfMu_pos ha0 hz0 11
    refine ⟨cfMu a z 11, cfC a z 11 * cfMu a z 11 / (a + 10), by simpa using hd0, ?_, ?_⟩
    · show |cfC a z 11 * cfMu a z 11 / (a + 10) - cfMu a z 10| ≤ _
      have ht : cfMu a z 10 = cfTail a z 11 * cfMu a z 11 / (a + 10) := by
        unfold cfTail
        push_cast
        rw [show a + 11 - 1 = a + 10 by ring]
        field_simp
      have h10 : 0 < a + 10 := by linarith
      rw [ht, ← sub_div, ← sub_mul, abs_div, abs_mul, abs_of_pos hm, abs_of_pos h10, div_le_iff₀ h10]
      have h0 : 0 ≤ d * (a + 10) := by positivity
      have e4 : (4 : ℝ) ^ (0 + 1) * d * (a + 10) = 4 * (d * (a + 10)) := by ring
      rw [e4]
      linarith
    · show cfC a z 11 = (a + (10 : ℕ)) * (cfC a z 11 * cfMu a z 11 / (a + 10)) / cfMu a z 11
      push_cast
      field_simp
  | succ j ih =>
    obtain ⟨W, W', h1, h2, h3⟩ := ih (by omega)
    obtain ⟨m, hm⟩ : ∃ m, 10 - (j + 1) = m := ⟨_, rfl⟩
    rw [show 11 - j = m + 2 by omega] at h1 h3
    rw [show 10 - j = m + 1 by omega] at h2 h3
    rw [show 11 - (j + 1) = m + 1 by omega, hm]
    have hW' : 0 < W' := by
      have := one_le_cfMu ha0 hz0 (m + 1)
      have h4 := hpow (j + 1) (by omega)
      have := (abs_le.1 h2).1
      have : (1 : ℝ) / 10 ^ 13 < 1 := by norm_num
      linarith
    have hW : 0 < W := by
      have := one_le_cfMu ha0 hz0 (m + 2)
      have h4 := hpow j (by omega)
      have := (abs_le.1 h1).1
      have : (1 : ℝ) / 10 ^ 13 < 1 := by norm_num
      linarith
    refine ⟨W', W' + cfNum a z (m + 1) / ((a + m) * (a + m + 1)) * W, h2, ?_, ?_⟩
    · rw [cfMu_rec ha0 hz0 m, add_sub_add_comm, ← mul_sub]
      refine (abs_add_le _ _).trans ?_
      rw [abs_mul]
      have h8 := mul_le_mul (cfNum_ratio ha hz0 hz m) h1 (abs_nonneg _) (by norm_num)
      have hx : 0 ≤ (4 : ℝ) ^ j * d := by positivity
      have e1 : (4 : ℝ) ^ (j + 1) * d = 4 * (4 ^ j * d) := by ring
      have e2 : (4 : ℝ) ^ (j + 1 + 1) * d = 16 * (4 ^ j * d) := by ring
      rw [e1] at h2
      rw [e2]
      linarith
    · rw [cfC_rec a z (by omega), h3]
      push_cast
      have : 0 < a + m := by positivity
      have : 0 < a + m + 1 := by positivity
      field_simp
      ring

theorem exp_twelve_le : Real.exp 12 ≤ 600000 := by
  have h : Real.exp 12 = Real.exp 1 ^ 12 := by
    rw [← Real.exp_nat_mul]; norm_num
  rw [h]
  have h1 : Real.exp 1 ≤ 3 := Real.exp_one_lt_three.le
  calc Real.exp 1 ^ 12 ≤ 3 ^ 12 := pow_le_pow_left₀ (Real.exp_pos _).le h1 _
    _ ≤ 600000 := by norm_num

/-- The code's fraction is positive at every depth, and at the top it is within `10^-12` of the exact one. -/
theorem cfC_close {a z : ℝ} (ha : 1 / 2 ≤ a) (hz0 : 0 ≤ z) (hz : z ≤ 12) :
    (∀ n, 1 ≤ n → n ≤ 55 → 0 < cfC a z n) ∧ |cfC a z 1 - cfTail a z 1| ≤ 1 / 10 ^ 12 * cfTail a z 1 := by
  have ha0 : 0 < a := by linarith
  obtain ⟨-, he, hp⟩ := cfC_segment ha0 hz0 hz 22 le_rfl
  have he : |cfC a z 11 - cfTail a z 11| ≤ 2 / 10 ^ 25 := he.trans cfErr_small
  have h11 : |cfC a z 11 - cfTail a z 11| * cfMu a z 11 ≤ 12 / 10 ^ 21 * (a + 10) := by
    have h1 := cfMu_le ha0 hz0 11
    have h2 : Real.exp z ≤ Real.exp 12 := Real.exp_le_exp.2 hz
    have h3 : cfMu a z 11 ≤ 600000 := by linarith [exp_twelve_le]
    have := mul_le_mul he h3 (cfMu_pos ha0 hz0 11).le (by positivity)
    refine this.trans ?_
    norm_num
    linarith
  have htop := cfC_top ha hz0 hz (d := 12 / 10 ^ 21) (by norm_num) (by norm_num) h11
  have hpow : ∀ i ≤ 11, (4 : ℝ) ^ i * (12 / 10 ^ 21) ≤ 1 / 10 ^ 13 := fun i hi =>
    (mul_le_mul_of_nonneg_right (pow_le_pow_right₀ (by norm_num) hi) (by norm_num)).trans (by norm_num)
  have hsmall : (1 : ℝ) / 10 ^ 13 < 1 := by norm_num
  constructor
  · intro n hn hn'
    rcases Nat.lt_or_ge n 11 with hlt | hge
    · obtain ⟨W, W', h1, h2, h3⟩ := htop (11 - n) (by omega)
      rw [show 11 - (11 - n) = n by omega] at h1 h3
      have hW : 0 < W := by
        have := one_le_cfMu ha0 hz0 n
        have := hpow (11 - n) (by omega)
        have := (abs_le.1 h1).1
        linarith
      have hW' : 0 < W' := by
        have := one_le_cfMu ha0 hz0 (10 - (11 - n))
        have := hpow (11 - n + 1) (by omega)
        have := (abs_le.1 h2).1
        linarith
      rw [h3]
      positivity
    · exact hp n hge hn'
  · obtain ⟨W, W', h1, h2, h3⟩ := htop 10 (by omega)
    have h1 : |W - cfMu a z 1| ≤ 1 / 10 ^ 13 := h1.trans (hpow 10 (by omega))
    have h2 : |W' - cfMu a z 0| ≤ 1 / 10 ^ 13 := h2.trans (hpow 11 (by omega))
    have h3 : cfC a z 1 = (a + (0 : ℕ)) * W' / W := h3
    have h0 : cfMu a z 0 = 1 := by
      unfold cfMu
      simp [kummer_zero_left]
    have hmu := one_le_cfMu ha0 hz0 1
    have hT : cfTail a z 1 = a / cfMu a z 1 := by
      unfold cfTail
      rw [show 1 - 1 = 0 from rfl, h0]
      push_cast
      ring_nf
    rw [h0] at h2
    have hW : 9 / 10 * cfMu a z 1 ≤ W := by
      have := (abs_le.1 h1).1
      have : (1 : ℝ) / 10 ^ 13 ≤ 1 / 10 * 1 := by norm_num
      linarith
    have hW0 : 0 < W := by linarith
    have hm0 : 0 < cfMu a z 1 := by linarith
    rw [h3, hT]
    push_cast
    rw [add_zero, div_sub_div _ _ hW0.ne' hm0.ne', abs_div, abs_of_pos (mul_pos hW0 hm0),
      show a * W' * cfMu a z 1 - W * a = a * ((W' - 1) * cfMu a z 1 - (W - cfMu a z 1)) by ring, abs_mul,
      abs_of_pos ha0, div_le_iff₀ (mul_pos hW0 hm0)]
    have h4 : |(W' - 1) * cfMu a z 1 - (W - cfMu a z 1)| ≤ 2 / 10 ^ 13 * cfMu a z 1 := by
      refine (abs_sub _ _).trans ?_
      rw [abs_mul, abs_of_pos hm0]
      have := mul_le_mul_of_nonneg_right h2 hm0.le
      have h5 : (1 : ℝ) / 10 ^ 13 * 1 ≤ 1 / 10 ^ 13 * cfMu a z 1 := by gcongr
      linarith
    have h6 : 1 / 10 ^ 12 * (a / cfMu a z 1) * (W * cfMu a z 1) = a * (1 / 10 ^ 12 * W) := by
      field_simp
    rw [h6]
    apply mul_le_mul_of_nonneg_left _ ha0.le
    refine h4.trans ?_
    linarith

/-! ## The code -/

theorem igCfNumerator_fin (a z : ℝ) (n : ℕ) : igCfNumerator (.fin a) (.fin z) n = .fin (cfNum a z n) := by
  unfold igCfNumerator cfNum
  split_ifs <;> simp

theorem igCfRec_fin {a z : ℝ} (h : ∀ n, 1 ≤ n → n ≤ 55 → 0 < cfC a z n) (j : ℕ) (hj : j ≤ 54) :
    igCfRec (.fin a) (.fin z) (55 - j) = .fin (cfC a z (55 - j)) := by
  induction j with
  | zero =>
    rw [igCfRec, if_pos (by decide), Dbl.fin_add, Dbl.fin_sub]
    show Dbl.fin (a + (55 : ℕ) - 1) = .fin (a + 54)
    congr 1
    push_cast
    ring
  | succ j ih =>
    have h1 := h (55 - j) (by omega) (by omega)
    rw [igCfRec, if_neg (by unfold igLimit; omega), show 55 - (j + 1) + 1 = 55 - j by omega, ih (by omega),
      igCfNumerator_fin, Dbl.fin_div h1.ne', Dbl.fin_add, Dbl.fin_sub, Dbl.fin_add,
      cfC_rec a z (n := 55 - (j + 1)) (by omega), show 55 - (j + 1) + 1 = 55 - j by omega]

theorem cfTail_one {a z : ℝ} : cfTail a z 1 = a / cfMu a z 1 := by
  have h0 : cfMu a z 0 = 1 := by
    unfold cfMu
    simp [kummer_zero_left]
  unfold cfTail
  rw [show 1 - 1 = 0 from rfl, h0]
  push_cast
  ring_nf

/-- The value of `incomplete_gamma_continuous_fraction(a, z)` against the integral. -/
theorem igContinuousFraction_close {a z : ℝ} (ha : 1 / 2 ≤ a) (hz0 : 0 < z) (hz : z ≤ 12) :
    ∃ v, igContinuousFraction (.fin a) (.fin z) = .fin v ∧ |v - lowerGamma a z| ≤ 3 / 10 ^ 12 * Real.exp z := by
  have ha0 : 0 < a := by linarith
  obtain ⟨hpos, hclose⟩ := cfC_close ha hz0.le hz
  have hG := Real.Gamma_pos_of_pos ha0
  have hnum : Dbl.exp (.fin a * Dbl.log (.fin z) - .fin z) / Dbl.tgamma (.fin a) =
      .fin (Real.exp (a * Real.log z - z) / Real.Gamma a) := by
    rw [Dbl.log_fin hz0, Dbl.fin_mul, Dbl.fin_sub]
    exact Dbl.fin_div hG.ne'
  have hC : igCfRec (.fin a) (.fin z) 1 = .fin (cfC a z 1) := igCfRec_fin hpos 54 le_rfl
  have hP := lowerGamma_eq_tail ha0 hz0
  have hP1 := lowerGamma_le_one ha0 hz0.le
  have hN : 0 < Real.exp (a * Real.log z - z) / Real.Gamma a := div_pos (Real.exp_pos _) hG
  have hT := cfTail_pos ha0 hz0.le (n := 1) le_rfl
  have hTlow : 1 / 2 ≤ cfTail a z 1 * Real.exp z := by
    have := cfMu_le ha0 hz0.le 1
    have hm := cfMu_pos ha0 hz0.le 1
    rw [cfTail_one, div_mul_eq_mul_div, le_div_iff₀ hm]
    exact mul_le_mul ha this hm.le ha0.le
  have hC0 := hpos 1 le_rfl (by omega)
  have hexp : 1 ≤ Real.exp z := Real.one_le_exp hz0.le
  unfold igContinuousFraction
  simp only [hnum, hC]
  generalize Real.exp (a * Real.log z - z) / Real.Gamma a = N at hN hP
  generalize cfC a z 1 = C at hclose hC0
  generalize cfTail a z 1 = T at hclose hT hTlow hP
  generalize Real.exp z = E at hexp hTlow
  rw [hP] at hP1 ⊢
  have hE : 0 ≤ E := by linarith
  have hone : T - N ≤ 1 / 10 ^ 12 + 1 / 10 ^ 12 * T → |1 - N / T| ≤ 3 / 10 ^ 12 * E := by
    intro h
    rw [abs_of_nonneg (by linarith), one_sub_div hT.ne', div_le_iff₀ hT]
    have : T ≤ E * T := le_mul_of_one_le_left hT.le hexp
    nlinarith
  by_cases h : N < C
  · have hm : stdMax (.fin N) (.fin C) = .fin C := if_pos h
    rw [hm, Dbl.fin_sub]
    by_cases ht : C - N < 1 / 10 ^ 12
    · refine ⟨1, if_pos ht, hone ?_⟩
      have := (abs_le.1 hclose).1
      linarith
    · refine ⟨N / C, ?_, ?_⟩
      · rw [if_neg (by rw [Dbl.fin_lt]; exact ht), Dbl.fin_div hC0.ne']
      · rw [div_diff hC0 hT, abs_of_pos hN, div_le_iff₀ (mul_pos hC0 hT)]
        have h1 := mul_le_mul_of_nonneg_left hclose hN.le
        have h2 : N * (1 / 10 ^ 12 * T) ≤ C * (1 / 10 ^ 12 * T) := mul_le_mul_of_nonneg_right h.le (by positivity)
        have h3 : C * T ≤ E * (C * T) := le_mul_of_one_le_left (by positivity) hexp
        nlinarith
  · have hm : stdMax (.fin N) (.fin C) = .fin N := if_neg h
    rw [hm, Dbl.fin_sub, sub_self]
    refine ⟨1, if_pos (by rw [Dbl.fin_lt]; positivity), hone ?_⟩
    have := (abs_le.1 hclose).1
    push Not at h
    linarith

/-! ## The properties -/

/-- C93: continued for ever instead of 54 levels, the fraction the code evaluates is exact.  There are tails
`T` which obey the code's own recursion at every depth, with the code's own numerators, are positive, and whose
first member, put under the code's numerator, gives the regularised incomplete gamma integral. -/
theorem C93_fraction_exact (a z : ℝ) (ha : 0 < a) (hz : 0 < z) :
    ∃ T : ℕ → ℝ, (∀ n, 1 ≤ n → 0 < T n) ∧
      (∀ n, 1 ≤ n → Dbl.fin (T n) =
        (Dbl.fin a + .fin n - .fin 1) + igCfNumerator (.fin a) (.fin z) n / .fin (T (n + 1))) ∧
      Dbl.fin (lowerGamma a z) = Dbl.exp (.fin a * Dbl.log (.fin z) - .fin z) / Dbl.tgamma (.fin a) / .fin (T 1) := by
  refine ⟨cfTail a z, fun n hn => cfTail_pos ha hz.le hn, ?_, ?_⟩
  · intro n hn
    rw [igCfNumerator_fin, Dbl.fin_div (cfTail_pos ha hz.le (by omega)).ne', Dbl.fin_add, Dbl.fin_sub, Dbl.fin_add,
      ← cfTail_rec ha hz.le hn]
  · have hnum : Dbl.exp (.fin a * Dbl.log (.fin z) - .fin z) / Dbl.tgamma (.fin a) =
        .fin (Real.exp (a * Real.log z - z) / Real.Gamma a) := by
      rw [Dbl.log_fin hz, Dbl.fin_mul, Dbl.fin_sub]
      exact Dbl.fin_div (Real.Gamma_pos_of_pos ha).ne'
    rw [hnum, Dbl.fin_div (cfTail_pos ha hz.le le_rfl).ne', ← lowerGamma_eq_tail ha hz]

/-- C93.  Full claim: `incomplete_gamma(a, z)` is the regularised lower incomplete gamma integral to within the
precision of a double.  Proved, in exact arithmetic, for `1/2 ≤ a < 10` and `eps ≤ z ≤ 12`: the 54 levels of the
fraction, the clamp of the denominator and the early return of one together cost at most `3e-12 exp(z)`.
Larger `z` are in `C93_accuracy_uniform_partial`, larger `a` in `C93_accuracy`.  Missing: rounding. -/
theorem C93_accuracy_partial (b : Build) (a z : ℝ) (ha : 1 / 2 ≤ a) (ha' : a < 10) (hz0 : dblEpsilon ≤ z)
    (hz : z ≤ 12) :
    ∃ v, incompleteGamma b (.fin a) (.fin z) = .ok (.fin v) ∧ |v - lowerGamma a z| ≤ 3 / 10 ^ 12 * Real.exp z := by
  have heps : dblEpsilon ≤ 1 / 4 := by unfold dblEpsilon; norm_num
  have heps0 : 0 < dblEpsilon := by unfold dblEpsilon; positivity
  obtain ⟨v, h1, h2⟩ := igContinuousFraction_close ha (heps0.trans_le hz0) hz
  refine ⟨v, ?_, h2⟩
  simp only [incompleteGamma, Dbl.isNan, Bool.or_self, Bool.false_eq_true, if_false, Dbl.fin_lt]
  rw [if_neg (by linarith), if_neg (by linarith), if_neg (by linarith), if_pos ha', h1]
  rfl

example : (1 : ℝ) / 2 ≤ 3 ∧ (3 : ℝ) < 10 ∧ dblEpsilon ≤ 5 ∧ (5 : ℝ) ≤ 12 := by
  unfold dblEpsilon
  norm_num

/-- The chi squared probability as an incomplete gamma function. -/
theorem chi_integral_eq {x dof : ℝ} (hd : 0 < dof) (hx' : 0 < x) :
    ∫ t in (0 : ℝ)..x, t ^ (dof / 2 - 1) * Real.exp (-t / 2) / (2 ^ (dof / 2) * Real.Gamma (dof / 2)) =
        lowerGamma (1 / 2 * dof) (1 / 2 * x) := by
  have hsub := intervalIntegral.integral_comp_mul_left (a := 0) (b := x)
    (fun t : ℝ => t ^ (1 / 2 * dof - 1) * Real.exp (-t)) (c := 1 / 2) (by norm_num)
  rw [mul_zero] at hsub
  have heq : ∀ t ∈ Set.uIcc 0 x, t ^ (dof / 2 - 1) * Real.exp (-t / 2) / (2 ^ (dof / 2) * Real.Gamma (dof / 2)) =
      ((1 / 2 * t) ^ (1 / 2 * dof - 1) * Real.exp (-(1 / 2 * t))) * (1 / (2 * Real.Gamma (1 / 2 * dof))) := by
    intro t ht
    rw [Set.uIcc_of_le hx'.le] at ht
    have hG := Real.Gamma_pos_of_pos (by linarith : 0 < dof / 2)
    rw [show 1 / 2 * dof = dof / 2 by ring, Real.mul_rpow (by norm_num) ht.1, show -(1 / 2 * t) = -t / 2 by ring,
      show (1 / 2 : ℝ) ^ (dof / 2 - 1) = 2 / 2 ^ (dof / 2) by
        rw [one_div, Real.inv_rpow (by norm_num), Real.rpow_sub_one (by norm_num), inv_div]]
    field_simp
  rw [intervalIntegral.integral_congr heq, intervalIntegral.integral_mul_const, hsub, lowerGamma]
  have hG := Real.Gamma_pos_of_pos (by linarith : 0 < 1 / 2 * dof)
  rw [smul_eq_mul]
  field_simp

/-- C93.  Full claim: `chi_squared_cdf(x, dof)` is the probability that a chi squared variable with `dof` degrees
of freedom is below `x`, that is the integral of its density, to within the precision of a double.  Proved, in
exact arithmetic, for `1 ≤ dof < 20` and `2 eps ≤ x ≤ 24`.  Larger `x` are in
`C93_chi_squared_uniform_partial`, larger `dof` in `C93_chi_squared_accuracy`.  Missing: rounding. -/
theorem C93_chi_squared_partial (b : Build) (x dof : ℝ) (h1 : 1 ≤ dof) (h2 : dof < 20) (hx0 : 2 * dblEpsilon ≤ x)
    (hx : x ≤ 24) :
    ∃ v, chiSquaredCdf b (.fin x) (.fin dof) = .ok (.fin v) ∧
      |v - ∫ t in (0 : ℝ)..x, t ^ (dof / 2 - 1) * Real.exp (-t / 2) / (2 ^ (dof / 2) * Real.Gamma (dof / 2))| ≤
        3 / 10 ^ 12 * Real.exp (x / 2) := by
  have heps0 : 0 < dblEpsilon := by unfold dblEpsilon; positivity
  obtain ⟨v, hv, hb⟩ := C93_accuracy_partial b (1 / 2 * dof) (1 / 2 * x) (by linarith) (by linarith) (by linarith)
    (by linarith)
  refine ⟨v, ?_, ?_⟩
  · unfold chiSquaredCdf chiSquaredCdfUnsafe
    rw [if_neg (by simp [Dbl.isNan]; linarith), if_neg (by simp; linarith), if_neg (by rw [Dbl.fin_lt]; linarith),
      if_neg (by simp), Dbl.fin_mul, Dbl.fin_mul, hv]
  · have hx' : 0 < x := by linarith
    rw [chi_integral_eq (by linarith) hx', show x / 2 = 1 / 2 * x by ring]
    exact hb

example : (1 : ℝ) ≤ 1 ∧ (1 : ℝ) < 20 ∧ 2 * dblEpsilon ≤ 4 ∧ (4 : ℝ) ≤ 24 := by
  unfold dblEpsilon
  norm_num

/-- C93, how small the error cannot be: for an argument under the machine epsilon the code returns zero, which for
`a = 1/2` is off by more than `10^-9`, a thousand times the threshold the fraction works with. -/
theorem C93_small_argument_limit (b : Build) :
    incompleteGamma b (.fin (1 / 2)) (.fin (1 / 10 ^ 16)) = .ok (.fin 0) ∧
      1 / 10 ^ 9 < lowerGamma (1 / 2) (1 / 10 ^ 16) := by
  constructor
  · simp only [incompleteGamma, Dbl.isNan, Bool.or_self, Bool.false_eq_true, if_false, Dbl.fin_lt]
    rw [if_neg (by norm_num), if_pos (by unfold dblEpsilon; norm_num)]
    rfl
  · have hz : (0 : ℝ) < 1 / 10 ^ 16 := by positivity
    have ha : (0 : ℝ) < 1 / 2 := by norm_num
    have hmu := one_le_cfMu ha hz.le 1
    have hT : cfTail (1 / 2) (1 / 10 ^ 16) 1 ≤ 1 / 2 := by
      rw [cfTail_one]
      exact div_le_self ha.le hmu
    have hT0 := cfTail_pos ha hz.le (n := 1) le_rfl
    have hG : Real.Gamma (1 / 2) ≤ 2 := by
      rw [Real.Gamma_one_half_eq, Real.sqrt_le_left (by norm_num)]
      linarith [Real.pi_lt_four]
    have hG0 := Real.Gamma_pos_of_pos ha
    have hnum : 1 / 10 ^ 8 * (1 / 2) ≤ Real.exp (1 / 2 * Real.log (1 / 10 ^ 16) - 1 / 10 ^ 16) := by
      have e1 : Real.exp (1 / 2 * Real.log (1 / 10 ^ 16)) = 1 / 10 ^ 8 := by
        have : Real.log (1 / 10 ^ 16) = 2 * Real.log (1 / 10 ^ 8) := by
          rw [show (1 / 10 ^ 16 : ℝ) = (1 / 10 ^ 8) ^ 2 by norm_num, Real.log_pow]
          push_cast
          ring
        rw [this, show 1 / 2 * (2 * Real.log (1 / 10 ^ 8)) = Real.log (1 / 10 ^ 8) by ring,
          Real.exp_log (by positivity)]
      rw [sub_eq_add_neg, Real.exp_add, e1]
      have := Real.add_one_le_exp (-(1 / 10 ^ 16) : ℝ)
      apply mul_le_mul_of_nonneg_left _ (by positivity)
      refine le_trans ?_ this
      norm_num
    rw [lowerGamma_eq_tail ha hz, lt_div_iff₀ hT0, lt_div_iff₀ hG0]
    have h1 : 1 / 10 ^ 9 * cfTail (1 / 2) (1 / 10 ^ 16) 1 * Real.Gamma (1 / 2) ≤ 1 / 10 ^ 9 * (1 / 2) * 2 := by
      gcongr
    refine lt_of_le_of_lt h1 (lt_of_lt_of_le ?_ hnum)
    norm_num

end Albatross
