import Verif.IncompleteGammaWhole

/-! # C93 for every argument: bounds on the gamma function, Kummer's function and the upper tail

Nothing here is part of the code. -/

namespace Albatross

open scoped BigOperators
open Filter Topology MeasureTheory

/-! ## A bound on Kummer's function the kernel computes -/

/-- Upper bounds on the terms, scaled. -/
def kummerUp (beta2 f S : ℕ) : ℕ → ℕ
  | 0 => S
  | n + 1 => (28 + n) * (2 * f) * kummerUp beta2 f S n / ((beta2 + 2 * n) * (n + 1)) + 1

/-- The terms from `n` on for `fuel` terms, the last counted twice, added up. -/
def kummerSum (beta2 f : ℕ) : ℕ → ℕ → ℕ → ℕ
  | 0, _, cur => 2 * cur
  | fuel + 1, n, cur => cur + kummerSum beta2 f fuel (n + 1) ((28 + n) * (2 * f) * cur / ((beta2 + 2 * n) * (n + 1)) + 1)

theorem kummerSum_eq (beta2 f S fuel n : ℕ) :
    kummerSum beta2 f fuel n (kummerUp beta2 f S n) =
      (∑ i ∈ Finset.range fuel, kummerUp beta2 f S (n + i)) + 2 * kummerUp beta2 f S (n + fuel) := by
  induction fuel generalizing n with
  | zero => simp [kummerSum]
  | succ fuel ih =>
    have h := ih (n + 1)
    rw [kummerUp] at h
    rw [kummerSum, h, Finset.sum_range_succ']
    simp only [Nat.add_zero]
    have e : ∀ i, n + 1 + i = n + (i + 1) := fun i => by ring
    simp only [e]
    ring

theorem kummerTerm_step {β z : ℝ} (hβ : 0 < β) (n : ℕ) :
    kummerTerm 28 β z (n + 1) = kummerTerm 28 β z n * ((28 + n) / (β + n) * (z / (n + 1))) := by
  unfold kummerTerm
  rw [rising_succ, rising_succ, Nat.factorial_succ, pow_succ]
  have h1 := rising_pos hβ n
  have h2 : (0 : ℝ) < β + n := by positivity
  push_cast
  field_simp

theorem kummerTerm_up {beta2 f S : ℕ} (hb : 0 < beta2) {β z : ℝ} (hβ : (beta2 : ℝ) / 2 ≤ β) (hz0 : 0 ≤ z)
    (hz : z ≤ f) (n : ℕ) : kummerTerm 28 β z n * S ≤ kummerUp beta2 f S n := by
  have hb' : (0 : ℝ) < beta2 := by exact_mod_cast hb
  have hβ0 : 0 < β := by linarith
  induction n with
  | zero => rw [kummerTerm_zero, one_mul]; exact le_rfl
  | succ n ih =>
    rw [kummerTerm_step hβ0, kummerUp]
    have h0 : (0 : ℝ) ≤ kummerUp beta2 f S n := by positivity
    have hd : 0 < (beta2 + 2 * n) * (n + 1) := by positivity
    have h1 : (28 + (n : ℝ)) / (β + n) * (z / (n + 1)) ≤ (28 + n) * (2 * f) / ((beta2 + 2 * n) * (n + 1)) := by
      have e1 : (28 + (n : ℝ)) / (β + n) ≤ (28 + n) * 2 / (beta2 + 2 * n) := by
        rw [div_le_div_iff₀ (by positivity) (by positivity)]
        have : (beta2 : ℝ) + 2 * n ≤ 2 * (β + n) := by linarith
        nlinarith
      have e2 : z / ((n : ℝ) + 1) ≤ f / (n + 1) := div_le_div_of_nonneg_right hz (by positivity)
      calc _ ≤ (28 + (n : ℝ)) * 2 / (beta2 + 2 * n) * (f / (n + 1)) :=
            mul_le_mul e1 e2 (by positivity) (by positivity)
        _ = _ := by field_simp
    have h2 : ((28 + n) * (2 * f) * kummerUp beta2 f S n : ℝ) / ((beta2 + 2 * n) * (n + 1)) ≤
        (((28 + n) * (2 * f) * kummerUp beta2 f S n / ((beta2 + 2 * n) * (n + 1)) + 1 : ℕ) : ℝ) := by
      have := Nat.lt_div_mul_add hd (a := (28 + n) * (2 * f) * kummerUp beta2 f S n)
      rw [div_le_iff₀ (by exact_mod_cast hd)]
      have h3 : (28 + n) * (2 * f) * kummerUp beta2 f S n ≤
          ((28 + n) * (2 * f) * kummerUp beta2 f S n / ((beta2 + 2 * n) * (n + 1)) + 1) * ((beta2 + 2 * n) * (n + 1)) := by
        generalize (28 + n) * (2 * f) * kummerUp beta2 f S n = X at this ⊢
        generalize (beta2 + 2 * n) * (n + 1) = D at this ⊢
        rw [add_mul, one_mul]
        exact this.le
      exact_mod_cast h3
    refine le_trans ?_ h2
    have h3 : 0 ≤ (28 + (n : ℝ)) / (β + n) * (z / (n + 1)) := by positivity
    calc kummerTerm 28 β z n * ((28 + n) / (β + n) * (z / (n + 1))) * S =
          (kummerTerm 28 β z n * S) * ((28 + n) / (β + n) * (z / (n + 1))) := by ring
      _ ≤ kummerUp beta2 f S n * ((28 + n) * (2 * f) / ((beta2 + 2 * n) * (n + 1))) := mul_le_mul ih h1 h3 h0
      _ = _ := by ring

theorem kummer_up {beta2 f S N M : ℕ} (hb : 56 ≤ beta2) (hS : 0 < S) (hN : 2 * f ≤ N)
    (hM : kummerSum beta2 f N 0 S ≤ M) {β z : ℝ} (hβ : (beta2 : ℝ) / 2 ≤ β) (hz0 : 0 ≤ z) (hz : z ≤ f) :
    kummer 28 β z * S ≤ M := by
  have hb' : (56 : ℝ) ≤ beta2 := by exact_mod_cast hb
  have hβ0 : 0 < β := by linarith
  have hS' : (0 : ℝ) < S := by exact_mod_cast hS
  have hs := kummer_summable (α := 28) (β := β) (z := z) (by norm_num) hβ0 (by linarith) hz0
  have hnn := kummerTerm_nonneg (α := 28) (β := β) (z := z) (by norm_num) hβ0 hz0
  have hgeo : ∀ i, kummerTerm 28 β z (i + N) ≤ kummerTerm 28 β z N * (1 / 2) ^ i := by
    intro i
    induction i with
    | zero => simp
    | succ i ih =>
      rw [show i + 1 + N = (i + N) + 1 by ring, kummerTerm_step hβ0, pow_succ,
        show kummerTerm 28 β z N * ((1 / 2) ^ i * (1 / 2)) = kummerTerm 28 β z N * (1 / 2) ^ i * (1 / 2) by ring]
      have h1 : (28 + ((i + N : ℕ) : ℝ)) / (β + (i + N : ℕ)) * (z / ((i + N : ℕ) + 1)) ≤ 1 / 2 := by
        have e1 : (28 + ((i + N : ℕ) : ℝ)) / (β + (i + N : ℕ)) ≤ 1 := by
          rw [div_le_one (by positivity)]
          linarith
        have e2 : z / (((i + N : ℕ) : ℝ) + 1) ≤ 1 / 2 := by
          rw [div_le_div_iff₀ (by positivity) (by norm_num)]
          have : (2 : ℝ) * f ≤ N := by exact_mod_cast hN
          push_cast
          have : (0 : ℝ) ≤ i := by positivity
          linarith
        calc _ ≤ 1 * (1 / 2 : ℝ) := mul_le_mul e1 e2 (by positivity) (by norm_num)
          _ = _ := by ring
      exact mul_le_mul ih h1 (by positivity) (mul_nonneg (hnn _) (by positivity))
  have htail : ∑' i, kummerTerm 28 β z (i + N) ≤ kummerTerm 28 β z N * 2 := by
    have := ((summable_nat_add_iff N).2 hs).tsum_le_tsum hgeo (summable_geometric_two.mul_left _)
    rwa [tsum_mul_left, tsum_geometric_two] at this
  have hsum : kummer 28 β z = (∑ i ∈ Finset.range N, kummerTerm 28 β z i) + ∑' i, kummerTerm 28 β z (i + N) :=
    (hs.sum_add_tsum_nat_add N).symm
  have hk := kummerSum_eq beta2 f S N 0
  rw [show kummerUp beta2 f S 0 = S from rfl] at hk
  rw [hk] at hM
  have hM' : (∑ i ∈ Finset.range N, (kummerUp beta2 f S i : ℝ)) + 2 * kummerUp beta2 f S N ≤ M := by
    simp only [Nat.zero_add] at hM
    exact_mod_cast hM
  refine le_trans ?_ hM'
  rw [hsum, add_mul, Finset.sum_mul]
  have hb0 : 0 < beta2 := by omega
  refine add_le_add (Finset.sum_le_sum fun i _ => kummerTerm_up hb0 hβ hz0 hz i) ?_
  calc (∑' i, kummerTerm 28 β z (i + N)) * S ≤ kummerTerm 28 β z N * 2 * S := mul_le_mul_of_nonneg_right htail hS'.le
    _ = 2 * (kummerTerm 28 β z N * S) := by ring
    _ ≤ _ := by
      have := kummerTerm_up hb0 hβ hz0 hz (S := S) N
      linarith

/-! ## The upper tail -/

/-- What is missing from one is at most the numerator of the fraction over `z - max(a - 1, 0)`. -/
theorem one_sub_lowerGamma_le {a z : ℝ} (ha : 0 < a) (hz : 0 < z) (haz : a - 1 < z) :
    1 - lowerGamma a z ≤ Real.exp (a * Real.log z - z) / Real.Gamma a / (z - max (a - 1) 0) := by
  set m := max (a - 1) 0 with hm
  have hm0 : 0 ≤ m := le_max_right _ _
  have hma : a - 1 ≤ m := le_max_left _ _
  have hmz : m < z := max_lt haz hz
  have hG := Real.Gamma_pos_of_pos ha
  have hi : IntegrableOn (fun t : ℝ => t ^ (a - 1) * Real.exp (-t)) (Set.Ioi 0) := by
    have := Real.GammaIntegral_convergent ha
    refine this.congr_fun (fun t _ => mul_comm _ _) measurableSet_Ioi
  have hi' : IntegrableOn (fun t : ℝ => t ^ (a - 1) * Real.exp (-t)) (Set.Ioi z) :=
    hi.mono_set (Set.Ioi_subset_Ioi hz.le)
  have hsplit := intervalIntegral.integral_interval_add_Ioi hi hi'
  have hGeq : ∫ t in Set.Ioi (0 : ℝ), t ^ (a - 1) * Real.exp (-t) = Real.Gamma a := by
    rw [Real.Gamma_eq_integral ha]
    refine setIntegral_congr_fun measurableSet_Ioi fun t _ => mul_comm _ _
  rw [hGeq] at hsplit
  have hneg : m / z - 1 < 0 := by
    rw [sub_neg, div_lt_one hz]
    exact hmz
  have hpt : ∀ t ∈ Set.Ioi z, t ^ (a - 1) * Real.exp (-t) ≤
      Real.exp ((a - 1) * Real.log z - m) * Real.exp ((m / z - 1) * t) := by
    intro t ht
    have htz : z < t := ht
    have ht0 : 0 < t := hz.trans htz
    rw [Real.rpow_def_of_pos ht0, ← Real.exp_add, ← Real.exp_add, Real.exp_le_exp]
    have hl : Real.log t - Real.log z ≤ t / z - 1 := by
      rw [← Real.log_div ht0.ne' hz.ne']
      exact Real.log_le_sub_one_of_pos (by positivity)
    have hl0 : 0 ≤ Real.log t - Real.log z := by
      have := Real.log_le_log hz htz.le
      linarith
    have h1 : (a - 1) * (Real.log t - Real.log z) ≤ m * (t / z - 1) :=
      mul_le_mul hma hl hl0 hm0
    have h2 : m * (t / z - 1) = m / z * t - m := by ring
    linarith
  have hint : ∫ t in Set.Ioi z, t ^ (a - 1) * Real.exp (-t) ≤
      Real.exp ((a - 1) * Real.log z - m) * (-Real.exp ((m / z - 1) * z) / (m / z - 1)) := by
    rw [← integral_exp_mul_Ioi hneg z, ← integral_const_mul]
    exact setIntegral_mono_on hi' ((integrableOn_exp_mul_Ioi hneg z).const_mul _) measurableSet_Ioi hpt
  have hval : Real.exp ((a - 1) * Real.log z - m) * (-Real.exp ((m / z - 1) * z) / (m / z - 1)) =
      Real.exp (a * Real.log z - z) / (z - m) := by
    have e1 : (m / z - 1) * z = m - z := by field_simp
    have e2 : Real.exp (a * Real.log z - z) = z * (Real.exp ((a - 1) * Real.log z - m) * Real.exp (m - z)) := by
      rw [← Real.exp_add, show (a - 1) * Real.log z - m + (m - z) = a * Real.log z - z - Real.log z by ring,
        Real.exp_sub _ (Real.log z), Real.exp_log hz]
      field_simp
    rw [e1, e2]
    have h1 : z - m ≠ 0 := by linarith
    have h2 : m / z - 1 = -((z - m) / z) := by field_simp; ring
    rw [h2]
    field_simp
  rw [hval] at hint
  unfold lowerGamma
  rw [one_sub_div hG.ne', div_div, mul_comm (Real.Gamma a), ← div_div]
  refine div_le_div_of_nonneg_right ?_ hG.le
  linarith

/-! ## The gamma function from below -/

theorem Gamma_lower {m a : ℝ} (hm : 1 < m) (ha : m ≤ a) :
    Real.Gamma m * Real.exp ((a - m) * Real.log (m - 1)) ≤ Real.Gamma a := by
  rcases ha.eq_or_lt with rfl | ha
  · simp
  have h0 : 0 < m - 1 := by linarith
  have hGm := Real.Gamma_pos_of_pos (by linarith : 0 < m)
  have hG1 := Real.Gamma_pos_of_pos h0
  have hGa := Real.Gamma_pos_of_pos (by linarith : 0 < a)
  have hs := Real.convexOn_log_Gamma.slope_mono_adjacent (x := m - 1) (y := m) (z := a) (Set.mem_Ioi.2 h0)
    (Set.mem_Ioi.2 (by linarith)) (by linarith) ha
  simp only [Function.comp] at hs
  have hrec : Real.Gamma m = (m - 1) * Real.Gamma (m - 1) := by
    have := Real.Gamma_add_one h0.ne'
    rwa [sub_add_cancel] at this
  have hl : Real.log (Real.Gamma m) - Real.log (Real.Gamma (m - 1)) = Real.log (m - 1) := by
    rw [hrec, Real.log_mul h0.ne' hG1.ne']
    ring
  rw [hl, show m - (m - 1) = 1 by ring, div_one, le_div_iff₀ (by linarith)] at hs
  have h1 : Real.log (Real.Gamma m) + (a - m) * Real.log (m - 1) ≤ Real.log (Real.Gamma a) := by linarith
  calc Real.Gamma m * Real.exp ((a - m) * Real.log (m - 1)) =
        Real.exp (Real.log (Real.Gamma m) + (a - m) * Real.log (m - 1)) := by
          rw [Real.exp_add, Real.exp_log hGm]
    _ ≤ Real.exp (Real.log (Real.Gamma a)) := Real.exp_le_exp.2 h1
    _ = Real.Gamma a := Real.exp_log hGa

/-- The numerator of the fraction beyond `f`. -/
theorem cfNumerator_le {m a z f : ℝ} {q : ℕ} (hm : 1 < m) (ha : m ≤ a) (hq : a - m ≤ q) (haf : a ≤ f) (hmf : m - 1 ≤ f)
    (hz : f ≤ z) :
    Real.exp (a * Real.log z - z) / Real.Gamma a ≤
      Real.exp (m * Real.log f) * (f / (m - 1)) ^ q * Real.exp (-f) / Real.Gamma m := by
  have hf : 0 < f := by linarith
  have hz0 : 0 < z := by linarith
  have h0 : 0 < m - 1 := by linarith
  have hGm := Real.Gamma_pos_of_pos (by linarith : 0 < m)
  have hGa := Real.Gamma_pos_of_pos (by linarith : 0 < a)
  have h1 : Real.exp (a * Real.log z - z) ≤ Real.exp (a * Real.log f - f) := by
    rw [Real.exp_le_exp]
    have hl : Real.log z - Real.log f ≤ z / f - 1 := by
      rw [← Real.log_div hz0.ne' hf.ne']
      exact Real.log_le_sub_one_of_pos (by positivity)
    have hzf : 0 ≤ z / f - 1 := by
      rw [sub_nonneg, one_le_div hf]
      exact hz
    have h2 : a * (Real.log z - Real.log f) ≤ f * (z / f - 1) := by
      calc a * (Real.log z - Real.log f) ≤ a * (z / f - 1) := mul_le_mul_of_nonneg_left hl (by linarith)
        _ ≤ f * (z / f - 1) := mul_le_mul_of_nonneg_right haf hzf
    have h3 : f * (z / f - 1) = z - f := by field_simp
    linarith
  have h2 := Gamma_lower hm ha
  have hlog : 0 ≤ Real.log f - Real.log (m - 1) := by
    have := Real.log_le_log h0 hmf
    linarith
  have h3 : Real.exp ((a - m) * (Real.log f - Real.log (m - 1))) ≤ (f / (m - 1)) ^ q := by
    calc _ ≤ Real.exp (q * (Real.log f - Real.log (m - 1))) :=
          Real.exp_le_exp.2 (mul_le_mul_of_nonneg_right hq hlog)
      _ = _ := by rw [← Real.log_div hf.ne' h0.ne', Real.exp_nat_mul, Real.exp_log (by positivity)]
  have h4 : Real.exp (a * Real.log f - f) =
      Real.exp (m * Real.log f) * Real.exp ((a - m) * (Real.log f - Real.log (m - 1))) *
        Real.exp ((a - m) * Real.log (m - 1)) * Real.exp (-f) := by
    rw [← Real.exp_add, ← Real.exp_add, ← Real.exp_add]
    congr 1
    ring
  rw [div_le_div_iff₀ hGa hGm]
  calc Real.exp (a * Real.log z - z) * Real.Gamma m ≤ Real.exp (a * Real.log f - f) * Real.Gamma m :=
        mul_le_mul_of_nonneg_right h1 hGm.le
    _ = Real.exp (m * Real.log f) * Real.exp ((a - m) * (Real.log f - Real.log (m - 1))) * Real.exp (-f) *
        (Real.Gamma m * Real.exp ((a - m) * Real.log (m - 1))) := by rw [h4]; ring
    _ ≤ Real.exp (m * Real.log f) * (f / (m - 1)) ^ q * Real.exp (-f) * Real.Gamma a := by
      refine mul_le_mul ?_ h2 (by positivity) (by positivity)
      refine mul_le_mul_of_nonneg_right ?_ (Real.exp_pos _).le
      exact mul_le_mul_of_nonneg_left h3 (Real.exp_pos _).le

end Albatross
