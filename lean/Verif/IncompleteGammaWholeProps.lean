import Verif.IncompleteGammaTail

/-! # C93: the incomplete gamma function of the code against the integral, for every argument -/

namespace Albatross

open scoped BigOperators
open Filter Topology MeasureTheory

/-! ## The code's recursion, also where it divides by zero -/

theorem cfNum_ne_zero {a z : ℝ} (ha : 0 < a) (hz : 0 < z) {n : ℕ} (hn : 1 ≤ n) : cfNum a z n ≠ 0 := by
  obtain ⟨k, rfl | rfl⟩ : ∃ k, n = 2 * k ∨ n = 2 * k + 1 := ⟨n / 2, by omega⟩
  · rw [cfNum_even]
    have : (0 : ℝ) < k := by exact_mod_cast (by omega : 0 < k)
    positivity
  · rw [cfNum_odd]
    have : 0 < (a + k) * z := by positivity
    linarith

/-- At every depth the code's value is the quotient of two continuants, or infinite where the lower one is zero. -/
theorem igCfRec_continuants {a z : ℝ} (ha : 0 < a) (hz : 0 < z) (j : ℕ) (hj : j ≤ 54) :
    (cfP a z (55 - j + 1) ≠ 0 ∧
        igCfRec (.fin a) (.fin z) (55 - j) = .fin (cfP a z (55 - j) / cfP a z (55 - j + 1))) ∨
      (cfP a z (55 - j + 1) = 0 ∧ cfP a z (55 - j) ≠ 0 ∧
        (igCfRec (.fin a) (.fin z) (55 - j) = .pinf ∨ igCfRec (.fin a) (.fin z) (55 - j) = .ninf)) := by
  induction j with
  | zero =>
    left
    rw [Nat.sub_zero, cfP_bottom, cfP_last]
    refine ⟨one_ne_zero, ?_⟩
    rw [igCfRec, if_pos (by decide), Dbl.fin_add, Dbl.fin_sub]
    congr 1
    push_cast
    ring
  | succ j ih =>
    obtain ⟨n, hn⟩ : ∃ n, 55 - j = n + 1 := ⟨54 - j, by omega⟩
    have h0 := ih (by omega)
    rw [hn] at h0
    rw [show 55 - (j + 1) = n by omega]
    have hn1 : 1 ≤ n := by omega
    have hn54 : n ≤ 54 := by omega
    have hc := cfNum_ne_zero ha hz hn1
    have hrec := cfP_rec a z hn54
    rw [show n + 1 + 1 = n + 2 by ring] at h0
    have hstep : igCfRec (.fin a) (.fin z) n =
        .fin (a + n - 1) + .fin (cfNum a z n) / igCfRec (.fin a) (.fin z) (n + 1) := by
      rw [igCfRec, if_neg (by unfold igLimit; omega), igCfNumerator_fin, Dbl.fin_add, Dbl.fin_sub]
    rw [hstep]
    rcases h0 with ⟨hq, hv⟩ | ⟨hq, hp, hv⟩
    · rw [hv]
      by_cases hp : cfP a z (n + 1) = 0
      · right
        refine ⟨hp, ?_, ?_⟩
        · rw [hrec, hp, mul_zero, zero_add]
          exact mul_ne_zero hc hq
        · rw [hp, zero_div]
          have : Dbl.fin (cfNum a z n) / Dbl.fin 0 = Dbl.signInf (cfNum a z n) := if_pos rfl
          rw [this]
          unfold Dbl.signInf
          rcases lt_or_gt_of_ne hc with h | h
          · rw [if_neg (by linarith), if_pos h]
            exact Or.inr rfl
          · rw [if_pos h]
            exact Or.inl rfl
      · left
        refine ⟨hp, ?_⟩
        rw [Dbl.fin_div (div_ne_zero hp hq), Dbl.fin_add, hrec]
        congr 1
        field_simp
    · left
      refine ⟨hp, ?_⟩
      have hzero : Dbl.fin (cfNum a z n) / igCfRec (.fin a) (.fin z) (n + 1) = .fin 0 := by
        rcases hv with hv | hv <;> rw [hv] <;> rfl
      rw [hzero, Dbl.fin_add, hrec, hq]
      congr 1
      field_simp
      ring

theorem igCfRec_one {a z : ℝ} (ha : 0 < a) (hz : 0 < z) :
    (cfP a z 2 ≠ 0 ∧ igCfRec (.fin a) (.fin z) 1 = .fin (cfP a z 1 / cfP a z 2)) ∨
      (cfP a z 2 = 0 ∧ igCfRec (.fin a) (.fin z) 1 = .ninf) := by
  rcases igCfRec_continuants ha hz 54 le_rfl with ⟨h1, h2⟩ | ⟨h1, h2, _⟩
  · exact Or.inl ⟨h1, h2⟩
  · right
    refine ⟨h1, ?_⟩
    have h1' : cfP a z 2 = 0 := h1
    rcases igCfRec_continuants ha hz 53 (by norm_num) with ⟨h3, h4⟩ | ⟨_, h4, _⟩
    · have h4' : igCfRec (.fin a) (.fin z) 2 = .fin 0 := by
        have : igCfRec (.fin a) (.fin z) 2 = .fin (cfP a z 2 / cfP a z 3) := h4
        rw [this, h1', zero_div]
      rw [igCfRec, if_neg (by unfold igLimit; omega), igCfNumerator_fin, h4', Dbl.fin_add, Dbl.fin_sub]
      have hneg : cfNum a z 1 < 0 := by
        have := cfNum_odd a z 0
        rw [mul_zero, zero_add] at this
        rw [this]
        have : 0 < (a + ((0 : ℕ) : ℝ)) * z := by
          push_cast
          rw [add_zero]
          positivity
        linarith
      have : Dbl.fin (cfNum a z 1) / Dbl.fin 0 = .ninf := by
        show (if (0 : ℝ) = 0 then Dbl.signInf (cfNum a z 1) else _) = _
        rw [if_pos rfl]
        unfold Dbl.signInf
        rw [if_neg (by linarith), if_pos hneg]
      rw [this]
      rfl
    · exact absurd h1' h4

/-! ## What the code returns -/

/-- The numerator of the fraction. -/
noncomputable def cfN (a z : ℝ) : ℝ := Real.exp (a * Real.log z - z) / Real.Gamma a

theorem cfN_pos {a z : ℝ} (ha : 0 < a) : 0 < cfN a z := div_pos (Real.exp_pos _) (Real.Gamma_pos_of_pos ha)

/-- What the fraction gives: one, or the numerator over a denominator which exceeds it. -/
theorem igContinuousFraction_cases {a z : ℝ} (ha : 0 < a) (hz : 0 < z) :
    ∃ v, igContinuousFraction (.fin a) (.fin z) = .fin v ∧
      ((v = 1 ∧ (cfP a z 2 ≤ 0 ∨ (0 < cfP a z 2 ∧ cfP a z 1 / cfP a z 2 - cfN a z < 1 / 10 ^ 12))) ∨
        (0 < cfP a z 2 ∧ cfN a z < cfP a z 1 / cfP a z 2 ∧ v = cfN a z / (cfP a z 1 / cfP a z 2))) := by
  have hN := cfN_pos (z := z) ha
  have hnum : Dbl.exp (.fin a * Dbl.log (.fin z) - .fin z) / Dbl.tgamma (.fin a) = .fin (cfN a z) := by
    rw [Dbl.log_fin hz, Dbl.fin_mul, Dbl.fin_sub]
    exact Dbl.fin_div (Real.Gamma_pos_of_pos ha).ne'
  unfold igContinuousFraction
  simp only [hnum]
  have hsmall : ∀ x : Dbl, ¬ (Dbl.fin (cfN a z) < x) →
      (if stdMax (.fin (cfN a z)) x - .fin (cfN a z) < .fin (1 / 10 ^ 12) then Dbl.fin 1
        else .fin (cfN a z) / stdMax (.fin (cfN a z)) x) = .fin 1 := by
    intro x hx
    have hm : stdMax (.fin (cfN a z)) x = .fin (cfN a z) := if_neg hx
    rw [hm, Dbl.fin_sub, sub_self, if_pos (by rw [Dbl.fin_lt]; positivity)]
  rcases igCfRec_one ha hz with ⟨h2, hC⟩ | ⟨h2, hC⟩
  · rw [hC]
    rcases lt_or_gt_of_ne h2 with h2 | h2
    · refine ⟨1, hsmall _ ?_, Or.inl ⟨rfl, Or.inl h2.le⟩⟩
      rw [Dbl.fin_lt]
      have := div_neg_of_pos_of_neg (cfP_one_pos ha hz h2.le) h2
      linarith
    · by_cases h : cfN a z < cfP a z 1 / cfP a z 2
      · have hm : stdMax (.fin (cfN a z)) (.fin (cfP a z 1 / cfP a z 2)) = .fin (cfP a z 1 / cfP a z 2) := if_pos h
        rw [hm, Dbl.fin_sub]
        by_cases ht : cfP a z 1 / cfP a z 2 - cfN a z < 1 / 10 ^ 12
        · exact ⟨1, if_pos ht, Or.inl ⟨rfl, Or.inr ⟨h2, ht⟩⟩⟩
        · refine ⟨_, ?_, Or.inr ⟨h2, h, rfl⟩⟩
          rw [if_neg (by rw [Dbl.fin_lt]; exact ht), Dbl.fin_div (by linarith)]
      · refine ⟨1, hsmall _ h, Or.inl ⟨rfl, Or.inr ⟨h2, ?_⟩⟩⟩
        have : (0 : ℝ) < 1 / 10 ^ 12 := by positivity
        linarith
  · rw [hC]
    exact ⟨1, hsmall _ (by simp), Or.inl ⟨rfl, Or.inl h2.le⟩⟩

/-- The fraction stopped after 54 levels is not above the exact one. -/
theorem cf_le_tail {a z : ℝ} (ha : 0 < a) (hz : 0 < z) (h2 : 0 < cfP a z 2) :
    cfP a z 1 / cfP a z 2 = cfTail a z 1 * (1 - cfR a z / cfP a z 2) := by
  rw [cfP_one ha hz.le]
  field_simp

theorem igContinuousFraction_one_sided {a z : ℝ} (ha : 0 < a) (hz : 0 < z) :
    ∃ v, igContinuousFraction (.fin a) (.fin z) = .fin v ∧ lowerGamma a z ≤ v ∧ v ≤ 1 := by
  obtain ⟨v, hv, h⟩ := igContinuousFraction_cases ha hz
  have hP1 := lowerGamma_le_one ha hz.le
  have hN := cfN_pos (z := z) ha
  refine ⟨v, hv, ?_, ?_⟩
  · rcases h with ⟨rfl, _⟩ | ⟨h2, hlt, rfl⟩
    · exact hP1
    · rw [lowerGamma_eq_tail ha hz]
      have hC : 0 < cfP a z 1 / cfP a z 2 := by linarith
      refine div_le_div_of_nonneg_left hN.le hC ?_
      rw [cf_le_tail ha hz h2]
      have hT := cfTail_pos ha hz.le (n := 1) le_rfl
      have := div_pos (cfR_pos ha hz) h2
      nlinarith
  · rcases h with ⟨rfl, _⟩ | ⟨h2, hlt, rfl⟩
    · exact le_rfl
    · rw [div_le_one (by linarith)]
      exact hlt.le

/-- Where the fraction has converged and the numerator dominates the upper tail, the value is within `10^-6`. -/
theorem igContinuousFraction_mid {a z : ℝ} (ha : 0 < a) (hz : 0 < z) (h2 : 0 < cfP a z 2)
    (hR : cfR a z ≤ 1 / (2 * 10 ^ 6) * cfP a z 2) (hQ : 3 * (1 - lowerGamma a z) ≤ cfN a z) :
    ∃ v, igContinuousFraction (.fin a) (.fin z) = .fin v ∧ |v - lowerGamma a z| ≤ 1 / 10 ^ 6 := by
  obtain ⟨v, hv, h⟩ := igContinuousFraction_cases ha hz
  have hP1 := lowerGamma_le_one ha hz.le
  have hN := cfN_pos (z := z) ha
  have hT := cfTail_pos ha hz.le (n := 1) le_rfl
  have hC := cf_le_tail ha hz h2
  have hr0 := div_pos (cfR_pos ha hz) h2
  have hr : cfR a z / cfP a z 2 ≤ 1 / (2 * 10 ^ 6) := by
    rw [div_le_iff₀ h2]
    exact hR
  have hP : lowerGamma a z = cfN a z / cfTail a z 1 := lowerGamma_eq_tail ha hz
  refine ⟨v, hv, ?_⟩
  generalize cfR a z / cfP a z 2 = r at hr hr0 hC
  generalize cfP a z 1 / cfP a z 2 = C at hC h
  generalize cfTail a z 1 = T at hT hP hC
  generalize cfN a z = N at hN hP h hQ
  have hNT : N = lowerGamma a z * T := by
    rw [hP, div_mul_cancel₀ _ hT.ne']
  generalize lowerGamma a z = P at hP1 hQ hNT hP
  rcases h with ⟨rfl, hc | ⟨_, hc⟩⟩ | ⟨_, hlt, rfl⟩
  · linarith
  · rw [abs_of_nonneg (by linarith)]
    by_contra hcon
    push Not at hcon
    have h1 : (1 - P - r) * T < 1 / 10 ^ 12 := by
      rw [hC, hNT] at hc
      nlinarith
    have h3 : 3 * (1 - P) ≤ T := by
      have : P * T ≤ T := by nlinarith
      linarith
    have h4 : (1 - P) / 2 ≤ 1 - P - r := by
      have : r ≤ (1 - P) / 2 := by
        have : (1 : ℝ) / (2 * 10 ^ 6) = 1 / 10 ^ 6 / 2 := by norm_num
        linarith
      linarith
    have h5 : (1 - P) / 2 * (3 * (1 - P)) < 1 / 10 ^ 12 := by
      have hp0 : 0 ≤ (1 - P) / 2 := by
        have : (0 : ℝ) < 1 / 10 ^ 6 := by positivity
        linarith
      calc (1 - P) / 2 * (3 * (1 - P)) ≤ (1 - P - r) * T := mul_le_mul h4 h3 (by linarith) (by linarith)
        _ < _ := h1
    have h6 : (1 / 10 ^ 6 : ℝ) * (1 / 10 ^ 6) ≤ (1 - P) * (1 - P) :=
      mul_le_mul hcon.le hcon.le (by positivity) (by linarith [show (0 : ℝ) < 1 / 10 ^ 6 by positivity])
    norm_num at h5 h6
    linarith
  · have hC0 : 0 < C := by linarith
    have hdiff : N / C - P = N / C * r := by
      rw [hP]
      have h1r : T * (1 - r) ≠ 0 := by rw [← hC]; exact hC0.ne'
      rw [hC, div_sub_div _ _ h1r hT.ne', div_mul_eq_mul_div, div_eq_div_iff (mul_ne_zero h1r hT.ne') h1r]
      ring
    rw [hdiff, abs_of_nonneg (by positivity)]
    have h1 : N / C ≤ 1 := (div_le_one hC0).2 hlt.le
    have h0 : 0 ≤ N / C := by positivity
    have : N / C * r ≤ 1 * r := mul_le_mul_of_nonneg_right h1 hr0.le
    have e : (1 : ℝ) / (2 * 10 ^ 6) ≤ 1 / 10 ^ 6 := by norm_num
    linarith

/-! ## The five boxes -/

theorem rising_mono {x y : ℝ} (hx : 0 ≤ x) (h : x ≤ y) (n : ℕ) : rising x n ≤ rising y n := rising_le hx h n

/-- On a box the loss of the fraction is small against its denominator. -/
theorem cfR_box {c d f l M : ℕ} (hbox : boxCheck c d 12 f l (2 ^ 700) (2 ^ 25000) = true)
    (hM : kummerSum (112 + c) f 70 0 1000 ≤ M) (hf : 2 * f ≤ 70)
    (hnum : (f : ℝ) ^ 55 * Nat.factorial 27 * (M / 1000) ≤ 1 / (2 * 10 ^ 6) * l * rising ((c : ℝ) / 2 + 28) 28)
    (hl : 0 < l) {a z : ℝ} (ha : (c : ℝ) / 2 ≤ a) (ha0 : 0 < a) (hd : a < (d : ℝ) / 2) (hz0 : 12 ≤ z) (hz : z < f) :
    0 < cfP a z 2 ∧ cfR a z ≤ 1 / (2 * 10 ^ 6) * cfP a z 2 := by
  have h1 := cfP_two_floor hbox ha hd (by push_cast; linarith) hz
  have hl' : (0 : ℝ) < l := by exact_mod_cast hl
  refine ⟨by linarith, ?_⟩
  have hmu : cfMu a z 56 * ((1000 : ℕ) : ℝ) ≤ M := by
    have := kummer_up (beta2 := 112 + c) (f := f) (S := 1000) (N := 70) (M := M) (by omega) (by norm_num) hf hM
      (β := a + (56 : ℕ)) (z := z) (by push_cast; linarith) (by linarith) hz.le
    have e : cfMu a z 56 = kummer 28 (a + (56 : ℕ)) z := by
      unfold cfMu
      norm_num
    rw [e]
    exact this
  push_cast at hmu
  have hc0 : (0 : ℝ) ≤ c := by positivity
  have hr := rising_mono (x := (c : ℝ) / 2 + 28) (y := a + 28) (by positivity) (by linarith) 28
  have hr0 := rising_pos (x := (c : ℝ) / 2 + 28) (by positivity) 28
  have hr1 := rising_pos (x := a + 28) (by linarith) 28
  have hz55 : z ^ 55 ≤ (f : ℝ) ^ 55 := pow_le_pow_left₀ (by linarith) hz.le 55
  have hmu0 := cfMu_pos ha0 (by linarith : 0 ≤ z) 56
  unfold cfR
  rw [div_le_iff₀ hr1]
  have hfac : (0 : ℝ) < (Nat.factorial 27 : ℝ) := by positivity
  calc z ^ 55 * (Nat.factorial 27 : ℝ) * cfMu a z 56 ≤ (f : ℝ) ^ 55 * Nat.factorial 27 * (M / 1000) := by
        refine mul_le_mul (mul_le_mul_of_nonneg_right hz55 hfac.le) ?_ hmu0.le
          (mul_nonneg (pow_nonneg (Nat.cast_nonneg f) 55) hfac.le)
        rw [le_div_iff₀ (by norm_num)]
        exact hmu
    _ ≤ 1 / (2 * 10 ^ 6) * l * rising ((c : ℝ) / 2 + 28) 28 := hnum
    _ ≤ 1 / (2 * 10 ^ 6) * cfP a z 2 * rising (a + 28) 28 := by
        refine mul_le_mul ?_ hr hr0.le ?_
        · exact mul_le_mul_of_nonneg_left h1 (by norm_num)
        · have : 0 ≤ cfP a z 2 := by linarith
          positivity

theorem igContinuousFraction_box {c d f l M : ℕ} (hbox : boxCheck c d 12 f l (2 ^ 700) (2 ^ 25000) = true)
    (hM : kummerSum (112 + c) f 70 0 1000 ≤ M) (hf : 2 * f ≤ 70)
    (hnum : (f : ℝ) ^ 55 * Nat.factorial 27 * (M / 1000) ≤ 1 / (2 * 10 ^ 6) * l * rising ((c : ℝ) / 2 + 28) 28)
    (hl : 0 < l) {a z : ℝ} (ha : (c : ℝ) / 2 ≤ a) (ha0 : 0 < a) (ha10 : a < 10) (hd : a < (d : ℝ) / 2) (hz0 : 12 ≤ z)
    (htail : ∀ z, (f : ℝ) ≤ z → 1 - lowerGamma a z ≤ 1 / 10 ^ 6) :
    ∃ v, igContinuousFraction (.fin a) (.fin z) = .fin v ∧ |v - lowerGamma a z| ≤ 1 / 10 ^ 6 := by
  have hzpos : 0 < z := by linarith
  by_cases hzf : z < f
  · obtain ⟨h2, hR⟩ := cfR_box hbox hM hf hnum hl ha ha0 hd hz0 hzf
    refine igContinuousFraction_mid ha0 hzpos h2 hR ?_
    have h1 := one_sub_lowerGamma_le ha0 hzpos (by linarith)
    have hm : max (a - 1) 0 ≤ 9 := max_le (by linarith) (by norm_num)
    have hN := cfN_pos (z := z) ha0
    have : 1 - lowerGamma a z ≤ cfN a z / 3 := h1.trans (div_le_div_of_nonneg_left hN.le (by norm_num) (by linarith))
    linarith
  · obtain ⟨v, hv, h1, h2⟩ := igContinuousFraction_one_sided ha0 hzpos
    refine ⟨v, hv, ?_⟩
    have := htail z (not_lt.1 hzf)
    rw [abs_of_nonneg (by linarith)]
    linarith


theorem exp_low (f : ℕ) : (2.7182818283 : ℝ) ^ f ≤ Real.exp f := by
  rw [← Real.exp_one_pow]
  exact pow_le_pow_left₀ (by norm_num) Real.exp_one_gt_d9.le f

theorem tail_box {m q f : ℕ} (hm : 2 ≤ m) {a z : ℝ} (ha : (m : ℝ) ≤ a) (hq : a ≤ m + q) (hqf : m + q ≤ f)
    (hnum : (f : ℝ) ^ m * (f / ((m : ℝ) - 1)) ^ q * 10 ^ 6 ≤
      (2.7182818283 : ℝ) ^ f * ((m - 1).factorial : ℝ) * (f - (m + q) + 1)) (hz : (f : ℝ) ≤ z) :
    1 - lowerGamma a z ≤ 1 / 10 ^ 6 := by
  have hm' : (2 : ℝ) ≤ m := by exact_mod_cast hm
  have hqf' : (m : ℝ) + q ≤ f := by exact_mod_cast hqf
  have hq0 : (0 : ℝ) ≤ q := by positivity
  have hf0 : (0 : ℝ) < f := by linarith
  have h1 := one_sub_lowerGamma_le (a := a) (z := z) (by linarith) (by linarith) (by linarith)
  have hmax : max (a - 1) 0 = a - 1 := max_eq_left (by linarith)
  rw [hmax] at h1
  have h2 := cfNumerator_le (m := m) (a := a) (z := z) (f := f) (q := q) (by linarith) ha (by linarith) (by linarith)
    (by linarith) hz
  have hG : Real.Gamma (m : ℝ) = (m - 1).factorial := by
    have := Real.Gamma_nat_eq_factorial (m - 1)
    rw [← this]
    congr 1
    rw [Nat.cast_sub (by omega)]
    push_cast
    ring
  have he : Real.exp ((m : ℝ) * Real.log f) = (f : ℝ) ^ m := by
    rw [Real.exp_nat_mul, Real.exp_log hf0]
  rw [hG, he] at h2
  have hfac : (0 : ℝ) < ((m - 1).factorial : ℝ) := by positivity
  have hlow := exp_low f
  have hX : 0 ≤ (f : ℝ) ^ m * (f / ((m : ℝ) - 1)) ^ q := by
    have : 0 ≤ (f : ℝ) / ((m : ℝ) - 1) := div_nonneg hf0.le (by linarith)
    positivity
  have hgap : (f : ℝ) - (m + q) + 1 ≤ z - (a - 1) := by linarith
  have hgap0 : (0 : ℝ) < (f : ℝ) - (m + q) + 1 := by linarith
  refine h1.trans ?_
  calc _ ≤ (f : ℝ) ^ m * (f / ((m : ℝ) - 1)) ^ q * Real.exp (-f) / (m - 1).factorial / (z - (a - 1)) :=
        div_le_div_of_nonneg_right h2 (by linarith)
    _ ≤ (f : ℝ) ^ m * (f / ((m : ℝ) - 1)) ^ q * Real.exp (-f) / (m - 1).factorial / ((f : ℝ) - (m + q) + 1) :=
        div_le_div_of_nonneg_left (by positivity) hgap0 hgap
    _ ≤ 1 / 10 ^ 6 := by
      rw [Real.exp_neg, div_div, ← div_eq_mul_inv, div_div, div_le_div_iff₀ (by positivity) (by norm_num), one_mul]
      refine hnum.trans ?_
      rw [mul_assoc]
      exact mul_le_mul_of_nonneg_right hlow (by positivity)

theorem tail_box_one {a z : ℝ} (ha : 1 / 2 ≤ a) (ha3 : a < 3) (hz : 24 ≤ z) : 1 - lowerGamma a z ≤ 1 / 10 ^ 6 := by
  have ha0 : 0 < a := by linarith
  have h1 := one_sub_lowerGamma_le (a := a) (z := z) ha0 (by linarith) (by linarith)
  have hmax : max (a - 1) 0 ≤ 2 := max_le (by linarith) (by norm_num)
  have hG : 1 / 12 ≤ Real.Gamma a := by
    have e1 := Real.Gamma_add_one ha0.ne'
    have e2 := Real.Gamma_add_one (by linarith : a + 1 ≠ 0)
    have e3 : Real.Gamma 2 ≤ Real.Gamma (a + 1 + 1) :=
      Real.Gamma_strictMonoOn_Ici.monotoneOn (Set.mem_Ici.2 le_rfl) (Set.mem_Ici.2 (by linarith)) (by linarith)
    rw [Real.Gamma_two, e2, e1] at e3
    have hG0 := Real.Gamma_pos_of_pos ha0
    have : (a + 1) * (a * Real.Gamma a) ≤ 12 * Real.Gamma a := by
      have : (a + 1) * a ≤ 12 := by nlinarith
      nlinarith
    linarith
  have hN : Real.exp (a * Real.log z - z) ≤ 24 ^ 3 * Real.exp (-24) := by
    have hl : Real.log z - Real.log 24 ≤ z / 24 - 1 := by
      rw [← Real.log_div (by linarith) (by norm_num)]
      exact Real.log_le_sub_one_of_pos (by positivity)
    have h24 : 0 ≤ Real.log 24 := Real.log_nonneg (by norm_num)
    have e : (24 : ℝ) ^ 3 * Real.exp (-24) = Real.exp (3 * Real.log 24 - 24) := by
      rw [sub_eq_add_neg, Real.exp_add, show (3 : ℝ) * Real.log 24 = (3 : ℕ) * Real.log 24 by norm_num,
        Real.exp_nat_mul, Real.exp_log (by norm_num)]
    rw [e, Real.exp_le_exp]
    have h2 : a * (Real.log z - Real.log 24) ≤ a * (z / 24 - 1) := mul_le_mul_of_nonneg_left hl ha0.le
    have h3 : a * (z / 24 - 1) ≤ 24 * (z / 24 - 1) := mul_le_mul_of_nonneg_right (by linarith) (by linarith)
    have h4 : a * Real.log 24 ≤ 3 * Real.log 24 := mul_le_mul_of_nonneg_right ha3.le h24
    linarith
  have hlow := exp_low 24
  push_cast at hlow
  refine h1.trans ?_
  have hN0 := Real.exp_pos (a * Real.log z - z)
  calc _ ≤ 24 ^ 3 * Real.exp (-24) / (1 / 12) / (22 : ℝ) := by
        refine div_le_div₀ (by positivity) ?_ (by norm_num) (by linarith)
        exact div_le_div₀ (by positivity) hN (by norm_num) hG
    _ ≤ 1 / 10 ^ 6 := by
      rw [Real.exp_neg, ← div_eq_mul_inv, div_div, div_div, div_le_div_iff₀ (by positivity) (by norm_num), one_mul]
      have : (24 : ℝ) ^ 3 * 10 ^ 6 ≤ (2.7182818283 : ℝ) ^ 24 * (1 / 12 * 22) := by norm_num
      exact this.trans (mul_le_mul_of_nonneg_right hlow (by norm_num))

theorem kummerSum_one : kummerSum (112 + 1) 24 70 0 1000 ≤ 500681107 := by decide +kernel

theorem boxNumber_one : ((24 : ℕ) : ℝ) ^ 55 * Nat.factorial 27 * (((500681107 : ℕ) : ℝ) / 1000) ≤
    1 / (2 * 10 ^ 6) * ((15 * 10 ^ 73 : ℕ) : ℝ) * rising (((1 : ℕ) : ℝ) / 2 + 28) 28 := by
  rw [rising]
  simp only [Finset.prod_range_succ, Finset.prod_range_zero]
  norm_num [Nat.factorial]

theorem kummerSum_two : kummerSum (112 + 6) 27 70 0 1000 ≤ 1647639408 := by decide +kernel

theorem boxNumber_two : ((27 : ℕ) : ℝ) ^ 55 * Nat.factorial 27 * (((1647639408 : ℕ) : ℝ) / 1000) ≤
    1 / (2 * 10 ^ 6) * ((94 * 10 ^ 74 : ℕ) : ℝ) * rising (((6 : ℕ) : ℝ) / 2 + 28) 28 := by
  rw [rising]
  simp only [Finset.prod_range_succ, Finset.prod_range_zero]
  norm_num [Nat.factorial]

theorem kummerSum_three : kummerSum (112 + 10) 30 70 0 1000 ≤ 5776881786 := by decide +kernel

theorem boxNumber_three : ((30 : ℕ) : ℝ) ^ 55 * Nat.factorial 27 * (((5776881786 : ℕ) : ℝ) / 1000) ≤
    1 / (2 * 10 ^ 6) * ((27 * 10 ^ 76 : ℕ) : ℝ) * rising (((10 : ℕ) : ℝ) / 2 + 28) 28 := by
  rw [rising]
  simp only [Finset.prod_range_succ, Finset.prod_range_zero]
  norm_num [Nat.factorial]

theorem kummerSum_four : kummerSum (112 + 14) 33 70 0 1000 ≤ 19374181135 := by decide +kernel

theorem boxNumber_four : ((33 : ℕ) : ℝ) ^ 55 * Nat.factorial 27 * (((19374181135 : ℕ) : ℝ) / 1000) ≤
    1 / (2 * 10 ^ 6) * ((75 * 10 ^ 77 : ℕ) : ℝ) * rising (((14 : ℕ) : ℝ) / 2 + 28) 28 := by
  rw [rising]
  simp only [Finset.prod_range_succ, Finset.prod_range_zero]
  norm_num [Nat.factorial]

theorem kummerSum_five : kummerSum (112 + 18) 34 70 0 1000 ≤ 20296709173 := by decide +kernel

theorem boxNumber_five : ((34 : ℕ) : ℝ) ^ 55 * Nat.factorial 27 * (((20296709173 : ℕ) : ℝ) / 1000) ≤
    1 / (2 * 10 ^ 6) * ((14 * 10 ^ 79 : ℕ) : ℝ) * rising (((18 : ℕ) : ℝ) / 2 + 28) 28 := by
  rw [rising]
  simp only [Finset.prod_range_succ, Finset.prod_range_zero]
  norm_num [Nat.factorial]


/-- All boxes together. -/
theorem igContinuousFraction_uniform {a z : ℝ} (ha : 1 / 2 ≤ a) (ha10 : a < 10) (hz : 12 ≤ z) :
    ∃ v, igContinuousFraction (.fin a) (.fin z) = .fin v ∧ |v - lowerGamma a z| ≤ 1 / 10 ^ 6 := by
  have ha0 : 0 < a := by linarith
  by_cases h1 : a < 3
  · exact igContinuousFraction_box (d := 6) boxCheck_one kummerSum_one (by norm_num) boxNumber_one (by norm_num)
      (by push_cast; linarith) ha0 ha10 (by push_cast; linarith) hz
      (fun z h => tail_box_one ha h1 (by push_cast at h; linarith))
  by_cases h2 : a < 5
  · exact igContinuousFraction_box (d := 10) boxCheck_two kummerSum_two (by norm_num) boxNumber_two (by norm_num)
      (by push_cast; linarith) ha0 ha10 (by push_cast; linarith) hz
      (fun z h => tail_box (m := 3) (q := 2) (f := 27) (by norm_num) (by push_cast; linarith) (by push_cast; linarith) (by norm_num) (by norm_num [Nat.factorial]) h)
  by_cases h3 : a < 7
  · exact igContinuousFraction_box (d := 14) boxCheck_three kummerSum_three (by norm_num) boxNumber_three (by norm_num)
      (by push_cast; linarith) ha0 ha10 (by push_cast; linarith) hz
      (fun z h => tail_box (m := 5) (q := 2) (f := 30) (by norm_num) (by push_cast; linarith) (by push_cast; linarith) (by norm_num) (by norm_num [Nat.factorial]) h)
  by_cases h4 : a < 9
  · exact igContinuousFraction_box (d := 18) boxCheck_four kummerSum_four (by norm_num) boxNumber_four (by norm_num)
      (by push_cast; linarith) ha0 ha10 (by push_cast; linarith) hz
      (fun z h => tail_box (m := 7) (q := 2) (f := 33) (by norm_num) (by push_cast; linarith) (by push_cast; linarith) (by norm_num) (by norm_num [Nat.factorial]) h)
  exact igContinuousFraction_box (d := 20) boxCheck_five kummerSum_five (by norm_num) boxNumber_five (by norm_num)
      (by push_cast; linarith) ha0 ha10 (by push_cast; linarith) hz
      (fun z h => tail_box (m := 9) (q := 1) (f := 34) (by norm_num) (by push_cast; linarith) (by push_cast; linarith) (by norm_num) (by norm_num [Nat.factorial]) h)

/-! ## The properties -/

/-- C93: for `a < 10` and every argument the code lets through, the value returned is never below the integral and
never above one, though the fraction may divide by zero on the way. -/
theorem C93_never_below (b : Build) (a z : ℝ) (ha : dblEpsilon ≤ a) (ha' : a < 10) (hz : dblEpsilon ≤ z) :
    ∃ v, incompleteGamma b (.fin a) (.fin z) = .ok (.fin v) ∧ lowerGamma a z ≤ v ∧ v ≤ 1 := by
  have heps0 : 0 < dblEpsilon := by unfold dblEpsilon; positivity
  obtain ⟨v, h1, h2⟩ := igContinuousFraction_one_sided (heps0.trans_le ha) (heps0.trans_le hz)
  refine ⟨v, ?_, h2⟩
  simp only [incompleteGamma, Dbl.isNan, Bool.or_self, Bool.false_eq_true, if_false, Dbl.fin_lt]
  rw [if_neg (by linarith), if_neg (by linarith), if_neg (by linarith), if_pos ha', h1]
  rfl

example : dblEpsilon ≤ 9 ∧ (9 : ℝ) < 10 ∧ dblEpsilon ≤ 500 := by
  unfold dblEpsilon
  norm_num

/-- C93.  Full claim: `incomplete_gamma(a, z)` is the regularised lower incomplete gamma integral to within the
precision of a double.  Proved, in exact arithmetic, for `1/2 ≤ a < 10` and every `z` from the machine epsilon on:
the 54 levels of the fraction, the clamp of the denominator and the early return of one together cost at most
`1e-6`.  `C93_accuracy` has the quadrature used for `a ≥ 10`.  Missing: rounding. -/
theorem C93_accuracy_uniform_partial (b : Build) (a z : ℝ) (ha : 1 / 2 ≤ a) (ha' : a < 10) (hz : dblEpsilon ≤ z) :
    ∃ v, incompleteGamma b (.fin a) (.fin z) = .ok (.fin v) ∧ |v - lowerGamma a z| ≤ 1 / 10 ^ 6 := by
  rcases le_total z 12 with h12 | h12
  · obtain ⟨v, h1, h2⟩ := C93_accuracy_partial b a z ha ha' hz h12
    refine ⟨v, h1, h2.trans ?_⟩
    have h3 : Real.exp z ≤ Real.exp 12 := Real.exp_le_exp.2 h12
    have h4 : Real.exp 12 ≤ 163000 := by
      rw [show (12 : ℝ) = ((12 : ℕ) : ℝ) by norm_num, ← Real.exp_one_pow]
      refine (pow_le_pow_left₀ (Real.exp_pos 1).le Real.exp_one_lt_d9.le 12).trans ?_
      norm_num
    have : 3 / 10 ^ 12 * Real.exp z ≤ 3 / 10 ^ 12 * 163000 :=
      mul_le_mul_of_nonneg_left (h3.trans h4) (by norm_num)
    refine this.trans (by norm_num)
  · have heps : dblEpsilon ≤ 1 / 4 := by unfold dblEpsilon; norm_num
    obtain ⟨v, h1, h2⟩ := igContinuousFraction_uniform ha ha' h12
    refine ⟨v, ?_, h2⟩
    simp only [incompleteGamma, Dbl.isNan, Bool.or_self, Bool.false_eq_true, if_false, Dbl.fin_lt]
    rw [if_neg (by linarith), if_neg (by linarith), if_neg (by linarith), if_pos ha', h1]
    rfl

example : (1 : ℝ) / 2 ≤ 19 / 2 ∧ (19 : ℝ) / 2 < 10 ∧ dblEpsilon ≤ 40 := by
  unfold dblEpsilon
  norm_num

/-- C93.  Full claim: `chi_squared_cdf(x, dof)` is the probability that a chi squared variable with `dof` degrees
of freedom is below `x`, that is the integral of its density, to within the precision of a double.  Proved, in
exact arithmetic, for `1 ≤ dof < 20` and every `x` from twice the machine epsilon on: the value is within `1e-6`
of that probability and never below it.  `C93_chi_squared_accuracy` has twenty or more
degrees of freedom.  Missing: rounding. -/
theorem C93_chi_squared_uniform_partial (b : Build) (x dof : ℝ) (h1 : 1 ≤ dof) (h2 : dof < 20)
    (hx0 : 2 * dblEpsilon ≤ x) :
    ∃ v, chiSquaredCdf b (.fin x) (.fin dof) = .ok (.fin v) ∧
      (∫ t in (0 : ℝ)..x, t ^ (dof / 2 - 1) * Real.exp (-t / 2) / (2 ^ (dof / 2) * Real.Gamma (dof / 2))) ≤ v ∧
      v ≤ (∫ t in (0 : ℝ)..x, t ^ (dof / 2 - 1) * Real.exp (-t / 2) / (2 ^ (dof / 2) * Real.Gamma (dof / 2))) +
        1 / 10 ^ 6 ∧ v ≤ 1 := by
  have heps0 : 0 < dblEpsilon := by unfold dblEpsilon; positivity
  have heps : dblEpsilon ≤ 1 / 2 := by unfold dblEpsilon; norm_num
  obtain ⟨v, hv, hb⟩ := C93_accuracy_uniform_partial b (1 / 2 * dof) (1 / 2 * x) (by linarith) (by linarith)
    (by linarith)
  obtain ⟨v', hv', hb'⟩ := C93_never_below b (1 / 2 * dof) (1 / 2 * x) (by linarith) (by linarith) (by linarith)
  have hvv : v' = v := by
    rw [hv] at hv'
    simpa using hv'.symm
  rw [hvv] at hb'
  have hx' : 0 < x := by linarith
  rw [chi_integral_eq (by linarith : 0 < dof) hx']
  refine ⟨v, ?_, hb'.1, by linarith [(abs_le.1 hb).2], hb'.2⟩
  unfold chiSquaredCdf chiSquaredCdfUnsafe
  rw [if_neg (by simp [Dbl.isNan]; linarith), if_neg (by simp; linarith), if_neg (by rw [Dbl.fin_lt]; linarith),
    if_neg (by simp), Dbl.fin_mul, Dbl.fin_mul, hv]

example : (1 : ℝ) ≤ 12 ∧ (12 : ℝ) < 20 ∧ 2 * dblEpsilon ≤ 100 := by
  unfold dblEpsilon
  norm_num

end Albatross
