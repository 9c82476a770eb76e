import Verif.GammaDensity
import Verif.QuadratureError

/-!
# The quadrature of the incomplete gamma function is accurate

Helper lemmas for C93: the pieces of the error of stats/incomplete_gamma.hpp lines 58-89 for shapes from ten on.
-/

namespace Albatross

open scoped Nat
open MeasureTheory Set

/-! ## The rule on the gamma density -/

theorem falling_succ (b : ℝ) (k : ℕ) : falling b (k + 1) = falling b k * (b - 1 - k) := by
  simp [falling, Finset.prod_range_succ]

theorem ratio_mono {a H : ℝ} (hH : a ≤ H ^ 2) {n d : ℕ} (h : ((n + d : ℕ) : ℝ) < a) :
    (H ^ 2) ^ n / falling a n ≤ (H ^ 2) ^ (n + d) / falling a (n + d) := by
  induction d with
  | zero => simp
  | succ d ih =>
    push_cast at h
    refine (ih (by push_cast; linarith)).trans ?_
    have hp : 0 < falling a (n + d) := falling_pos (by push_cast; linarith)
    have hq : 0 < a - 1 - ((n + d : ℕ) : ℝ) := by push_cast; linarith
    rw [← add_assoc, falling_succ, pow_succ, div_le_div_iff₀ hp (mul_pos hp hq)]
    have h1 : a - 1 - ((n + d : ℕ) : ℝ) ≤ H ^ 2 := by
      have : (0 : ℝ) ≤ ((n + d : ℕ) : ℝ) := by positivity
      linarith
    have h2 : 0 ≤ (H ^ 2) ^ (n + d) * falling a (n + d) := by positivity
    calc (H ^ 2) ^ (n + d) * (falling a (n + d) * (a - 1 - ((n + d : ℕ) : ℝ)))
        = (H ^ 2) ^ (n + d) * falling a (n + d) * (a - 1 - ((n + d : ℕ) : ℝ)) := by ring
      _ ≤ (H ^ 2) ^ (n + d) * falling a (n + d) * H ^ 2 := mul_le_mul_of_nonneg_left h1 h2
      _ = _ := by ring

theorem small_factor {j : ℕ} (hj : j < 20) : 4 ^ j * (j + 1) ≤ 54 * j ! := by
  interval_cases j <;> decide

theorem quad_core {a l u H B S e : ℝ} {m : ℕ} (hm : 1 ≤ m) (hm' : m < 20) (ha : (m : ℝ) + 2 ≤ a) (hl : 0 ≤ l)
    (hlu : l ≤ u) (hH : (u - l) / 2 ≤ H) (hHa : a ≤ H ^ 2) (hS : 0 ≤ S) (he : 0 ≤ e)
    (he' : 54 ≤ ((m + 1)! : ℝ) * e ^ 2) (hB : ∀ t, -1 ≤ t → t ≤ 1 → |peano m t| ≤ B)
    (hV : (H ^ 2) ^ (m + 1) * (m + 1)! ≤ S ^ 2 * falling a (m + 1)) :
    |glSumOn l u (gdens a) - ∫ x in l..u, gdens a x| ≤ ((m + 1) * e / 10 ^ 32 + B) * S := by
  set h := (u - l) / 2 with hh
  have hh0 : 0 ≤ h := by rw [hh]; linarith
  have hB0 : 0 ≤ B := (abs_nonneg _).trans (hB 0 (by norm_num) (by norm_num))
  have hf : 0 < falling a (m + 1) := falling_pos (by push_cast; linarith)
  have key := glSumOn_error (fun j => gder j a) hm (by omega)
    (fun j hj x => gder_hasDerivAt j (by
      have : (j : ℝ) ≤ m := by exact_mod_cast hj
      linarith) x) (gder_continuous (m + 1) (by push_cast; linarith)) hB hh hlu
  refine key.trans ?_
  have hpow : ∀ n : ℕ, (h ^ n) ^ 2 ≤ (H ^ 2) ^ n := fun n => by
    rw [← pow_mul, mul_comm, pow_mul]
    exact pow_le_pow_left₀ (sq_nonneg h) (pow_le_pow_left₀ hh0 hH 2) n
  have hterm : ∀ j ∈ Finset.range (m + 1), h ^ (j + 1) * |gder j a l| / j ! * (2 ^ j / 10 ^ 32) ≤ e * S / 10 ^ 32 := by
    intro j hj
    have hjm : j ≤ m := Nat.lt_succ_iff.1 (Finset.mem_range.1 hj)
    have hjm' : (j : ℝ) ≤ m := by exact_mod_cast hjm
    have hja : ((j + 1 : ℕ) : ℝ) < a := by push_cast; linarith
    have hfj : 0 < falling a (j + 1) := falling_pos hja
    have hjf : (0 : ℝ) < j ! := by positivity
    have h1 := gder_at (k := j) (b := a) (l := l) (by linarith) hl
    have hsq : (h ^ (j + 1) * |gder j a l| / j ! * 2 ^ j) ^ 2 ≤ (e * S) ^ 2 := by
      have h2 : |gder j a l| ^ 2 ≤ (j + 1)! / falling a (j + 1) := by
        refine (pow_le_pow_left₀ (abs_nonneg _) h1 2).trans (le_of_eq ?_)
        exact Real.sq_sqrt (by positivity)
      have h3 := ratio_mono hHa (n := j + 1) (d := m - j) (by
        rw [show j + 1 + (m - j) = m + 1 by omega]; push_cast; linarith)
      rw [show j + 1 + (m - j) = m + 1 by omega] at h3
      have h4 : (H ^ 2) ^ (m + 1) / falling a (m + 1) ≤ S ^ 2 / (m + 1)! := by
        rw [div_le_div_iff₀ hf (by positivity)]; exact hV
      have h5 : (4 : ℝ) ^ j * (j + 1) ≤ 54 * j ! := by exact_mod_cast small_factor (j := j) (by omega)
      have hfs : ((j + 1)! : ℝ) = (j + 1) * j ! := by rw [Nat.factorial_succ]; push_cast; ring
      calc (h ^ (j + 1) * |gder j a l| / j ! * 2 ^ j) ^ 2
          = ((h ^ (j + 1)) ^ 2 * |gder j a l| ^ 2) * (4 ^ j / (j ! : ℝ) ^ 2) := by
            rw [show (4 : ℝ) ^ j = (2 ^ j) ^ 2 by rw [← pow_mul, mul_comm, pow_mul]; norm_num]; ring
        _ ≤ ((H ^ 2) ^ (j + 1) * ((j + 1)! / falling a (j + 1))) * (4 ^ j / (j ! : ℝ) ^ 2) := by
            refine mul_le_mul_of_nonneg_right ?_ (by positivity)
            exact mul_le_mul (hpow _) h2 (by positivity) (by positivity)
        _ = (H ^ 2) ^ (j + 1) / falling a (j + 1) * ((4 ^ j * (j + 1)) / j !) := by
            rw [hfs]; field_simp
        _ ≤ (S ^ 2 / (m + 1)!) * 54 := by
            refine mul_le_mul (h3.trans h4) ?_ (by positivity) (by positivity)
            rw [div_le_iff₀ hjf]; exact h5
        _ ≤ (S ^ 2 / (m + 1)!) * ((m + 1)! * e ^ 2) := mul_le_mul_of_nonneg_left he' (by positivity)
        _ = (e * S) ^ 2 := by field_simp
    have h6 := abs_le_of_sq_le_sq hsq (mul_nonneg he hS)
    have h7 := (le_abs_self _).trans h6
    calc _ = (h ^ (j + 1) * |gder j a l| / j ! * 2 ^ j) / 10 ^ 32 := by ring
      _ ≤ _ := div_le_div_of_nonneg_right h7 (by positivity)
  have hlast : h ^ (m + 1) * ∫ t in l..u, |gder (m + 1) a t| ≤ S := by
    have hb' : ((m + 1 : ℕ) : ℝ) < a := by push_cast; linarith
    obtain ⟨hi, hv⟩ := gder_norm hb'
    have h1 := (interval_le_Ioi hi (fun t => abs_nonneg _) hl hlu).trans hv
    have h0 : 0 ≤ ∫ t in l..u, |gder (m + 1) a t| :=
      intervalIntegral.integral_nonneg hlu fun t _ => abs_nonneg _
    have hsq : (h ^ (m + 1) * ∫ t in l..u, |gder (m + 1) a t|) ^ 2 ≤ S ^ 2 := by
      rw [mul_pow]
      have h2 : (∫ t in l..u, |gder (m + 1) a t|) ^ 2 ≤ (m + 1)! / falling a (m + 1) := by
        refine (pow_le_pow_left₀ h0 h1 2).trans (le_of_eq ?_)
        exact Real.sq_sqrt (by positivity)
      refine (mul_le_mul (hpow _) h2 (by positivity) (by positivity)).trans ?_
      rw [← mul_div_assoc, div_le_iff₀ hf]
      exact hV
    exact (le_abs_self _).trans (abs_le_of_sq_le_sq hsq hS)
  have hsum := Finset.sum_le_sum hterm
  rw [Finset.sum_const, Finset.card_range, nsmul_eq_mul] at hsum
  push_cast at hsum
  calc _ ≤ ((m : ℝ) + 1) * (e * S / 10 ^ 32) + B * S := add_le_add hsum (mul_le_mul_of_nonneg_left hlast hB0)
    _ = _ := by ring

/-! ## The bounds of integration -/

/-- The lower bound of stats/incomplete_gamma.hpp lines 76-83. -/
noncomputable def igLower (a z : ℝ) : ℝ := max 0 (min z a - 12 * Real.sqrt a)

/-- The upper bound of stats/incomplete_gamma.hpp lines 76-83. -/
noncomputable def igUpper (a z : ℝ) : ℝ := min z (a + 13 * Real.sqrt (a + 1))

theorem igLower_nonneg (a z : ℝ) : 0 ≤ igLower a z := le_max_left _ _

theorem igLower_le_upper {a z : ℝ} (ha : 0 < a) (hz : 0 < z) : igLower a z ≤ igUpper a z := by
  have h1 := Real.sqrt_nonneg a
  have h2 := Real.sqrt_nonneg (a + 1)
  have h3 := min_le_left z a
  have h4 := min_le_right z a
  exact max_le (le_min hz.le (by linarith)) (le_min (by linarith) (by linarith))

theorem igUpper_pos {a z : ℝ} (ha : 0 < a) (hz : 0 < z) : 0 < igUpper a z :=
  lt_min hz (by have := Real.sqrt_nonneg (a + 1); linarith)

theorem half_le_bounded {a z a2 r H : ℝ} (h2 : a ≤ a2) (hr : 0 ≤ r) (hr2 : a2 + 1 ≤ r ^ 2)
    (hH : a2 + 13 * r ≤ 2 * H) : (igUpper a z - igLower a z) / 2 ≤ H := by
  have h1 := igLower_nonneg a z
  have h3 : Real.sqrt (a + 1) ≤ r := Real.sqrt_le_left hr |>.2 (by linarith)
  have h4 : igUpper a z ≤ a + 13 * Real.sqrt (a + 1) := min_le_right _ _
  linarith

theorem half_le {a z : ℝ} : (igUpper a z - igLower a z) / 2 ≤ 25 / 2 * Real.sqrt (a + 1) := by
  have h1 : Real.sqrt a ≤ Real.sqrt (a + 1) := Real.sqrt_le_sqrt (by linarith)
  have h2 : min z a - 12 * Real.sqrt a ≤ igLower a z := le_max_right _ _
  have h3 := Real.sqrt_nonneg a
  rcases le_total z a with h | h
  · rw [min_eq_left h] at h2
    have h4 : igUpper a z ≤ z := min_le_left _ _
    linarith
  · rw [min_eq_right h] at h2
    have h4 : igUpper a z ≤ a + 13 * Real.sqrt (a + 1) := min_le_right _ _
    linarith

theorem falling_mono {a1 a : ℝ} (h : a1 ≤ a) {k : ℕ} (hk : (k : ℝ) ≤ a1) : falling a1 k ≤ falling a k := by
  refine Finset.prod_le_prod (fun i hi => ?_) fun i _ => by linarith
  have : ((i + 1 : ℕ) : ℝ) ≤ k := by exact_mod_cast Finset.mem_range.1 hi
  push_cast at this
  linarith

theorem falling_ratio {A a : ℝ} (h : A ≤ a) {k : ℕ} (hk : (k : ℝ) ≤ A) :
    (a + 1) ^ k * falling A k ≤ (A + 1) ^ k * falling a k := by
  rw [← Finset.card_range k, ← Finset.prod_const, ← Finset.prod_const, Finset.card_range, falling, falling,
    ← Finset.prod_mul_distrib, ← Finset.prod_mul_distrib]
  refine Finset.prod_le_prod (fun i hi => ?_) fun i _ => ?_
  · have : ((i + 1 : ℕ) : ℝ) ≤ k := by exact_mod_cast Finset.mem_range.1 hi
    push_cast at this
    exact mul_nonneg (by linarith) (by linarith)
  · have : (0 : ℝ) ≤ i := by positivity
    nlinarith

/-- The error on a bounded range of shapes. -/
theorem quad_piece {a z a1 a2 r H B S e : ℝ} {m : ℕ} (hm : 1 ≤ m) (hm' : m < 20) (ha0 : (m : ℝ) + 2 ≤ a1)
    (h1 : a1 ≤ a) (h2 : a ≤ a2) (hz : 0 < z) (hr : 0 ≤ r) (hr2 : a2 + 1 ≤ r ^ 2) (hH : a2 + 13 * r ≤ 2 * H)
    (hHa : a2 ≤ H ^ 2) (hS : 0 ≤ S) (he : 0 ≤ e) (he' : 54 ≤ ((m + 1)! : ℝ) * e ^ 2)
    (hB : ∀ t, -1 ≤ t → t ≤ 1 → |peano m t| ≤ B)
    (hV : (H ^ 2) ^ (m + 1) * (m + 1)! ≤ S ^ 2 * falling a1 (m + 1)) :
    |glSumOn (igLower a z) (igUpper a z) (gdens a) - ∫ x in igLower a z..igUpper a z, gdens a x| ≤
      ((m + 1) * e / 10 ^ 32 + B) * S := by
  have hm0 : (0 : ℝ) ≤ m := by positivity
  refine quad_core hm hm' (by linarith) (igLower_nonneg a z) (igLower_le_upper (by linarith) hz)
    (half_le_bounded h2 hr hr2 hH) (by linarith) hS he he' hB (hV.trans ?_)
  exact mul_le_mul_of_nonneg_left (falling_mono h1 (by push_cast; linarith)) (by positivity)

/-- The error from a shape on. -/
theorem quad_rest {a z A B S e : ℝ} {m : ℕ} (hm : 1 ≤ m) (hm' : m < 20) (ha0 : (m : ℝ) + 2 ≤ A)
    (h1 : A ≤ a) (hz : 0 < z) (hS : 0 ≤ S) (he : 0 ≤ e) (he' : 54 ≤ ((m + 1)! : ℝ) * e ^ 2)
    (hB : ∀ t, -1 ≤ t → t ≤ 1 → |peano m t| ≤ B)
    (hV : (625 / 4) ^ (m + 1) * ((A + 1) ^ (m + 1) * (m + 1)!) ≤ S ^ 2 * falling A (m + 1)) :
    |glSumOn (igLower a z) (igUpper a z) (gdens a) - ∫ x in igLower a z..igUpper a z, gdens a x| ≤
      ((m + 1) * e / 10 ^ 32 + B) * S := by
  have hm0 : (0 : ℝ) ≤ m := by positivity
  have hH2 : (25 / 2 * Real.sqrt (a + 1)) ^ 2 = 625 / 4 * (a + 1) := by
    rw [mul_pow, Real.sq_sqrt (by linarith)]; norm_num
  refine quad_core hm hm' (by linarith) (igLower_nonneg a z) (igLower_le_upper (by linarith) hz)
    half_le (by rw [hH2]; linarith) hS he he' hB ?_
  rw [hH2]
  have hfA : 0 < falling A (m + 1) := falling_pos (by push_cast; linarith)
  have h3 := falling_ratio h1 (k := m + 1) (by push_cast; linarith)
  refine le_of_mul_le_mul_right ?_ hfA
  have hq : (0 : ℝ) ≤ (625 / 4) ^ (m + 1) * (m + 1)! := by positivity
  have hfa : 0 ≤ falling a (m + 1) := (falling_pos (by push_cast; linarith)).le
  calc (625 / 4 * (a + 1)) ^ (m + 1) * (m + 1)! * falling A (m + 1)
      = (625 / 4) ^ (m + 1) * (m + 1)! * ((a + 1) ^ (m + 1) * falling A (m + 1)) := by rw [mul_pow]; ring
    _ ≤ (625 / 4) ^ (m + 1) * (m + 1)! * ((A + 1) ^ (m + 1) * falling a (m + 1)) :=
        mul_le_mul_of_nonneg_left h3 hq
    _ = (625 / 4) ^ (m + 1) * ((A + 1) ^ (m + 1) * (m + 1)!) * falling a (m + 1) := by ring
    _ ≤ S ^ 2 * falling A (m + 1) * falling a (m + 1) := mul_le_mul_of_nonneg_right hV hfa
    _ = _ := by ring

theorem quad_10 {a z : ℝ} (h1 : 10 ≤ a) (h2 : a ≤ 15) (hz : 0 < z) :
    |glSumOn (igLower a z) (igUpper a z) (gdens a) - ∫ x in igLower a z..igUpper a z, gdens a x| ≤ 6 / 10 ^ 5 := by
  have hc : ((8 : ℕ) + 1 : ℝ) * (1 / 50) / 10 ^ 32 + 5 / 10 ^ 18 ≤ 51 / 10 ^ 19 := by norm_num
  have he' : (54 : ℝ) ≤ ((8 + 1)! : ℝ) * (1 / 50) ^ 2 := by norm_num [Nat.factorial]
  have hf : ((8 + 1)! : ℝ) = 362880 := by norm_num [Nat.factorial]
  have key : ∀ a1 a2 r H : ℝ, 10 ≤ a1 → a1 ≤ a → a ≤ a2 → 0 ≤ r → a2 + 1 ≤ r ^ 2 → a2 + 13 * r ≤ 2 * H → a2 ≤ H ^ 2 →
      (H ^ 2) ^ 9 * 362880 ≤ (11 * 10 ^ 12) ^ 2 * falling a1 9 →
      |glSumOn (igLower a z) (igUpper a z) (gdens a) - ∫ x in igLower a z..igUpper a z, gdens a x| ≤ 6 / 10 ^ 5 := by
    intro a1 a2 r H k0 k1 k2 k3 k4 k5 k6 k7
    have := quad_piece (m := 8) (S := 11 * 10 ^ 12) (e := 1 / 50) (by norm_num) (by norm_num) (by norm_num; linarith)
      k1 k2 hz k3 k4 k5 k6 (by norm_num) (by norm_num) he' (fun t => peano_8) (by rw [hf]; exact k7)
    refine this.trans ((mul_le_mul_of_nonneg_right hc (by norm_num)).trans (by norm_num))
  rcases le_total a 11 with h | h
  · exact key 10 11 3.4642 28.02 le_rfl h1 h (by norm_num) (by norm_num) (by norm_num) (by norm_num)
      (by norm_num [falling, Finset.prod_range_succ])
  rcases le_total a 13 with h' | h'
  · exact key 11 13 3.7417 30.83 (by norm_num) h h' (by norm_num) (by norm_num) (by norm_num) (by norm_num)
      (by norm_num [falling, Finset.prod_range_succ])
  · exact key 13 15 4 33.5 (by norm_num) h' h2 (by norm_num) (by norm_num) (by norm_num) (by norm_num)
      (by norm_num [falling, Finset.prod_range_succ])

theorem quad_15 {a z : ℝ} (h1 : 15 ≤ a) (h2 : a ≤ 20) (hz : 0 < z) :
    |glSumOn (igLower a z) (igUpper a z) (gdens a) - ∫ x in igLower a z..igUpper a z, gdens a x| ≤ 2 / 10 ^ 6 := by
  have hc : ((13 : ℕ) + 1 : ℝ) * (1 / 10000) / 10 ^ 32 + 3 / 10 ^ 28 ≤ 301 / 10 ^ 30 := by norm_num
  have he' : (54 : ℝ) ≤ ((13 + 1)! : ℝ) * (1 / 10000) ^ 2 := by norm_num [Nat.factorial]
  have hf : ((13 + 1)! : ℝ) = 87178291200 := by norm_num [Nat.factorial]
  have key : ∀ a1 a2 r H : ℝ, 15 ≤ a1 → a1 ≤ a → a ≤ a2 → 0 ≤ r → a2 + 1 ≤ r ^ 2 → a2 + 13 * r ≤ 2 * H → a2 ≤ H ^ 2 →
      (H ^ 2) ^ 14 * 87178291200 ≤ (65 * 10 ^ 20) ^ 2 * falling a1 14 →
      |glSumOn (igLower a z) (igUpper a z) (gdens a) - ∫ x in igLower a z..igUpper a z, gdens a x| ≤ 2 / 10 ^ 6 := by
    intro a1 a2 r H k0 k1 k2 k3 k4 k5 k6 k7
    have := quad_piece (m := 13) (S := 65 * 10 ^ 20) (e := 1 / 10000) (by norm_num) (by norm_num)
      (by norm_num; linarith) k1 k2 hz k3 k4 k5 k6 (by norm_num) (by norm_num) he' (fun t => peano_13)
      (by rw [hf]; exact k7)
    refine this.trans ((mul_le_mul_of_nonneg_right hc (by norm_num)).trans (by norm_num))
  rcases le_total a 17 with h | h
  · exact key 15 17 4.2427 36.08 le_rfl h1 h (by norm_num) (by norm_num) (by norm_num) (by norm_num)
      (by norm_num [falling, Finset.prod_range_succ])
  · exact key 17 20 4.5826 39.79 (by norm_num) h h2 (by norm_num) (by norm_num) (by norm_num) (by norm_num)
      (by norm_num [falling, Finset.prod_range_succ])

theorem quad_20 {a z : ℝ} (h1 : 20 ≤ a) (hz : 0 < z) :
    |glSumOn (igLower a z) (igUpper a z) (gdens a) - ∫ x in igLower a z..igUpper a z, gdens a x| ≤ 4 / 10 ^ 7 := by
  have hc : ((18 : ℕ) + 1 : ℝ) * (1 / 40000000) / 10 ^ 32 + 3 / 10 ^ 38 ≤ 35 / 10 ^ 39 := by norm_num
  have he' : (54 : ℝ) ≤ ((18 + 1)! : ℝ) * (1 / 40000000) ^ 2 := by norm_num [Nat.factorial]
  have hf : ((18 + 1)! : ℝ) = 121645100408832000 := by norm_num [Nat.factorial]
  have key : ∀ a1 a2 r H : ℝ, 20 ≤ a1 → a1 ≤ a → a ≤ a2 → 0 ≤ r → a2 + 1 ≤ r ^ 2 → a2 + 13 * r ≤ 2 * H → a2 ≤ H ^ 2 →
      (H ^ 2) ^ 19 * 121645100408832000 ≤ (10 ^ 31) ^ 2 * falling a1 19 →
      |glSumOn (igLower a z) (igUpper a z) (gdens a) - ∫ x in igLower a z..igUpper a z, gdens a x| ≤ 4 / 10 ^ 7 := by
    intro a1 a2 r H k0 k1 k2 k3 k4 k5 k6 k7
    have := quad_piece (m := 18) (S := 10 ^ 31) (e := 1 / 40000000) (by norm_num) (by norm_num)
      (by norm_num; linarith) k1 k2 hz k3 k4 k5 k6 (by norm_num) (by norm_num) he' (fun t => peano_18)
      (by rw [hf]; exact k7)
    refine this.trans ((mul_le_mul_of_nonneg_right hc (by norm_num)).trans (by norm_num))
  rcases le_total a 21 with h | h
  · exact key 20 21 4.6905 41 le_rfl h1 h (by norm_num) (by norm_num) (by norm_num) (by norm_num)
      (by norm_num [falling, Finset.prod_range_succ])
  rcases le_total a 23 with h' | h'
  · exact key 21 23 4.899 43.35 (by norm_num) h h' (by norm_num) (by norm_num) (by norm_num) (by norm_num)
      (by norm_num [falling, Finset.prod_range_succ])
  rcases le_total a 27 with h'' | h''
  · exact key 23 27 5.2916 47.9 (by norm_num) h' h'' (by norm_num) (by norm_num) (by norm_num) (by norm_num)
      (by norm_num [falling, Finset.prod_range_succ])
  rcases le_total a 35 with h3 | h3
  · exact key 27 35 6 56.5 (by norm_num) h'' h3 (by norm_num) (by norm_num) (by norm_num) (by norm_num)
      (by norm_num [falling, Finset.prod_range_succ])
  · have := quad_rest (m := 18) (A := 35) (S := 10 ^ 31) (e := 1 / 40000000) (by norm_num) (by norm_num)
      (by norm_num) h3 hz (by norm_num) (by norm_num) he' (fun t => peano_18)
      (by rw [hf]; norm_num [falling, Finset.prod_range_succ])
    refine this.trans ((mul_le_mul_of_nonneg_right hc (by norm_num)).trans (by norm_num))

/-! ## The tails -/

theorem gdens_integrableOn {a : ℝ} (ha : 0 < a) : IntegrableOn (gdens a) (Ioi 0) := by
  simpa using (gdens_moment ha 0).1

theorem gdens_interval {a l u : ℝ} (ha : 0 < a) (hl : 0 ≤ l) (hlu : l ≤ u) :
    IntervalIntegrable (gdens a) volume l u := by
  rw [intervalIntegrable_iff_integrableOn_Ioc_of_le hlu]
  exact (gdens_integrableOn ha).mono_set fun t ht => lt_of_le_of_lt hl ht.1

theorem gdens_integral_nonneg {a l u : ℝ} (ha : 0 < a) (hl : 0 ≤ l) (hlu : l ≤ u) : 0 ≤ ∫ t in l..u, gdens a t :=
  intervalIntegral.integral_nonneg hlu fun _ ht => gdens_nonneg ha (hl.trans ht.1)

theorem exp_neg_17 : Real.exp (-17) ≤ 42 / 10 ^ 9 := by
  rw [Real.exp_neg, inv_le_comm₀ (Real.exp_pos _) (by norm_num), show (17 : ℝ) = ((17 : ℕ) : ℝ) by norm_num,
    ← Real.exp_one_pow]
  refine le_trans ?_ (pow_le_pow_left₀ (by norm_num) Real.exp_one_gt_d9.le 17)
  norm_num

theorem exp_neg_72 : Real.exp (-72) ≤ 1 / 10 ^ 9 := by
  rw [Real.exp_neg, inv_le_comm₀ (Real.exp_pos _) (by norm_num), show (72 : ℝ) = ((72 : ℕ) : ℝ) by norm_num,
    ← Real.exp_one_pow]
  refine le_trans ?_ (pow_le_pow_left₀ (by norm_num) Real.exp_one_gt_d9.le 72)
  norm_num

/-- The mass below the lower bound. -/
theorem below_lower {a z : ℝ} (ha : 0 < a) : ∫ t in (0 : ℝ)..igLower a z, gdens a t ≤ 1 / 10 ^ 9 := by
  rcases le_or_gt (min z a - 12 * Real.sqrt a) 0 with h | h
  · have : igLower a z = 0 := max_eq_left h
    rw [this, intervalIntegral.integral_same]; norm_num
  · have hs := Real.sqrt_nonneg a
    have hle : igLower a z ≤ a - 12 * Real.sqrt a := by
      have : igLower a z = min z a - 12 * Real.sqrt a := max_eq_right h.le
      rw [this]; linarith [min_le_right z a]
    have hpos : 0 < igLower a z := lt_of_lt_of_le h (le_max_right _ _)
    rw [intervalIntegral.integral_of_le hpos.le]
    refine (gamma_lower_tail hpos (by linarith)).trans ((Real.exp_le_exp.2 ?_).trans exp_neg_72)
    have h2 : 12 * Real.sqrt a ≤ a - igLower a z := by linarith
    have h3 : (12 * Real.sqrt a) ^ 2 ≤ (a - igLower a z) ^ 2 := pow_le_pow_left₀ (by positivity) h2 2
    rw [mul_pow, Real.sq_sqrt ha.le] at h3
    have : 72 ≤ (a - igLower a z) ^ 2 / (2 * a) := by rw [le_div_iff₀ (by positivity)]; linarith
    linarith

theorem mass_above {a : ℝ} (ha : 10 ≤ a) : ∫ t in Ioi (a + 13 * Real.sqrt (a + 1)), gdens a t ≤ 42 / 10 ^ 9 := by
  set y := Real.sqrt (a + 1) with hy
  have hy2 : y ^ 2 = a + 1 := Real.sq_sqrt (by linarith)
  have hy0 : 0 ≤ y := Real.sqrt_nonneg _
  have hy3 : 3.3 ≤ y := Real.le_sqrt_of_sq_le (by norm_num; linarith)
  refine (gamma_upper_tail (by linarith) (by linarith)).trans ((Real.exp_le_exp.2 ?_).trans exp_neg_17)
  have : 17 ≤ (a + 13 * y - a) ^ 2 / (2 * (a + 13 * y)) := by
    rw [le_div_iff₀ (by linarith)]
    have e : a = y ^ 2 - 1 := by linarith
    rw [e]
    nlinarith
  linarith

/-- The mass above the upper bound. -/
theorem above_upper {a z : ℝ} (ha : 10 ≤ a) : ∫ t in igUpper a z..z, gdens a t ≤ 42 / 10 ^ 9 := by
  rcases le_or_gt z (a + 13 * Real.sqrt (a + 1)) with h | h
  · have : igUpper a z = z := min_eq_left h
    rw [this, intervalIntegral.integral_same]; norm_num
  · have he : igUpper a z = a + 13 * Real.sqrt (a + 1) := min_eq_right h.le
    have hs := Real.sqrt_nonneg (a + 1)
    rw [he, intervalIntegral.integral_of_le h.le]
    refine le_trans ?_ (mass_above ha)
    have hsub : Ioi (a + 13 * Real.sqrt (a + 1)) ⊆ Ioi 0 := fun t ht => lt_trans (by linarith : 0 < a + 13 * Real.sqrt (a + 1)) ht
    refine setIntegral_mono_set ((gdens_integrableOn (by linarith)).mono_set hsub) ?_
      (Filter.Eventually.of_forall fun t ht => ht.1)
    exact (ae_restrict_iff' measurableSet_Ioi).2 (Filter.Eventually.of_forall fun t ht =>
      gdens_nonneg (by linarith) (le_of_lt (hsub ht)))

theorem lowerGamma_eq_gdens (a z : ℝ) : lowerGamma a z = ∫ t in (0 : ℝ)..z, gdens a t := by
  unfold lowerGamma gdens
  rw [intervalIntegral.integral_div]

theorem lowerGamma_bounds {a z : ℝ} (ha : 10 ≤ a) (hz : 0 < z) :
    |lowerGamma a z - ∫ t in igLower a z..igUpper a z, gdens a t| ≤ 43 / 10 ^ 9 := by
  have ha0 : 0 < a := by linarith
  have hl := igLower_nonneg a z
  have hlu := igLower_le_upper ha0 hz
  have hu : igUpper a z ≤ z := min_le_left _ _
  have e : lowerGamma a z - ∫ t in igLower a z..igUpper a z, gdens a t =
      (∫ t in (0 : ℝ)..igLower a z, gdens a t) + ∫ t in igUpper a z..z, gdens a t := by
    rw [lowerGamma_eq_gdens, ← intervalIntegral.integral_add_adjacent_intervals (gdens_interval ha0 le_rfl hl)
      (gdens_interval ha0 hl (hlu.trans hu)), ← intervalIntegral.integral_add_adjacent_intervals
      (gdens_interval ha0 hl hlu) (gdens_interval ha0 (hl.trans hlu) hu)]
    ring
  rw [e, abs_of_nonneg (add_nonneg (gdens_integral_nonneg ha0 le_rfl hl)
    (gdens_integral_nonneg ha0 (hl.trans hlu) hu))]
  linarith [below_lower (z := z) ha0, above_upper (z := z) ha]

/-! ## The code -/

theorem igBounds_fin {a z : ℝ} (ha : 0 < a) : igBounds (.fin a) (.fin z) = (.fin (igLower a z), .fin (igUpper a z)) := by
  have hs1 : Dbl.sqrt (.fin a) = .fin (Real.sqrt a) := if_neg (not_lt.2 ha.le)
  have hs2 : Dbl.sqrt (.fin a + .fin 1) = .fin (Real.sqrt (a + 1)) := by
    rw [Dbl.fin_add]; exact if_neg (by linarith)
  have e1 : ∀ x y : ℝ, stdMin (.fin x) (.fin y) = .fin (min x y) := by
    intro x y
    unfold stdMin
    by_cases h : y < x
    · rw [if_pos (by exact h), min_eq_right h.le]
    · rw [if_neg (by exact h), min_eq_left (not_lt.1 h)]
  have e2 : ∀ x y : ℝ, stdMax (.fin x) (.fin y) = .fin (max x y) := by
    intro x y
    unfold stdMax
    by_cases h : x < y
    · rw [if_pos (by exact h), max_eq_right h.le]
    · rw [if_neg (by exact h), max_eq_left (not_lt.1 h)]
  unfold igBounds
  rw [hs1, hs2, e1]
  simp only [Dbl.fin_mul, Dbl.fin_add, Dbl.fin_sub]
  rw [e1, e2]
  rfl

theorem glSumOn_congr {l u : ℝ} {f g : ℝ → ℝ} (hl : 0 ≤ l) (hlu : l ≤ u) (hu : 0 < u)
    (h : ∀ x, 0 < x → f x = g x) : glSumOn l u f = glSumOn l u g := by
  unfold glSumOn
  congr 1
  apply List.map_congr_left
  intro x hx
  have hp := glPoints_lt x.2 (List.of_mem_zip (show (x.1, x.2) ∈ _ from hx)).2
  rw [h]
  rcases hlu.lt_or_eq with h | h
  · have : 0 < (u - l) * (1 + x.2) := mul_pos (by linarith) (by linarith)
    linarith
  · subst h; simp; linarith

theorem gdens_exp {a x : ℝ} (ha : 0 < a) (hx : 0 < x) :
    Real.exp (-x + (a - 1) * Real.log x - Real.log (Real.Gamma a)) = gdens a x := by
  have hG := Real.Gamma_pos_of_pos ha
  rw [Real.exp_sub, Real.exp_log hG, Real.exp_add, gdens, Real.rpow_def_of_pos hx, mul_comm (Real.log x)]
  ring

theorem igQuadrature_fin (b : Build) {a z : ℝ} (ha : 0 < a) (hz : 0 < z) :
    igQuadrature b (.fin a) (.fin z) = .ok (.fin (glSumOn (igLower a z) (igUpper a z) (gdens a))) := by
  have hG := Real.Gamma_pos_of_pos ha
  have hg : Dbl.lgamma (.fin a) = .fin (Real.log (Real.Gamma a)) := by
    unfold Dbl.lgamma
    simp only
    rw [abs_of_pos hG]
  unfold igQuadrature
  simp only [igBounds_fin ha, hg]
  rw [C79_code_sum b _ _ _ _ (igLower_nonneg a z) (igLower_le_upper ha hz) (igUpper_pos ha hz)]
  rw [glSumOn_congr (igLower_nonneg a z) (igLower_le_upper ha hz) (igUpper_pos ha hz) fun x hx => gdens_exp ha hx]

end Albatross
