import Mathlib.Algebra.Order.Round
import Mathlib.Data.Int.Log
import Mathlib.Algebra.Order.Archimedean.Real.Basic
import Mathlib.Algebra.Order.Field.Power
import Mathlib.Data.Real.Basic
import Mathlib.Tactic.Linarith
import Mathlib.Tactic.Ring
import Mathlib.Tactic.FieldSimp
import Mathlib.Tactic.NormNum
import Mathlib.Tactic.Positivity
import Mathlib.Tactic.GCongr

/-! # Rounding to doubles

Independent of the model: which reals are doubles, and what any rounding to nearest does. The exponent is not bounded, so
neither overflow nor gradual underflow is described. -/

namespace Albatross

/-- A double: an integer of at most 53 bits times a power of two. -/
def IsDouble (x : ℝ) : Prop := ∃ m e : ℤ, |m| ≤ 2 ^ 53 ∧ x = m * (2 : ℝ) ^ e

/-- Rounding to nearest, however ties are broken, as long as it is symmetric. `fl x` is the double that an operation of
the processor with the exact result `x` returns. -/
structure Rounding where
  fl : ℝ → ℝ
  isDouble : ∀ x, IsDouble (fl x)
  nearest : ∀ x d, IsDouble d → |x - fl x| ≤ |x - d|
  neg : ∀ x, fl (-x) = -fl x

theorem IsDouble.neg {x : ℝ} (h : IsDouble x) : IsDouble (-x) := by
  obtain ⟨m, e, hm, rfl⟩ := h
  exact ⟨-m, e, by rwa [abs_neg], by push_cast; ring⟩

theorem isDouble_int (m : ℤ) (hm : |m| ≤ 2 ^ 53) : IsDouble m := ⟨m, 0, hm, by simp⟩

theorem isDouble_zero : IsDouble 0 := by simpa using isDouble_int 0 (by norm_num)

theorem isDouble_one : IsDouble 1 := by simpa using isDouble_int 1 (by norm_num)

theorem isDouble_nat (n : ℕ) (hn : n ≤ 2 ^ 53) : IsDouble n := by
  simpa using isDouble_int n (by rw [abs_of_nonneg (by positivity)]; exact_mod_cast hn)

/-- Doubles of at least `2 ^ e` are multiples of `2 ^ (e - 52)`. -/
theorem IsDouble.multiple {d : ℝ} (h : IsDouble d) {e : ℤ} (he : (2 : ℝ) ^ e ≤ |d|) :
    ∃ m : ℤ, d = m * (2 : ℝ) ^ (e - 52) := by
  obtain ⟨m, k, hm, rfl⟩ := h
  by_cases hk : e - 52 ≤ k
  · obtain ⟨j, hj⟩ := Int.eq_ofNat_of_zero_le (sub_nonneg.2 hk)
    refine ⟨m * 2 ^ j, ?_⟩
    have : k = j + (e - 52) := by omega
    rw [this, zpow_add₀ (by norm_num), zpow_natCast]
    push_cast
    ring
  · have hk' : k ≤ e - 53 := by omega
    have hm' : |(m : ℝ)| ≤ 2 ^ 53 := by exact_mod_cast hm
    have h1 : (2 : ℝ) ^ k ≤ 2 ^ (e - 53) := zpow_le_zpow_right₀ (by norm_num) hk'
    have h2 : (2 : ℝ) ^ e = 2 ^ 53 * 2 ^ (e - 53) := by
      rw [← zpow_natCast, ← zpow_add₀ (by norm_num)]; congr 1; push_cast; ring
    have h3 : |(m : ℝ) * 2 ^ k| = |(m : ℝ)| * 2 ^ k := by rw [abs_mul, abs_of_pos (by positivity : (0 : ℝ) < 2 ^ k)]
    have hp : (0 : ℝ) < 2 ^ k := by positivity
    have h4 : |(m : ℝ)| * 2 ^ k = 2 ^ e := by
      refine le_antisymm ?_ (h3 ▸ he)
      rw [h2]
      exact mul_le_mul hm' h1 hp.le (by positivity)
    have h5 : (2 : ℝ) ^ e = 2 ^ 52 * 2 ^ (e - 52) := by
      rw [← zpow_natCast, ← zpow_add₀ (by norm_num)]; congr 1; push_cast; ring
    rcases abs_choice (m : ℝ) with h | h
    · exact ⟨2 ^ 52, by rw [h] at h4; rw [h4, h5]; push_cast; ring⟩
    · exact ⟨-2 ^ 52, by
        rw [h] at h4
        have : (m : ℝ) * 2 ^ k = -(2 ^ e) := by linarith
        rw [this, h5]; push_cast; ring⟩

/-- The exponent of a positive number. -/
theorem exists_exponent {x : ℝ} (hx : 0 < x) : ∃ e : ℤ, (2 : ℝ) ^ e ≤ x ∧ x < 2 ^ (e + 1) :=
  ⟨Int.log 2 x, by simpa using Int.zpow_log_le_self (b := 2) (by norm_num) hx,
    by simpa using Int.lt_zpow_succ_log_self (b := 2) (by norm_num) x⟩

theorem ulp_double (e : ℤ) : (2 : ℝ) ^ e = 2 ^ 52 * 2 ^ (e - 52) := by
  rw [← zpow_natCast, ← zpow_add₀ (by norm_num)]; congr 1; push_cast; ring

/-- A positive number has a nearest double, at most half a unit in the last place away. -/
theorem exists_nearest {x : ℝ} (hx : 0 < x) : ∃ c, IsDouble c ∧ (∀ d, IsDouble d → |x - c| ≤ |x - d|) ∧
    |x - c| ≤ 2⁻¹ ^ 53 * x := by
  obtain ⟨e, h1, h2⟩ := exists_exponent hx
  set w := (2 : ℝ) ^ (e - 52) with hw
  have hwp : 0 < w := by positivity
  have h52 := ulp_double e
  rw [← hw] at h52
  have h53 : (2 : ℝ) ^ (e + 1) = 2 ^ 53 * w := by
    rw [zpow_add₀ (by norm_num), h52]; norm_num; ring
  have hround : ∀ z : ℤ, |x - round (x / w) * w| ≤ |x - z * w| := by
    intro z
    have h := round_le (x / w) z
    have e1 : ∀ t : ℝ, |x - t * w| = |x / w - t| * w := by
      intro t
      rw [← abs_of_pos hwp, ← abs_mul, abs_of_pos hwp]
      congr 1
      field_simp
    rw [e1, e1]
    exact mul_le_mul_of_nonneg_right h hwp.le
  have hm1 : (1 : ℤ) ≤ round (x / w) + 1 ∧ round (x / w) ≤ 2 ^ 53 := by
    have ha := abs_le.1 (abs_sub_round (x / w))
    have hb : x / w < 2 ^ 53 := by rw [div_lt_iff₀ hwp, ← h53]; exact h2
    have hc : 0 < x / w := div_pos hx hwp
    constructor
    · have : (-1 : ℝ) < round (x / w) := by linarith [ha.2]
      have : (-1 : ℤ) < round (x / w) := by exact_mod_cast this
      omega
    · have : ((round (x / w) : ℤ) : ℝ) < 2 ^ 53 + 1 := by linarith [ha.1]
      have : round (x / w) < 2 ^ 53 + 1 := by exact_mod_cast this
      omega
  refine ⟨round (x / w) * w, ⟨round (x / w), e - 52, ?_, rfl⟩, fun d hd => ?_, ?_⟩
  · rw [abs_of_nonneg (by omega)]; exact hm1.2
  · by_cases h : (2 : ℝ) ^ e ≤ |d|
    · obtain ⟨z, rfl⟩ := hd.multiple h
      exact hround z
    · have hd' : d < 2 ^ e := (le_abs_self d).trans_lt (not_le.1 h)
      refine (hround (2 ^ 52)).trans ?_
      have hc : (((2 : ℤ) ^ 52 : ℤ) : ℝ) * w = 2 ^ e := by rw [h52, Int.cast_pow]; rfl
      rw [hc, abs_of_nonneg (by linarith), abs_of_nonneg (by linarith)]
      linarith
  · have ha := abs_sub_round (x / w)
    have : |x - round (x / w) * w| = |x / w - round (x / w)| * w := by
      rw [← abs_of_pos hwp, ← abs_mul, abs_of_pos hwp]
      congr 1
      field_simp
    rw [this]
    calc _ ≤ 1 / 2 * w := mul_le_mul_of_nonneg_right ha hwp.le
      _ = 2⁻¹ ^ 53 * 2 ^ e := by rw [h52]; ring
      _ ≤ _ := mul_le_mul_of_nonneg_left h1 (by positivity)

/-- There is a rounding to nearest. -/
theorem exists_rounding : Nonempty Rounding := by
  classical
  let pos : ℝ → ℝ := fun x => if h : 0 < x then (exists_nearest h).choose else 0
  have hpos : ∀ x, 0 < x → IsDouble (pos x) ∧ ∀ d, IsDouble d → |x - pos x| ≤ |x - d| := by
    intro x hx
    have := (exists_nearest hx).choose_spec
    simp only [pos, dif_pos hx]
    exact ⟨this.1, this.2.1⟩
  have hneg : ∀ x, ¬ 0 < x → pos x = 0 := fun x hx => by simp only [pos, dif_neg hx]
  refine ⟨⟨fun x => pos x - pos (-x), fun x => ?_, fun x d hd => ?_, fun x => by rw [neg_neg, neg_sub]⟩⟩
  · rcases lt_trichotomy x 0 with h | h | h
    · rw [hneg x (by linarith), zero_sub]
      exact (hpos (-x) (by linarith)).1.neg
    · rw [h, neg_zero, sub_self]; exact isDouble_zero
    · rw [hneg (-x) (by linarith), sub_zero]
      exact (hpos x h).1
  · rcases lt_trichotomy x 0 with h | h | h
    · rw [hneg x (by linarith), zero_sub]
      have := (hpos (-x) (by linarith)).2 _ hd.neg
      rw [show x - -pos (-x) = -(-x - pos (-x)) by ring, abs_neg]
      rwa [show -x - -d = -(x - d) by ring, abs_neg] at this
    · subst h; simp
    · rw [hneg (-x) (by linarith), sub_zero]
      exact (hpos x h).2 d hd

namespace Rounding

variable (r : Rounding)

theorem of_double {x : ℝ} (h : IsDouble x) : r.fl x = x := by
  have := r.nearest x x h
  rw [sub_self, abs_zero] at this
  linarith [abs_eq_zero.1 (le_antisymm this (abs_nonneg _))]

theorem mono {x y : ℝ} (h : x ≤ y) : r.fl x ≤ r.fl y := by
  rcases h.eq_or_lt with rfl | h
  · exact le_rfl
  by_contra hlt
  have hlt := not_le.1 hlt
  have h1 := r.nearest x _ (r.isDouble y)
  have h2 := r.nearest y _ (r.isDouble x)
  rw [abs_le_abs_iff_sq_le] at h1 h2
  nlinarith
where
  abs_le_abs_iff_sq_le {a b : ℝ} : |a| ≤ |b| ↔ a ^ 2 ≤ b ^ 2 := sq_le_sq.symm

/-- The relative error is at most `2 ^ -53`. -/
theorem error (x : ℝ) : |r.fl x - x| ≤ 2⁻¹ ^ 53 * |x| := by
  rw [abs_sub_comm]
  rcases lt_trichotomy x 0 with h | h | h
  · obtain ⟨c, hc, -, h1⟩ := exists_nearest (neg_pos.2 h)
    have := r.nearest x _ hc.neg
    rw [show x - -c = -(-x - c) by ring, abs_neg] at this
    rw [abs_of_neg h]
    exact this.trans h1
  · subst h; rw [r.of_double isDouble_zero]; simp
  · obtain ⟨c, hc, -, h1⟩ := exists_nearest h
    rw [abs_of_pos h]
    exact (r.nearest x _ hc).trans h1

/-- The rounded value: the multiple of the unit in the last place that is less than half a unit away. -/
theorem eq_of_close {x : ℝ} (e m : ℤ) (h1 : (2 : ℝ) ^ e ≤ x) (h2 : x ≤ 2 ^ (e + 1))
    (h : |x - m * 2 ^ (e - 52)| < 2 ^ (e - 53)) : r.fl x = m * 2 ^ (e - 52) := by
  set w := (2 : ℝ) ^ (e - 52) with hw
  have hwp : 0 < w := by positivity
  have hhalf : (2 : ℝ) ^ (e - 53) = w / 2 := by
    rw [hw, show e - 52 = e - 53 + 1 by ring, zpow_add₀ (by norm_num)]; norm_num
  rw [hhalf] at h
  have h52 := ulp_double e
  rw [← hw] at h52
  have h53 : (2 : ℝ) ^ (e + 1) = 2 ^ 53 * w := by
    rw [zpow_add₀ (by norm_num), h52]; norm_num; ring
  obtain ⟨ha, hb⟩ := abs_lt.1 h
  have hm1 : (2 : ℤ) ^ 52 ≤ m := by
    have : (2 : ℝ) ^ 52 - 1 < m := by nlinarith
    have : (2 : ℤ) ^ 52 - 1 < m := by exact_mod_cast this
    omega
  have hm2 : m ≤ 2 ^ 53 := by
    have : (m : ℝ) < 2 ^ 53 + 1 := by nlinarith
    have : m < 2 ^ 53 + 1 := by exact_mod_cast this
    omega
  have hd : IsDouble (m * w) := ⟨m, e - 52, by rw [abs_of_nonneg (by omega)]; exact hm2, rfl⟩
  have hn := (r.nearest x _ hd).trans_lt h
  have hge : (2 : ℝ) ^ e ≤ r.fl x := by
    have := r.mono h1
    rwa [r.of_double ⟨1, e, by norm_num, by simp⟩] at this
  obtain ⟨z, hz⟩ := (r.isDouble x).multiple (hge.trans (le_abs_self _))
  rw [← hw] at hz
  rw [hz] at hn ⊢
  obtain ⟨hc, hd⟩ := abs_lt.1 hn
  have e1 : (z : ℝ) - m < 1 := by nlinarith
  have e2 : (m : ℝ) - z < 1 := by nlinarith
  have e1' : z - m < 1 := by exact_mod_cast e1
  have e2' : m - z < 1 := by exact_mod_cast e2
  have : z = m := by omega
  rw [this]

/-- Less than half a unit in the last place is lost. -/
theorem absorbs {k t : ℝ} (hk : IsDouble k) {e : ℤ} (he : (2 : ℝ) ^ e ≤ k) (ht : 0 ≤ t) (ht' : t < 2 ^ (e - 53)) :
    r.fl (k + t) = k := by
  have hk0 : 0 < k := lt_of_lt_of_le (by positivity) he
  obtain ⟨f, h1, h2⟩ := exists_exponent hk0
  have hef : e ≤ f := by
    by_contra h
    have : (2 : ℝ) ^ (f + 1) ≤ 2 ^ e := zpow_le_zpow_right₀ (by norm_num) (by omega)
    linarith
  obtain ⟨m, hm⟩ := hk.multiple (h1.trans (le_abs_self _))
  have hw : (0 : ℝ) < 2 ^ (f - 52) := by positivity
  have h53 : (2 : ℝ) ^ (f + 1) = 2 ^ 53 * 2 ^ (f - 52) := by
    rw [zpow_add₀ (by norm_num), ulp_double f]; norm_num; ring
  have hhalf : (2 : ℝ) ^ (f - 53) = 2 ^ (f - 52) / 2 := by
    rw [show f - 52 = f - 53 + 1 by ring, zpow_add₀ (by norm_num)]; norm_num
  have hle : (2 : ℝ) ^ (e - 53) ≤ 2 ^ (f - 53) := zpow_le_zpow_right₀ (by norm_num) (by omega)
  have hm2 : m + 1 ≤ 2 ^ 53 := by
    have : (m : ℝ) < 2 ^ 53 := by
      rw [hm, h53] at h2
      exact lt_of_mul_lt_mul_right h2 hw.le
    have : m < 2 ^ 53 := by exact_mod_cast this
    omega
  have hm2' : (m : ℝ) + 1 ≤ 2 ^ 53 := by exact_mod_cast hm2
  have := r.eq_of_close (x := k + t) f m (by linarith) (by rw [h53]; nlinarith) (by
    rw [← hm, add_sub_cancel_left, abs_of_nonneg ht]
    linarith)
  rw [this, ← hm]

end Rounding

end Albatross
