import Verif.IncompleteGammaProps
import Verif.BoxPolynomials
import Mathlib.Analysis.SpecialFunctions.ImproperIntegrals
import Mathlib.Analysis.SpecialFunctions.Gamma.BohrMollerup

/-! # C93 for every argument: lemmas on the 54 levels of the continued fraction

Nothing here is part of the code; the functions are in Stats.lean, the properties in IncompleteGammaWholeProps. -/

namespace Albatross

set_option linter.unusedVariables false

open scoped BigOperators
open Filter Topology MeasureTheory

/-! ## Continuants -/

/-- The continuants of the code's fraction, counted from the bottom. -/
noncomputable def cfQ (a z : ℝ) : ℕ → ℝ
  | 0 => 1
  | 1 => a + 54
  | j + 2 => (a + (54 - j : ℕ) - 1) * cfQ a z (j + 1) + cfNum a z (54 - j) * cfQ a z j

/-- The continuant from depth `n` on: the fraction from depth `n` on is `cfP n / cfP (n + 1)`. -/
noncomputable def cfP (a z : ℝ) (n : ℕ) : ℝ := cfQ a z (56 - n)

theorem cfP_bottom (a z : ℝ) : cfP a z 56 = 1 := rfl

theorem cfP_last (a z : ℝ) : cfP a z 55 = a + 54 := rfl

theorem cfP_rec (a z : ℝ) {n : ℕ} (h : n ≤ 54) :
    cfP a z n = (a + n - 1) * cfP a z (n + 1) + cfNum a z n * cfP a z (n + 2) := by
  unfold cfP
  rw [show 56 - n = (54 - n) + 2 by omega, show 56 - (n + 1) = (54 - n) + 1 by omega,
    show 56 - (n + 2) = 54 - n by omega, cfQ, show 54 - (54 - n) = n by omega]

theorem cfP_even (a z : ℝ) {k : ℕ} (h : k ≤ 26) :
    cfP a z (2 * k + 2) = (a + 2 * k + 1) * cfP a z (2 * k + 3) + (k + 1) * z * cfP a z (2 * k + 4) := by
  rw [cfP_rec a z (by omega), show 2 * k + 2 = 2 * (k + 1) by ring, cfNum_even]
  push_cast
  ring_nf

theorem cfP_odd (a z : ℝ) {k : ℕ} (h : k ≤ 26) :
    cfP a z (2 * k + 1) = (a + 2 * k) * cfP a z (2 * k + 2) - (a + k) * z * cfP a z (2 * k + 3) := by
  rw [cfP_rec a z (by omega), cfNum_odd]
  push_cast
  ring_nf

/-! ## The continuants on a box -/

theorem boxState_continuants {a z s w : ℝ} {c d e f : ℕ} (ha : a * (2 * (1 + s)) = c + d * s)
    (hz : z * (1 + w) = e + f * w) (j : ℕ) (hj : j ≤ 27) :
    (boxState ℝ c d e f s w j).xp - (boxState ℝ c d e f s w j).xm =
        (2 * (1 + s)) ^ (2 * j + 1) * (1 + w) ^ j * cfP a z (55 - 2 * j) ∧
      (boxState ℝ c d e f s w j).yp - (boxState ℝ c d e f s w j).ym =
        (2 * (1 + s)) ^ (2 * j) * (1 + w) ^ j * cfP a z (56 - 2 * j) := by
  induction j with
  | zero =>
    simp only [boxState, mul_zero, Nat.sub_zero, cfP_last, cfP_bottom]
    push_cast
    constructor
    · linear_combination -ha
    · ring
  | succ j ih =>
    obtain ⟨hx, hy⟩ := ih (by omega)
    obtain ⟨k, hk⟩ : ∃ k, 26 = j + k := ⟨26 - j, by omega⟩
    rw [show 55 - 2 * j = 2 * k + 3 by omega] at hx
    rw [show 56 - 2 * j = 2 * k + 4 by omega] at hy
    rw [show 55 - 2 * (j + 1) = 2 * k + 1 by omega, show 56 - 2 * (j + 1) = 2 * k + 2 by omega, boxState,
      show 26 - j = k by omega]
    generalize boxState ℝ c d e f s w j = st at hx hy
    simp only [boxStep]
    have h0 : (((c + 4 * k + 2 : ℕ) : ℝ) + ((d + 4 * k + 2 : ℕ) : ℝ) * s) = 2 * (1 + s) * (a + 2 * k + 1) := by
      push_cast
      linear_combination -ha
    have h1 : (((c + 4 * k : ℕ) : ℝ) + ((d + 4 * k : ℕ) : ℝ) * s) = 2 * (1 + s) * (a + 2 * k) := by
      push_cast
      linear_combination -ha
    have h2 : (((c + 2 * k : ℕ) : ℝ) + ((d + 2 * k : ℕ) : ℝ) * s) = 2 * (1 + s) * (a + k) := by
      push_cast
      linear_combination -ha
    rw [h0, h1, h2, ← hz]
    have hy' : (2 * (1 + s) * (a + 2 * k + 1) * (1 + w) * st.xp +
          ((4 * k + 4 : ℕ) : ℝ) * (1 + s) * (1 + s) * (z * (1 + w)) * st.yp) -
        (2 * (1 + s) * (a + 2 * k + 1) * (1 + w) * st.xm +
          ((4 * k + 4 : ℕ) : ℝ) * (1 + s) * (1 + s) * (z * (1 + w)) * st.ym) =
        (2 * (1 + s)) ^ (2 * (j + 1)) * (1 + w) ^ (j + 1) * cfP a z (2 * k + 2) := by
      rw [cfP_even a z (by omega)]
      push_cast
      linear_combination (2 * (1 + s) * (a + 2 * k + 1) * (1 + w)) * hx +
        ((2 * (1 + s)) ^ 2 * (1 + w) * ((k + 1) * z)) * hy
    refine ⟨?_, hy'⟩
    rw [cfP_odd a z (by omega)]
    have e1 : (2 * (1 + s)) ^ (2 * (j + 1) + 1) * (1 + w) ^ (j + 1) *
        ((a + 2 * k) * cfP a z (2 * k + 2) - (a + k) * z * cfP a z (2 * k + 3)) =
        2 * (1 + s) * (a + 2 * k) * ((2 * (1 + s)) ^ (2 * (j + 1)) * (1 + w) ^ (j + 1) * cfP a z (2 * k + 2)) -
        (2 * (1 + s)) ^ 2 * (1 + w) * ((a + k) * z) *
          ((2 * (1 + s)) ^ (2 * j + 1) * (1 + w) ^ j * cfP a z (2 * k + 3)) := by ring
    rw [e1, ← hy', ← hx]
    push_cast
    ring

/-- The check of the kernel bounds the denominator from below on the box. -/
theorem cfP_two_floor {c d e f l B Bs : ℕ} (h : boxCheck c d e f l B Bs = true) {a z : ℝ} (hc : (c : ℝ) / 2 ≤ a)
    (hd : a < (d : ℝ) / 2) (he : (e : ℝ) ≤ z) (hf : z < f) : (l : ℝ) ≤ cfP a z 2 := by
  have hda : 0 < (d : ℝ) / 2 - a := by linarith
  have hfz : 0 < (f : ℝ) - z := by linarith
  have hs : 0 ≤ (a - (c : ℝ) / 2) / ((d : ℝ) / 2 - a) := div_nonneg (by linarith) hda.le
  have hw : 0 ≤ (z - (e : ℝ)) / ((f : ℝ) - z) := div_nonneg (by linarith) hfz.le
  have ha : a * (2 * (1 + (a - (c : ℝ) / 2) / ((d : ℝ) / 2 - a))) =
      c + d * ((a - (c : ℝ) / 2) / ((d : ℝ) / 2 - a)) := by
    have := div_mul_cancel₀ (a - (c : ℝ) / 2) hda.ne'
    linear_combination (-2) * this
  have hz : z * (1 + (z - (e : ℝ)) / ((f : ℝ) - z)) = e + f * ((z - (e : ℝ)) / ((f : ℝ) - z)) := by
    field_simp
    ring
  have h1 := boxCheck_spec h hs hw
  have h2 := (boxState_continuants ha hz 27 le_rfl).2
  rw [show 56 - 2 * 27 = 2 by norm_num, show 2 * 27 = 54 by norm_num] at h2
  generalize (a - (c : ℝ) / 2) / ((d : ℝ) / 2 - a) = s at hs h1 h2
  generalize (z - (e : ℝ)) / ((f : ℝ) - z) = w at hw h1 h2
  have h3 : (l : ℝ) * ((2 * (1 + s)) ^ 54 * (1 + w) ^ 27) ≤ cfP a z 2 * ((2 * (1 + s)) ^ 54 * (1 + w) ^ 27) := by
    linarith
  exact le_of_mul_le_mul_right h3 (by positivity)

/-! ## How far the fraction is from the exact one -/

/-- The distance between a continuant and the one the exact tail would give. -/
noncomputable def cfD (a z : ℝ) (n : ℕ) : ℝ := cfP a z n - cfTail a z n * cfP a z (n + 1)

theorem cfD_step {a z : ℝ} (ha : 0 < a) (hz : 0 ≤ z) {n : ℕ} (h1 : 1 ≤ n) (h : n ≤ 54) :
    cfD a z n = -(cfNum a z n / cfTail a z (n + 1)) * cfD a z (n + 1) := by
  have hT := cfTail_pos ha hz (n := n + 1) (by omega)
  unfold cfD
  rw [cfP_rec a z h, cfTail_rec ha hz h1, show n + 1 + 1 = n + 2 by ring]
  field_simp
  ring

theorem rising_add (x : ℝ) (m n : ℕ) : rising x (m + n) = rising x m * rising (x + m) n := by
  induction n with
  | zero => simp [rising_zero]
  | succ n ih =>
    rw [← add_assoc, rising_succ, rising_succ, ih]
    push_cast
    ring

theorem cfD_formula {a z : ℝ} (ha : 0 < a) (hz : 0 ≤ z) (j : ℕ) (hj : j ≤ 27) :
    cfD a z (55 - 2 * j) * cfMu a z (55 - 2 * j) * rising (a + (55 - 2 * j : ℕ)) (2 * j + 1) * (27 - j).factorial =
      (-1) ^ j * z ^ (2 * j + 1) * Nat.factorial 27 * rising (a + (27 - j : ℕ)) (j + 1) * cfMu a z 56 := by
  induction j with
  | zero =>
    have h1 := cfMu_pos ha hz 55
    have h2 := cfMu_pos ha hz 56
    have hd : cfD a z 55 = (a + 27) * z * cfMu a z 56 / ((a + 55) * cfMu a z 55) := by
      unfold cfD
      rw [cfP_last, cfP_bottom, mul_one, cfTail_rec ha hz (by norm_num), show (55 : ℕ) = 2 * 27 + 1 by norm_num,
        cfNum_odd]
      unfold cfTail
      rw [show 2 * 27 + 1 + 1 - 1 = 55 by norm_num, show 2 * 27 + 1 + 1 = 56 by norm_num]
      push_cast
      have : (0 : ℝ) < a + 55 := by linarith
      rw [show a + 56 - 1 = a + 55 by ring]
      field_simp
      ring
    rw [Nat.mul_zero, Nat.sub_zero, Nat.sub_zero, hd, rising_succ, rising_zero, rising_succ, rising_zero]
    push_cast
    have : (0 : ℝ) < a + 55 := by linarith
    field_simp
    ring
  | succ j ih =>
    obtain ⟨k, hk⟩ : ∃ k, 26 = j + k := ⟨26 - j, by omega⟩
    have h0 := ih (by omega)
    rw [show 55 - 2 * j = 2 * k + 3 by omega, show 27 - j = k + 1 by omega] at h0
    rw [show 55 - 2 * (j + 1) = 2 * k + 1 by omega, show 27 - (j + 1) = k by omega]
    have hd : cfD a z (2 * k + 1) * cfMu a z (2 * k + 1) * ((a + 2 * k + 1) * (a + 2 * k + 2)) =
        -((a + k) * z * ((k + 1) * z)) * (cfD a z (2 * k + 3) * cfMu a z (2 * k + 3)) := by
      rw [cfD_step ha hz (n := 2 * k + 1) (by omega) (by omega), show 2 * k + 1 + 1 = 2 * (k + 1) by ring,
        cfD_step ha hz (n := 2 * (k + 1)) (by omega) (by omega), show 2 * (k + 1) + 1 = 2 * k + 3 by ring,
        cfNum_odd, cfNum_even]
      unfold cfTail
      rw [show 2 * (k + 1) - 1 = 2 * k + 1 by omega, show 2 * k + 3 - 1 = 2 * (k + 1) by omega]
      have m1 := cfMu_pos ha hz (2 * k + 1)
      have m2 := cfMu_pos ha hz (2 * (k + 1))
      have m3 := cfMu_pos ha hz (2 * k + 3)
      push_cast
      rw [show a + 2 * ((k : ℝ) + 1) - 1 = a + 2 * k + 1 by ring, show a + (2 * (k : ℝ) + 3) - 1 = a + 2 * k + 2 by ring]
      field_simp
    rw [show 2 * (j + 1) + 1 = (2 * j + 1) + 1 + 1 by ring, rising_succ', rising_succ', show j + 1 + 1 = (j + 1) + 1 from rfl,
      rising_succ' (a + (k : ℕ))]
    push_cast at h0 hd ⊢
    rw [show a + (2 * (k : ℝ) + 1) + 1 + 1 = a + (2 * k + 3) by ring, show a + (k : ℝ) + 1 = a + (k + 1) by ring]
    rw [Nat.factorial_succ] at h0
    push_cast at h0
    have hk1 : (0 : ℝ) < (k : ℝ) + 1 := by positivity
    have e1 : cfD a z (2 * k + 1) * cfMu a z (2 * k + 1) *
          ((a + (2 * (k : ℝ) + 1)) * ((a + (2 * k + 1) + 1) * rising (a + (2 * k + 3)) (2 * j + 1))) * (k.factorial : ℝ) =
        (cfD a z (2 * k + 1) * cfMu a z (2 * k + 1) * ((a + 2 * k + 1) * (a + 2 * k + 2))) *
          rising (a + (2 * k + 3)) (2 * j + 1) * k.factorial := by ring
    rw [e1, hd]
    have e2 : -((a + (k : ℝ)) * z * ((k + 1) * z)) * (cfD a z (2 * k + 3) * cfMu a z (2 * k + 3)) *
          rising (a + (2 * k + 3)) (2 * j + 1) * (k.factorial : ℝ) =
        -((a + (k : ℝ)) * z * z) * (cfD a z (2 * k + 3) * cfMu a z (2 * k + 3) *
          rising (a + (2 * k + 3)) (2 * j + 1) * ((k + 1) * k.factorial)) := by ring
    rw [e2, h0]
    ring

/-- What the fraction loses by stopping at 54 levels. -/
noncomputable def cfR (a z : ℝ) : ℝ := z ^ 55 * Nat.factorial 27 * cfMu a z 56 / rising (a + 28) 28

theorem cfR_pos {a z : ℝ} (ha : 0 < a) (hz : 0 < z) : 0 < cfR a z := by
  have := cfMu_pos ha hz.le 56
  have := rising_pos (x := a + 28) (by linarith) 28
  unfold cfR
  positivity

theorem cfP_one {a z : ℝ} (ha : 0 < a) (hz : 0 ≤ z) : cfP a z 1 = cfTail a z 1 * (cfP a z 2 - cfR a z) := by
  have h := cfD_formula ha hz 27 le_rfl
  rw [show 55 - 2 * 27 = 1 by norm_num, show 27 - 27 = 0 by norm_num, show 2 * 27 + 1 = 55 by norm_num] at h
  simp only [Nat.factorial_zero, Nat.cast_one, mul_one, Nat.cast_zero, add_zero] at h
  rw [rising_succ' a 27, show (55 : ℕ) = 27 + 28 by norm_num, rising_add] at h
  have h1 := cfMu_pos ha hz 1
  have h2 := rising_pos (x := a + 1) (by linarith) 27
  have h3 := rising_pos (x := a + 28) (by linarith) 28
  rw [show a + 1 + ((27 : ℕ) : ℝ) = a + 28 by push_cast; ring] at h
  have hd : cfD a z 1 = -(cfTail a z 1 * cfR a z) := by
    rw [cfTail_one]
    unfold cfR
    rw [show (27 + 28 : ℕ) = 55 by norm_num] at h
    field_simp
    have h4 : (rising (a + 1) 27) * (cfD a z 1 * cfMu a z 1 * rising (a + 28) 28 +
        a * (z ^ 55 * (Nat.factorial 27 : ℝ) * cfMu a z 56)) = 0 := by
      linear_combination h
    rcases mul_eq_zero.1 h4 with h5 | h5
    · exact absurd h5 h2.ne'
    · linear_combination h5
  unfold cfD at hd
  linear_combination hd

/-! ## The sign of the denominator -/

theorem cfP_pair (a z : ℝ) {k : ℕ} (h1 : 1 ≤ k) (h : k ≤ 26) :
    (a + 2 * k + 1) * cfP a z (2 * k) =
      (a + 2 * k) * ((a + 2 * k) ^ 2 - 1 - z * (a - 1)) * cfP a z (2 * k + 2) +
        (k + 1) * (a + k) * (a + 2 * k - 1) * z ^ 2 * cfP a z (2 * k + 4) := by
  obtain ⟨m, rfl⟩ := Nat.exists_eq_add_of_le' h1
  have e1 := cfP_even a z (k := m) (by omega)
  have e2 := cfP_odd a z (k := m + 1) (by omega)
  have e3 := cfP_even a z (k := m + 1) (by omega)
  rw [show 2 * (m + 1) + 1 = 2 * m + 3 by ring, show 2 * (m + 1) + 2 = 2 * m + 4 by ring,
    show 2 * (m + 1) + 3 = 2 * m + 5 by ring] at e2
  rw [show 2 * (m + 1) + 2 = 2 * m + 4 by ring, show 2 * (m + 1) + 3 = 2 * m + 5 by ring,
    show 2 * (m + 1) + 4 = 2 * m + 6 by ring] at e3
  rw [show 2 * (m + 1) = 2 * m + 2 by ring, show 2 * m + 2 + 2 = 2 * m + 4 by ring,
    show 2 * m + 2 + 4 = 2 * m + 6 by ring, e1, e2]
  push_cast at e3 ⊢
  linear_combination ((a + 2 * m + 1) * (a + m + 1) * z) * e3

/-- Which signs two neighbouring even continuants can have. -/
theorem cfP_signs {a z : ℝ} (ha : 0 < a) (hz : 0 < z) (i : ℕ) (hi : i ≤ 26) :
    (0 < cfP a z (2 * (27 - i)) ∧ 0 < cfP a z (2 * (27 - i) + 2)) ∨
      ((a + 2 * (27 - i : ℕ)) ^ 2 - 1 < z * (a - 1) ∧
        ((cfP a z (2 * (27 - i)) ≤ 0 ∧ 0 < cfP a z (2 * (27 - i) + 2)) ∨
          (0 < cfP a z (2 * (27 - i)) ∧ cfP a z (2 * (27 - i) + 2) ≤ 0))) := by
  induction i with
  | zero =>
    left
    rw [Nat.sub_zero]
    constructor
    · rw [show 2 * 27 = 2 * 26 + 2 by norm_num, cfP_even a z le_rfl, show 2 * 26 + 3 = 55 by norm_num,
        show 2 * 26 + 4 = 56 by norm_num, cfP_last, cfP_bottom]
      push_cast
      positivity
    · exact one_pos
  | succ i ih =>
    obtain ⟨k, hk⟩ : ∃ k, 27 - i = k + 1 := ⟨26 - i, by omega⟩
    have h0 := ih (by omega)
    rw [hk] at h0
    rw [show 27 - (i + 1) = k by omega]
    have hk1 : 1 ≤ k := by omega
    have hp := cfP_pair a z hk1 (by omega)
    rw [show 2 * (k + 1) = 2 * k + 2 by ring, show 2 * k + 2 + 2 = 2 * k + 4 by ring] at h0
    have hkr : (1 : ℝ) ≤ k := by exact_mod_cast hk1
    have p1 : 0 < a + 2 * (k : ℝ) + 1 := by linarith
    have p2 : 0 < a + 2 * (k : ℝ) := by linarith
    have p3 : 0 < ((k : ℝ) + 1) * (a + k) * (a + 2 * k - 1) * z ^ 2 := by
      have : 0 < a + 2 * (k : ℝ) - 1 := by linarith
      positivity
    push_cast at h0
    generalize cfP a z (2 * k) = x at hp ⊢
    generalize cfP a z (2 * k + 2) = y at hp h0 ⊢
    generalize cfP a z (2 * k + 4) = u at hp h0
    generalize ((k : ℝ) + 1) * (a + k) * (a + 2 * k - 1) * z ^ 2 = K at p3 hp
    have signx : ∀ t, (a + 2 * (k : ℝ) + 1) * x = t → (0 < t → 0 < x) ∧ (t < 0 → x < 0) := by
      intro t ht
      constructor
      · intro h
        rw [← ht] at h
        exact (mul_pos_iff_of_pos_left p1).1 h
      · intro h
        by_contra hx
        have := mul_nonneg p1.le (not_lt.1 hx)
        linarith
    have hmono : (a + 2 * ((k : ℝ) + 1)) ^ 2 - 1 < z * (a - 1) → (a + 2 * (k : ℝ)) ^ 2 - 1 < z * (a - 1) := by
      intro h
      nlinarith
    rcases h0 with ⟨hy, hu⟩ | ⟨hN, ⟨hy, hu⟩ | ⟨hy, hu⟩⟩
    · by_cases hx : 0 < x
      · exact Or.inl ⟨hx, hy⟩
      · right
        refine ⟨?_, Or.inl ⟨not_lt.1 hx, hy⟩⟩
        by_contra hN
        apply hx
        refine (signx _ hp).1 ?_
        have : 0 ≤ (a + 2 * (k : ℝ)) * ((a + 2 * k) ^ 2 - 1 - z * (a - 1)) * y :=
          mul_nonneg (mul_nonneg p2.le (by linarith)) hy.le
        have := mul_pos p3 hu
        linarith
    · right
      have hN' := hmono hN
      refine ⟨hN', Or.inr ⟨(signx _ hp).1 ?_, hy⟩⟩
      have : 0 ≤ (a + 2 * (k : ℝ)) * ((a + 2 * k) ^ 2 - 1 - z * (a - 1)) * y :=
        mul_nonneg_of_nonpos_of_nonpos (mul_nonpos_of_nonneg_of_nonpos p2.le (by linarith)) hy
      have := mul_pos p3 hu
      linarith
    · right
      have hN' := hmono hN
      refine ⟨hN', Or.inl ⟨((signx _ hp).2 ?_).le, hy⟩⟩
      have : (a + 2 * (k : ℝ)) * ((a + 2 * k) ^ 2 - 1 - z * (a - 1)) * y < 0 :=
        mul_neg_of_neg_of_pos (mul_neg_of_pos_of_neg p2 (by linarith)) hy
      have := mul_nonpos_of_nonneg_of_nonpos p3.le hu
      linarith

/-- Where the denominator is not positive the numerator is. -/
theorem cfP_one_pos {a z : ℝ} (ha : 0 < a) (hz : 0 < z) (h : cfP a z 2 ≤ 0) : 0 < cfP a z 1 := by
  have h0 := cfP_signs ha hz 26 le_rfl
  rw [show 27 - 26 = 1 by norm_num, show 2 * 1 + 2 = 4 by norm_num, show 2 * 1 = 2 by norm_num] at h0
  push_cast at h0
  rcases h0 with ⟨h1, _⟩ | ⟨hN, ⟨_, h4⟩ | ⟨h1, _⟩⟩
  · linarith
  · have e1 := cfP_odd a z (k := 0) (by omega)
    have e2 := cfP_even a z (k := 0) (by omega)
    simp only [Nat.cast_zero, mul_zero, zero_add, add_zero, one_mul] at e1 e2
    have ha1 : 1 < a := by
      by_contra hc
      have : z * (a - 1) ≤ 0 := mul_nonpos_of_nonneg_of_nonpos hz.le (by linarith)
      nlinarith
    have hza : a + 1 < z := by
      by_contra hc
      have : z * (a - 1) ≤ (a + 1) * (a - 1) := mul_le_mul_of_nonneg_right (by linarith) (by linarith)
      nlinarith
    have key : (a + 1) * cfP a z 1 = a * ((a + 1 - z) * cfP a z 2 + z ^ 2 * cfP a z 4) := by
      rw [e1]
      linear_combination (a * z) * e2
    have : 0 < (a + 1) * cfP a z 1 := by
      rw [key]
      apply mul_pos ha
      have h5 : 0 ≤ (a + 1 - z) * cfP a z 2 := mul_nonneg_of_nonpos_of_nonpos (by linarith) h
      have h6 : 0 < z ^ 2 * cfP a z 4 := by positivity
      linarith
    exact (mul_pos_iff_of_pos_left (by linarith)).1 this
  · linarith

end Albatross
