import Verif.StatsProps
import Mathlib.Analysis.SpecialFunctions.Gamma.Basic

/-! # C50: the quadrature branch leaves `[0, 1]`

At `a = 144`, `z = 288` the sum of the fifty terms is larger than one.  The terms are bounded from below by
integers scaled by powers of ten, and the kernel compares the integers. -/

namespace Albatross

/-- `Σ_{m<n} (-k)^m 10^(32 (35-m)) 36!/m!`. -/
def quadTaylor (k : ℤ) : Nat → ℤ
  | 0 => 0
  | m + 1 => quadTaylor k m + (-k) ^ m * (10 ^ 32) ^ (35 - m) * (Nat.factorial 36 / Nat.factorial m : Nat)

/-- A lower bound of `exp(-k / 10^32) * 10^40`. -/
def quadExpLow (k : ℤ) : ℤ :=
  (quadTaylor k 36 - 2 * (10 ^ 32) ^ 35) * 10 ^ 40 / ((Nat.factorial 36 : Nat) * (10 ^ 32) ^ 35)

/-- An upper bound of `exp(1) * 10^40`. -/
def quadExpOne : ℤ := 27182818284590452353602874713526624977573

/-- A lower bound of a term of the sum, up to the common factor. -/
def quadTermLow (x : ℤ × ℤ) : ℤ :=
  x.1 * ((10 ^ 32 + x.2) * quadExpLow x.2) ^ 143 * quadExpLow x.2

theorem quadTaylor_eq (k : ℤ) (n : Nat) (hn : n ≤ 36) :
    (quadTaylor k n : ℝ) = (Nat.factorial 36 : ℝ) * (10 ^ 32) ^ 35 *
      ∑ m ∈ Finset.range n, (-((k : ℝ) / 10 ^ 32)) ^ m / (Nat.factorial m : ℝ) := by
  induction n with
  | zero => simp [quadTaylor]
  | succ m ih =>
    rw [quadTaylor, Finset.sum_range_succ, mul_add, Int.cast_add, ih (by omega)]
    congr 1
    have hdvd : Nat.factorial m ∣ Nat.factorial 36 := Nat.factorial_dvd_factorial (by omega)
    have hf : (Nat.factorial m : ℝ) ≠ 0 := by positivity
    have hS : ((10 : ℝ) ^ 32) ≠ 0 := by positivity
    simp only [Int.cast_mul, Int.cast_pow, Int.cast_neg, Int.cast_ofNat, Int.cast_natCast]
    rw [Nat.cast_div hdvd hf]
    have hsplit : ((10 : ℝ) ^ 32) ^ 35 = (10 ^ 32) ^ (35 - m) * (10 ^ 32) ^ m := by
      rw [← pow_add]; congr 1; omega
    rw [hsplit, show (-((k : ℝ) / 10 ^ 32)) = (-k) / 10 ^ 32 from by rw [neg_div], div_pow]
    generalize (10 : ℝ) ^ 32 = S at hS
    generalize (Nat.factorial 36 : ℝ) = A
    have hSm : S ^ m ≠ 0 := pow_ne_zero _ hS
    field_simp

theorem quadRemainder (x : ℝ) (hx : |x| ≤ 1) :
    |Real.exp x - ∑ m ∈ Finset.range 36, x ^ m / (Nat.factorial m : ℝ)| ≤ 2 / (Nat.factorial 36 : ℝ) := by
  refine (Real.exp_bound hx (by norm_num : 0 < 36)).trans ?_
  have h1 : |x| ^ 36 ≤ 1 := pow_le_one₀ (abs_nonneg x) hx
  have hA : (0 : ℝ) < (Nat.factorial 36 : ℝ) := by positivity
  generalize (Nat.factorial 36 : ℝ) = A at hA
  have h2 : (((36 : Nat).succ : Nat) : ℝ) / (A * ((36 : Nat) : ℝ)) ≤ 2 / A := by
    rw [div_le_div_iff₀ (by positivity) hA]
    push_cast
    nlinarith
  calc |x| ^ 36 * ((((36 : Nat).succ : Nat) : ℝ) / (A * ((36 : Nat) : ℝ)))
      ≤ 1 * (2 / A) := mul_le_mul h1 h2 (by positivity) (by norm_num)
    _ = 2 / A := one_mul _

theorem quadExpLow_le (k : ℤ) (hk : |(k : ℝ) / 10 ^ 32| ≤ 1) :
    (quadExpLow k : ℝ) ≤ Real.exp (-((k : ℝ) / 10 ^ 32)) * 10 ^ 40 := by
  have hD : (0 : ℤ) < (Nat.factorial 36 : Nat) * (10 ^ 32) ^ 35 := by positivity
  have h1 := Int.ediv_mul_le ((quadTaylor k 36 - 2 * (10 ^ 32) ^ 35) * 10 ^ 40) hD.ne'
  have h2 : (quadExpLow k : ℝ) * ((Nat.factorial 36 : ℝ) * (10 ^ 32) ^ 35) ≤
      ((quadTaylor k 36 : ℝ) - 2 * (10 ^ 32) ^ 35) * 10 ^ 40 := by
    have : ((quadExpLow k * ((Nat.factorial 36 : Nat) * (10 ^ 32) ^ 35) : ℤ) : ℝ) ≤
        (((quadTaylor k 36 - 2 * (10 ^ 32) ^ 35) * 10 ^ 40 : ℤ) : ℝ) := Int.cast_le.2 h1
    simpa only [Int.cast_mul, Int.cast_pow, Int.cast_sub, Int.cast_ofNat, Int.cast_natCast] using this
  rw [quadTaylor_eq k 36 le_rfl] at h2
  have h3 := quadRemainder (-((k : ℝ) / 10 ^ 32)) (by rwa [abs_neg])
  have h4 := (abs_le.1 h3).1
  have hA : (0 : ℝ) < (Nat.factorial 36 : ℝ) := by positivity
  have hS : (0 : ℝ) < ((10 : ℝ) ^ 32) ^ 35 := by positivity
  generalize Real.exp (-((k : ℝ) / 10 ^ 32)) = e at *
  generalize (∑ m ∈ Finset.range 36, (-((k : ℝ) / 10 ^ 32)) ^ m / (Nat.factorial m : ℝ)) = s at *
  generalize (Nat.factorial 36 : ℝ) = A at *
  generalize ((10 : ℝ) ^ 32) ^ 35 = T at *
  generalize (quadExpLow k : ℝ) = q at *
  have hT : (0 : ℝ) < (10 : ℝ) ^ 40 := by positivity
  generalize (10 : ℝ) ^ 40 = U at *
  have h5 : s - 2 / A ≤ e := by linarith
  have h6 : A * T * (s - 2 / A) = A * T * s - 2 * T := by field_simp
  have h7 : q * (A * T) ≤ (e * U) * (A * T) := by
    calc q * (A * T) ≤ (A * T * s - 2 * T) * U := h2
      _ = A * T * (s - 2 / A) * U := by rw [h6]
      _ ≤ A * T * e * U := by
        apply mul_le_mul_of_nonneg_right _ hT.le
        exact mul_le_mul_of_nonneg_left h5 (by positivity)
      _ = (e * U) * (A * T) := by ring
  exact le_of_mul_le_mul_right h7 (by positivity)

theorem quadExpLow_pos : ∀ k ∈ glPointsNum, 0 < quadExpLow k := by decide +kernel

theorem quadExpOne_check : (Nat.factorial 36 : ℤ) * quadExpOne ≥
    (quadTaylor (-(10 ^ 32)) 36 / (10 ^ 32) ^ 35 + 2) * 10 ^ 40 ∧
    quadTaylor (-(10 ^ 32)) 36 % (10 ^ 32) ^ 35 = 0 := by decide +kernel

theorem quadSum_check :
    (Nat.factorial 143 : ℤ) * quadExpOne ^ 144 * (10 ^ 32 * (10 ^ 32 * 10 ^ 40) ^ 143 * 10 ^ 40) <
      144 ^ 144 * ((glWeightsNum.zip glPointsNum).map quadTermLow).sum * (10 ^ 40) ^ 144 := by
  decide +kernel

theorem quadExpOne_le : Real.exp 1 * 10 ^ 40 ≤ (quadExpOne : ℝ) := by
  obtain ⟨h1, h2⟩ := quadExpOne_check
  have hS : (0 : ℤ) < (10 ^ 32) ^ 35 := by positivity
  have h3 : (quadTaylor (-(10 ^ 32)) 36 + 2 * (10 ^ 32) ^ 35) * 10 ^ 40 ≤
      (Nat.factorial 36 : ℤ) * quadExpOne * (10 ^ 32) ^ 35 := by
    have h5 : quadTaylor (-(10 ^ 32)) 36 = (quadTaylor (-(10 ^ 32)) 36 / (10 ^ 32) ^ 35) * (10 ^ 32) ^ 35 :=
      (Int.ediv_mul_cancel (Int.dvd_of_emod_eq_zero h2)).symm
    calc (quadTaylor (-(10 ^ 32)) 36 + 2 * (10 ^ 32) ^ 35) * 10 ^ 40
        = ((quadTaylor (-(10 ^ 32)) 36 / (10 ^ 32) ^ 35) * (10 ^ 32) ^ 35 + 2 * (10 ^ 32) ^ 35) * 10 ^ 40 := by
          rw [← h5]
      _ = (quadTaylor (-(10 ^ 32)) 36 / (10 ^ 32) ^ 35 + 2) * 10 ^ 40 * (10 ^ 32) ^ 35 := by ring
      _ ≤ (Nat.factorial 36 : ℤ) * quadExpOne * (10 ^ 32) ^ 35 :=
          mul_le_mul_of_nonneg_right h1 hS.le
  have h4 : ((quadTaylor (-(10 ^ 32)) 36 : ℝ) + 2 * (10 ^ 32) ^ 35) * 10 ^ 40 ≤
      (Nat.factorial 36 : ℝ) * quadExpOne * (10 ^ 32) ^ 35 := by
    have : (((quadTaylor (-(10 ^ 32)) 36 + 2 * (10 ^ 32) ^ 35) * 10 ^ 40 : ℤ) : ℝ) ≤
      (((Nat.factorial 36 : ℤ) * quadExpOne * (10 ^ 32) ^ 35 : ℤ) : ℝ) := Int.cast_le.2 h3
    simpa only [Int.cast_mul, Int.cast_pow, Int.cast_add, Int.cast_ofNat, Int.cast_natCast] using this
  rw [quadTaylor_eq _ 36 le_rfl] at h4
  have hx : (-(((-(10 ^ 32) : ℤ) : ℝ) / 10 ^ 32)) = 1 := by
    simp only [Int.cast_neg, Int.cast_pow, Int.cast_ofNat]
    rw [neg_div, neg_neg, div_self (by positivity)]
  rw [hx] at h4
  have h5 := (abs_le.1 (quadRemainder 1 (by simp))).2
  have hA : (0 : ℝ) < (Nat.factorial 36 : ℝ) := by positivity
  have hT : (0 : ℝ) < ((10 : ℝ) ^ 32) ^ 35 := by positivity
  have hU : (0 : ℝ) < (10 : ℝ) ^ 40 := by positivity
  generalize Real.exp 1 = e at *
  generalize (∑ m ∈ Finset.range 36, (1 : ℝ) ^ m / (Nat.factorial m : ℝ)) = s at *
  generalize (quadExpOne : ℝ) = q at *
  generalize (Nat.factorial 36 : ℝ) = A at *
  generalize ((10 : ℝ) ^ 32) ^ 35 = T at *
  generalize (10 : ℝ) ^ 40 = U at *
  have h6 : e ≤ s + 2 / A := by linarith
  have h7 : A * T * (s + 2 / A) = A * T * s + 2 * T := by field_simp
  have h8 : (e * U) * (A * T) ≤ q * (A * T) := by
    calc (e * U) * (A * T) = A * T * e * U := by ring
      _ ≤ A * T * (s + 2 / A) * U := by
        apply mul_le_mul_of_nonneg_right _ hU.le
        exact mul_le_mul_of_nonneg_left h6 (by positivity)
      _ = (A * T * s + 2 * T) * U := by rw [h7]
      _ ≤ A * q * T := h4
      _ = q * (A * T) := by ring
  exact le_of_mul_le_mul_right h8 (by positivity)

/-- The integrand at the points of the rule on `[0, 288]`. -/
theorem quadFn_eq (p : ℝ) (hp : -1 < p) :
    Real.exp (-(144 * (1 + p)) + (144 - 1) * Real.log (144 * (1 + p)) - Real.log (Nat.factorial 143 : ℝ)) =
      144 ^ 143 * Real.exp (-1) ^ 144 / (Nat.factorial 143 : ℝ) *
        (((1 + p) * Real.exp (-p)) ^ 143 * Real.exp (-p)) := by
  have hf : (0 : ℝ) < (Nat.factorial 143 : ℝ) := by positivity
  have hx : (0 : ℝ) < 144 * (1 + p) := by linarith
  rw [Real.exp_sub, Real.exp_log hf, Real.exp_add,
    show (144 - 1 : ℝ) * Real.log (144 * (1 + p)) = (143 : ℕ) * Real.log (144 * (1 + p)) from by norm_num,
    Real.exp_nat_mul, Real.exp_log hx, mul_pow 144 (1 + p) 143,
    show (-(144 * (1 + p)) : ℝ) = (144 : ℕ) * (-1) + (144 : ℕ) * (-p) from by push_cast; ring,
    Real.exp_add, Real.exp_nat_mul, Real.exp_nat_mul, mul_pow (1 + p) (Real.exp (-p)) 143]
  generalize Real.exp (-p) = e
  generalize Real.exp (-1) = d
  generalize (Nat.factorial 143 : ℝ) = A at hf
  generalize (144 : ℝ) ^ 143 = B
  rw [pow_succ e 143]
  generalize (1 + p) ^ 143 = Y
  generalize e ^ 143 = Z
  generalize d ^ 144 = W
  ring

theorem quadTerm_bound (x : ℤ × ℤ) (hw : 0 < x.1) (hp : x.2 ∈ glPointsNum) :
    (quadTermLow x : ℝ) ≤ (10 ^ 32 * (10 ^ 32 * 10 ^ 40) ^ 143 * 10 ^ 40) *
      (((x.1 : ℝ) / 10 ^ 32) * (((1 + (x.2 : ℝ) / 10 ^ 32) * Real.exp (-((x.2 : ℝ) / 10 ^ 32))) ^ 143 *
        Real.exp (-((x.2 : ℝ) / 10 ^ 32)))) := by
  obtain ⟨h1, h2⟩ := glPoints_lt ((x.2 : ℝ) / 10 ^ 32) (List.mem_map.2 ⟨x.2, hp, rfl⟩)
  have hq : (0 : ℝ) < quadExpLow x.2 := by exact_mod_cast quadExpLow_pos x.2 hp
  have hle := quadExpLow_le x.2 (abs_le.2 ⟨h1.le, h2.le⟩)
  have hw' : (0 : ℝ) < x.1 := by exact_mod_cast hw
  unfold quadTermLow
  simp only [Int.cast_mul, Int.cast_pow, Int.cast_add, Int.cast_ofNat]
  have hS : (0 : ℝ) < (10 : ℝ) ^ 32 := by positivity
  have hU : (0 : ℝ) < (10 : ℝ) ^ 40 := by positivity
  have hk : (x.2 : ℝ) = 10 ^ 32 * ((x.2 : ℝ) / 10 ^ 32) := by field_simp
  generalize Real.exp (-((x.2 : ℝ) / 10 ^ 32)) = e at *
  generalize (quadExpLow x.2 : ℝ) = q at *
  rw [hk]
  rw [← hk]
  generalize (x.2 : ℝ) / 10 ^ 32 = p at *
  rw [hk]
  generalize (x.1 : ℝ) = w at *
  generalize (10 : ℝ) ^ 32 = S at *
  generalize (10 : ℝ) ^ 40 = U at *
  have h3 : (S + S * p) * q ≤ (S * U) * ((1 + p) * e) := by
    calc (S + S * p) * q ≤ (S + S * p) * (e * U) :=
          mul_le_mul_of_nonneg_left hle (by nlinarith)
      _ = (S * U) * ((1 + p) * e) := by ring
  have h0 : 0 ≤ (S + S * p) * q := mul_nonneg (by nlinarith) hq.le
  calc w * ((S + S * p) * q) ^ 143 * q
      ≤ w * ((S * U) * ((1 + p) * e)) ^ 143 * (e * U) := by
        apply mul_le_mul _ hle hq.le
        · exact mul_nonneg hw'.le (pow_nonneg (h0.trans h3) _)
        · exact mul_le_mul_of_nonneg_left (pow_le_pow_left₀ h0 h3 143) hw'.le
    _ = (S * (S * U) ^ 143 * U) * (w / S * (((1 + p) * e) ^ 143 * e)) := by
        rw [mul_pow (S * U) ((1 + p) * e) 143]
        generalize (S * U) ^ 143 = X
        generalize ((1 + p) * e) ^ 143 = Y
        field_simp

/-- The sum of the rule on `[0, 288]` for `a = 144` is larger than one. -/
theorem quadSum_gt :
    1 < glSumOn 0 288 fun x => Real.exp (-x + (144 - 1) * Real.log x - Real.log (Nat.factorial 143 : ℝ)) := by
  have hwpos : ∀ k ∈ glWeightsNum, (0 : ℤ) < k := by decide
  set K : ℝ := 144 ^ 143 * Real.exp (-1) ^ 144 / (Nat.factorial 143 : ℝ) with hK
  have hK0 : 0 < K := by positivity
  have e1 : (glSumOn 0 288 fun x => Real.exp (-x + (144 - 1) * Real.log x - Real.log (Nat.factorial 143 : ℝ))) =
      144 * K * ((glWeightsNum.zip glPointsNum).map fun x =>
        ((x.1 : ℝ) / 10 ^ 32) * (((1 + (x.2 : ℝ) / 10 ^ 32) * Real.exp (-((x.2 : ℝ) / 10 ^ 32))) ^ 143 *
          Real.exp (-((x.2 : ℝ) / 10 ^ 32)))).sum := by
    unfold glSumOn glWeights glPoints
    rw [List.zip_map, List.map_map, ← List.sum_map_mul_left]
    congr 1
    apply List.map_congr_left
    rintro ⟨w, p⟩ hx
    have hp := (List.of_mem_zip hx).2
    obtain ⟨h1, -⟩ := glPoints_lt ((p : ℝ) / 10 ^ 32) (List.mem_map.2 ⟨p, hp, rfl⟩)
    have := quadFn_eq ((p : ℝ) / 10 ^ 32) h1
    simp only [Function.comp, Prod.map]
    rw [show ((288 - 0 : ℝ) * (1 / 2) * ((p : ℝ) / 10 ^ 32) + 1 / 2 * (288 + 0)) =
      144 * (1 + (p : ℝ) / 10 ^ 32) from by ring, this, ← hK]
    generalize ((1 + (p : ℝ) / 10 ^ 32) * Real.exp (-((p : ℝ) / 10 ^ 32))) ^ 143 = Y
    generalize Real.exp (-((p : ℝ) / 10 ^ 32)) = e
    clear_value K
    generalize (w : ℝ) / 10 ^ 32 = v
    ring
  have e2 : (((glWeightsNum.zip glPointsNum).map quadTermLow).sum : ℝ) ≤
      (10 ^ 32 * (10 ^ 32 * 10 ^ 40) ^ 143 * 10 ^ 40) * ((glWeightsNum.zip glPointsNum).map fun x =>
        ((x.1 : ℝ) / 10 ^ 32) * (((1 + (x.2 : ℝ) / 10 ^ 32) * Real.exp (-((x.2 : ℝ) / 10 ^ 32))) ^ 143 *
          Real.exp (-((x.2 : ℝ) / 10 ^ 32)))).sum := by
    rw [list_sum_cast, ← List.sum_map_mul_left]
    apply List.sum_le_sum
    rintro ⟨w, p⟩ hx
    exact quadTerm_bound (w, p) (hwpos w (List.of_mem_zip hx).1) (List.of_mem_zip hx).2
  rw [e1]
  set R := ((glWeightsNum.zip glPointsNum).map fun x =>
        ((x.1 : ℝ) / 10 ^ 32) * (((1 + (x.2 : ℝ) / 10 ^ 32) * Real.exp (-((x.2 : ℝ) / 10 ^ 32))) ^ 143 *
          Real.exp (-((x.2 : ℝ) / 10 ^ 32)))).sum
  have h := quadSum_check
  generalize hL : ((glWeightsNum.zip glPointsNum).map quadTermLow).sum = L at h e2
  have h' : (Nat.factorial 143 : ℝ) * (quadExpOne : ℝ) ^ 144 *
      (10 ^ 32 * (10 ^ 32 * 10 ^ 40) ^ 143 * 10 ^ 40) < 144 ^ 144 * (L : ℝ) * (10 ^ 40) ^ 144 := by
    have := (Int.cast_lt (R := ℝ)).2 h
    simpa only [Int.cast_mul, Int.cast_pow, Int.cast_ofNat, Int.cast_natCast] using this
  have hA : (0 : ℝ) < (Nat.factorial 143 : ℝ) := by positivity
  have hM : (0 : ℝ) < 10 ^ 32 * (10 ^ 32 * 10 ^ 40) ^ 143 * 10 ^ 40 := by positivity
  have hU : (0 : ℝ) < ((10 : ℝ) ^ 40) ^ 144 := by positivity
  have hB : (0 : ℝ) < (144 : ℝ) ^ 144 := by positivity
  have hE : (Real.exp 1) ^ 144 * ((10 : ℝ) ^ 40) ^ 144 ≤ (quadExpOne : ℝ) ^ 144 := by
    rw [← mul_pow]
    exact pow_le_pow_left₀ (by positivity) quadExpOne_le _
  have hd : Real.exp (-1) ^ 144 * Real.exp 1 ^ 144 = 1 := by
    rw [← mul_pow, ← Real.exp_add]; simp
  have hKe : 144 * K = 144 ^ 144 * Real.exp (-1) ^ 144 / (Nat.factorial 143 : ℝ) := by
    rw [hK, pow_succ (144 : ℝ) 143]
    generalize (144 : ℝ) ^ 143 = B
    generalize Real.exp (-1) ^ 144 = d
    ring
  rw [hKe]
  have hd0 : 0 < Real.exp (-1) ^ 144 := by positivity
  have he0 : 0 < Real.exp 1 ^ 144 := by positivity
  clear_value R
  clear hKe hK0 e1 hK K h hL hwpos
  generalize Real.exp (-1) ^ 144 = d at *
  generalize Real.exp 1 ^ 144 = e at *
  generalize (quadExpOne : ℝ) ^ 144 = Q at *
  generalize (Nat.factorial 143 : ℝ) = A at *
  generalize (10 ^ 32 * (10 ^ 32 * 10 ^ 40) ^ 143 * 10 ^ 40 : ℝ) = M at *
  generalize ((10 : ℝ) ^ 40) ^ 144 = U at *
  generalize (144 : ℝ) ^ 144 = B at *
  generalize (L : ℝ) = l at *
  have k1 : A * (e * U) * M < B * (M * R) * U := by
    calc A * (e * U) * M ≤ A * Q * M := by
          apply mul_le_mul_of_nonneg_right _ hM.le
          exact mul_le_mul_of_nonneg_left hE hA.le
      _ < B * l * U := h'
      _ ≤ B * (M * R) * U := by
          apply mul_le_mul_of_nonneg_right _ hU.le
          exact mul_le_mul_of_nonneg_left e2 hB.le
  have k2 : A * e < B * R := by
    have : A * e * (U * M) < B * R * (U * M) := by
      calc A * e * (U * M) = A * (e * U) * M := by ring
        _ < B * (M * R) * U := k1
        _ = B * R * (U * M) := by ring
    exact lt_of_mul_lt_mul_right this (by positivity)
  have k3 : A < B * d * R := by
    calc A = A * (d * e) := by rw [hd, mul_one]
      _ = A * e * d := by ring
      _ < B * R * d := mul_lt_mul_of_pos_right k2 hd0
      _ = B * d * R := by ring
  rw [div_mul_eq_mul_div, lt_div_iff₀ hA, one_mul]
  exact k3

/-- What C50 claims of the quadrature branch. -/
def QuadratureInRange : Prop :=
  ∀ (b : Build) (a z : ℝ), 10 ≤ a → dblEpsilon ≤ z →
    ∃ r, incompleteGamma b (.fin a) (.fin z) = .ok (.fin r) ∧ 0 ≤ r ∧ r ≤ 1

/-- C50: with 288 degrees of freedom the chi squared CDF of 576 exceeds one. -/
theorem C50_chi_squared_exceeds_one (b : Build) :
    ∃ r, chiSquaredCdf b (.fin 576) (.fin 288) = .ok (.fin r) ∧ 1 < r ∧
      incompleteGamma b (.fin 144) (.fin 288) = .ok (.fin r) := by
  have hs : Real.sqrt 144 = 12 := by
    rw [show (144 : ℝ) = 12 ^ 2 from by norm_num, Real.sqrt_sq (by norm_num)]
  have hs' : (12 : ℝ) ≤ Real.sqrt (144 + 1) := Real.le_sqrt_of_sq_le (by norm_num)
  have hb : igBounds (.fin 144) (.fin 288) = (.fin 0, .fin 288) := by
    have q1 : Dbl.sqrt (.fin 144) = .fin 12 := by
      unfold Dbl.sqrt
      simp only
      rw [if_neg (by norm_num), hs]
    have q2 : Dbl.sqrt (.fin 144 + .fin 1) = .fin (Real.sqrt (144 + 1)) := by
      rw [Dbl.fin_add]
      unfold Dbl.sqrt
      simp only
      rw [if_neg (by norm_num)]
    have m1 : stdMin (.fin 288) (.fin 144) = .fin 144 := by
      unfold stdMin
      rw [if_pos (by rw [Dbl.fin_lt]; norm_num)]
    unfold igBounds
    rw [q1, q2, m1, Dbl.fin_mul, Dbl.fin_mul, Dbl.fin_sub, Dbl.fin_add]
    unfold stdMax stdMin
    rw [if_neg (by rw [Dbl.fin_lt]; norm_num), if_neg (by rw [Dbl.fin_lt]; linarith)]
  have hg : Dbl.lgamma (.fin 144) = .fin (Real.log (Nat.factorial 143 : ℝ)) := by
    unfold Dbl.lgamma
    simp only
    rw [show (144 : ℝ) = (143 : ℕ) + 1 from by norm_num, Real.Gamma_nat_eq_factorial, abs_of_pos (by positivity)]
  have hq : igQuadrature b (.fin 144) (.fin 288) = .ok (.fin (glSumOn 0 288 fun x =>
      Real.exp (-x + (144 - 1) * Real.log x - Real.log (Nat.factorial 143 : ℝ)))) := by
    unfold igQuadrature
    simp only [hb, hg]
    exact C79_code_sum b 0 288 144 _ le_rfl (by norm_num) (by norm_num)
  have he : dblEpsilon ≤ 1 := by
    unfold dblEpsilon
    exact pow_le_one₀ (by norm_num) (by norm_num)
  have hi : incompleteGamma b (.fin 144) (.fin 288) = .ok (.fin (glSumOn 0 288 fun x =>
      Real.exp (-x + (144 - 1) * Real.log x - Real.log (Nat.factorial 143 : ℝ)))) := by
    unfold incompleteGamma
    simp only [Dbl.isNan, Bool.or_self, Bool.false_eq_true, if_false, Dbl.fin_lt]
    rw [if_neg (by norm_num), if_neg (by linarith), if_neg (by linarith), if_neg (by norm_num)]
    exact hq
  refine ⟨_, ?_, quadSum_gt, hi⟩
  rw [← hi]
  unfold chiSquaredCdf chiSquaredCdfUnsafe
  have h0 : (Dbl.fin 576).isNan = false := rfl
  have h1 : ¬ Dbl.fin 576 < Dbl.fin 0 := by rw [Dbl.fin_lt]; norm_num
  have h2 : ¬ Dbl.fin 576 < Dbl.fin dblEpsilon := by rw [Dbl.fin_lt]; linarith
  rw [h0, decide_eq_false h1, if_neg (by simp), if_neg (by simp), if_neg h2, if_neg (by simp), Dbl.fin_mul,
    Dbl.fin_mul, show (1 / 2 * 288 : ℝ) = 144 from by norm_num, show (1 / 2 * 576 : ℝ) = 288 from by norm_num]

/-- C50 is false of the quadrature branch: its value exceeds one at `a = 144`, `z = 288`. -/
theorem C50_quadrature_range_false : ¬ QuadratureInRange := by
  intro h
  obtain ⟨r, -, h1, h2⟩ := C50_chi_squared_exceeds_one .debug
  have he : dblEpsilon ≤ 1 := by
    unfold dblEpsilon
    exact pow_le_one₀ (by norm_num) (by norm_num)
  obtain ⟨r', h3, -, h4⟩ := h .debug 144 288 (by norm_num) (by linarith)
  rw [h2] at h3
  cases h3
  linarith

end Albatross
