import Verif.Kernels
import Verif.Psd
import Verif.CallersProps
import Verif.IndexingLemmas

/-! # C22: the covariance functions of the library are positive semi-definite -/

namespace Albatross

section helpers

theorem polynomialCov_eq (order : Nat) (σ : Nat → ℝ) (x y : ℝ) :
    polynomialCov order σ x y = ∑ i ∈ Finset.range (order + 1), (σ i * x ^ i) * (σ i * y ^ i) := by
  unfold polynomialCov
  generalize order + 1 = n
  induction n with
  | zero => simp
  | succ n ih =>
    rw [List.range_succ, List.foldl_append, ih, Finset.sum_range_succ]
    simp
    ring

theorem se_inner {E : Type} [NormedAddCommGroup E] [InnerProductSpace ℝ E] (l σ : ℝ) (x y : E) :
    σ * σ * Real.exp (-(‖x - y‖ / l) ^ 2) =
      (σ * Real.exp (-(‖x‖ / l) ^ 2)) * (σ * Real.exp (-(‖y‖ / l) ^ 2)) *
        Real.exp (2 / l ^ 2 * inner ℝ x y) := by
  have h : -(‖x - y‖ / l) ^ 2 = -(‖x‖ / l) ^ 2 + (-(‖y‖ / l) ^ 2) + 2 / l ^ 2 * inner ℝ x y := by
    rw [div_pow, norm_sub_sq_real]
    ring
  rw [h, Real.exp_add, Real.exp_add]
  ring

theorem inner_psd {E : Type} [NormedAddCommGroup E] [InnerProductSpace ℝ E] :
    IsPSD fun x y : E => inner ℝ x y := by
  refine IsPSD.of_matrix fun n x => ?_
  exact Matrix.posSemidef_gram ℝ x

end helpers

/-- Constant: positive semi-definite and bounded by its diagonal. -/
theorem C22_constant_psd {X : Type} (σ : ℝ) : IsPSD (constantCov (X := X) σ) :=
  IsPSD.rank_one fun _ => σ

theorem C22_polynomial_psd (order : Nat) (σ : Nat → ℝ) : IsPSD (polynomialCov order σ) := by
  have h := IsPSD.finset_sum (Finset.range (order + 1))
    (fun i (x y : ℝ) => (σ i * x ^ i) * (σ i * y ^ i)) fun i _ => IsPSD.rank_one fun x => σ i * x ^ i
  refine cast (congrArg IsPSD ?_) h
  funext x y
  exact (polynomialCov_eq order σ x y).symm

/-- Independent noise and the nugget. -/
theorem C22_noise_psd {X : Type} [DecidableEq X] (σ : ℝ) : IsPSD (noiseCov (X := X) σ) := by
  refine ⟨fun x y => by unfold noiseCov; simp only [eq_comm], fun n x w => ?_⟩
  -- group the weights by point: the form is `σ² Σ_p (Σ_{xᵢ = p} wᵢ)²`
  have h : ∑ i, ∑ j, w i * w j * noiseCov σ (x i) (x j) =
      ∑ p ∈ Finset.univ.image x, (σ * ∑ i, if x i = p then w i else 0) ^ 2 := by
    have e : ∀ p, (σ * ∑ i, if x i = p then w i else 0) ^ 2 =
        ∑ i, ∑ j, if x i = p ∧ x j = p then σ * σ * (w i * w j) else 0 := by
      intro p
      rw [mul_pow, sq (∑ i, _), Finset.sum_mul_sum, Finset.mul_sum]
      refine Finset.sum_congr rfl fun i _ => ?_
      rw [Finset.mul_sum]
      refine Finset.sum_congr rfl fun j _ => ?_
      by_cases h1 : x i = p <;> by_cases h2 : x j = p <;> simp [h1, h2, sq]
    simp only [e]
    conv_rhs => rw [Finset.sum_comm]
    refine Finset.sum_congr rfl fun i _ => ?_
    conv_rhs => rw [Finset.sum_comm]
    refine Finset.sum_congr rfl fun j _ => ?_
    unfold noiseCov
    by_cases h1 : x i = x j
    · rw [if_pos h1, Finset.sum_eq_single (x i)]
      · simp [h1]; ring
      · intro p _ hp
        simp [Ne.symm hp]
      · intro hn
        exact absurd (Finset.mem_image_of_mem x (Finset.mem_univ i)) hn
    · rw [if_neg h1, mul_zero, Finset.sum_eq_zero]
      intro p _
      rw [if_neg]
      rintro ⟨rfl, h3⟩
      exact h1 h3.symm
  rw [h]
  exact Finset.sum_nonneg fun p _ => sq_nonneg _

/-- Squared exponential of the Euclidean distance, in any dimension, for every length scale (zero or
negative ones give the zero function) and every sigma. -/
theorem C22_squared_exponential_psd {E : Type} [NormedAddCommGroup E] [InnerProductSpace ℝ E] (l σ : ℝ) :
    IsPSD fun x y : E => squaredExponential (euclideanDistanceVec x y) l σ := by
  by_cases hl : l ≤ 0
  · simpa [squaredExponential, hl] using IsPSD.zero
  · have h := (IsPSD.rank_one fun x : E => σ * Real.exp (-(‖x‖ / l) ^ 2)).mul
      ((inner_psd (E := E)).smul (c := 2 / l ^ 2) (by positivity)).exp
    refine cast (congrArg IsPSD ?_) h
    funext x y
    simp only [squaredExponential, hl, if_false, euclideanDistanceVec]
    exact (se_inner l σ x y).symm

/-- The same for double features. -/
theorem C22_squared_exponential_real_psd (l σ : ℝ) :
    IsPSD fun x y : ℝ => squaredExponential (euclideanDistance x y) l σ :=
  C22_squared_exponential_psd (E := ℝ) l σ

theorem C22_exponential_real_psd (l σ : ℝ) :
    IsPSD fun x y : ℝ => exponentialCov (euclideanDistance x y) l σ := by
  by_cases hl : l ≤ 0
  · simpa [exponentialCov, hl] using IsPSD.zero
  · have h := (IsPSD.exponential.comp fun x : ℝ => x / l).smul (c := σ * σ) (mul_self_nonneg σ)
    refine cast (congrArg IsPSD ?_) h
    funext x y
    simp only [exponentialCov, hl, if_false, euclideanDistance]
    rw [← sub_div, abs_div, abs_div, abs_abs]

theorem C22_matern_32_real_psd (l σ : ℝ) :
    IsPSD fun x y : ℝ => matern32 (euclideanDistance x y) l σ := by
  by_cases hl : l ≤ 0
  · simpa [matern32, hl] using IsPSD.zero
  · have h := (IsPSD.matern_32.comp fun x : ℝ => Real.sqrt 3 * x / l).smul (c := σ * σ)
      (mul_self_nonneg σ)
    refine cast (congrArg IsPSD ?_) h
    funext x y
    simp only [matern32, hl, if_false, euclideanDistance]
    push Not at hl
    rw [← sub_div, ← mul_sub, abs_div, abs_mul, abs_of_pos hl, abs_of_nonneg (Real.sqrt_nonneg 3)]
    ring

theorem C22_matern_52_real_psd (l σ : ℝ) :
    IsPSD fun x y : ℝ => matern52 (euclideanDistance x y) l σ := by
  by_cases hl : l ≤ 0
  · simpa [matern52, hl] using IsPSD.zero
  · have h := (IsPSD.matern_52.comp fun x : ℝ => Real.sqrt 5 * x / l).smul (c := σ * σ)
      (mul_self_nonneg σ)
    refine cast (congrArg IsPSD ?_) h
    funext x y
    simp only [matern52, hl, if_false, euclideanDistance]
    push Not at hl
    rw [← sub_div, ← mul_sub, abs_div, abs_mul, abs_of_pos hl, abs_of_nonneg (Real.sqrt_nonneg 5)]
    ring

/-- The radial functions are bounded by their value at distance zero, which is the variance, and are
never negative; the assertion on the distance cannot fire. -/
theorem C22_radial_bounds (b : Build) (d l σ : ℝ) (hd : 0 ≤ d) (hl : 0 < l) :
    (0 ≤ squaredExponential d l σ ∧ squaredExponential d l σ ≤ squaredExponential 0 l σ ∧
      squaredExponential 0 l σ = σ ^ 2 ∧
      squaredExponentialChecked b d l σ = .ok (squaredExponential d l σ)) ∧
    (0 ≤ exponentialCov d l σ ∧ exponentialCov d l σ ≤ exponentialCov 0 l σ ∧
      exponentialCov 0 l σ = σ ^ 2) ∧
    (0 ≤ matern32 d l σ ∧ matern32 d l σ ≤ matern32 0 l σ ∧ matern32 0 l σ = σ ^ 2) ∧
    (0 ≤ matern52 d l σ ∧ matern52 d l σ ≤ matern52 0 l σ ∧ matern52 0 l σ = σ ^ 2) := by
  have hn : ¬ l ≤ 0 := not_le.2 hl
  have hσ : 0 ≤ σ * σ := mul_self_nonneg σ
  have e1 : ∀ x : ℝ, 0 ≤ x → Real.exp (-x) ≤ 1 := fun x hx => by
    rw [← Real.exp_zero]; exact Real.exp_le_exp.2 (by linarith)
  have e2 : ∀ x : ℝ, 0 ≤ x → (1 + x) * Real.exp (-x) ≤ 1 := fun x hx => by
    have := Real.add_one_le_exp x
    rw [Real.exp_neg, ← div_eq_mul_inv, div_le_one (Real.exp_pos x)]
    linarith
  have e3 : ∀ x : ℝ, 0 ≤ x → (1 + x + x * x / 3) * Real.exp (-x) ≤ 1 := fun x hx => by
    have := Real.quadratic_le_exp_of_nonneg hx
    rw [Real.exp_neg, ← div_eq_mul_inv, div_le_one (Real.exp_pos x)]
    nlinarith [mul_nonneg hx hx]
  refine ⟨⟨?_, ?_, ?_, ?_⟩, ⟨?_, ?_, ?_⟩, ⟨?_, ?_, ?_⟩, ?_, ?_, ?_⟩
  · simp only [squaredExponential, hn, if_false]; positivity
  · simp only [squaredExponential, hn, if_false]
    simpa using mul_le_mul_of_nonneg_left (e1 ((d / l) ^ 2) (by positivity)) hσ
  · simp [squaredExponential, hn, sq]
  · simp [squaredExponentialChecked, hn, hd, except_ok_bind]
  · simp only [exponentialCov, hn, if_false]; positivity
  · simp only [exponentialCov, hn, if_false]
    simpa using mul_le_mul_of_nonneg_left (e1 |d / l| (by positivity)) hσ
  · simp [exponentialCov, hn, sq]
  · simp only [matern32, hn, if_false]; positivity
  · simp only [matern32, hn, if_false]
    have := mul_le_mul_of_nonneg_left (e2 (Real.sqrt 3 * d / l) (by positivity)) hσ
    rw [← mul_assoc] at this
    simpa using this
  · simp [matern32, hn, sq]
  · simp only [matern52, hn, if_false]; positivity
  · simp only [matern52, hn, if_false]
    have := mul_le_mul_of_nonneg_left (e3 (Real.sqrt 5 * d / l) (by positivity)) hσ
    rw [← mul_assoc] at this
    simpa using this
  · simp [matern52, hn, sq]

/-- What the three checked functions do with each distance: the value for a distance that is not negative, a stop
in a debug build for a negative one, and the unchecked value for it in a release build; a length scale that is not
positive gives zero before the distance is looked at. -/
theorem C22_checked (f : ℝ → ℝ → ℝ → ℝ) (checked : Build → ℝ → ℝ → ℝ → Outcome ℝ)
    (hf : (f, checked) ∈ [(squaredExponential, squaredExponentialChecked), (matern32, matern32Checked),
      (matern52, matern52Checked)]) (d l σ : ℝ) :
    (∀ b, l ≤ 0 → checked b d l σ = .ok 0) ∧
    (∀ b, 0 < l → 0 ≤ d → checked b d l σ = .ok (f d l σ)) ∧
    (0 < l → d < 0 → checked .debug d l σ = .error .assertFail) ∧
    (0 < l → checked .ndebug d l σ = .ok (f d l σ)) := by
  simp only [List.mem_cons, Prod.mk.injEq, List.not_mem_nil, or_false] at hf
  obtain ⟨rfl, rfl⟩ | ⟨rfl, rfl⟩ | ⟨rfl, rfl⟩ := hf
  · refine ⟨fun b hl => if_pos hl, fun b hl hd => ?_, fun hl hd => ?_, fun hl => ?_⟩ <;>
      rw [squaredExponentialChecked, if_neg (not_le.2 hl)]
    · rw [decide_eq_true hd, albatrossAssert_true]; rfl
    · rw [decide_eq_false (not_le.2 hd)]; rfl
    · cases decide (0 ≤ d) <;> rfl
  · refine ⟨fun b hl => if_pos hl, fun b hl hd => ?_, fun hl hd => ?_, fun hl => ?_⟩ <;>
      rw [matern32Checked, if_neg (not_le.2 hl)]
    · rw [decide_eq_true hd, albatrossAssert_true]; rfl
    · rw [decide_eq_false (not_le.2 hd)]; rfl
    · cases decide (0 ≤ d) <;> rfl
  · refine ⟨fun b hl => if_pos hl, fun b hl hd => ?_, fun hl hd => ?_, fun hl => ?_⟩ <;>
      rw [matern52Checked, if_neg (not_le.2 hl)]
    · rw [decide_eq_true hd, albatrossAssert_true]; rfl
    · rw [decide_eq_false (not_le.2 hd)]; rfl
    · cases decide (0 ≤ d) <;> rfl

/-- Every positive semi-definite covariance is bounded by its diagonal (Cauchy-Schwarz), in particular
the polynomial and noise covariances. -/
theorem C22_bounded_by_diagonal (order : Nat) (σ : Nat → ℝ) (x y : ℝ) :
    polynomialCov order σ x y ^ 2 ≤ polynomialCov order σ x x * polynomialCov order σ y y ∧
    noiseCov (σ 0) x y ≤ noiseCov (σ 0) x x := by
  refine ⟨(C22_polynomial_psd order σ).sq_le x y, ?_⟩
  unfold noiseCov
  split_ifs with h1 h2
  · exact le_refl _
  · exact absurd rfl h2
  · exact mul_self_nonneg _
  · exact le_refl _

section examples

/-- a negative distance stops a debug build and grows in a release build -/
example : squaredExponentialChecked .debug (-1) 2 3 = .error .assertFail ∧
    matern32Checked .ndebug (-1) 2 3 = .ok (matern32 (-1) 2 3) :=
  ⟨(C22_checked squaredExponential _ (by simp) (-1) 2 3).2.2.1 (by norm_num) (by norm_num),
    (C22_checked matern32 _ (by simp) (-1) 2 3).2.2.2 (by norm_num)⟩

/-- a 2 x 2 squared exponential matrix -/
example : (Matrix.of fun i j => squaredExponential (euclideanDistance (![0, 1] i) (![0, 1] j)) 2 3 :
    Matrix (Fin 2) (Fin 2) ℝ).PosSemidef :=
  (C22_squared_exponential_real_psd 2 3).matrix 2 ![0, 1]

example : polynomialCov 1 (fun i => if i = 0 then 2 else 3) 4 5 = 184 := by
  rw [polynomialCov_eq]; norm_num [Finset.sum_range_succ]

end examples

end Albatross
