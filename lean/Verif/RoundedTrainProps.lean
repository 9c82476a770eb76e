import Verif.RoundedTrain
import Verif.RoundedStatsProps
import Mathlib.Algebra.Order.Chebyshev

/-! # C144: how much noise makes the training covariance positive definite in doubles -/

namespace Albatross

open Finset

/-- `x' A x`. -/
noncomputable def quadraticForm {n : Nat} (A : Fin n → Fin n → ℝ) (x : Fin n → ℝ) : ℝ := ∑ i, ∑ j, x i * A i j * x j

/-- Positive definite: as the decomposition of the fit wants it. -/
def IsDefinite {n : Nat} (A : Fin n → Fin n → ℝ) : Prop := ∀ x : Fin n → ℝ, x ≠ 0 → 0 < quadraticForm A x

/-- Positive semidefinite: as covariance functions are. -/
def IsSemidefinite {n : Nat} (A : Fin n → Fin n → ℝ) : Prop := ∀ x : Fin n → ℝ, 0 ≤ quadraticForm A x

/-- The training covariance in exact arithmetic. -/
noncomputable def exactTrain {n : Nat} (K : Fin n → Fin n → ℝ) (noise : Fin n → ℝ) (i j : Fin n) : ℝ :=
  K i j + if i = j then noise i else 0

variable (r : Rounding)

theorem trainCovariance_close {n N : Nat} {V : ℝ} {cov K : Fin n → Fin n → ℝ} {noise : Fin n → ℝ} (hn : ∀ i, 0 ≤ noise i)
    (hc : ∀ i j, Close N V (cov i j) (K i j)) (i j : Fin n) :
    Close (N + 1) (V + if i = j then noise i else 0) (r.trainCovariance cov noise i j) (exactTrain K noise i j) := by
  rw [Rounding.trainCovariance, exactTrain]
  split_ifs with h
  · have := ((hc i j).add ((Close.refl (noise i)).mono (Nat.zero_le _) (abs_of_nonneg (hn i)).le)).fl r
    exact this
  · rw [add_zero, add_zero]
    exact (hc i j).mono (Nat.le_succ N) le_rfl

/-- C144: every entry of the training covariance is the exact one up to the error of the covariance function and one
rounding; the target variances change nothing off the diagonal. -/
theorem C144_entries {n N : Nat} {V : ℝ} {cov K : Fin n → Fin n → ℝ} {noise : Fin n → ℝ} (hn : ∀ i, 0 ≤ noise i)
    (hc : ∀ i j, Close N V (cov i j) (K i j)) (i j : Fin n) :
    (i ≠ j → r.trainCovariance cov noise i j = cov i j) ∧
    |r.trainCovariance cov noise i i - (K i i + noise i)| ≤ ((1 + 2⁻¹ ^ 53) ^ (N + 1) - 1) * (V + noise i) := by
  refine ⟨fun h => by rw [Rounding.trainCovariance, if_neg h], ?_⟩
  simpa [exactTrain] using (trainCovariance_close r hn hc i i).2

theorem exactTrain_form {n : Nat} (K : Fin n → Fin n → ℝ) (noise x : Fin n → ℝ) :
    quadraticForm (exactTrain K noise) x = quadraticForm K x + ∑ i, noise i * x i ^ 2 := by
  simp only [quadraticForm, exactTrain, mul_add, add_mul, sum_add_distrib, mul_ite, ite_mul, mul_zero, zero_mul, sum_ite_eq,
    mem_univ, if_true]
  exact congrArg₂ _ rfl (sum_congr rfl fun i _ => by ring)

/-- C144: in exact arithmetic any positive noise makes the training covariance of a covariance function positive definite. -/
theorem C144_exact {n : Nat} {K : Fin n → Fin n → ℝ} (hK : IsSemidefinite K) {noise : Fin n → ℝ} (hn : ∀ i, 0 < noise i) :
    IsDefinite (exactTrain K noise) := by
  intro x hx
  rw [exactTrain_form]
  obtain ⟨i, hi⟩ := Function.ne_iff.1 hx
  have h1 : 0 < ∑ i, noise i * x i ^ 2 :=
    sum_pos' (fun i _ => mul_nonneg (hn i).le (sq_nonneg _)) ⟨i, mem_univ i, mul_pos (hn i) (sq_pos_of_ne_zero hi)⟩
  linarith [hK x]

/-- C144, partial: in doubles the training covariance is positive definite when the noise is above the error of the
covariances times the number of observations. Missing: any positive noise is enough, which is false
(`C144_definite_false`). -/
theorem C144_definite_partial {n N : Nat} {V : ℝ} {cov K : Fin n → Fin n → ℝ} (hK : IsSemidefinite K) {noise : Fin n → ℝ}
    (hn : ∀ i, 0 ≤ noise i) (hc : ∀ i j, Close N V (cov i j) (K i j))
    (h : ∀ i, ((1 + 2⁻¹ ^ 53) ^ (N + 1) - 1) * (n * V + noise i) < noise i) :
    IsDefinite (r.trainCovariance cov noise) := by
  intro x hx
  set g : ℝ := (1 + 2⁻¹ ^ 53) ^ (N + 1) - 1 with hg
  have hg0 : 0 ≤ g := Close.growth_nonneg _
  have herr : |quadraticForm (r.trainCovariance cov noise) x - quadraticForm (exactTrain K noise) x| ≤
      g * (n * V * ∑ i, x i ^ 2 + ∑ i, noise i * x i ^ 2) := by
    have h1 : |quadraticForm (r.trainCovariance cov noise) x - quadraticForm (exactTrain K noise) x| ≤
        ∑ i, ∑ j, g * (V + if i = j then noise i else 0) * (|x i| * |x j|) := by
      rw [quadraticForm, quadraticForm, ← sum_sub_distrib]
      refine (abs_sum_le_sum_abs _ _).trans (sum_le_sum fun i _ => ?_)
      rw [← sum_sub_distrib]
      refine (abs_sum_le_sum_abs _ _).trans (sum_le_sum fun j _ => ?_)
      have e : x i * r.trainCovariance cov noise i j * x j - x i * exactTrain K noise i j * x j =
          (r.trainCovariance cov noise i j - exactTrain K noise i j) * (x i * x j) := by ring
      rw [e, abs_mul, abs_mul (x i)]
      exact mul_le_mul_of_nonneg_right (trainCovariance_close r hn hc i j).2 (by positivity)
    refine h1.trans ?_
    have e : ∑ i, ∑ j, g * (V + if i = j then noise i else 0) * (|x i| * |x j|) =
        g * (V * (∑ i, |x i|) ^ 2 + ∑ i, noise i * x i ^ 2) := by
      have e1 : ∀ i, ∑ j, g * (V + if i = j then noise i else 0) * (|x i| * |x j|) =
          g * (V * (|x i| * ∑ j, |x j|) + noise i * x i ^ 2) := by
        intro i
        simp only [mul_add, add_mul, sum_add_distrib, mul_ite, ite_mul, mul_zero, zero_mul, sum_ite_eq, mem_univ, if_true,
          abs_mul_abs_self, ← mul_sum]
        ring
      simp only [e1, ← mul_sum, sum_add_distrib, ← sum_mul]
      ring
    rw [e]
    rcases isEmpty_or_nonempty (Fin n) with hE | ⟨⟨i0⟩⟩
    · simp
    have hV : 0 ≤ V := (hc i0 i0).scale_nonneg
    have hs : (∑ i, |x i|) ^ 2 ≤ n * ∑ i, x i ^ 2 := by
      have := sq_sum_le_card_mul_sum_sq (s := (univ : Finset (Fin n))) (f := fun i => |x i|)
      simpa using this
    have := mul_le_mul_of_nonneg_left hs hV
    exact mul_le_mul_of_nonneg_left (by linarith) hg0
  rw [exactTrain_form] at herr
  obtain ⟨i, hi⟩ := Function.ne_iff.1 hx
  have hi' : x i ≠ 0 := hi
  have hsum : 0 < ∑ i, (noise i - g * (n * V + noise i)) * x i ^ 2 :=
    sum_pos' (fun i _ => mul_nonneg (sub_nonneg.2 (h i).le) (sq_nonneg _))
      ⟨i, mem_univ i, mul_pos (sub_pos.2 (h i)) (by positivity)⟩
  have e : ∑ i, (noise i - g * (n * V + noise i)) * x i ^ 2 =
      ∑ i, noise i * x i ^ 2 - g * (n * V * ∑ i, x i ^ 2 + ∑ i, noise i * x i ^ 2) := by
    rw [mul_add, mul_sum, mul_sum, mul_sum, ← sum_add_distrib, ← sum_sub_distrib]
    exact sum_congr rfl fun i _ => by ring
  rw [e] at hsum
  linarith [hK x, (abs_le.1 herr).1]

/-- C144 is false: the training covariance of two observations of one feature of variance 1 is singular in doubles for
every noise variance below `2⁻⁵³`, although it is positive definite in exact arithmetic. -/
theorem C144_definite_false {noise : ℝ} (hn : 0 < noise) (hn' : noise < 2⁻¹ ^ 53) (lib : MathFunctions) (f : ℝ) :
    let cov : Fin 2 → Fin 2 → ℝ := fun _ _ => (DoubleCov.constant 1).call r lib f f
    ¬IsDefinite (r.trainCovariance cov fun _ => noise) ∧ IsDefinite (exactTrain cov fun _ => noise) := by
  intro cov
  have e : ∀ i j, cov i j = 1 := fun i j => by
    simp only [cov, DoubleCov.call, Rounding.constantCall, mul_one, r.of_double isDouble_one]
  have h1 : r.fl (1 + noise) = 1 := by
    refine r.absorbs isDouble_one (e := 0) (by norm_num) hn.le (hn'.trans_eq ?_)
    norm_num
  constructor
  · intro h
    have := h ![1, -1] (fun h => by simpa using congrFun h 0)
    simp [quadraticForm, Rounding.trainCovariance, Rounding.trainVariance, Fin.sum_univ_two, e, h1] at this
  · refine C144_exact (fun x => ?_) fun _ => hn
    have : quadraticForm cov x = (x 0 + x 1) ^ 2 := by
      simp only [quadraticForm, Fin.sum_univ_two, e]
      ring
    rw [this]
    positivity

/-- A thousand observations of variance 1 with 20 roundings each and a noise variance of `10⁻¹¹`: enough noise. Constant
covariances are semidefinite, and one unit is a bound for them. -/
example : (∀ _i : Fin 1000, ((1 + 2⁻¹ ^ 53 : ℝ) ^ (20 + 1) - 1) * ((1000 : ℕ) * 1 + 10⁻¹ ^ 11) < 10⁻¹ ^ 11) ∧
    IsSemidefinite (fun _ _ : Fin 1000 => (1 : ℝ)) ∧ Close 20 1 (1 : ℝ) 1 := by
  refine ⟨fun _ => by norm_num, fun x => ?_, ?_⟩
  · have : quadraticForm (fun _ _ : Fin 1000 => (1 : ℝ)) x = (∑ i, x i) ^ 2 := by
      simp only [quadraticForm, mul_one, ← mul_sum, ← sum_mul, sq]
    rw [this]
    exact sq_nonneg _
  · simpa using (Close.refl (1 : ℝ)).mono (M := 20) (Nat.zero_le _) le_rfl

/-- A noise variance of `10⁻¹⁶` is absorbed. -/
example : (0 : ℝ) < 10⁻¹ ^ 16 ∧ (10⁻¹ ^ 16 : ℝ) < 2⁻¹ ^ 53 := by norm_num

end Albatross
