import Verif.RoundedJoint
import Verif.RoundedStatsProps

/-! # C143: predicted covariances in doubles -/

namespace Albatross

open Finset

variable (r : Rounding) (s : Summation r)

/-- An entry of the predicted covariance is the predicted variance with one column of each matrix. -/
theorem jointCovariance_marginal {n m : Nat} (priorCov : Fin m → Fin m → ℝ) (crossCov explained : Fin n → Fin m → ℝ)
    (i j : Fin m) : r.jointCovariance s priorCov crossCov explained i j =
      r.marginalVariance s (priorCov i j) (fun k => explained k j) fun k => crossCov k i := by
  simp only [Rounding.jointCovariance, Rounding.marginalVariance, mul_comm]

/-- C143: every entry of the covariance predicted with any computed solution is the exact one up to the errors of the
solution and `n + 2` roundings, relative to the prior covariance and the explained terms. -/
theorem C143_joint {n m M : Nat} (priorCov : Fin m → Fin m → ℝ) (crossCov : Fin n → Fin m → ℝ)
    {explained weights S : Fin n → Fin m → ℝ} (h : ∀ k j, Close M (S k j) (explained k j) (weights k j)) (i j : Fin m) :
    |r.jointCovariance s priorCov crossCov explained i j - (priorCov i j - ∑ k, crossCov k i * weights k j)| ≤
      ((1 + 2⁻¹ ^ 53) ^ (M + n + 2) - 1) * (|priorCov i j| + ∑ k, |crossCov k i| * S k j) := by
  have := C137_marginal r s (priorCov i j) (fun k => crossCov k i) fun k => h k j
  rw [← jointCovariance_marginal] at this
  simpa only [mul_comm] using this

/-- C143: the variances of the joint prediction are those of the marginal prediction when the products are added in the
same order. -/
theorem C143_diagonal {n m : Nat} (priorCov : Fin m → Fin m → ℝ) (crossCov explained : Fin n → Fin m → ℝ) (i : Fin m) :
    r.jointCovariance s priorCov crossCov explained i i =
      r.marginalVariance s (priorCov i i) (fun k => explained k i) fun k => crossCov k i :=
  jointCovariance_marginal r s priorCov crossCov explained i i

/-- C143: added in another order, the variances differ by at most `2 (n + 2)` roundings of the absolute terms. -/
theorem C143_diagonal_order (s' : Summation r) {n m : Nat} (priorCov : Fin m → Fin m → ℝ)
    (crossCov explained : Fin n → Fin m → ℝ) (i : Fin m) :
    |r.jointCovariance s priorCov crossCov explained i i -
        r.marginalVariance s' (priorCov i i) (fun k => explained k i) fun k => crossCov k i| ≤
      2 * (((1 + 2⁻¹ ^ 53) ^ (n + 2) - 1) * (|priorCov i i| + ∑ k, |explained k i| * |crossCov k i|)) := by
  rw [jointCovariance_marginal]
  have h1 := C137_marginal r s (priorCov i i) (fun k => crossCov k i) fun k => Close.refl (explained k i)
  have h2 := C137_marginal r s' (priorCov i i) (fun k => crossCov k i) fun k => Close.refl (explained k i)
  rw [zero_add] at h1 h2
  rw [abs_le] at h1 h2 ⊢
  constructor <;> linarith [h1.1, h1.2, h2.1, h2.2]

/-- In exact arithmetic the explained covariance is symmetric. -/
theorem explained_symm {n m : Nat} {A : Fin n → Fin n → ℝ} (hA : ∀ k l, A k l = A l k) {cross weights : Fin n → Fin m → ℝ}
    (hw : ∀ k j, ∑ l, A k l * weights l j = cross k j) (i j : Fin m) :
    ∑ k, cross k i * weights k j = ∑ k, cross k j * weights k i := by
  simp only [← hw, sum_mul]
  rw [sum_comm]
  refine sum_congr rfl fun k _ => sum_congr rfl fun l _ => ?_
  rw [hA]
  ring

/-- C143, partial: the computed covariance is symmetric up to `2 (M + n + 2)` roundings of the absolute terms, where `M`
roundings are the error of the solution. Missing: it is symmetric, which is false (`C143_symmetric_false`). -/
theorem C143_symmetric_partial {n m M : Nat} {priorCov : Fin m → Fin m → ℝ} (hp : ∀ i j, priorCov i j = priorCov j i)
    {A : Fin n → Fin n → ℝ} (hA : ∀ k l, A k l = A l k) {crossCov explained weights S : Fin n → Fin m → ℝ}
    (hw : ∀ k j, ∑ l, A k l * weights l j = crossCov k j) (h : ∀ k j, Close M (S k j) (explained k j) (weights k j))
    (i j : Fin m) :
    |r.jointCovariance s priorCov crossCov explained i j - r.jointCovariance s priorCov crossCov explained j i| ≤
      ((1 + 2⁻¹ ^ 53) ^ (M + n + 2) - 1) *
        (2 * |priorCov i j| + ∑ k, |crossCov k i| * S k j + ∑ k, |crossCov k j| * S k i) := by
  have h1 := C143_joint r s priorCov crossCov h i j
  have h2 := C143_joint r s priorCov crossCov h j i
  rw [hp j i, ← explained_symm hA hw i j] at h2
  rw [abs_le] at h1 h2 ⊢
  constructor <;> nlinarith [h1.1, h1.2, h2.1, h2.2]

theorem jointFromOne_eq (cov noise : ℝ) {m : Nat} (priorCov : Fin m → Fin m → ℝ) (crossCov : Fin m → ℝ) (i j : Fin m) :
    r.jointFromOne s cov noise priorCov crossCov i j =
      r.fl (priorCov i j - r.fl (crossCov i * r.fl (crossCov j / r.fl (cov + noise)))) := by
  rw [Rounding.jointFromOne, Rounding.jointCovariance]
  simp only [List.finRange_succ, List.finRange_zero, List.map_nil, List.map_cons, s.single, Rounding.solveSingle,
    Rounding.trainVariance]

/-- C143: from one observation the variances of the joint prediction are exactly those of the marginal prediction. -/
theorem C143_diagonal_one (s' : Summation r) (cov noise : ℝ) {m : Nat} (priorCov : Fin m → Fin m → ℝ) (crossCov : Fin m → ℝ)
    (i : Fin m) : r.jointFromOne s cov noise priorCov crossCov i i =
      r.marginalFromOne s' cov noise (crossCov i) (priorCov i i) := by
  rw [jointFromOne_eq, marginalFromOne_eq, mul_comm]

/-- C143 is false: with the linear covariance function and one observation of the feature 5 with a noise variance below
`2⁻⁴⁹` the covariances predicted between the features 5 and 11 are zero in one triangle and negative in the other. -/
theorem C143_symmetric_false {lib : MathFunctions} (h0 : ∀ x, lib.pow x 0 = 1) (h1 : ∀ x, lib.pow x 1 = x) {noise : ℝ}
    (hn : 0 ≤ noise) (hn' : noise < 2⁻¹ ^ 49) :
    let cov := (DoubleCov.polynomial [0, 1]).call r lib
    let x : Fin 2 → ℝ := ![5, 11]
    let joint := r.jointFromOne s (cov 5 5) noise (fun i j => cov (x i) (x j)) fun j => cov 5 (x j)
    joint 1 0 = 0 ∧ joint 0 1 = -2⁻¹ ^ 47 := by
  intro cov x joint
  have hval : ∀ x y : ℕ, x * y ≤ 2 ^ 53 → x ≤ 2 ^ 53 → cov x y = (x * y : ℕ) := by
    intro x y h hx
    have hxd : r.fl (x : ℝ) = x := fl_nat r hx
    have hxy : r.fl ((x : ℝ) * y) = x * y := by rw [← Nat.cast_mul]; exact fl_nat r h
    simp only [cov, DoubleCov.call, Rounding.polynomialCall, List.zipIdx_cons, List.zipIdx_nil, List.foldl_cons, List.foldl_nil]
    norm_num [h0, h1, r.of_double isDouble_zero, r.of_double isDouble_one, hxd, hxy]
  have e1 : cov 5 5 = 25 := by simpa using hval 5 5 (by norm_num) (by norm_num)
  have e2 : cov 5 11 = 55 := by simpa using hval 5 11 (by norm_num) (by norm_num)
  have e3 : cov 11 5 = 55 := by simpa using hval 11 5 (by norm_num) (by norm_num)
  have h25 : r.fl (25 + noise) = 25 := by
    refine r.absorbs (by simpa using isDouble_nat 25 (by norm_num)) (e := 4) (by norm_num) hn (hn'.trans_eq ?_)
    norm_num
  have h55 : r.fl 55 = 55 := by simpa using fl_nat r (n := 55) (by norm_num)
  have hone : r.fl 1 = 1 := r.of_double isDouble_one
  constructor
  · simp only [joint, jointFromOne_eq, x, Matrix.cons_val_zero, Matrix.cons_val_one, e1, e2, e3, h25]
    norm_num [hone, h55, r.of_double isDouble_zero]
  · simp only [joint, jointFromOne_eq, x, Matrix.cons_val_zero, Matrix.cons_val_one, e1, e2, h25]
    rw [r.eq_of_close (x := 55 / 25) 1 4953959590107546 (by norm_num) (by norm_num) (by norm_num [abs_lt])]
    rw [r.eq_of_close (x := 25 * _) 5 7740561859543041 (by norm_num) (by norm_num) (by norm_num [abs_lt])]
    rw [r.of_double (⟨-1, -47, by norm_num, by norm_num⟩)]
    norm_num

/-- A training covariance, cross covariances and their solution, off by a rounding, as the theorems want them; a noise of
`10⁻¹⁶` is small enough for `C143_symmetric_false`. -/
example : ∃ r : Rounding, Nonempty (Summation r) ∧
    let A : Fin 2 → Fin 2 → ℝ := ![![2, 1], ![1, 2]]
    let weights : Fin 2 → Fin 2 → ℝ := ![![1, 1 / 3], ![0, 1 / 3]]
    (∀ k l, A k l = A l k) ∧ (∀ k j, ∑ l, A k l * weights l j = (![![2, 1], ![1, 1]] : Fin 2 → Fin 2 → ℝ) k j) ∧
    (∀ k j, Close 1 |weights k j| (r.fl (weights k j)) (weights k j)) ∧ (0 : ℝ) < 10⁻¹ ^ 16 ∧ (10⁻¹ ^ 16 : ℝ) < 2⁻¹ ^ 49 := by
  obtain ⟨r⟩ := exists_rounding
  refine ⟨r, exists_summation r, fun k l => ?_, fun k j => ?_, fun k j => (Close.refl _).fl r, by norm_num, by norm_num⟩
  · fin_cases k <;> fin_cases l <;> simp
  · fin_cases k <;> fin_cases j <;> norm_num [Fin.sum_univ_two]

end Albatross
