import Verif.RoundedMean
import Verif.RoundedStatsProps

/-! # C142: predicted means in doubles -/

namespace Albatross

open Finset

variable (r : Rounding) (s : Summation r)

theorem addMean_close {N : Nat} {S T y x m' m : ℝ} (h : Close N S y x) (hm : Close N T m' m) :
    Close (N + 1) (S + T) (r.addMean (some m') y) (x + m) := (h.add hm).fl r

/-- C142: the predicted mean is the exact one up to the errors of the cross covariances, of the information and of the mean
function, and `n + 2` roundings, relative to the sum of the absolute terms. -/
theorem C142_mean {n K M : Nat} {cross crossCov S info information T : Fin n → ℝ} {m' m U : ℝ}
    (hc : ∀ i, Close K (S i) (crossCov i) (cross i)) (hi : ∀ i, Close M (T i) (information i) (info i))
    (hm : Close (K + M) U m' m) :
    |r.meanPrediction s crossCov information none - ∑ i, cross i * info i| ≤
      ((1 + 2⁻¹ ^ 53) ^ (K + M + n + 1) - 1) * ∑ i, S i * T i ∧
    |r.meanPrediction s crossCov information (some m') - (∑ i, cross i * info i + m)| ≤
      ((1 + 2⁻¹ ^ 53) ^ (K + M + n + 2) - 1) * (∑ i, S i * T i + U) := by
  have ht := (s.close_terms fun i => ((hc i).mul (hi i)).fl r).mono (M := K + M + n + 1) (by omega) le_rfl
  exact ⟨ht.2, (addMean_close r ht (hm.mono (by omega) le_rfl)).2⟩

theorem SumTree.eval_zero (t : SumTree) (h : ∀ x ∈ t.leaves, x = 0) : t.eval r = 0 := by
  induction t with
  | leaf x => exact h x (by simp [SumTree.leaves])
  | node a b iha ihb =>
    rw [SumTree.eval, iha fun x hx => h x (by simp [SumTree.leaves, hx]), ihb fun x hx => h x (by simp [SumTree.leaves, hx]),
      add_zero, r.of_double isDouble_zero]

theorem Summation.zeros {l : List ℝ} (h : ∀ x ∈ l, x = 0) : s.sum l = 0 := by
  by_cases hl : l = []
  · rw [hl, s.empty]
  · obtain ⟨t, ht, hs⟩ := s.order l hl
    rw [hs]
    exact t.eval_zero r fun x hx => h x (ht.mem_iff.1 hx)

/-- C142: where every observation is uncorrelated or carries no information the predicted mean is exactly the mean
function. -/
theorem C142_prior {n : Nat} {crossCov information : Fin n → ℝ} (h : ∀ i, crossCov i = 0 ∨ information i = 0) {m : ℝ}
    (hm : IsDouble m) :
    r.meanPrediction s crossCov information none = 0 ∧ r.meanPrediction s crossCov information (some m) = m := by
  have h0 : s.sum ((List.finRange n).map fun i => r.fl (crossCov i * information i)) = 0 := by
    refine s.zeros r fun x hx => ?_
    obtain ⟨i, -, rfl⟩ := List.mem_map.1 hx
    have : crossCov i * information i = 0 := by simpa using h i
    show r.fl (crossCov i * information i) = 0
    rw [this, r.of_double isDouble_zero]
  exact ⟨h0, by rw [Rounding.meanPrediction, h0, Rounding.addMean, zero_add, r.of_double hm]⟩

theorem meanFromOne_eq (cov noise y : ℝ) (meanSeen : Option ℝ) (crossCov : ℝ) (mean : Option ℝ) :
    r.meanFromOne s cov noise y meanSeen crossCov mean =
      r.addMean mean (r.fl (crossCov * r.fl (r.removeMean meanSeen y / r.fl (cov + noise)))) := by
  rw [Rounding.meanFromOne, Rounding.meanPrediction]
  simp only [List.finRange_succ, List.finRange_zero, List.map_nil, List.map_cons, s.single, Rounding.solveSingle,
    Rounding.trainVariance]

/-- C142: an observation of exactly the mean function changes nothing: every predicted mean is exactly the mean function. -/
theorem C142_expected (cov noise crossCov seen : ℝ) {m : ℝ} (hm : IsDouble m) :
    r.meanFromOne s cov noise seen (some seen) crossCov (some m) = m ∧ r.meanFromOne s cov noise 0 none crossCov none = 0 := by
  have h0 := r.of_double isDouble_zero
  constructor
  · rw [meanFromOne_eq, Rounding.removeMean, sub_self, h0, zero_div, h0, mul_zero, h0, Rounding.addMean, zero_add,
      r.of_double hm]
  · rw [meanFromOne_eq, Rounding.removeMean, zero_div, h0, mul_zero, h0, Rounding.addMean]

/-- C142: an observation with the opposite sign is answered with the opposite sign, exactly. -/
theorem C142_odd (cov noise y crossCov seen m : ℝ) :
    r.meanFromOne s cov noise (-y) none crossCov none = -r.meanFromOne s cov noise y none crossCov none ∧
    r.meanFromOne s cov noise (-y) (some (-seen)) crossCov (some (-m)) =
      -r.meanFromOne s cov noise y (some seen) crossCov (some m) := by
  constructor
  · simp only [meanFromOne_eq, Rounding.removeMean, Rounding.addMean, neg_div, r.neg, mul_neg]
  · have e : -y - -seen = -(y - seen) := by ring
    simp only [meanFromOne_eq, Rounding.removeMean, Rounding.addMean, e, neg_div, r.neg, mul_neg]
    rw [← neg_add, r.neg]

/-- C142, partial: the mean predicted from one observation is the exact one up to eight units of rounding of the absolute
terms. Missing: without noise the observation itself is predicted, and the error is small relative to the observation,
which are false (`C142_interpolates_false` and `C142_cancels_false`). -/
theorem C142_one_partial {cov noise : ℝ} (hcov : 0 < cov) (hnoise : 0 ≤ noise) (y seen crossCov m : ℝ) :
    |r.meanFromOne s cov noise y (some seen) crossCov (some m) - (crossCov * (y - seen) / (cov + noise) + m)| ≤
      8 * 2⁻¹ ^ 53 * (|crossCov| * |y - seen| / (cov + noise) + |m|) := by
  have hD : 0 < cov + noise := by linarith
  have hz : Close 1 |y - seen| (r.removeMean (some seen) y) (y - seen) := (Close.refl (y - seen)).fl r
  have hsol : Close 4 (|y - seen| * (1 / (cov + noise)))
      (r.solveSingle (r.trainVariance cov noise) (r.removeMean (some seen) y)) ((y - seen) * (1 / (cov + noise))) := by
    have h := (hz.mul (Close.reciprocal r hD)).fl r
    rw [Rounding.solveSingle, Rounding.trainVariance, div_eq_mul_one_div (r.removeMean _ _)]
    exact h
  have h := (C142_mean r s (n := 1) (fun _ => Close.refl crossCov) (fun _ => hsol)
    ((Close.refl m).mono (Nat.zero_le _) le_rfl)).2
  rw [← Rounding.meanFromOne] at h
  simp only [univ_unique, sum_singleton] at h
  have e1 : crossCov * ((y - seen) * (1 / (cov + noise))) = crossCov * (y - seen) / (cov + noise) := by ring
  have e2 : |crossCov| * (|y - seen| * (1 / (cov + noise))) = |crossCov| * |y - seen| / (cov + noise) := by ring
  rw [e1, e2] at h
  refine h.trans (mul_le_mul_of_nonneg_right (by norm_num) ?_)
  positivity

/-- C142 is false of interpolation: with a constant covariance of `sigma = 7` and one observation of 1 without noise the
mean predicted for the observed feature is the double below 1. -/
theorem C142_interpolates_false (x : ℝ) (lib : MathFunctions) :
    let cov := (DoubleCov.constant 7).call r lib
    r.meanFromOne s (cov x x) 0 1 none (cov x x) none = 1 - 2⁻¹ ^ 53 := by
  intro cov
  have e : cov x x = 49 := by
    have h : r.fl ((49 : ℕ) : ℝ) = (49 : ℕ) := fl_nat r (by norm_num)
    norm_num at h
    simp only [cov, DoubleCov.call, Rounding.constantCall]
    norm_num [h]
  have h49 : r.fl (49 + 0) = 49 := by simpa using fl_nat r (n := 49) (by norm_num)
  rw [e, meanFromOne_eq, h49, Rounding.addMean, Rounding.removeMean]
  rw [r.eq_of_close (x := 1 / 49) (-6) 5882252574524729 (by norm_num) (by norm_num) (by norm_num [abs_lt])]
  rw [r.eq_of_close (x := 49 * _) (-1) 9007199254740991 (by norm_num) (by norm_num) (by norm_num [abs_lt])]
  norm_num

/-- C142 is false of small errors: with a mean function of 1 an observation of `2⁻⁶⁰` without noise, of a feature of
variance 1, is predicted as 0: its relative error is 1. In exact arithmetic it is predicted as it is. -/
theorem C142_cancels_false : r.meanFromOne s 1 0 (2⁻¹ ^ 60) (some 1) 1 (some 1) = 0 ∧
    1 * ((2⁻¹ : ℝ) ^ 60 - 1) / (1 + 0) + 1 = 2⁻¹ ^ 60 := by
  have h1 : r.fl 1 = 1 := r.of_double isDouble_one
  have hz : r.fl (2⁻¹ ^ 60 - 1) = -1 := by
    rw [← neg_sub, r.neg, r.eq_of_close (x := 1 - 2⁻¹ ^ 60) (-1) 9007199254740992 (by norm_num) (by norm_num)
      (by norm_num [abs_lt])]
    norm_num
  refine ⟨?_, by norm_num⟩
  rw [meanFromOne_eq, Rounding.addMean, Rounding.removeMean]
  simp only [hz, add_zero, h1, div_one, one_mul]
  norm_num [r.neg, h1, r.of_double isDouble_zero]

/-- A million observations with cross covariances and information that are themselves off by some roundings. -/
example : ∃ r : Rounding, Nonempty (Summation r) ∧ (∀ i : Fin (10 ^ 6), Close 1 |((i : ℕ) : ℝ)| (r.fl (i : ℕ)) (i : ℕ)) ∧
    Close 2 |(3 : ℝ)| 3 3 := by
  obtain ⟨r⟩ := exists_rounding
  exact ⟨r, exists_summation r, fun i => (Close.refl _).fl r, (Close.refl 3).mono (by omega) le_rfl⟩

/-- The first observation is uncorrelated, the second carries no information, and the third is both. -/
example : (∀ i : Fin 3, (![0, 2, 0] : Fin 3 → ℝ) i = 0 ∨ (![5, 0, 0] : Fin 3 → ℝ) i = 0) ∧ IsDouble 3 := by
  refine ⟨fun i => ?_, by simpa using isDouble_nat 3 (by norm_num)⟩
  fin_cases i <;> simp

/-- The bound for one observation at work: variance 2, noise 1/10, an observation of 3 where the mean function is 1. -/
example : ∃ r : Rounding, ∃ s : Summation r,
    |r.meanFromOne s 2 (1 / 10) 3 (some 1) 1 (some 1) - (1 * (3 - 1) / (2 + 1 / 10) + 1)| ≤
      8 * 2⁻¹ ^ 53 * (|1| * |3 - 1| / (2 + 1 / 10) + |1|) := by
  obtain ⟨r⟩ := exists_rounding
  obtain ⟨s⟩ := exists_summation r
  exact ⟨r, s, C142_one_partial r s (by norm_num) (by norm_num) 3 1 1 1⟩

end Albatross
