import Verif.GaussAbs
import Verif.MetricsProps

/-! # Properties of the regression metrics (C68)

Root mean square error, standard deviation, continuous ranked probability score and variogram score. -/

namespace Albatross

open MeasureTheory ProbabilityTheory Matrix

/-! ## Root mean square error -/

theorem zipWith_ofFn {n : Nat} (p t : Fin n → ℝ) :
    List.zipWith (· - ·) (List.ofFn p) (List.ofFn t) = List.ofFn fun i => p i - t i := by
  apply List.ext_getElem <;> simp

theorem vecSub_ofFn (b : Build) {n : Nat} (p t : Fin n → ℝ) :
    vecSub b (List.ofFn p) (List.ofFn t) = .ok (List.ofFn fun i => p i - t i) := by
  unfold vecSub
  rw [decide_eq_true (by simp), eigenAssert_true, except_ok_bind, zipWith_ofFn]
  rfl

/-- **C68**: the root mean square error is the root of the mean of the squared differences. -/
theorem C68_rmse (b : Build) {n : Nat} (hn : 0 < n) (p t : Fin n → ℝ) :
    rootMeanSquareError b (List.ofFn p) (List.ofFn t) = .ok (.fin (Real.sqrt ((∑ i, (p i - t i) ^ 2) / n))) := by
  have hn' : (n : ℝ) ≠ 0 := by positivity
  have hsum : ((List.ofFn fun i => p i - t i).map fun e => e * e).sum = ∑ i, (p i - t i) ^ 2 := by
    rw [List.map_ofFn, List.sum_ofFn]
    exact Finset.sum_congr rfl fun i _ => (sq _).symm
  unfold rootMeanSquareError
  rw [vecSub_ofFn, except_ok_bind]
  simp only [hsum, List.length_ofFn]
  rw [Dbl.fin_div hn', sqrt_fin (by positivity)]
  rfl

/-- **C68**: no data gives NaN, and vectors of different sizes are rejected by an assertion of Eigen (and are
undefined behaviour without assertions). -/
theorem C68_rmse_degenerate :
    (∀ b, rootMeanSquareError b [] [] = .ok .nan) ∧
    (∀ p t : List ℝ, p.length ≠ t.length →
      rootMeanSquareError .debug p t = .error .assertFail ∧ rootMeanSquareError .ndebug p t = .error .ub) := by
  refine ⟨fun b => ?_, fun p t h => ?_⟩
  · have h0 : (Dbl.fin 0 / Dbl.fin 0 : Dbl).sqrt = .nan := by
      have : (Dbl.fin 0 / Dbl.fin 0 : Dbl) = .nan := by
        show Dbl.div _ _ = _
        simp [Dbl.div, Dbl.signInf]
      rw [this]
      rfl
    unfold rootMeanSquareError vecSub
    rw [decide_eq_true rfl, eigenAssert_true, except_ok_bind]
    simp only [List.zipWith_nil_left, except_pure, except_ok_bind, List.map_nil, List.sum_nil, List.length_nil,
      Nat.cast_zero]
    rw [h0]
  · unfold rootMeanSquareError vecSub
    rw [decide_eq_false h]
    exact ⟨rfl, rfl⟩

/-- **C68**: the error is zero exactly for perfect predictions. -/
theorem C68_rmse_zero (b : Build) {n : Nat} (hn : 0 < n) (p t : Fin n → ℝ) :
    rootMeanSquareError b (List.ofFn p) (List.ofFn t) = .ok (.fin 0) ↔ p = t := by
  have hn' : (0 : ℝ) < n := by positivity
  rw [C68_rmse b hn]
  simp only [Except.ok.injEq, Dbl.fin.injEq]
  rw [Real.sqrt_eq_zero (by positivity), div_eq_zero_iff, or_iff_left hn'.ne',
    Finset.sum_eq_zero_iff_of_nonneg fun i _ => sq_nonneg _]
  simp only [Finset.mem_univ, true_implies, sq_eq_zero_iff, sub_eq_zero]
  exact funext_iff.symm

/-- **C68**: adding the same vector to both, or reordering both in the same way, changes nothing. -/
theorem C68_rmse_invariant (b : Build) {n : Nat} (hn : 0 < n) (p t : Fin n → ℝ) :
    (∀ c : Fin n → ℝ, rootMeanSquareError b (List.ofFn (p + c)) (List.ofFn (t + c)) =
      rootMeanSquareError b (List.ofFn p) (List.ofFn t)) ∧
    (∀ σ : Equiv.Perm (Fin n), rootMeanSquareError b (List.ofFn (p ∘ σ)) (List.ofFn (t ∘ σ)) =
      rootMeanSquareError b (List.ofFn p) (List.ofFn t)) := by
  refine ⟨fun c => ?_, fun σ => ?_⟩
  · rw [C68_rmse b hn, C68_rmse b hn]
    simp only [Pi.add_apply, add_sub_add_right_eq_sub]
  · rw [C68_rmse b hn, C68_rmse b hn]
    simp only [Function.comp]
    rw [Equiv.sum_comp σ fun i => (p i - t i) ^ 2]

example : rootMeanSquareError .debug [1, 2, 7] [1, 4, 3] = .ok (.fin (Real.sqrt (20 / 3))) := by
  have h := C68_rmse .debug (n := 3) (by norm_num) ![1, 2, 7] ![1, 4, 3]
  have e : (∑ i, ((![1, 2, 7] : Fin 3 → ℝ) i - (![1, 4, 3] : Fin 3 → ℝ) i) ^ 2) / ((3 : ℕ) : ℝ) = 20 / 3 := by
    simp [Fin.sum_univ_three]
    norm_num
  rw [e] at h
  simpa using h

/-! ## Standard deviation -/

theorem foldl_add_map {α : Type} (g : α → ℝ) (xs : List α) (a : ℝ) :
    xs.foldl (fun out x => out + g x) a = a + (xs.map g).sum := by
  induction xs generalizing a with
  | nil => simp
  | cons x xs ih =>
    rw [List.foldl_cons, ih, List.map_cons, List.sum_cons]
    ring

/-- **C68**: for two or more values this is the sample standard deviation. -/
theorem C68_sd {n : Nat} (hn : 2 ≤ n) (x : Fin n → ℝ) :
    standardDeviation (List.ofFn x) =
      .fin (Real.sqrt ((∑ i, (x i - (∑ k, x k) / n) ^ 2) / (n - 1))) := by
  have hn' : (0 : ℝ) < n - 1 := by
    have : (2 : ℝ) ≤ n := by exact_mod_cast hn
    linarith
  unfold standardDeviation
  rw [List.length_ofFn, if_neg (by omega), if_neg (by omega)]
  simp only
  rw [foldl_add_map, zero_add, List.map_ofFn, List.sum_ofFn, List.sum_ofFn]
  have : (∑ i, ((fun x_1 => (x_1 - (∑ i, x i) / (n : ℝ)) ^ 2 / ((n : ℝ) - 1)) ∘ x) i) =
      (∑ i, (x i - (∑ k, x k) / n) ^ 2) / (n - 1) := by
    exact (Finset.sum_div _ _ _).symm
  rw [this, sqrt_fin (div_nonneg (Finset.sum_nonneg fun i _ => sq_nonneg _) hn'.le)]

/-- **C68**: no value gives NaN and one value gives zero. -/
theorem C68_sd_small (a : ℝ) : standardDeviation [] = .nan ∧ standardDeviation [a] = .fin 0 := ⟨rfl, rfl⟩

/-- **C68**: it is zero exactly if all values are the same. -/
theorem C68_sd_zero {n : Nat} (hn : 2 ≤ n) (x : Fin n → ℝ) :
    standardDeviation (List.ofFn x) = .fin 0 ↔ ∀ i j, x i = x j := by
  have hn' : (0 : ℝ) < n - 1 := by
    have : (2 : ℝ) ≤ n := by exact_mod_cast hn
    linarith
  have hn0 : (n : ℝ) ≠ 0 := by
    have : 0 < n := by omega
    positivity
  rw [C68_sd hn, Dbl.fin.injEq, Real.sqrt_eq_zero (div_nonneg (Finset.sum_nonneg fun i _ => sq_nonneg _) hn'.le),
    div_eq_zero_iff, or_iff_left hn'.ne', Finset.sum_eq_zero_iff_of_nonneg fun i _ => sq_nonneg _]
  simp only [Finset.mem_univ, true_implies, sq_eq_zero_iff, sub_eq_zero]
  constructor
  · intro h i j
    rw [h i, h j]
  · intro h i
    have : (∑ k, x k) = n * x i := by
      rw [Finset.sum_congr rfl fun k _ => h k i]
      simp
    rw [this]
    field_simp

/-- **C68**: a common shift or a reordering changes nothing. -/
theorem C68_sd_invariant {n : Nat} (hn : 2 ≤ n) (x : Fin n → ℝ) :
    (∀ c : ℝ, standardDeviation (List.ofFn fun i => x i + c) = standardDeviation (List.ofFn x)) ∧
    (∀ σ : Equiv.Perm (Fin n), standardDeviation (List.ofFn (x ∘ σ)) = standardDeviation (List.ofFn x)) := by
  have hn0 : (n : ℝ) ≠ 0 := by
    have : 0 < n := by omega
    positivity
  refine ⟨fun c => ?_, fun σ => ?_⟩
  · rw [C68_sd hn, C68_sd hn]
    have : (∑ k, (x k + c)) / n = (∑ k, x k) / n + c := by
      rw [Finset.sum_add_distrib]
      simp
      field_simp
    rw [this]
    simp only [add_sub_add_right_eq_sub]
  · rw [C68_sd hn, C68_sd hn]
    simp only [Function.comp]
    rw [Equiv.sum_comp σ x, Equiv.sum_comp σ fun i => (x i - (∑ k, x k) / n) ^ 2]

/-- **C68**: the standard deviation of a prediction is that of its errors, so a constant bias is not seen. -/
theorem C68_sd_of (b : Build) {n : Nat} (p t : Fin n → ℝ) :
    standardDeviationOf b (List.ofFn p) (List.ofFn t) = .ok (standardDeviation (List.ofFn fun i => p i - t i)) := by
  unfold standardDeviationOf
  rw [vecSub_ofFn, except_ok_bind]
  rfl

example : standardDeviation [1, 3, 5] = .fin 2 := by
  have h := C68_sd (n := 3) (by norm_num) ![1, 3, 5]
  have e : (∑ i, ((![1, 3, 5] : Fin 3 → ℝ) i - (∑ k, (![1, 3, 5] : Fin 3 → ℝ) k) / ((3 : ℕ) : ℝ)) ^ 2) /
      (((3 : ℕ) : ℝ) - 1) = 2 ^ 2 := by
    simp [Fin.sum_univ_three]
    norm_num
  rw [e, Real.sqrt_sq (by norm_num)] at h
  simpa using h

/-! ## Continuous ranked probability score -/

theorem integral_abs_sub_gaussianReal (m y : ℝ) (v : NNReal) :
    ∫ x, |x - y| ∂gaussianReal m v = ∫ x, |x| ∂gaussianReal (m - y) v := by
  rw [← gaussianReal_map_sub_const y, integral_map (by fun_prop) (by fun_prop)]

/-- The mean absolute difference of two independent copies. -/
theorem integral_abs_pair (m : ℝ) (v : NNReal) :
    ∫ q, |q.1 - q.2| ∂((gaussianReal m v).prod (gaussianReal m v)) = ∫ x, |x| ∂gaussianReal 0 (2 * v) := by
  have h : ((gaussianReal m v).prod (gaussianReal m v)).map (fun q : ℝ × ℝ => q.1 - q.2) = gaussianReal 0 (2 * v) := by
    have h1 : (gaussianReal m v) ∗ (gaussianReal (-m) v) = gaussianReal 0 (2 * v) := by
      rw [gaussianReal_conv_gaussianReal, add_neg_cancel, two_mul]
    rw [← h1, ← gaussianReal_map_neg, Measure.conv]
    have h2 : ((gaussianReal m v).prod ((gaussianReal m v).map fun x => -x)) =
        ((gaussianReal m v).prod (gaussianReal m v)).map (Prod.map id fun x => -x) := by
      rw [← Measure.map_prod_map _ _ measurable_id measurable_neg, Measure.map_id]
    rw [h2, Measure.map_map (by fun_prop) (by fun_prop)]
    congr 1
  rw [← h, integral_map (by fun_prop) (by fun_prop)]

/-- **C68**: for a positive standard deviation the score is `E|X - y| - E|X - X'| / 2` for independent normal
`X` and `X'`. -/
theorem C68_crps {mu sigma y : ℝ} (hs : 0 < sigma) {v : NNReal} (hv2 : (v : ℝ) = sigma ^ 2) :
    crpsNormal (.fin mu) (.fin sigma) (.fin y) =
      .fin ((∫ x, |x - y| ∂gaussianReal mu v) -
        (∫ q, |q.1 - q.2| ∂((gaussianReal mu v).prod (gaussianReal mu v))) / 2) := by
  have hv : v ≠ 0 := by
    intro h
    rw [h, NNReal.coe_zero] at hv2
    exact (pow_pos hs 2).ne hv2
  rw [integral_abs_sub_gaussianReal, integral_abs_pair, integral_abs_gaussianReal _ hv,
    integral_abs_gaussianReal _ (mul_ne_zero two_ne_zero hv)]
  simp only [crpsNormal]
  rw [if_neg (not_le.2 hs)]
  congr 1
  simp only [NNReal.coe_mul, hv2, NNReal.coe_ofNat, zero_mul, add_zero]
  have hpi : 0 < Real.pi := Real.pi_pos
  have e1 : Real.sqrt (2 * sigma ^ 2) = sigma * Real.sqrt 2 := by
    rw [Real.sqrt_mul (by norm_num), Real.sqrt_sq hs.le, mul_comm]
  have e2 : Real.sqrt (2 * sigma ^ 2 / Real.pi) = 2 * sigma / Real.sqrt (2 * Real.pi) := by
    rw [Real.sqrt_eq_iff_mul_self_eq (by positivity) (by positivity)]
    rw [div_mul_div_comm, Real.mul_self_sqrt (by positivity)]
    field_simp
  have e3 : Real.sqrt (2 * (2 * sigma ^ 2) / Real.pi) = 2 * (sigma / Real.sqrt Real.pi) := by
    rw [Real.sqrt_eq_iff_mul_self_eq (by positivity) (by positivity)]
    rw [show 2 * (sigma / Real.sqrt Real.pi) * (2 * (sigma / Real.sqrt Real.pi)) =
      4 * sigma ^ 2 / (Real.sqrt Real.pi * Real.sqrt Real.pi) by ring, Real.mul_self_sqrt hpi.le]
    ring
  have e4 : (mu - y) / (sigma * Real.sqrt 2) = -((y - mu) / sigma / Real.sqrt 2) := by
    rw [div_div]
    ring
  have e5 : -(mu - y) ^ 2 / (2 * sigma ^ 2) = -(1 / 2) * ((y - mu) / sigma) * ((y - mu) / sigma) := by
    field_simp
    ring
  rw [e1, e2, e3, e4, e5, erf_neg]
  simp only [neg_zero, ne_eq, OfNat.ofNat_ne_zero, not_false_eq_true, zero_pow, zero_div, Real.exp_zero, mul_one]
  have h2 : sigma * ((y - mu) / sigma) = y - mu := by field_simp
  linear_combination (erf ((y - mu) / sigma / Real.sqrt 2)) * h2

/-- The mean absolute value is smallest for mean zero. -/
theorem integral_abs_gaussianReal_ge (m : ℝ) {v : NNReal} (hv : v ≠ 0) :
    ∫ x, |x| ∂gaussianReal 0 v ≤ ∫ x, |x| ∂gaussianReal m v := by
  have hi : ∀ c : ℝ, Integrable (fun x : ℝ => |x + c|) (gaussianReal 0 v) := fun c =>
    (((memLp_id_gaussianReal (μ := 0) (v := v) 1).integrable (by norm_num)).add (integrable_const c)).abs
  have hs : ∀ c : ℝ, ∫ x, |x| ∂gaussianReal c v = ∫ x, |x + c| ∂gaussianReal 0 v := by
    intro c
    have h := gaussianReal_map_add_const (μ := 0) (v := v) c
    rw [zero_add] at h
    rw [← h, integral_map (by fun_prop) (by fun_prop)]
  have heven : ∫ x, |x| ∂gaussianReal (-m) v = ∫ x, |x| ∂gaussianReal m v := by
    rw [integral_abs_gaussianReal _ hv, integral_abs_gaussianReal _ hv, neg_sq,
      show -m / Real.sqrt (2 * v) = -(m / Real.sqrt (2 * v)) by ring, erf_neg]
    ring
  have h : ∫ x, 2 * |x + 0| ∂gaussianReal 0 v ≤ ∫ x, (|x + m| + |x + -m|) ∂gaussianReal 0 v := by
    refine integral_mono ((hi 0).const_mul 2) ((hi m).add (hi (-m))) fun x => ?_
    have := abs_add_le (x + m) (x + -m)
    rw [show x + m + (x + -m) = 2 * (x + 0) by ring, abs_mul, abs_two] at this
    exact this
  rw [integral_const_mul, integral_add (hi m) (hi (-m)), ← hs, ← hs, ← hs, heven] at h
  linarith

/-- **C68**: the score is at least `(√2 - 1) σ / √π`, hence positive for a positive standard deviation; for a
standard deviation of zero (or less) it is the absolute error.  So it is never negative, and zero exactly for a
certain and correct prediction. -/
theorem C68_crps_nonneg (mu sigma y : ℝ) :
    ∃ s, crpsNormal (.fin mu) (.fin sigma) (.fin y) = .fin s ∧ 0 ≤ s ∧ (s = 0 ↔ sigma ≤ 0 ∧ mu = y) ∧
      (0 < sigma → (Real.sqrt 2 - 1) * sigma / Real.sqrt Real.pi ≤ s) ∧ (sigma ≤ 0 → s = |y - mu|) := by
  rcases le_or_gt sigma 0 with hs | hs
  · refine ⟨|y - mu|, ?_, abs_nonneg _, ?_, fun h => absurd h (not_lt.2 hs), fun _ => rfl⟩
    · simp only [crpsNormal]
      rw [if_pos hs]
    · rw [abs_eq_zero, sub_eq_zero]
      exact ⟨fun h => ⟨hs, h.symm⟩, fun h => h.2.symm⟩
  · obtain ⟨v, hv2⟩ : ∃ v : NNReal, (v : ℝ) = sigma ^ 2 := ⟨Real.toNNReal (sigma ^ 2), Real.coe_toNNReal _ (sq_nonneg _)⟩
    have hv : v ≠ 0 := by
      intro h
      rw [h, NNReal.coe_zero] at hv2
      exact (pow_pos hs 2).ne hv2
    have hpi : 0 < Real.pi := Real.pi_pos
    have h2 : (1 : ℝ) < Real.sqrt 2 := by
      rw [Real.lt_sqrt (by norm_num)]
      norm_num
    have hlow := integral_abs_gaussianReal_ge (mu - y) hv
    rw [← integral_abs_sub_gaussianReal, integral_abs_gaussianReal 0 hv] at hlow
    have hpair := integral_abs_pair mu v
    rw [integral_abs_gaussianReal 0 (mul_ne_zero two_ne_zero hv)] at hpair
    simp only [NNReal.coe_mul, hv2, NNReal.coe_ofNat, zero_mul, add_zero, neg_zero, ne_eq,
      OfNat.ofNat_ne_zero, not_false_eq_true, zero_pow, zero_div, Real.exp_zero, mul_one] at hlow hpair
    have e2 : Real.sqrt (2 * sigma ^ 2 / Real.pi) = Real.sqrt 2 * sigma / Real.sqrt Real.pi := by
      rw [Real.sqrt_div (by positivity), Real.sqrt_mul (by norm_num), Real.sqrt_sq hs.le]
    have e3 : Real.sqrt (2 * (2 * sigma ^ 2) / Real.pi) = 2 * sigma / Real.sqrt Real.pi := by
      rw [Real.sqrt_div (by positivity), show 2 * (2 * sigma ^ 2) = (2 * sigma) ^ 2 by ring,
        Real.sqrt_sq (by positivity)]
    rw [e2] at hlow
    rw [e3] at hpair
    have hlb : (Real.sqrt 2 - 1) * sigma / Real.sqrt Real.pi ≤
        (∫ x, |x - y| ∂gaussianReal mu v) -
        (∫ q, |q.1 - q.2| ∂((gaussianReal mu v).prod (gaussianReal mu v))) / 2 := by
      rw [hpair]
      refine le_trans (le_of_eq ?_) (sub_le_sub_right hlow _)
      ring
    have hpos : 0 < (Real.sqrt 2 - 1) * sigma / Real.sqrt Real.pi :=
      div_pos (mul_pos (by linarith) hs) (Real.sqrt_pos.2 hpi)
    refine ⟨_, C68_crps hs hv2, hpos.le.trans hlb, ?_, fun _ => hlb, fun h => absurd hs (not_lt.2 h)⟩
    constructor
    · intro h
      rw [h] at hlb
      exact absurd hpos (not_lt.2 hlb)
    · intro h
      exact absurd hs (not_lt.2 h.1)

/-- **C68**: a common shift changes nothing; anything that is not finite gives NaN. -/
theorem C68_crps_shift (mu sigma y c : ℝ) :
    crpsNormal (.fin (mu + c)) (.fin sigma) (.fin (y + c)) = crpsNormal (.fin mu) (.fin sigma) (.fin y) := by
  simp only [crpsNormal, add_sub_add_right_eq_sub]

theorem C68_crps_nonfinite (mu sigma y : Dbl) (h : ¬ (∃ a b c : ℝ, mu = .fin a ∧ sigma = .fin b ∧ y = .fin c)) :
    crpsNormal mu sigma y = .nan := by
  cases mu <;> cases sigma <;> cases y <;> first | rfl | exact absurd ⟨_, _, _, rfl, rfl, rfl⟩ h

/-! ## Variogram score -/

/-- The expected absolute value that the code computes for finite arguments. -/
noncomputable def expectedAbs (mu s : ℝ) : VariogramOrder → ℝ
  | .variogram => mu ^ 2 + s ^ 2
  | .madogram =>
    if s ≤ 0 then |mu|
    else s * Real.sqrt (2 / Real.pi) * Real.exp (-(1 / 2) * (|mu| / max (1 / 10 ^ 16) s) * (|mu| / max (1 / 10 ^ 16) s)) +
      |mu| * erf (|mu| / max (1 / 10 ^ 16) s / Real.sqrt 2)

theorem expectedAbsNormal_fin (mu s : ℝ) (o : VariogramOrder) :
    expectedAbsNormal (.fin mu) (.fin s) o = .fin (expectedAbs mu s o) := by
  cases o
  · simp only [expectedAbsNormal, expectedAbsNormal2, expectedAbs, Dbl.fin_mul, Dbl.fin_add, sq]
  · simp only [expectedAbsNormal, expectedAbsNormal1, expectedAbs]
    split_ifs <;> rfl

/-- The variance of the difference of two coordinates. -/
def diffVar {n : Nat} (S : Matrix (Fin n) (Fin n) ℝ) (i j : Fin n) : ℝ := S i i + S j j - 2 * S i j

theorem diffVar_nonneg {n : Nat} {S : Matrix (Fin n) (Fin n) ℝ} (hS : S.PosSemidef) (i j : Fin n) :
    0 ≤ diffVar S i j := by
  have hsymm : S j i = S i j := by
    have := hS.isHermitian.apply i j
    simpa using this
  have h := hS.dotProduct_mulVec_nonneg (Pi.single i 1 - Pi.single j 1)
  simp only [star_trivial, Matrix.mulVec_sub, sub_dotProduct, dotProduct_sub] at h
  simp at h
  unfold diffVar
  linarith

/-- One squared difference. -/
noncomputable def variogramReal {n : Nat} (mean truth : Fin n → ℝ) (S : Matrix (Fin n) (Fin n) ℝ)
    (o : VariogramOrder) (i j : Fin n) : ℝ :=
  (|truth i - truth j| ^ variogramOrderP o - expectedAbs (mean j - mean i) (Real.sqrt (diffVar S i j)) o) ^ 2

theorem variogramTerm_fin {n : Nat} (prediction : Joint (Fin n)) (truth : Fin n → ℝ)
    (w : Matrix (Fin n) (Fin n) ℝ) (o : VariogramOrder) (i j : Fin n) (h : 0 ≤ diffVar prediction.covariance i j) :
    variogramTerm prediction truth w o i j =
      .fin (w i j * variogramReal prediction.mean truth prediction.covariance o i j) := by
  unfold variogramTerm
  simp only
  rw [sqrt_fin (by exact h), expectedAbsNormal_fin, Dbl.fin_sub, Dbl.fin_mul, Dbl.fin_mul]
  unfold variogramReal diffVar
  congr 1
  ring

theorem filter_map_sum {α : Type} (p : α → Bool) (f : α → ℝ) (l : List α) :
    ((l.filter p).map f).sum = (l.map fun i => if p i then f i else 0).sum := by
  induction l with
  | nil => rfl
  | cons a l ih =>
    rw [List.filter_cons]
    cases h : p a <;> simp [h, ih]

theorem foldl_map_fin {α : Type} (f : α → Dbl) (l : List α) :
    l.foldl (fun s r => s + f r) (.fin 0) = dblSum (l.map f) := by
  unfold dblSum
  rw [List.foldl_map]

/-- The sum the code computes. -/
theorem variogramScore_sum {n : Nat} (b : Build) (prediction : Joint (Fin n)) (truth : Fin n → ℝ)
    (weights : Option (Matrix (Fin n) (Fin n) ℝ)) (o : VariogramOrder)
    (h : ∀ i j, i < j → 0 ≤ diffVar prediction.covariance i j) {s : ℝ}
    (hs : s = ∑ i, ∑ j, if i < j then (weights.getD (Matrix.of fun _ _ => 1)) i j *
      variogramReal prediction.mean truth prediction.covariance o i j else 0) :
    variogramScore b prediction truth weights o =
      (do albatrossAssert b (decide (0 ≤ s)); pure (.fin s)) := by
  unfold variogramScore
  simp only
  rw [foldl_map_fin]
  have h1 : ∀ row : Fin n, dblSum (((List.finRange n).filter fun j => row < j).map fun j =>
      variogramTerm prediction truth (weights.getD (Matrix.of fun _ _ => 1)) o row j) =
      .fin (∑ j, if row < j then (weights.getD (Matrix.of fun _ _ => 1)) row j *
        variogramReal prediction.mean truth prediction.covariance o row j else 0) := by
    intro row
    have : (((List.finRange n).filter fun j => row < j).map fun j =>
        variogramTerm prediction truth (weights.getD (Matrix.of fun _ _ => 1)) o row j) =
        (((List.finRange n).filter fun j => row < j).map fun j =>
          (weights.getD (Matrix.of fun _ _ => 1)) row j *
            variogramReal prediction.mean truth prediction.covariance o row j).map Dbl.fin := by
      rw [List.map_map]
      refine List.map_congr_left fun j hj => ?_
      have hj' : row < j := by simpa using (List.mem_filter.1 hj).2
      exact variogramTerm_fin prediction truth _ o row j (h row j hj')
    rw [this, dblSum_fin, filter_map_sum, ← Fin.sum_univ_def]
    simp only [decide_eq_true_eq]
  simp only [h1]
  have h2 : (((List.finRange n).filter fun row => row.val + 1 < n).map fun row => Dbl.fin (∑ j, if row < j then
      (weights.getD (Matrix.of fun _ _ => 1)) row j *
        variogramReal prediction.mean truth prediction.covariance o row j else 0)) =
      (((List.finRange n).filter fun row => row.val + 1 < n).map fun row => ∑ j, if row < j then
      (weights.getD (Matrix.of fun _ _ => 1)) row j *
        variogramReal prediction.mean truth prediction.covariance o row j else 0).map Dbl.fin := by
    rw [List.map_map]
    rfl
  rw [h2, dblSum_fin, filter_map_sum, ← Fin.sum_univ_def]
  have h3 : (∑ i : Fin n, if decide (i.val + 1 < n) = true then ∑ j, if i < j then
      (weights.getD (Matrix.of fun _ _ => 1)) i j *
        variogramReal prediction.mean truth prediction.covariance o i j else 0 else 0) = s := by
    rw [hs]
    refine Finset.sum_congr rfl fun i _ => ?_
    split_ifs with hi
    · rfl
    · rw [eq_comm]
      refine Finset.sum_eq_zero fun j _ => ?_
      rw [if_neg]
      intro hij
      have h4 : i.val < j.val := hij
      have := j.isLt
      exact hi (by simpa using (by omega : i.val + 1 < n))
  rw [h3]
  simp only [Dbl.fin_le]

/-- The expected value of the code is that of the normal distribution, unless the standard deviation is
positive and below `1e-16` (where the code divides by `1e-16` instead). -/
theorem expectedAbs_spec (mu : ℝ) {s : ℝ} (hs : s = 0 ∨ 1 / 10 ^ 16 ≤ s) {v : NNReal} (hv : (v : ℝ) = s ^ 2)
    (o : VariogramOrder) : ∫ x, |x| ^ variogramOrderP o ∂gaussianReal mu v = expectedAbs mu s o := by
  have hs0 : 0 ≤ s := by
    rcases hs with h | h
    · exact h.ge
    · exact le_trans (by positivity) h
  cases o
  · simp only [variogramOrderP, expectedAbs, sq_abs]
    rw [integral_sq_gaussianReal, hv]
  · simp only [variogramOrderP, expectedAbs, pow_one]
    rcases hs with h | h
    · rw [if_pos h.le]
      have hv0 : v = 0 := by
        rw [h] at hv
        simpa using hv
      rw [hv0, gaussianReal_zero_var, integral_dirac]
    · have hpos : 0 < s := lt_of_lt_of_le (by positivity) h
      have hv0 : v ≠ 0 := by
        intro h0
        rw [h0, NNReal.coe_zero] at hv
        exact (pow_pos hpos 2).ne hv
      rw [if_neg (not_le.2 hpos), max_eq_right h, integral_abs_gaussianReal mu hv0, hv]
      have e1 : Real.sqrt (2 * s ^ 2) = s * Real.sqrt 2 := by
        rw [Real.sqrt_mul (by norm_num), Real.sqrt_sq hpos.le, mul_comm]
      have e2 : Real.sqrt (2 * s ^ 2 / Real.pi) = s * Real.sqrt (2 / Real.pi) := by
        rw [show 2 * s ^ 2 / Real.pi = s ^ 2 * (2 / Real.pi) by ring, Real.sqrt_mul (by positivity),
          Real.sqrt_sq hpos.le]
      have e3 : -mu ^ 2 / (2 * s ^ 2) = -(1 / 2) * (|mu| / s) * (|mu| / s) := by
        rw [show -(1 / 2) * (|mu| / s) * (|mu| / s) = -(1 / 2) * (|mu| ^ 2 / s ^ 2) by ring, sq_abs]
        field_simp
      rw [e1, e2, e3, ← mul_erf_abs, div_div]

/-- **C68**: the variogram score is `∑_{i<j} w_ij (|y_i - y_j|^p - E|X_i - X_j|^p)²` for `X` distributed as
predicted; for the madogram, standard deviations that are positive but below `1e-16` are excepted. -/
theorem C68_variogram {Ω : Type} [MeasurableSpace Ω] {P : Measure Ω} [IsProbabilityMeasure P] {n : Nat} (b : Build)
    (prediction : Joint (Fin n)) (truth : Fin n → ℝ) (weights : Option (Matrix (Fin n) (Fin n) ℝ))
    (o : VariogramOrder) {X : Ω → Fin n → ℝ} (hX : IsNormal P X prediction.mean prediction.covariance)
    (hw : ∀ w, weights = some w → ∀ i j, i < j → 0 ≤ w i j)
    (hsmall : ∀ i j, i < j → diffVar prediction.covariance i j = 0 ∨
      1 / 10 ^ 32 ≤ diffVar prediction.covariance i j) :
    variogramScore b prediction truth weights o = .ok (.fin (∑ i, ∑ j, if i < j then
      weights.elim 1 (fun w => w i j) *
        (|truth i - truth j| ^ variogramOrderP o - ∫ ω, |X ω i - X ω j| ^ variogramOrderP o ∂P) ^ 2 else 0)) := by
  have hpsd := hX.1
  have hterm : ∀ i j, i < j → variogramReal prediction.mean truth prediction.covariance o i j =
      (|truth i - truth j| ^ variogramOrderP o - ∫ ω, |X ω i - X ω j| ^ variogramOrderP o ∂P) ^ 2 := by
    intro i j hij
    have hd := diffVar_nonneg hpsd i j
    obtain ⟨v, hv⟩ : ∃ v : NNReal, (v : ℝ) = diffVar prediction.covariance i j :=
      ⟨Real.toNNReal _, Real.coe_toNNReal _ hd⟩
    have hlaw := hX.sub_law i j (v := v) hv
    unfold variogramReal
    rw [← expectedAbs_spec (prediction.mean j - prediction.mean i) (v := v) ?_ ?_ o, ← hlaw,
      integral_map ?_ (by fun_prop)]
    · simp only [abs_sub_comm (X _ j) (X _ i)]
    · have h1 : Measurable fun x : Fin n → ℝ => x j - x i := by fun_prop
      exact h1.comp_aemeasurable hX.2.1
    · rcases hsmall i j hij with h | h
      · left
        rw [h, Real.sqrt_zero]
      · right
        apply Real.le_sqrt_of_sq_le
        refine le_trans (le_of_eq ?_) h
        norm_num
    · rw [Real.sq_sqrt hd, hv]
  rw [variogramScore_sum b prediction truth weights o (fun i j _ => diffVar_nonneg hpsd i j) rfl]
  have hsum : (∑ i, ∑ j, if i < j then (weights.getD (Matrix.of fun _ _ => 1)) i j *
      variogramReal prediction.mean truth prediction.covariance o i j else 0) =
      ∑ i, ∑ j, if i < j then weights.elim 1 (fun w => w i j) *
        (|truth i - truth j| ^ variogramOrderP o - ∫ ω, |X ω i - X ω j| ^ variogramOrderP o ∂P) ^ 2 else 0 := by
    refine Finset.sum_congr rfl fun i _ => Finset.sum_congr rfl fun j _ => ?_
    split_ifs with hij
    · rw [hterm i j hij]
      cases weights <;> rfl
    · rfl
  rw [hsum, decide_eq_true, albatrossAssert_true]
  · rfl
  · refine Finset.sum_nonneg fun i _ => Finset.sum_nonneg fun j _ => ?_
    split_ifs with hij
    · refine mul_nonneg ?_ (sq_nonneg _)
      cases weights with
      | none => exact zero_le_one
      | some w => exact hw w rfl i j hij
    · exact le_rfl

/-- **C68**: for every positive semidefinite covariance and non-negative weights the score is a finite,
non-negative number and the assertion holds. -/
theorem C68_variogram_nonneg {n : Nat} (b : Build) (prediction : Joint (Fin n)) (truth : Fin n → ℝ)
    (weights : Option (Matrix (Fin n) (Fin n) ℝ)) (o : VariogramOrder) (hpsd : prediction.covariance.PosSemidef)
    (hw : ∀ w, weights = some w → ∀ i j, i < j → 0 ≤ w i j) :
    ∃ s, 0 ≤ s ∧ variogramScore b prediction truth weights o = .ok (.fin s) := by
  have h0 : 0 ≤ ∑ i, ∑ j, if i < j then (weights.getD (Matrix.of fun _ _ => 1)) i j *
      variogramReal prediction.mean truth prediction.covariance o i j else 0 := by
    refine Finset.sum_nonneg fun i _ => Finset.sum_nonneg fun j _ => ?_
    split_ifs with hij
    · refine mul_nonneg ?_ (sq_nonneg _)
      cases weights with
      | none => exact zero_le_one
      | some w => exact hw w rfl i j hij
    · exact le_rfl
  refine ⟨_, h0, ?_⟩
  rw [variogramScore_sum b prediction truth weights o (fun i j _ => diffVar_nonneg hpsd i j) rfl,
    decide_eq_true h0, albatrossAssert_true]
  rfl

/-- **C68**: adding a constant to all predictions, and another to all true values, changes nothing: the score
does not see a common bias. -/
theorem C68_variogram_shift {n : Nat} (b : Build) (prediction : Joint (Fin n)) (truth : Fin n → ℝ)
    (weights : Option (Matrix (Fin n) (Fin n) ℝ)) (o : VariogramOrder) (c d : ℝ) :
    variogramScore b ⟨fun i => prediction.mean i + c, prediction.covariance⟩ (fun i => truth i + d) weights o =
      variogramScore b prediction truth weights o := by
  unfold variogramScore variogramTerm
  simp only [add_sub_add_right_eq_sub]

/-- **C68**: a certain prediction which is right up to a constant scores zero, for all weights. -/
theorem C68_variogram_point_mass {n : Nat} (b : Build) (truth : Fin n → ℝ) (c : ℝ)
    (weights : Option (Matrix (Fin n) (Fin n) ℝ)) (o : VariogramOrder) :
    variogramScore b ⟨fun i => truth i + c, 0⟩ truth weights o = .ok (.fin 0) := by
  have hd : ∀ i j : Fin n, diffVar (0 : Matrix (Fin n) (Fin n) ℝ) i j = 0 := fun i j => by simp [diffVar]
  have h : ∀ i j : Fin n, variogramReal (fun i => truth i + c) truth 0 o i j = 0 := by
    intro i j
    unfold variogramReal
    rw [hd, Real.sqrt_zero, add_sub_add_right_eq_sub, abs_sub_comm]
    cases o
    · simp [variogramOrderP, expectedAbs]
    · simp [variogramOrderP, expectedAbs]
  rw [variogramScore_sum (s := 0) b _ truth weights o (fun i j _ => (hd i j).ge)]
  · rw [decide_eq_true le_rfl, albatrossAssert_true]
    rfl
  · simp only [h, mul_zero, ite_self, Finset.sum_const_zero]

/-- Each pair is counted once: half of the sum over all ordered pairs. -/
theorem sum_lt_half {n : Nat} (T : Fin n → Fin n → ℝ) (hsymm : ∀ i j, T i j = T j i) (hdiag : ∀ i, T i i = 0) :
    (∑ i, ∑ j, if i < j then T i j else 0) = (∑ i, ∑ j, T i j) / 2 := by
  have h1 : (∑ i, ∑ j, if j < i then T i j else 0) = ∑ i, ∑ j, if i < j then T i j else 0 := by
    rw [Finset.sum_comm]
    refine Finset.sum_congr rfl fun i _ => Finset.sum_congr rfl fun j _ => ?_
    rw [hsymm]
  have h2 : (∑ i, ∑ j, T i j) = (∑ i, ∑ j, if i < j then T i j else 0) + ∑ i, ∑ j, if j < i then T i j else 0 := by
    rw [← Finset.sum_add_distrib]
    refine Finset.sum_congr rfl fun i _ => ?_
    rw [← Finset.sum_add_distrib]
    refine Finset.sum_congr rfl fun j _ => ?_
    rcases lt_trichotomy i j with h | h | h
    · rw [if_pos h, if_neg h.asymm, add_zero]
    · subst h
      simp [hdiag]
    · rw [if_neg h.asymm, if_pos h, zero_add]
  rw [h2, h1]
  ring

/-- **C68**: with symmetric weights the order of the variables does not matter. -/
theorem C68_variogram_permutation {n : Nat} (b : Build) (prediction : Joint (Fin n)) (truth : Fin n → ℝ)
    (w : Matrix (Fin n) (Fin n) ℝ) (hw : w.IsSymm) (o : VariogramOrder) (hpsd : prediction.covariance.PosSemidef)
    (σ : Equiv.Perm (Fin n)) :
    variogramScore b ⟨prediction.mean ∘ σ, prediction.covariance.submatrix σ σ⟩ (truth ∘ σ)
      (some (w.submatrix σ σ)) o = variogramScore b prediction truth (some w) o := by
  have hS : ∀ i j, prediction.covariance i j = prediction.covariance j i := fun i j => by
    have := hpsd.isHermitian.apply j i
    simpa using this
  have hd : ∀ i j, diffVar prediction.covariance i j = diffVar prediction.covariance j i := by
    intro i j
    unfold diffVar
    rw [hS i j]
    ring
  have hE : ∀ m s, expectedAbs (-m) s o = expectedAbs m s o := by
    intro m s
    cases o
    · simp [expectedAbs]
    · simp only [expectedAbs, abs_neg]
  have hV : ∀ i j, variogramReal prediction.mean truth prediction.covariance o i j =
      variogramReal prediction.mean truth prediction.covariance o j i := by
    intro i j
    unfold variogramReal
    rw [hd i j, abs_sub_comm, ← hE (prediction.mean j - prediction.mean i), neg_sub]
  have hdiag : ∀ i, variogramReal prediction.mean truth prediction.covariance o i i = 0 := by
    intro i
    unfold variogramReal
    rw [show diffVar prediction.covariance i i = 0 by unfold diffVar; ring]
    cases o
    · simp [variogramOrderP, expectedAbs]
    · simp [variogramOrderP, expectedAbs]
  have hsum : (∑ i, ∑ j, if i < j then (w.submatrix σ σ) i j *
        variogramReal (prediction.mean ∘ σ) (truth ∘ σ) (prediction.covariance.submatrix σ σ) o i j else 0) =
      ∑ i, ∑ j, if i < j then w i j * variogramReal prediction.mean truth prediction.covariance o i j else 0 := by
    have e : ∀ i j, (w.submatrix σ σ) i j *
        variogramReal (prediction.mean ∘ σ) (truth ∘ σ) (prediction.covariance.submatrix σ σ) o i j =
        (fun i j => w i j * variogramReal prediction.mean truth prediction.covariance o i j) (σ i) (σ j) :=
      fun i j => rfl
    rw [sum_lt_half (fun i j => w i j * variogramReal prediction.mean truth prediction.covariance o i j)
        (fun i j => by rw [hV i j, hw.apply i j]) (fun i => by rw [hdiag, mul_zero]),
      sum_lt_half (fun i j => (w.submatrix σ σ) i j *
        variogramReal (prediction.mean ∘ σ) (truth ∘ σ) (prediction.covariance.submatrix σ σ) o i j)]
    · congr 1
      simp only [e]
      rw [Equiv.sum_comp σ fun i => ∑ j, (fun i j => w i j *
        variogramReal prediction.mean truth prediction.covariance o i j) i (σ j)]
      refine Finset.sum_congr rfl fun i _ => ?_
      exact Equiv.sum_comp σ fun j => w i j * variogramReal prediction.mean truth prediction.covariance o i j
    · intro i j
      rw [e, e]
      simp only
      rw [hV, hw.apply]
    · intro i
      rw [e]
      simp only
      rw [hdiag, mul_zero]
  have h1 := variogramScore_sum b ⟨prediction.mean ∘ σ, prediction.covariance.submatrix σ σ⟩ (truth ∘ σ)
    (some (w.submatrix σ σ)) o (fun i j _ => diffVar_nonneg (hpsd.submatrix σ) i j) rfl
  have h2 := variogramScore_sum b prediction truth (some w) o (fun i j _ => diffVar_nonneg hpsd i j) rfl
  rw [h1, h2]
  simp only [Option.getD_some]
  rw [hsum]

/-- **C68**: negative weights are accepted: with assertions the final check fails, without them the score is
negative. -/
theorem C68_variogram_negative_false :
    ∃ (prediction : Joint (Fin 2)) (truth : Fin 2 → ℝ) (w : Matrix (Fin 2) (Fin 2) ℝ),
      prediction.covariance.PosSemidef ∧
      variogramScore .debug prediction truth (some w) .variogram = .error .assertFail ∧
      variogramScore .ndebug prediction truth (some w) .variogram = .ok (.fin (-1)) := by
  refine ⟨⟨![0, 0], 0⟩, ![0, 1], Matrix.of fun _ _ => -1, Matrix.PosSemidef.zero, ?_⟩
  have hs : (-1 : ℝ) = ∑ i : Fin 2, ∑ j : Fin 2, if i < j then
      ((some (Matrix.of fun _ _ => (-1 : ℝ))).getD (Matrix.of fun _ _ => 1)) i j *
      variogramReal ![0, 0] ![0, 1] 0 .variogram i j else 0 := by
    simp [Fin.sum_univ_two, variogramReal, variogramOrderP, expectedAbs, diffVar]
  have hd : ∀ i j : Fin 2, i < j → 0 ≤ diffVar (0 : Matrix (Fin 2) (Fin 2) ℝ) i j := fun i j _ => by simp [diffVar]
  have h := fun b => variogramScore_sum b ⟨![0, 0], (0 : Matrix (Fin 2) (Fin 2) ℝ)⟩ ![0, 1]
    (some (Matrix.of fun _ _ => (-1 : ℝ))) .variogram hd hs
  rw [h, h, decide_eq_false (by norm_num), assert_debug_false, assert_ndebug]
  exact ⟨rfl, rfl⟩

example : ∃ (prediction : Joint (Fin 3)) (w : Matrix (Fin 3) (Fin 3) ℝ), prediction.covariance.PosSemidef ∧
    w.IsSymm ∧ (∀ i j, i < j → 0 ≤ w i j) ∧ ∀ i j, i < j → diffVar prediction.covariance i j = 0 ∨
      1 / 10 ^ 32 ≤ diffVar prediction.covariance i j := by
  have hone : (1 : Matrix (Fin 3) (Fin 3) ℝ).PosSemidef := Matrix.PosSemidef.one
  refine ⟨⟨![1, 2, 4], (1 : Matrix (Fin 3) (Fin 3) ℝ)⟩, Matrix.of fun _ _ => (3 : ℝ), hone, ?_, fun i j _ => ?_,
    fun i j hij => ?_⟩
  · ext i j
    rfl
  · show (0 : ℝ) ≤ 3
    norm_num
  · refine Or.inr ?_
    show 1 / 10 ^ 32 ≤ diffVar (1 : Matrix (Fin 3) (Fin 3) ℝ) i j
    have h : diffVar (1 : Matrix (Fin 3) (Fin 3) ℝ) i j = 2 := by
      unfold diffVar
      rw [Matrix.one_apply_eq, Matrix.one_apply_eq, Matrix.one_apply_ne hij.ne]
      norm_num
    rw [h]
    norm_num

end Albatross
