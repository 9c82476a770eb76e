import Verif.RoundedErrors
import Verif.RoundedCodeProps
import Verif.KernelsProps

/-! # How far computed covariances are from the exact ones (C135) -/

namespace Albatross

open Matrix

/-- The mathematics library is accurate to two units of rounding (about one unit in the last place). -/
structure MathFunctions.Accurate (lib : MathFunctions) : Prop where
  exp : ∀ x, |lib.exp x - Real.exp x| ≤ 2⁻¹ ^ 52 * Real.exp x
  pow : ∀ x (n : ℕ), |lib.pow x n - x ^ n| ≤ 2⁻¹ ^ 52 * |x ^ n|
  sqrt : ∀ x, 0 ≤ x → |lib.sqrt x - Real.sqrt x| ≤ 2⁻¹ ^ 52 * Real.sqrt x

/-- The covariance function in exact arithmetic. -/
noncomputable def DoubleCov.exact : DoubleCov → ℝ → ℝ → ℝ
  | constant s, x, y => constantCov s x y
  | polynomial ss, x, y => (ss.zipIdx.map fun p => p.1 * p.1 * x ^ p.2 * y ^ p.2).sum
  | nugget s, x, y => noiseCov s x y
  | squaredExponential l s, x, y => Albatross.squaredExponential (euclideanDistance x y) l s
  | exponential l s, x, y => exponentialCov (euclideanDistance x y) l s
  | matern32 l s, x, y => Albatross.matern32 (euclideanDistance x y) l s
  | matern52 l s, x, y => Albatross.matern52 (euclideanDistance x y) l s
  | sum a b, x, y => a.exact x y + b.exact x y
  | product a b, x, y => a.exact x y * b.exact x y

/-- What errors are relative to: the variances of the terms, combined as the terms are. -/
noncomputable def DoubleCov.scale : DoubleCov → ℝ → ℝ → ℝ
  | constant s, _, _ | nugget s, _, _ | squaredExponential _ s, _, _ | exponential _ s, _, _ | matern32 _ s, _, _
  | matern52 _ s, _, _ => s * s
  | polynomial ss, x, y => (ss.zipIdx.map fun p => p.1 * p.1 * |x| ^ p.2 * |y| ^ p.2).sum
  | sum a b, x, y => a.scale x y + b.scale x y
  | product a b, x, y => a.scale x y * b.scale x y

/-- How many roundings count. -/
def DoubleCov.roundings : DoubleCov → Nat
  | constant _ | nugget _ => 1
  | polynomial ss => 7 + ss.length
  | squaredExponential _ _ | exponential _ _ | matern32 _ _ | matern52 _ _ => 12
  | sum a b => max a.roundings b.roundings + 1
  | product a b => a.roundings + b.roundings + 1

section

theorem two_roundings (S : ℝ) (hS : 0 ≤ S) : 2⁻¹ ^ 52 * S ≤ ((1 + 2⁻¹ ^ 53) ^ 2 - 1) * S :=
  mul_le_mul_of_nonneg_right (by norm_num) hS

variable (r : Rounding) {lib : MathFunctions} (hlib : lib.Accurate)
include hlib

theorem Close.libExp {N : Nat} {S y x : ℝ} (h : Close N S (Real.exp y) x) : Close (N + 2) S (lib.exp y) x :=
  h.trans ((hlib.exp y).trans (by rw [Real.abs_exp]; exact two_roundings _ (Real.exp_pos y).le))

theorem Close.libPow (x : ℝ) (n : ℕ) : Close 2 (|x| ^ n) (lib.pow x n) (x ^ n) := by
  have h : Close 0 (|x| ^ n) (x ^ n) (x ^ n) := by rw [← abs_pow]; exact Close.refl _
  simpa using h.trans (M := 2) ((hlib.pow x n).trans (two_roundings _ (abs_nonneg _)))

theorem Close.libSqrt {x : ℝ} (hx : 0 ≤ x) : Close 2 (Real.sqrt x) (lib.sqrt x) (Real.sqrt x) := by
  have h := Close.refl (Real.sqrt x)
  rw [abs_of_nonneg (Real.sqrt_nonneg x)] at h
  simpa using h.trans (M := 2) ((hlib.sqrt x hx).trans (by
    rw [abs_of_nonneg (Real.sqrt_nonneg x)]; exact two_roundings _ (Real.sqrt_nonneg x)))

omit hlib

theorem Close.square (s : ℝ) : Close 1 (s * s) (r.fl (s * s)) (s * s) := by
  have h := (Close.refl (s * s)).fl r
  rwa [abs_of_nonneg (mul_self_nonneg s)] at h

theorem Close.distance (x y : ℝ) : Close 1 (euclideanDistance x y) (r.distanceCall x y) (euclideanDistance x y) :=
  ((Close.refl (x - y)).fl r).abs

theorem exp_neg_le_one {z : ℝ} (hz : 0 ≤ z) : Real.exp (-z) ≤ 1 := by
  rw [Real.exp_le_one_iff]; linarith

include hlib

theorem squaredExponential_close (l s x y : ℝ) : Close 12 (s * s)
    (r.squaredExponentialCall lib l s (r.distanceCall x y)) (squaredExponential (euclideanDistance x y) l s) := by
  rw [Rounding.squaredExponentialCall, squaredExponential]
  split_ifs with hl
  · exact ⟨by simpa using mul_self_nonneg s, by simpa using mul_nonneg (Close.growth_nonneg 12) (mul_self_nonneg s)⟩
  push Not at hl
  have hd := ((Close.distance r x y).div hl).fl r
  set q := euclideanDistance x y / l with hq
  set q' := r.fl (r.distanceCall x y / l)
  have hq0 : 0 ≤ q := div_nonneg (abs_nonneg _) hl.le
  have hz : Close 6 (q ^ 2) (lib.pow q' 2) (q ^ 2) := by
    have h2 := (hd.mul hd).trans (z := lib.pow q' 2) (M := 2) (by
      have := hlib.pow q' 2
      rw [← sq]
      norm_num only [Nat.cast_ofNat] at this ⊢
      refine this.trans (mul_le_mul_of_nonneg_right (by norm_num) (abs_nonneg _)))
    simpa [← sq] using h2
  have he := exp_argument (sq_nonneg q) (Close.growth_nonneg 6) (by norm_num) hz.2
  have hexp : Close 3 1 (Real.exp (-lib.pow q' 2)) (Real.exp (-q ^ 2)) :=
    ⟨by rw [Real.abs_exp]; exact exp_neg_le_one (sq_nonneg q), he.trans (by norm_num)⟩
  have h := ((Close.square r s).mul (hexp.libExp hlib)).fl r
  exact h.mono (by norm_num) (by rw [mul_one])

theorem exponential_close (l s x y : ℝ) : Close 12 (s * s)
    (r.exponentialCall lib l s (r.distanceCall x y)) (exponentialCov (euclideanDistance x y) l s) := by
  rw [Rounding.exponentialCall, exponentialCov]
  split_ifs with hl
  · exact ⟨by simpa using mul_self_nonneg s, by simpa using mul_nonneg (Close.growth_nonneg 12) (mul_self_nonneg s)⟩
  push Not at hl
  have hd := (((Close.distance r x y).div hl).fl r).abs
  set q := |euclideanDistance x y / l| with hq
  have hs : euclideanDistance x y / l = q := (abs_of_nonneg (div_nonneg (abs_nonneg _) hl.le)).symm
  rw [hs] at hd
  have he := exp_argument (abs_nonneg _) (Close.growth_nonneg 2) (by norm_num) hd.2
  have hexp : Close 1 1 (Real.exp (-|r.fl (r.distanceCall x y / l)|)) (Real.exp (-q)) :=
    ⟨by rw [Real.abs_exp]; exact exp_neg_le_one (abs_nonneg _), he.trans (by norm_num)⟩
  have h := ((Close.square r s).mul (hexp.libExp hlib)).fl r
  exact h.mono (by norm_num) (by rw [mul_one])

/-- The scaled distance of the Matern functions. -/
theorem maternDistance_close {l : ℝ} (hl : 0 < l) {c : ℝ} (hc : 0 ≤ c) (x y : ℝ) :
    Close 5 (Real.sqrt c * euclideanDistance x y / l) (r.fl (r.fl (lib.sqrt c * r.distanceCall x y) / l))
      (Real.sqrt c * euclideanDistance x y / l) :=
  ((((Close.libSqrt hlib hc).mul (Close.distance r x y)).fl r).div hl).fl r

theorem matern32_close (l s x y : ℝ) : Close 12 (s * s)
    (r.matern32Call lib l s (r.distanceCall x y)) (matern32 (euclideanDistance x y) l s) := by
  rw [Rounding.matern32Call, matern32]
  split_ifs with hl
  · exact ⟨by simpa using mul_self_nonneg s, by simpa using mul_nonneg (Close.growth_nonneg 12) (mul_self_nonneg s)⟩
  push Not at hl
  have hd := maternDistance_close r hlib hl (c := 3) (by norm_num) x y
  simp only
  set z := Real.sqrt 3 * euclideanDistance x y / l with hz
  set z' := r.fl (r.fl (lib.sqrt 3 * r.distanceCall x y) / l)
  have hz0 : 0 ≤ z := hd.scale_nonneg
  have he := matern32_argument hz0 (Close.growth_nonneg 5) (by norm_num) hd.2
  have hle : (1 + z) * Real.exp (-z) ≤ 1 := by
    rw [Real.exp_neg, ← div_eq_mul_inv, div_le_one (Real.exp_pos z)]
    linarith [Real.add_one_le_exp z]
  have hf : Close 3 1 ((1 + z') * Real.exp (-z')) ((1 + z) * Real.exp (-z)) :=
    ⟨by rw [abs_of_nonneg (by positivity)]; exact hle, he.trans (by norm_num)⟩
  have hm : Close 6 |s * s * ((1 + z') * Real.exp (-z'))|
      (r.fl (r.fl (r.fl (s * s) * r.fl (1 + z')) * lib.exp (-z'))) (s * s * ((1 + z') * Real.exp (-z'))) := by
    have h1 := ((((Close.square r s).mul ((Close.refl (1 + z')).fl r)).fl r).mul
      ((Close.refl (Real.exp (-z'))).libExp hlib)).fl r
    rw [abs_mul (s * s), abs_mul _ (Real.exp _), abs_of_nonneg (mul_self_nonneg s), ← mul_assoc, ← mul_assoc]
    exact h1
  have hs := Close.refl (s * s)
  rw [abs_of_nonneg (mul_self_nonneg s)] at hs
  have h := (hs.mul hf).trans hm.2
  rw [mul_one] at h
  rw [mul_assoc]
  exact h.mono (by norm_num) le_rfl

theorem matern52_close (l s x y : ℝ) : Close 12 (s * s)
    (r.matern52Call lib l s (r.distanceCall x y)) (matern52 (euclideanDistance x y) l s) := by
  rw [Rounding.matern52Call, matern52]
  split_ifs with hl
  · exact ⟨by simpa using mul_self_nonneg s, by simpa using mul_nonneg (Close.growth_nonneg 12) (mul_self_nonneg s)⟩
  push Not at hl
  have hd := maternDistance_close r hlib hl (c := 5) (by norm_num) x y
  simp only
  set z := Real.sqrt 5 * euclideanDistance x y / l with hz
  set z' := r.fl (r.fl (lib.sqrt 5 * r.distanceCall x y) / l)
  have hz0 : 0 ≤ z := hd.scale_nonneg
  have hz0' : 0 ≤ z' := by
    have h1 := (abs_le.1 hd.2).1
    have h2 : ((1 + 2⁻¹ ^ 53) ^ 5 - 1) * z ≤ 1 * z := mul_le_mul_of_nonneg_right (by norm_num) hz0
    linarith
  have he := matern52_argument hz0 (Close.growth_nonneg 5) (by norm_num) hd.2
  have hle : (1 + z + z * z / 3) * Real.exp (-z) ≤ 1 := by
    rw [Real.exp_neg, ← div_eq_mul_inv, div_le_one (Real.exp_pos z)]
    have := Real.quadratic_le_exp_of_nonneg hz0
    nlinarith [sq_nonneg z]
  have hf : Close 4 1 ((1 + z' + z' * z' / 3) * Real.exp (-z')) ((1 + z + z * z / 3) * Real.exp (-z)) :=
    ⟨by rw [abs_of_nonneg (by positivity)]; exact hle, he.trans (by norm_num)⟩
  have hq : Close 3 |1 + z' + z' * z' / 3| (r.fl (r.fl (1 + z') + r.fl (r.fl (z' * z') / 3))) (1 + z' + z' * z' / 3) := by
    have h1 := (Close.refl (1 + z')).fl r
    have h2 := (((Close.refl (z' * z')).fl r).div (l := 3) (by norm_num)).fl r
    have h3 := ((h1.mono (M := 2) (by norm_num) le_rfl).add h2).fl r
    refine h3.mono le_rfl (le_of_eq ?_)
    rw [abs_of_nonneg (by positivity), abs_of_nonneg (by positivity), abs_of_nonneg (by positivity)]
  have hm : Close 8 |s * s * ((1 + z' + z' * z' / 3) * Real.exp (-z'))|
      (r.fl (r.fl (r.fl (s * s) * r.fl (r.fl (1 + z') + r.fl (r.fl (z' * z') / 3))) * lib.exp (-z')))
      (s * s * ((1 + z' + z' * z' / 3) * Real.exp (-z'))) := by
    have h1 := ((((Close.square r s).mul hq).fl r).mul ((Close.refl (Real.exp (-z'))).libExp hlib)).fl r
    rw [abs_mul (s * s), abs_mul _ (Real.exp _), abs_of_nonneg (mul_self_nonneg s), ← mul_assoc, ← mul_assoc]
    exact h1
  have hs := Close.refl (s * s)
  rw [abs_of_nonneg (mul_self_nonneg s)] at hs
  have h := (hs.mul hf).trans hm.2
  rw [mul_one] at h
  rw [mul_assoc]
  exact h.mono (by norm_num) le_rfl

theorem polynomial_close (x y : ℝ) (terms : List (ℝ × ℕ)) : ∀ {N : Nat} {S cov c : ℝ}, 7 ≤ N → Close N S cov c →
    Close (N + terms.length) (S + (terms.map fun p => p.1 * p.1 * |x| ^ p.2 * |y| ^ p.2).sum)
      (terms.foldl (fun cov p => r.fl (cov + r.fl (r.fl (r.fl (p.1 * p.1) * lib.pow x p.2) * lib.pow y p.2))) cov)
      (c + (terms.map fun p => p.1 * p.1 * x ^ p.2 * y ^ p.2).sum) := by
  induction terms with
  | nil => intro N S cov c _ h; simpa using h
  | cons p terms ih =>
    intro N S cov c hN h
    have ht := ((((Close.square r p.1).mul (Close.libPow hlib x p.2)).fl r).mul (Close.libPow hlib y p.2)).fl r
    have h1 := ih (Nat.le_succ_of_le hN) ((h.add (ht.mono (M := N) hN le_rfl)).fl r)
    simp only [List.length_cons, List.map_cons, List.sum_cons, List.foldl_cons]
    rw [show N + (terms.length + 1) = N + 1 + terms.length by omega, ← add_assoc S, ← add_assoc c]
    exact h1

/-- C135: what a composed covariance function returns for two doubles is its exact value up to the counted roundings,
relative to the variances. -/
theorem C135_rounded (c : DoubleCov) (x y : ℝ) :
    |c.call r lib x y - c.exact x y| ≤ ((1 + 2⁻¹ ^ 53) ^ c.roundings - 1) * c.scale x y ∧ |c.exact x y| ≤ c.scale x y := by
  suffices h : Close c.roundings (c.scale x y) (c.call r lib x y) (c.exact x y) from ⟨h.2, h.1⟩
  induction c with
  | constant s => exact Close.square r s
  | polynomial ss =>
    have h := polynomial_close r hlib x y ss.zipIdx le_rfl (⟨by simp, by simp⟩ : Close 7 0 0 0)
    rw [zero_add, zero_add, List.length_zipIdx] at h
    exact h
  | nugget s =>
    simp only [DoubleCov.call, Rounding.nuggetCall, DoubleCov.exact, noiseCov, DoubleCov.scale, DoubleCov.roundings]
    split_ifs with hxy
    · exact Close.square r s
    · exact ⟨by simpa using mul_self_nonneg s, by simpa using mul_nonneg (Close.growth_nonneg 1) (mul_self_nonneg s)⟩
  | squaredExponential l s => exact squaredExponential_close r hlib l s x y
  | exponential l s => exact exponential_close r hlib l s x y
  | matern32 l s => exact matern32_close r hlib l s x y
  | matern52 l s => exact matern52_close r hlib l s x y
  | sum a b iha ihb =>
    exact ((iha.mono (le_max_left _ _) le_rfl).add (ihb.mono (le_max_right _ _) le_rfl)).fl r
  | product a b iha ihb =>
    have h := (iha.mul ihb).fl r
    simp only [DoubleCov.call, Rounding.productCall]
    split_ifs with h0
    · exact h
    · push Not at h0
      rw [h0, zero_mul, r.of_double isDouble_zero] at h
      rw [h0]
      exact h

/-- C135: the radial functions are computed up to sixteen units of rounding of the variance, whatever the features, the
length scale and sigma are. -/
theorem C135_radial (l s x y : ℝ) :
    |r.squaredExponentialCall lib l s (r.distanceCall x y) - squaredExponential |x - y| l s| ≤ 2⁻¹ ^ 49 * (s * s) ∧
    |r.exponentialCall lib l s (r.distanceCall x y) - exponentialCov |x - y| l s| ≤ 2⁻¹ ^ 49 * (s * s) ∧
    |r.matern32Call lib l s (r.distanceCall x y) - matern32 |x - y| l s| ≤ 2⁻¹ ^ 49 * (s * s) ∧
    |r.matern52Call lib l s (r.distanceCall x y) - matern52 |x - y| l s| ≤ 2⁻¹ ^ 49 * (s * s) := by
  have h : ∀ a b, Close 12 (s * s) a b → |a - b| ≤ 2⁻¹ ^ 49 * (s * s) := fun a b h =>
    h.2.trans (mul_le_mul_of_nonneg_right (by norm_num) (mul_self_nonneg s))
  exact ⟨h _ _ (squaredExponential_close r hlib l s x y), h _ _ (exponential_close r hlib l s x y),
    h _ _ (matern32_close r hlib l s x y), h _ _ (matern52_close r hlib l s x y)⟩

omit hlib

theorem DoubleCov.exact_psd (c : DoubleCov) (hc : c.NoPolynomial) : IsPSD c.exact := by
  induction c with
  | constant s => exact C22_constant_psd s
  | polynomial ss => exact hc.elim
  | nugget s => exact C22_noise_psd s
  | squaredExponential l s => exact C22_squared_exponential_real_psd l s
  | exponential l s => exact C22_exponential_real_psd l s
  | matern32 l s => exact C22_matern_32_real_psd l s
  | matern52 l s => exact C22_matern_52_real_psd l s
  | sum a b iha ihb => exact (iha hc.1).add (ihb hc.2)
  | product a b iha ihb => exact (iha hc.1).mul (ihb hc.2)

/-- The scale does not depend on the features when there is no polynomial. -/
theorem DoubleCov.scale_const (c : DoubleCov) (hc : c.NoPolynomial) (x y x' y' : ℝ) : c.scale x y = c.scale x' y' := by
  induction c with
  | polynomial ss => exact hc.elim
  | sum a b iha ihb => simp only [DoubleCov.scale, iha hc.1, ihb hc.2]
  | product a b iha ihb => simp only [DoubleCov.scale, iha hc.1, ihb hc.2]
  | _ => rfl

theorem DoubleCov.call_double (r : Rounding) (lib : MathFunctions) (c : DoubleCov) (hc : c.NoPolynomial) (x y : ℝ) :
    IsDouble (c.call r lib x y) := by
  induction c with
  | constant s => exact r.isDouble _
  | polynomial ss => exact hc.elim
  | nugget s =>
    simp only [DoubleCov.call, Rounding.nuggetCall]
    split_ifs
    exacts [r.isDouble _, isDouble_zero]
  | squaredExponential l s =>
    simp only [DoubleCov.call, Rounding.squaredExponentialCall]
    split_ifs
    exacts [isDouble_zero, r.isDouble _]
  | exponential l s =>
    simp only [DoubleCov.call, Rounding.exponentialCall]
    split_ifs
    exacts [isDouble_zero, r.isDouble _]
  | matern32 l s =>
    simp only [DoubleCov.call, Rounding.matern32Call]
    split_ifs
    exacts [isDouble_zero, r.isDouble _]
  | matern52 l s =>
    simp only [DoubleCov.call, Rounding.matern52Call]
    split_ifs
    exacts [isDouble_zero, r.isDouble _]
  | sum a b iha ihb => exact r.isDouble _
  | product a b iha ihb =>
    simp only [DoubleCov.call, Rounding.productCall]
    split_ifs
    exacts [r.isDouble _, iha hc.1]

include hlib

/-- C135: the covariance of `m` inducing points, computed in doubles and with the default nugget of the sparse model, is
positive definite: for every composition of the covariance functions with at most fifteen roundings (the sum of eight
radial functions, nested in three levels, has fifteen) whose variance is between 1 and five million by `m`. The inducing
points may be as near to each other as they like, or equal. -/
theorem C135_inducing (c : DoubleCov) (hc : c.NoPolynomial) (hN : c.roundings ≤ 15) {b : ℝ} (hb : ∀ x y, c.scale x y = b)
    (hb1 : 1 ≤ b) {m : Nat} (hm : m * b ≤ 5 * 10 ^ 6) (u : Fin m → ℝ) :
    (of (r.addNugget (fun i j => c.call r lib (u i) (u j)) r.defaultNugget)).PosDef := by
  refine C133_inducing_nugget r (c.exact_psd hc) u _ (fun i j => C134_symmetric_partial r lib c hc _ _) hb1 (fun i => ?_)
    (fun i j => ?_) hm
  · exact (le_abs_self _).trans ((C135_rounded r hlib c _ _).2.trans_eq (hb _ _))
  · refine (C135_rounded r hlib c _ _).1.trans ?_
    rw [hb]
    refine mul_le_mul_of_nonneg_right ((Close.growth_mono hN).trans ?_) (by linarith)
    norm_num

/-- C135: with a nugget of standard deviation `s` in the covariance function, the covariance of `n` distinct features is
positive definite in doubles when the nugget is more than `n` times the roundings. -/
theorem C135_nugget (c : DoubleCov) (hc : c.NoPolynomial) {b : ℝ} (hb : ∀ x y, c.scale x y = b) {n : Nat} {x : Fin n → ℝ}
    (hx : Function.Injective x) {s : ℝ} (h : n * (((1 + 2⁻¹ ^ 53) ^ c.roundings - 1) * b +
      2⁻¹ ^ 53 * (b + ((1 + 2⁻¹ ^ 53) ^ c.roundings - 1) * b + r.fl (s * s))) < r.fl (s * s)) :
    (of fun i j => (DoubleCov.sum c (.nugget s)).call r lib (x i) (x j)).PosDef :=
  C133_nugget_partial r (c.exact_psd hc) x hx (c.call r lib) (c.call_double r lib hc)
    (fun _ _ => C134_symmetric_partial r lib c hc _ _)
    (fun _ _ => (C135_rounded r hlib c _ _).1.trans_eq (by rw [hb]))
    (fun _ => (le_abs_self _).trans ((C135_rounded r hlib c _ _).2.trans_eq (hb _ _))) h

end

/-- There is an accurate library, and five thousand inducing points of a squared exponential plus a Matern function with
variances of 100 each meet the hypotheses. -/
example : (⟨Real.exp, fun x y => x ^ y, Real.sqrt⟩ : MathFunctions).Accurate ∧
    (DoubleCov.sum (.squaredExponential 1 10) (.matern52 3 10)).NoPolynomial ∧
    (DoubleCov.sum (.squaredExponential 1 10) (.matern52 3 10)).roundings = 13 ∧
    (∀ x y, (DoubleCov.sum (.squaredExponential 1 10) (.matern52 3 10)).scale x y = 200) ∧
    ((5000 : ℕ) : ℝ) * 200 ≤ 5 * 10 ^ 6 := by
  refine ⟨⟨fun x => ?_, fun x n => ?_, fun x _ => ?_⟩, ⟨trivial, trivial⟩, rfl, fun x y => ?_, by norm_num⟩
  · simp [Real.exp_nonneg]
  · simp
  · simp [Real.sqrt_nonneg]
  · norm_num [DoubleCov.scale]

end Albatross
