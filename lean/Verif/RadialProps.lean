import Verif.Radial
import Verif.TuneProps
import Mathlib.Analysis.SpecialFunctions.Log.Deriv
import Mathlib.Analysis.Calculus.Deriv.Inv
import Mathlib.Analysis.Complex.ExponentialBounds

/-! # Properties of the derivation of length scales (C56) -/

namespace Albatross

theorem validArgs_ok (b : Build) {d s e : ℝ} (hd : 0 < d) (he : 0 < e) (hes : e < s) :
    validArgs b (.fin d) (.fin s) (.fin e) = .ok true := by
  have hs : 0 < s := he.trans hes
  simp [validArgs, hd, hs, he, hes, albatrossAssert_true, except_ok_bind, except_pure]

theorem ratio_bounds {s e : ℝ} (he : 0 < e) (hes : e < s) : 0 < e / s ∧ e / s < 1 ∧
    0 < 1 - e / s * (e / s) ∧ 1 - e / s * (e / s) < 1 := by
  have hs : 0 < s := he.trans hes
  have h1 : 0 < e / s := by positivity
  have h2 : e / s < 1 := (div_lt_one hs).2 hes
  refine ⟨h1, h2, by nlinarith, by nlinarith⟩

theorem noise_sq {s e r E : ℝ} (hs : 0 < s) (hr : r = e / s) (hE : E * E = 1 - r * r) :
    s * s - s * s * E * (s * s * E) / (s * s) = e ^ 2 := by
  have : s * s * E * (s * s * E) / (s * s) = s * s * (E * E) := by field_simp
  rw [this, hE, hr]
  field_simp
  ring

/-- C56, squared exponential: the derived length scale reproduces the process noise. -/
theorem C56_squared_exponential (b : Build) (d s e : ℝ) (hd : 0 < d) (he : 0 < e) (hes : e < s) :
    ∃ l, 0 < l ∧ deriveSquaredExponential b (.fin d) (.fin s) (.fin e) = .ok (.fin l) ∧
      processNoiseEquivalent (fun x => squaredExponential x l s) d = e := by
  have hs : 0 < s := he.trans hes
  obtain ⟨h1, h2, h3, h4⟩ := ratio_bounds he hes
  set r := e / s with hr
  have hlog : Real.log (1 - r * r) < 0 := Real.log_neg h3 h4
  have hsq : 0 < Real.sqrt (-Real.log (1 - r * r)) := Real.sqrt_pos.2 (by linarith)
  refine ⟨Real.sqrt 2 * d / Real.sqrt (-Real.log (1 - r * r)), by positivity, ?_, ?_⟩
  · have hdiv : Dbl.fin e / Dbl.fin s = .fin r := Dbl.fin_div hs.ne'
    have hl : Dbl.log (.fin (1 - r * r)) = .fin (Real.log (1 - r * r)) := by simp [Dbl.log, h3]
    have hq : Dbl.sqrt (.fin (-Real.log (1 - r * r))) = .fin (Real.sqrt (-Real.log (1 - r * r))) := by
      have : ¬ (-Real.log (1 - r * r) < 0) := by linarith
      simp only [Dbl.sqrt, if_neg this]
    have hq2 : Dbl.sqrt (.fin 2) = .fin (Real.sqrt 2) := by simp [Dbl.sqrt]
    simp only [deriveSquaredExponential, validArgs_ok b hd he hes, except_ok_bind, Bool.not_true,
      Bool.false_eq_true, if_false, hdiv, Dbl.fin_lt, h1, h2, decide_true, albatrossAssert_true,
      Dbl.fin_mul, Dbl.fin_sub, hl, Dbl.fin_neg, hq, hq2, Dbl.fin_div hsq.ne', except_pure]
  · set q := Real.sqrt (-Real.log (1 - r * r)) with hq
    have hlpos : 0 < Real.sqrt 2 * d / q := by positivity
    have hx : d / (Real.sqrt 2 * d / q) = q / Real.sqrt 2 := by
      have : Real.sqrt 2 ≠ 0 := by positivity
      field_simp
    have hx2 : (q / Real.sqrt 2) ^ 2 = -Real.log (1 - r * r) / 2 := by
      rw [div_pow, hq, Real.sq_sqrt (by linarith), Real.sq_sqrt (by norm_num)]
    unfold processNoiseEquivalent squaredExponential
    simp only [if_neg (not_le.2 hlpos), hx, hx2, zero_div]
    have hexp : Real.exp (-(-Real.log (1 - r * r) / 2)) * Real.exp (-(-Real.log (1 - r * r) / 2)) =
        1 - r * r := by
      rw [← Real.exp_add]
      rw [show -(-Real.log (1 - r * r) / 2) + -(-Real.log (1 - r * r) / 2) = Real.log (1 - r * r) by ring]
      exact Real.exp_log h3
    rw [show (-0 ^ 2 : ℝ) = 0 by norm_num, Real.exp_zero, mul_one, noise_sq hs hr hexp, Real.sqrt_sq he.le]

/-- C56, exponential: the derived length scale reproduces the process noise. -/
theorem C56_exponential (b : Build) (d s e : ℝ) (hd : 0 < d) (he : 0 < e) (hes : e < s) :
    ∃ l, 0 < l ∧ deriveExponential b (.fin d) (.fin s) (.fin e) = .ok (.fin l) ∧
      processNoiseEquivalent (fun x => exponentialCov x l s) d = e := by
  have hs : 0 < s := he.trans hes
  obtain ⟨h1, h2, h3, h4⟩ := ratio_bounds he hes
  set r := e / s with hr
  have hlog : Real.log (1 - r * r) < 0 := Real.log_neg h3 h4
  have hlpos : 0 < -2 * d / Real.log (1 - r * r) := div_pos_of_neg_of_neg (by linarith) hlog
  refine ⟨-2 * d / Real.log (1 - r * r), hlpos, ?_, ?_⟩
  · have hdiv : Dbl.fin e / Dbl.fin s = .fin r := Dbl.fin_div hs.ne'
    have hl : Dbl.log (.fin (1 - r * r)) = .fin (Real.log (1 - r * r)) := by simp [Dbl.log, h3]
    simp only [deriveExponential, validArgs_ok b hd he hes, except_ok_bind, Bool.not_true,
      Bool.false_eq_true, if_false, hdiv, Dbl.fin_lt, h1, h2, decide_true, albatrossAssert_true,
      Dbl.fin_mul, Dbl.fin_sub, hl, Dbl.fin_div hlog.ne, except_pure]
  · have hx : d / (-2 * d / Real.log (1 - r * r)) = -Real.log (1 - r * r) / 2 := by
      have := hlog.ne
      field_simp
    unfold processNoiseEquivalent exponentialCov
    simp only [if_neg (not_le.2 hlpos), hx, zero_div, abs_zero, neg_zero, Real.exp_zero, mul_one]
    rw [abs_of_pos (by linarith : 0 < -Real.log (1 - r * r) / 2)]
    have hexp : Real.exp (-(-Real.log (1 - r * r) / 2)) * Real.exp (-(-Real.log (1 - r * r) / 2)) =
        1 - r * r := by
      rw [← Real.exp_add]
      rw [show -(-Real.log (1 - r * r) / 2) + -(-Real.log (1 - r * r) / 2) = Real.log (1 - r * r) by ring]
      exact Real.exp_log h3
    rw [noise_sq hs hr hexp, Real.sqrt_sq he.le]

example : (0 : ℝ) < 1 ∧ (0 : ℝ) < 1 / 2 ∧ (1 / 2 : ℝ) < 1 := by norm_num

/-- C56, arguments that no length scale can match: the widest length scale when nothing is supposed to
change or there is nothing to change, the narrowest when more than the prior is asked for. -/
theorem C56_fallback (b : Build) (d s e : ℝ) (hd : 0 < d) (h : ¬ (0 < e ∧ 0 < s ∧ e < s)) :
    let l := if e ≤ 0 ∨ s ≤ 0 then 10 ^ 7 * d else 1 / 10 ^ 7 * d
    deriveSquaredExponential b (.fin d) (.fin s) (.fin e) = .ok (.fin l) ∧
    deriveExponential b (.fin d) (.fin s) (.fin e) = .ok (.fin l) ∧
    deriveMatern32 b (.fin d) (.fin s) (.fin e) = .ok (.fin l) ∧
    deriveMatern52 b (.fin d) (.fin s) (.fin e) = .ok (.fin l) := by
  intro l
  have hv : validArgs b (.fin d) (.fin s) (.fin e) = .ok false := by
    simp [validArgs, hd, albatrossAssert_true, except_ok_bind, except_pure]
    simpa using h
  have hf : fallbackLengthScale b (.fin d) (.fin s) (.fin e) = .ok (.fin l) := by
    by_cases he : e ≤ 0
    · simp [fallbackLengthScale, he, l, maxLengthScaleRatio]
    · by_cases hs : s ≤ 0
      · simp [fallbackLengthScale, he, hs, l, maxLengthScaleRatio]
      · push Not at he hs
        have h1 : 1 ≤ e / s := (one_le_div hs).2 (by
          by_contra hc; exact h ⟨he, hs, not_le.1 hc⟩)
        have h0 : 0 < e / s := by positivity
        simp [fallbackLengthScale, he.not_ge, hs.not_ge, l, minLengthScaleRatio, Dbl.fin_div hs.ne', h0,
          h1, albatrossAssert_true, except_ok_bind]
  refine ⟨?_, ?_, ?_, ?_⟩ <;>
    simp [deriveSquaredExponential, deriveExponential, deriveMatern32, deriveMatern52,
      deriveLengthScale, hv, hf, except_ok_bind]

/-- C56, NaN: a debug build stops, otherwise the length scale is NaN. -/
theorem C56_nan (d : ℝ) (hd : 0 < d) :
    deriveSquaredExponential .debug (.fin d) .nan (.fin 1) = .error .assertFail ∧
    deriveSquaredExponential .ndebug (.fin d) .nan (.fin 1) = .ok .nan := by
  have hdiv : Dbl.fin 1 / Dbl.nan = .nan := rfl
  have hv : ∀ b, validArgs b (.fin d) .nan (.fin 1) = .ok false := by
    intro b
    simp [validArgs, hd, albatrossAssert_true, except_ok_bind, except_pure]
  constructor
  · simp [deriveSquaredExponential, hv, except_ok_bind, fallbackLengthScale, hdiv, albatrossAssert]
  · simp [deriveSquaredExponential, hv, except_ok_bind, fallbackLengthScale, hdiv, albatrossAssert]

/-! ## The Newton iteration -/

theorem stdMin_stdMax_bracket {lo hi g : Dbl} (h : lo ≤ hi) :
    lo ≤ stdMin hi (stdMax lo g) ∧ stdMin hi (stdMax lo g) ≤ hi := by
  have hlo : lo ≤ lo := by cases lo <;> cases hi <;> simp_all
  have hhi : hi ≤ hi := by cases lo <;> cases hi <;> simp_all
  unfold stdMin stdMax
  split_ifs with h1 h2 h2
  · exact ⟨Dbl.le_of_lt h1, Dbl.le_of_lt h2⟩
  · exact ⟨h, hhi⟩
  · exact ⟨hlo, h⟩
  · exact ⟨h, hhi⟩

/-- C56: whatever the function, its derivative (also when either is NaN or infinite), the target and the
tolerance are, the iteration never leaves its bracket. -/
theorem C56_newton_bracket (target : Dbl) (func : Dbl → Dbl) (grad : Dbl → Outcome Dbl)
    (lower upper tolerance : Dbl) (h : lower ≤ upper) (fuel : Nat) (guess r : Dbl)
    (hg : lower ≤ guess ∧ guess ≤ upper)
    (hr : newtonSolve target func grad lower upper tolerance fuel guess = .ok r) :
    lower ≤ r ∧ r ≤ upper := by
  induction fuel generalizing guess with
  | zero => cases hr; exact hg
  | succ n ih =>
    rw [newtonSolve] at hr
    simp only at hr
    by_cases h1 : (!(target - func guess).isFinite) = true
    · rw [if_pos h1] at hr
      cases hr; exact hg
    · rw [if_neg h1] at hr
      obtain ⟨g, -, hr⟩ := except_bind_eq_ok.1 hr
      by_cases h2 : (target - func guess).fabs < tolerance
      · rw [if_pos h2] at hr
        cases hr; exact hg
      · rw [if_neg h2] at hr
        exact ih _ (stdMin_stdMax_bracket h) hr

/-- One step of Newton's method for `func x = target`, with the derivative `-g`, kept inside of a bracket
by bisection towards the bound it would have crossed. -/
def IsNewtonStep (target fx g lower upper x y : ℝ) : Prop :=
  ∃ n, n = x + (target - fx) / -g ∧
    (n ≤ lower → y = (x + lower) / 2) ∧ (upper ≤ n → lower < n → y = (x + upper) / 2) ∧
    (lower < n → n < upper → y = n)

/-- C56, what the iteration returns when the function and its derivative are finite in the bracket: the
result is reached from the guess by Newton steps, each within the bracket; it is the first of them whose
error is below the tolerance, or the one after `fuel` steps. -/
theorem C56_newton_iterates (target lower upper tol : ℝ) (f g : ℝ → ℝ) (func : Dbl → Dbl)
    (grad : Dbl → Outcome Dbl) (hlu : lower ≤ upper)
    (hf : ∀ x, lower ≤ x → x ≤ upper → func (.fin x) = .fin (f x))
    (hg : ∀ x, lower ≤ x → x ≤ upper → grad (.fin x) = .ok (.fin (g x)) ∧ g x ≠ 0)
    (fuel : Nat) (guess : ℝ) (h1 : lower ≤ guess) (h2 : guess ≤ upper) :
    ∃ (n : Nat) (x : Nat → ℝ), n ≤ fuel ∧ x 0 = guess ∧
      newtonSolve (.fin target) func grad (.fin lower) (.fin upper) (.fin tol) fuel (.fin guess) =
        .ok (.fin (x n)) ∧
      (∀ i ≤ n, lower ≤ x i ∧ x i ≤ upper) ∧
      (∀ i < n, tol ≤ |target - f (x i)| ∧
        IsNewtonStep target (f (x i)) (g (x i)) lower upper (x i) (x (i + 1))) ∧
      (n < fuel → |target - f (x n)| < tol) := by
  induction fuel generalizing guess with
  | zero =>
    exact ⟨0, fun _ => guess, le_rfl, rfl, rfl, fun _ _ => ⟨h1, h2⟩, by simp, by simp⟩
  | succ k ih =>
    obtain ⟨hg1, hg2⟩ := hg guess h1 h2
    by_cases htol : |target - f guess| < tol
    · refine ⟨0, fun _ => guess, by omega, rfl, ?_, fun _ _ => ⟨h1, h2⟩, by simp, fun _ => htol⟩
      simp [newtonSolve, hf guess h1 h2, Dbl.isFinite, hg1, except_ok_bind, Dbl.fabs, htol]
    · set m := guess - (target - f guess) / g guess with hm
      obtain ⟨y, hy, hb, hs⟩ : ∃ y, newtonMove (.fin lower) (.fin upper) (.fin guess)
          (.fin ((target - f guess) / g guess)) = .fin y ∧ (lower ≤ y ∧ y ≤ upper) ∧
          IsNewtonStep target (f guess) (g guess) lower upper guess y := by
        have hn : guess + (target - f guess) / -g guess = m := by rw [hm, div_neg]; ring
        have hclamp : ∀ z, lower ≤ z → z ≤ upper →
            stdMin (.fin upper) (stdMax (.fin lower) (.fin z)) = .fin z := by
          intro z hz1 hz2
          unfold stdMin stdMax
          by_cases e : lower < z
          · simp [e]
            intro; linarith
          · have : z = lower := le_antisymm (not_lt.1 e) hz1
            subst this
            simp
            intro; linarith
        by_cases c1 : m ≤ lower
        · refine ⟨(guess + lower) / 2, ?_, ⟨by linarith, by linarith⟩, m, hn.symm, fun _ => rfl,
            fun _ h => absurd c1 h.not_ge, fun h _ => absurd c1 h.not_ge⟩
          have := hclamp ((guess + lower) / 2) (by linarith) (by linarith)
          rw [← this]
          simp only [newtonMove, Dbl.fin_sub, ← hm, Dbl.fin_le, if_pos c1, Dbl.fin_add, Dbl.fin_mul]
          congr 3; ring
        · by_cases c2 : upper ≤ m
          · refine ⟨(guess + upper) / 2, ?_, ⟨by linarith, by linarith⟩, m, hn.symm,
              fun h => absurd h c1, fun _ _ => rfl, fun _ h => absurd c2 h.not_ge⟩
            have := hclamp ((guess + upper) / 2) (by linarith) (by linarith)
            rw [← this]
            simp only [newtonMove, Dbl.fin_sub, ← hm, Dbl.fin_le, if_neg c1, if_pos c2, Dbl.fin_add,
              Dbl.fin_mul]
            congr 3; ring
          · refine ⟨m, ?_, ⟨(not_le.1 c1).le, (not_le.1 c2).le⟩, m, hn.symm,
              fun h => absurd h c1, fun h _ => absurd h c2, fun _ _ => rfl⟩
            have := hclamp m (not_le.1 c1).le (not_le.1 c2).le
            rw [← this]
            simp only [newtonMove, Dbl.fin_sub, ← hm, Dbl.fin_le, if_neg c1, if_neg c2]
      obtain ⟨n, x, i1, i2, i3, i4, i5, i6⟩ := ih y hb.1 hb.2
      refine ⟨n + 1, fun i => if i = 0 then guess else x (i - 1), by omega, by simp, ?_, ?_, ?_, ?_⟩
      · rw [newtonSolve]
        simp only [hf guess h1 h2, Dbl.fin_sub, Dbl.isFinite, Bool.not_true, Bool.false_eq_true, if_false,
          hg1, except_ok_bind, Dbl.fabs, Dbl.fin_lt, if_neg htol, Dbl.fin_div hg2, hy]
        simpa using i3
      · intro i hi
        by_cases e : i = 0
        · simp [e, h1, h2]
        · simp only [e, if_false]; exact i4 _ (by omega)
      · intro i hi
        by_cases e : i = 0
        · subst e
          simp only [if_true, Nat.add_eq_zero_iff, one_ne_zero, and_false, if_false, Nat.add_sub_cancel]
          exact ⟨not_lt.1 htol, i2 ▸ hs⟩
        · simp only [e, if_false, Nat.add_eq_zero_iff, one_ne_zero, and_false, Nat.add_sub_cancel]
          have := i5 (i - 1) (by omega)
          rwa [Nat.sub_add_cancel (by omega)] at this
      · intro hk
        simp only [Nat.add_eq_zero_iff, one_ne_zero, and_false, if_false, Nat.add_sub_cancel]
        exact i6 (by omega)

/-- A correlation between points at distance one as a function of the length scale, with its
derivative. -/
structure IsCorrelation (c g : ℝ → ℝ) : Prop where
  pos : ∀ r, 0 < r → 0 < c r
  lt_one : ∀ r, 0 < r → c r < 1
  deriv : ∀ r, 0 < r → HasDerivAt c (g r) r
  deriv_pos : ∀ r, 0 < r → 0 < g r

/-- C56, Matérn 3/2: the hand written derivative is the derivative, and the covariance of two points at
unit distance is a correlation which increases with the length scale. -/
theorem C56_matern_32_derivative : IsCorrelation (fun r => matern32 1 r 1) matern32Grad := by
  have h3 : (0 : ℝ) < Real.sqrt 3 := by positivity
  have hsq : Real.sqrt 3 * Real.sqrt 3 = 3 := Real.mul_self_sqrt (by norm_num)
  have hval : ∀ r, 0 < r → matern32 1 r 1 = (1 + Real.sqrt 3 / r) * Real.exp (-(Real.sqrt 3 / r)) := by
    intro r hr
    simp [matern32, hr.not_ge]
  refine ⟨fun r hr => ?_, fun r hr => ?_, fun r hr => ?_, fun r hr => ?_⟩
  · show 0 < matern32 1 r 1
    rw [hval r hr]; positivity
  · show matern32 1 r 1 < 1
    rw [hval r hr, Real.exp_neg, ← div_eq_mul_inv, div_lt_one (Real.exp_pos _), add_comm]
    exact Real.add_one_lt_exp (by positivity)
  · have hd : HasDerivAt (fun r : ℝ => Real.sqrt 3 / r) (-(Real.sqrt 3) / r ^ 2) r := by
      have := (hasDerivAt_inv hr.ne').const_mul (Real.sqrt 3)
      refine (this.congr_deriv ?_).congr_of_eventuallyEq ?_
      · ring
      · exact Filter.Eventually.of_forall fun x => by simp [div_eq_mul_inv]
    have h := (hd.const_add 1).mul hd.neg.exp
    refine (h.congr_deriv ?_).congr_of_eventuallyEq ?_
    · simp only [matern32Grad, neg_div, Pi.neg_apply]
      ring
    · filter_upwards [lt_mem_nhds hr] with x hx
      rw [hval x hx]; rfl
  · have : matern32Grad r = 3 / r ^ 3 * Real.exp (-Real.sqrt 3 / r) := by
      unfold matern32Grad
      have : Real.sqrt 3 * (1 + Real.sqrt 3 / r) = Real.sqrt 3 + 3 / r := by
        rw [mul_add, mul_one, ← mul_div_assoc, hsq]
      rw [this]
      field_simp
      ring
    rw [this]; positivity

/-- C56, Matérn 5/2: the hand written derivative is the derivative. -/
theorem C56_matern_52_derivative : IsCorrelation (fun r => matern52 1 r 1) matern52Grad := by
  have h3 : (0 : ℝ) < Real.sqrt 5 := by positivity
  have hsq : Real.sqrt 5 * Real.sqrt 5 = 5 := Real.mul_self_sqrt (by norm_num)
  have hval : ∀ r, 0 < r → matern52 1 r 1 = (1 + Real.sqrt 5 / r + (Real.sqrt 5 / r) * (Real.sqrt 5 / r) / 3) *
      Real.exp (-(Real.sqrt 5 / r)) := by
    intro r hr
    simp [matern52, hr.not_ge]
  refine ⟨fun r hr => ?_, fun r hr => ?_, fun r hr => ?_, fun r hr => ?_⟩
  · show 0 < matern52 1 r 1
    rw [hval r hr]; positivity
  · show matern52 1 r 1 < 1
    rw [hval r hr, Real.exp_neg, ← div_eq_mul_inv, div_lt_one (Real.exp_pos _)]
    have hx : 0 < Real.sqrt 5 / r := by positivity
    have := Real.quadratic_le_exp_of_nonneg hx.le
    nlinarith
  · have hd : HasDerivAt (fun r : ℝ => Real.sqrt 5 / r) (-(Real.sqrt 5) / r ^ 2) r := by
      have := (hasDerivAt_inv hr.ne').const_mul (Real.sqrt 5)
      refine (this.congr_deriv ?_).congr_of_eventuallyEq ?_
      · ring
      · exact Filter.Eventually.of_forall fun x => by simp [div_eq_mul_inv]
    have h := ((hd.const_add 1).add ((hd.mul hd).div_const 3)).mul hd.neg.exp
    refine (h.congr_deriv ?_).congr_of_eventuallyEq ?_
    · simp only [matern52Grad, neg_div]
      have e1 : Real.sqrt 5 / r * (Real.sqrt 5 / r) = 5 / r ^ 2 := by
        rw [div_mul_div_comm, hsq, sq]
      have e2 : Real.sqrt 5 / r ^ 2 * (Real.sqrt 5 / r) = 5 / r ^ 3 := by
        rw [div_mul_div_comm, hsq, pow_succ r 2]
      have e3 : Real.sqrt 5 / r * (Real.sqrt 5 / r ^ 2) = 5 / r ^ 3 := by rw [mul_comm, e2]
      simp only [Pi.add_apply, Pi.mul_apply, Pi.neg_apply, neg_mul, mul_neg, e1, e2, e3]
      ring
    · filter_upwards [lt_mem_nhds hr] with x hx
      rw [hval x hx]; rfl
  · have : matern52Grad r = (5 / (3 * r ^ 3) + 5 * Real.sqrt 5 / (3 * r ^ 4)) * Real.exp (-Real.sqrt 5 / r) := by
      unfold matern52Grad
      have : Real.sqrt 5 * (1 + Real.sqrt 5 / r + 10 / 6 / r ^ 2) =
          Real.sqrt 5 + 5 / r + Real.sqrt 5 * (10 / 6 / r ^ 2) := by
        rw [mul_add, mul_add, mul_one, ← mul_div_assoc, hsq]
      rw [this]
      field_simp
      ring
    rw [this]; positivity

/-- The logarithm of the increase in standard deviation for a correlation `c`. -/
theorem logFEval_eq {c g : ℝ → ℝ} (h : IsCorrelation c g) {s r : ℝ} (hs : 0 < s) (hr : 0 < r) :
    logFEval (onFinite c) (.fin s) (.fin r) = .fin (Real.log (s * Real.sqrt (1 - c r * c r))) := by
  have h1 := h.pos r hr
  have h2 := h.lt_one r hr
  have h3 : c r * c r < 1 := by nlinarith
  have h4 : 0 < 1 - c r * c r := by linarith
  have h5 : 0 < Real.sqrt (1 - c r * c r) := Real.sqrt_pos.2 h4
  have l1 : Dbl.log (.fin s) = .fin (Real.log s) := by simp [Dbl.log, hs]
  have l2 : Dbl.log (.fin (1 - c r * c r)) = .fin (Real.log (1 - c r * c r)) := by
    simp only [Dbl.log, if_pos h4]
  simp only [logFEval, onFinite, Dbl.fin_mul, Dbl.fin_le, if_neg h3.not_ge, Dbl.fin_sub, l1, l2,
    Dbl.fin_add]
  rw [Real.log_mul hs.ne' h5.ne', Real.log_sqrt h4.le]
  congr 1; ring

theorem logGEval_eq {c g : ℝ → ℝ} (h : IsCorrelation c g) (b : Build) {r : ℝ} (hr : 0 < r) :
    logGEval b (onFinite c) (onFinite g) (.fin r) = .ok (.fin (g r * c r / (1 - c r * c r))) ∧
      g r * c r / (1 - c r * c r) ≠ 0 := by
  have h1 := h.pos r hr
  have h2 := h.lt_one r hr
  have h4 : 0 < 1 - c r * c r := by nlinarith
  constructor
  · simp [logGEval, onFinite, h4, albatrossAssert_true, except_ok_bind, except_pure, Dbl.fin_div h4.ne']
  · have := h.deriv_pos r hr
    positivity

theorem logF_deriv {c g : ℝ → ℝ} (h : IsCorrelation c g) {s r : ℝ} (hs : 0 < s) (hr : 0 < r) :
    HasDerivAt (fun r => Real.log (s * Real.sqrt (1 - c r * c r)))
      (-(g r * c r / (1 - c r * c r))) r := by
  have key : ∀ x, 0 < x → Real.log (s * Real.sqrt (1 - c x * c x)) =
      Real.log s + Real.log (1 - c x * c x) / 2 := by
    intro x hx
    have h1 := h.pos x hx
    have h2 := h.lt_one x hx
    have h4 : 0 < 1 - c x * c x := by nlinarith
    rw [Real.log_mul hs.ne' (Real.sqrt_pos.2 h4).ne', Real.log_sqrt h4.le]
  have h1 := h.pos r hr
  have h2 := h.lt_one r hr
  have h4 : 1 - c r * c r ≠ 0 := by nlinarith
  have hd := h.deriv r hr
  have := ((((hd.mul hd).const_sub 1).log h4).div_const 2).const_add (Real.log s)
  refine (this.congr_deriv ?_).congr_of_eventuallyEq ?_
  · simp only [Pi.mul_apply]
    field_simp
    ring
  · filter_upwards [lt_mem_nhds hr] with x hx
    rw [key x hx]; rfl

/-- What deriving a length scale with Newton's method guarantees, in terms of the process noise
`noise ratio` obtained for the length scale `ratio * distance`: the ratio is within the bracket, and
either it is an end of the bracket and even that end does not reach the requested noise, or the noise is
the requested one up to a factor `exp (1e-12)`, or fifty safeguarded Newton steps for
`log (noise ratio) = log requested` have been made without reaching that accuracy. -/
def DerivedRatio (noise : ℝ → ℝ) (requested ratio : ℝ) : Prop :=
  1 / 10 ^ 7 ≤ ratio ∧ ratio ≤ 10 ^ 7 ∧
  ((ratio = 1 / 10 ^ 7 ∧ noise ratio ≤ requested) ∨
   (ratio = 10 ^ 7 ∧ requested ≤ noise ratio) ∨
   |Real.log requested - Real.log (noise ratio)| < 1 / 10 ^ 12 ∨
   ∃ x : Nat → ℝ, x 50 = ratio ∧ ∀ i < 50, 1 / 10 ^ 7 ≤ x i ∧ x i ≤ 10 ^ 7 ∧
     1 / 10 ^ 12 ≤ |Real.log requested - Real.log (noise (x i))| ∧
     IsNewtonStep (Real.log requested) (Real.log (noise (x i)))
       (-deriv (fun r => Real.log (noise r)) (x i)) (1 / 10 ^ 7) (10 ^ 7) (x i) (x (i + 1)))

theorem deriveLengthScale_spec (b : Build) {c g : ℝ → ℝ} (h : IsCorrelation c g) (noise : ℝ → ℝ)
    (d s e : ℝ) (hd : 0 < d) (he : 0 < e) (hes : e < s)
    (hnoise : ∀ r, 0 < r → noise r = s * Real.sqrt (1 - c r * c r)) :
    ∃ ratio, deriveLengthScale b (.fin d) (.fin s) (.fin e) (onFinite c) (onFinite g) =
      .ok (.fin (ratio * d)) ∧ DerivedRatio noise e ratio := by
  have hs : 0 < s := he.trans hes
  have hmin : (0 : ℝ) < 1 / 10 ^ 7 := by positivity
  have hmax : (0 : ℝ) < 10 ^ 7 := by positivity
  have hmm : (1 / 10 ^ 7 : ℝ) ≤ 10 ^ 7 := by norm_num
  have hpos : ∀ r, 0 < r → 0 < noise r := by
    intro r hr
    rw [hnoise r hr]
    have h1 := h.pos r hr
    have h2 := h.lt_one r hr
    have h4 : 0 < 1 - c r * c r := by nlinarith
    have := Real.sqrt_pos.2 h4
    positivity
  have hlogF : ∀ r, 0 < r → logFEval (onFinite c) (.fin s) (.fin r) = .fin (Real.log (noise r)) := by
    intro r hr
    rw [logFEval_eq h hs hr, hnoise r hr]
  have hloge : Dbl.log (.fin e) = .fin (Real.log e) := by simp [Dbl.log, he]
  have hlmin : Dbl.log (.fin (1 / 10 ^ 7)) = .fin (Real.log (1 / 10 ^ 7)) := by
    simp only [Dbl.log, if_pos hmin]
  have hlmax : Dbl.log (.fin (10 ^ 7)) = .fin (Real.log (10 ^ 7)) := by
    simp only [Dbl.log, if_pos hmax]
  unfold deriveLengthScale minLengthScaleRatio maxLengthScaleRatio maxNewtonIterations
  simp only [validArgs_ok b hd he hes, except_ok_bind, Bool.not_true, Bool.false_eq_true, if_false,
    hloge, hlogF _ hmin, hlogF _ hmax, Dbl.fin_le, Dbl.fin_mul, except_pure]
  by_cases c1 : Real.log (noise (1 / 10 ^ 7)) ≤ Real.log e
  · refine ⟨1 / 10 ^ 7, by rw [if_pos c1], le_rfl, hmm, .inl ⟨rfl, ?_⟩⟩
    exact (Real.log_le_log_iff (hpos _ hmin) he).1 c1
  · rw [if_neg c1]
    by_cases c2 : Real.log e ≤ Real.log (noise (10 ^ 7))
    · refine ⟨10 ^ 7, by rw [if_pos c2], hmm, le_rfl, .inr (.inl ⟨rfl, ?_⟩)⟩
      exact (Real.log_le_log_iff he (hpos _ hmax)).1 c2
    · rw [if_neg c2]
      push Not at c1 c2
      have hden : Real.log (noise (1 / 10 ^ 7)) - Real.log (noise (10 ^ 7)) ≠ 0 := sub_ne_zero.2 (c2.trans c1).ne'
      simp only [Dbl.fin_sub, Dbl.fin_div hden, hlmin, hlmax, Dbl.fin_mul, Dbl.fin_add, Dbl.exp]
      set alpha := (Real.log (noise (1 / 10 ^ 7)) - Real.log e) /
        (Real.log (noise (1 / 10 ^ 7)) - Real.log (noise (10 ^ 7))) with halpha
      have ha0 : 0 ≤ alpha := div_nonneg (sub_nonneg.2 c1.le) (sub_nonneg.2 (c2.trans c1).le)
      have ha1 : alpha ≤ 1 := (div_le_one (sub_pos.2 (c2.trans c1))).2 (sub_le_sub_left c2.le _)
      have hll : Real.log (1 / 10 ^ 7) ≤ Real.log (10 ^ 7) := Real.log_le_log hmin hmm
      set guess := Real.exp (Real.log (1 / 10 ^ 7) + alpha * (Real.log (10 ^ 7) - Real.log (1 / 10 ^ 7)))
        with hguess
      have hg1 : 1 / 10 ^ 7 ≤ guess := by
        rw [hguess, ← Real.log_le_iff_le_exp hmin]
        exact le_add_of_nonneg_right (mul_nonneg ha0 (sub_nonneg.2 hll))
      have hg2 : guess ≤ 10 ^ 7 := by
        rw [hguess, ← Real.le_log_iff_exp_le hmax]
        have := mul_le_mul_of_nonneg_right ha1 (sub_nonneg.2 hll)
        rw [one_mul] at this
        exact (add_le_add_right this _).trans_eq (add_sub_cancel _ _)
      obtain ⟨n, x, i1, i2, i3, i4, i5, i6⟩ := C56_newton_iterates (Real.log e) (1 / 10 ^ 7) (10 ^ 7)
        (1 / 10 ^ 12) (fun r => Real.log (noise r)) (fun r => g r * c r / (1 - c r * c r))
        (logFEval (onFinite c) (.fin s)) (logGEval b (onFinite c) (onFinite g)) hmm
        (fun r hr _ => hlogF r (hmin.trans_le hr)) (fun r hr _ => logGEval_eq h b (hmin.trans_le hr))
        50 guess hg1 hg2
      refine ⟨x n, by rw [i3]; rfl, (i4 n le_rfl).1, (i4 n le_rfl).2, ?_⟩
      by_cases hn : n < 50
      · exact .inr (.inr (.inl (i6 hn)))
      · obtain rfl : n = 50 := by omega
        refine .inr (.inr (.inr ⟨x, rfl, fun i hi => ?_⟩))
        obtain ⟨j1, j2⟩ := i4 i hi.le
        obtain ⟨k1, k2⟩ := i5 i hi
        refine ⟨j1, j2, k1, ?_⟩
        have hxi : 0 < x i := hmin.trans_le j1
        have hder : deriv (fun r => Real.log (noise r)) (x i) =
            -(g (x i) * c (x i) / (1 - c (x i) * c (x i))) := by
          have := (logF_deriv h hs hxi).deriv
          rw [← this]
          apply Filter.EventuallyEq.deriv_eq
          filter_upwards [lt_mem_nhds hxi] with y hy
          rw [hnoise y hy]
        rw [hder, neg_neg]
        exact k2

/-- C56, Matérn 3/2. -/
theorem C56_matern_32 (b : Build) (d s e : ℝ) (hd : 0 < d) (he : 0 < e) (hes : e < s) :
    ∃ ratio, deriveMatern32 b (.fin d) (.fin s) (.fin e) = .ok (.fin (ratio * d)) ∧
      DerivedRatio (fun r => processNoiseEquivalent (fun x => matern32 x (r * d) s) d) e ratio := by
  refine deriveLengthScale_spec b C56_matern_32_derivative _ d s e hd he hes fun r hr => ?_
  have hs : 0 < s := he.trans hes
  have hrd : 0 < r * d := by positivity
  have h0 : matern32 0 (r * d) s = s * s := by simp [matern32, hrd.not_ge]
  have h1 : matern32 d (r * d) s = s * s * matern32 1 r 1 := by
    simp only [matern32, if_neg hrd.not_ge, if_neg hr.not_ge]
    rw [show Real.sqrt 3 * d / (r * d) = Real.sqrt 3 * 1 / r by field_simp]
    ring
  simp only [processNoiseEquivalent, h0, h1]
  rw [show s * s - s * s * matern32 1 r 1 * (s * s * matern32 1 r 1) / (s * s) =
    s ^ 2 * (1 - matern32 1 r 1 * matern32 1 r 1) by field_simp, Real.sqrt_mul (by positivity),
    Real.sqrt_sq hs.le]

/-- C56, Matérn 5/2. -/
theorem C56_matern_52 (b : Build) (d s e : ℝ) (hd : 0 < d) (he : 0 < e) (hes : e < s) :
    ∃ ratio, deriveMatern52 b (.fin d) (.fin s) (.fin e) = .ok (.fin (ratio * d)) ∧
      DerivedRatio (fun r => processNoiseEquivalent (fun x => matern52 x (r * d) s) d) e ratio := by
  refine deriveLengthScale_spec b C56_matern_52_derivative _ d s e hd he hes fun r hr => ?_
  have hs : 0 < s := he.trans hes
  have hrd : 0 < r * d := by positivity
  have h0 : matern52 0 (r * d) s = s * s := by simp [matern52, hrd.not_ge]
  have h1 : matern52 d (r * d) s = s * s * matern52 1 r 1 := by
    simp only [matern52, if_neg hrd.not_ge, if_neg hr.not_ge]
    rw [show Real.sqrt 5 * d / (r * d) = Real.sqrt 5 * 1 / r by field_simp]
    ring
  simp only [processNoiseEquivalent, h0, h1]
  rw [show s * s - s * s * matern52 1 r 1 * (s * s * matern52 1 r 1) / (s * s) =
    s ^ 2 * (1 - matern52 1 r 1 * matern52 1 r 1) by field_simp, Real.sqrt_mul (by positivity),
    Real.sqrt_sq hs.le]

end Albatross
