import Verif.IncompleteGammaProps
import Mathlib.Algebra.Polynomial.Eval.Degree
import Mathlib.Analysis.SpecialFunctions.Pow.Deriv
import Mathlib.Analysis.SpecialFunctions.Gamma.Basic
import Mathlib.Analysis.SpecialFunctions.Trigonometric.DerivHyp
import Mathlib.MeasureTheory.Integral.IntegralEqImproper

/-!
# The derivatives and tails of the gamma density

Helper lemmas for C93: the integral of the absolute value of the `k`-th derivative of the gamma density of shape `b`
is at most `sqrt (k! / ((b - 1) ... (b - k)))`, and little of the mass lies outside the bounds of integration chosen
in stats/incomplete_gamma.hpp lines 76-83.
-/

namespace Albatross

open scoped Nat
open MeasureTheory Polynomial Set

/-- The density of the gamma distribution of shape `b`. -/
noncomputable def gdens (b t : ℝ) : ℝ := t ^ (b - 1) * Real.exp (-t) / Real.Gamma b

/-- Its `k`-th derivative, for `k < b`. -/
noncomputable def gder : ℕ → ℝ → ℝ → ℝ
  | 0, b, t => gdens b t
  | k + 1, b, t => gder k (b - 1) t - gder k b t

theorem gdens_hasDerivAt {b : ℝ} (hb : 2 ≤ b) (t : ℝ) : HasDerivAt (gdens b) (gdens (b - 1) t - gdens b t) t := by
  have h1 := Real.hasDerivAt_rpow_const (x := t) (p := b - 1) (Or.inr (by linarith))
  have h2 : HasDerivAt (fun t : ℝ => Real.exp (-t)) (-Real.exp (-t)) t := by
    have := (hasDerivAt_neg t).exp
    simpa using this
  have h := (h1.mul h2).div_const (Real.Gamma b)
  refine h.congr_deriv ?_
  have hG : Real.Gamma b = (b - 1) * Real.Gamma (b - 1) := by
    have := Real.Gamma_add_one (s := b - 1) (by linarith)
    rwa [sub_add_cancel] at this
  have hG0 : Real.Gamma (b - 1) ≠ 0 := (Real.Gamma_pos_of_pos (by linarith)).ne'
  have hb1 : b - 1 ≠ 0 := by linarith
  unfold gdens
  rw [hG]
  field_simp
  ring

theorem gder_hasDerivAt (k : ℕ) : ∀ {b : ℝ}, (k : ℝ) + 2 ≤ b → ∀ t, HasDerivAt (gder k b) (gder (k + 1) b t) t := by
  induction k with
  | zero => intro b hb t; exact gdens_hasDerivAt (by simpa using hb) t
  | succ k ih =>
    intro b hb t
    push_cast at hb
    exact (ih (b := b - 1) (by linarith) t).sub (ih (b := b) (by linarith) t)

theorem gdens_continuous {b : ℝ} (hb : 1 ≤ b) : Continuous (gdens b) := by
  unfold gdens
  exact ((Real.continuous_rpow_const (by linarith)).mul (Real.continuous_exp.comp continuous_neg)).div_const _

theorem gder_continuous (k : ℕ) : ∀ {b : ℝ}, (k : ℝ) + 1 ≤ b → Continuous (gder k b) := by
  induction k with
  | zero => intro b hb; exact gdens_continuous (by simpa using hb)
  | succ k ih =>
    intro b hb
    push_cast at hb
    exact (ih (b := b - 1) (by linarith)).sub (ih (b := b) (by linarith))

theorem gder_zero_eq (k : ℕ) : ∀ {b : ℝ}, (k : ℝ) + 1 < b → gder k b 0 = 0 := by
  induction k with
  | zero =>
    intro b hb
    have : b - 1 ≠ 0 := by simp at hb; linarith
    simp [gder, gdens, Real.zero_rpow this]
  | succ k ih =>
    intro b hb
    push_cast at hb
    simp only [gder]
    rw [ih (b := b - 1) (by linarith), ih (b := b) (by linarith), sub_zero]

theorem gdens_nonneg {b t : ℝ} (hb : 0 < b) (ht : 0 ≤ t) : 0 ≤ gdens b t := by
  have := Real.Gamma_pos_of_pos hb
  unfold gdens; positivity

/-! ## Moments -/

theorem gdens_mul_pow {b t : ℝ} (ht : 0 < t) (n : ℕ) :
    gdens b t * t ^ n = Real.exp (-t) * t ^ (b + n - 1) / Real.Gamma b := by
  unfold gdens
  rw [show b + n - 1 = (b - 1) + n by ring, Real.rpow_add_natCast ht.ne']
  ring

theorem gdens_moment {b : ℝ} (hb : 0 < b) (n : ℕ) :
    IntegrableOn (fun t => gdens b t * t ^ n) (Ioi 0) ∧ ∫ t in Ioi (0 : ℝ), gdens b t * t ^ n = rising b n := by
  have hbn : 0 < b + n := by positivity
  have e : EqOn (fun t => gdens b t * t ^ n) (fun t => Real.exp (-t) * t ^ (b + n - 1) / Real.Gamma b) (Ioi 0) :=
    fun t ht => gdens_mul_pow ht n
  constructor
  · exact (integrableOn_congr_fun e measurableSet_Ioi).2 ((Real.GammaIntegral_convergent hbn).div_const _)
  · rw [setIntegral_congr_fun measurableSet_Ioi e, integral_div, ← Real.Gamma_eq_integral hbn]
    have hG := (Real.Gamma_pos_of_pos hb).ne'
    rw [div_eq_iff hG]
    clear e hbn
    induction n with
    | zero => simp [rising_zero]
    | succ n ih =>
      have : b + ((n + 1 : ℕ) : ℝ) = (b + n) + 1 := by push_cast; ring
      rw [this, Real.Gamma_add_one (by positivity), ih, rising_succ]
      ring

theorem rising_sub_one (x : ℝ) (p : ℕ) : rising (x - 1) (p + 1) - rising x (p + 1) = -(p + 1) * rising x p := by
  rw [rising_succ', rising_succ, sub_add_cancel]
  ring

theorem gder_moment (k n : ℕ) : ∀ {b : ℝ}, (k : ℝ) < b →
    IntegrableOn (fun t => gder k b t * t ^ n) (Ioi 0) ∧
      ∫ t in Ioi (0 : ℝ), gder k b t * t ^ n = (-1) ^ k * (n.descFactorial k) * rising b (n - k) := by
  induction k with
  | zero =>
    intro b hb
    have := gdens_moment (b := b) (by simpa using hb) n
    simpa [gder] using this
  | succ k ih =>
    intro b hb
    push_cast at hb
    obtain ⟨i1, v1⟩ := ih (b := b - 1) (by linarith)
    obtain ⟨i2, v2⟩ := ih (b := b) (by linarith)
    have e : (fun t => gder (k + 1) b t * t ^ n) = fun t => gder k (b - 1) t * t ^ n - gder k b t * t ^ n := by
      funext t; simp only [gder]; ring
    rw [e]
    refine ⟨i1.sub i2, ?_⟩
    rw [integral_sub i1 i2, v1, v2, ← mul_sub, Nat.descFactorial_succ]
    cases hp : n - k with
    | zero => simp [rising_zero]
    | succ p =>
      rw [rising_sub_one, show n - (k + 1) = p by omega]
      push_cast
      ring

/-! ## The polynomials of Rodrigues' formula -/

/-- `gder k b = gdens (b - k)` times this polynomial. -/
noncomputable def lagu : ℕ → ℝ → ℝ[X]
  | 0, _ => 1
  | k + 1, b => lagu k (b - 1) - C (1 / (b - 1 - k)) * X * lagu k b

theorem gdens_step {b t : ℝ} (hb : 1 < b) (ht : 0 < t) : gdens b t = gdens (b - 1) t * (t / (b - 1)) := by
  have hG : Real.Gamma b = (b - 1) * Real.Gamma (b - 1) := by
    have := Real.Gamma_add_one (s := b - 1) (by linarith)
    rwa [sub_add_cancel] at this
  have hG0 : Real.Gamma (b - 1) ≠ 0 := (Real.Gamma_pos_of_pos (by linarith)).ne'
  have hb1 : b - 1 ≠ 0 := by linarith
  have ht' : t ^ (b - 1) = t ^ (b - 1 - 1) * t := by
    rw [← Real.rpow_add_one ht.ne', sub_add_cancel]
  unfold gdens
  rw [hG, ht']
  field_simp

theorem gder_eq (k : ℕ) : ∀ {b t : ℝ}, (k : ℝ) < b → 0 < t → gder k b t = gdens (b - k) t * (lagu k b).eval t := by
  induction k with
  | zero => intro b t _ _; simp [gder, lagu]
  | succ k ih =>
    intro b t hb ht
    push_cast at hb
    simp only [gder, lagu]
    rw [ih (b := b - 1) (by linarith) ht, ih (b := b) (by linarith) ht, gdens_step (b := b - k) (by linarith) ht]
    simp only [eval_sub, eval_mul, eval_C, eval_X]
    rw [show b - ((k + 1 : ℕ) : ℝ) = b - k - 1 by push_cast; ring, show b - 1 - (k : ℝ) = b - k - 1 by ring]
    ring

theorem lagu_natDegree (k : ℕ) : ∀ b, (lagu k b).natDegree ≤ k := by
  induction k with
  | zero => intro b; simp [lagu]
  | succ k ih =>
    intro b
    simp only [lagu]
    refine (natDegree_sub_le _ _).trans (max_le ((ih _).trans (Nat.le_succ k)) ?_)
    rw [mul_assoc]
    refine (natDegree_C_mul_le _ _).trans (natDegree_mul_le.trans ?_)
    have := ih b
    have := natDegree_X_le (R := ℝ)
    omega

/-- `(b - 1) (b - 2) ... (b - k)`. -/
noncomputable def falling (b : ℝ) (k : ℕ) : ℝ := ∏ i ∈ Finset.range k, (b - 1 - i)

theorem falling_pos {b : ℝ} {k : ℕ} (h : (k : ℝ) < b) : 0 < falling b k := by
  refine Finset.prod_pos fun i hi => ?_
  have : ((i + 1 : ℕ) : ℝ) ≤ k := by exact_mod_cast Finset.mem_range.1 hi
  push_cast at this
  linarith

theorem lagu_coeff (k : ℕ) : ∀ b, (lagu k b).coeff k = (-1) ^ k / falling b k := by
  induction k with
  | zero => intro b; simp [lagu, falling]
  | succ k ih =>
    intro b
    have h0 : (lagu k (b - 1)).coeff (k + 1) = 0 :=
      coeff_eq_zero_of_natDegree_lt (lt_of_le_of_lt (lagu_natDegree k _) (Nat.lt_succ_self k))
    simp only [lagu]
    rw [coeff_sub, h0, mul_assoc, coeff_C_mul, coeff_X_mul, ih, falling, falling, Finset.prod_range_succ, pow_succ,
      zero_sub, one_div_mul_eq_div, div_div]
    ring

theorem eval_eq_sum' (p : ℝ[X]) {k : ℕ} (h : p.natDegree ≤ k) (t : ℝ) :
    p.eval t = ∑ n ∈ Finset.range (k + 1), p.coeff n * t ^ n :=
  eval_eq_sum_range' (Nat.lt_succ_of_le h) t

/-- The square of the polynomial against the density. -/
theorem lagu_square {k : ℕ} {b : ℝ} (hb : (k : ℝ) < b) :
    IntegrableOn (fun t => gdens (b - k) t * (lagu k b).eval t ^ 2) (Ioi 0) ∧
      ∫ t in Ioi (0 : ℝ), gdens (b - k) t * (lagu k b).eval t ^ 2 = k ! / falling b k := by
  have e : EqOn (fun t => gdens (b - k) t * (lagu k b).eval t ^ 2)
      (fun t => ∑ n ∈ Finset.range (k + 1), (lagu k b).coeff n * (gder k b t * t ^ n)) (Ioi 0) := by
    intro t ht
    simp only
    rw [pow_two, ← mul_assoc, ← gder_eq k hb ht]
    conv_lhs => rw [eval_eq_sum' (lagu k b) (lagu_natDegree k b) t, Finset.mul_sum]
    exact Finset.sum_congr rfl fun n _ => by ring
  constructor
  · refine (integrableOn_congr_fun e measurableSet_Ioi).2 ?_
    exact integrable_finsetSum _ fun n _ => ((gder_moment k n hb).1.const_mul _)
  · rw [setIntegral_congr_fun measurableSet_Ioi e,
      integral_finsetSum _ fun n _ => ((gder_moment k n hb).1.const_mul _)]
    have : ∀ n ∈ Finset.range (k + 1), ∫ t in Ioi (0 : ℝ), (lagu k b).coeff n * (gder k b t * t ^ n) =
        if n = k then (k ! : ℝ) / falling b k else 0 := by
      intro n hn
      rw [integral_const_mul, (gder_moment k n hb).2]
      rcases (Nat.lt_succ_iff.1 (Finset.mem_range.1 hn)).lt_or_eq with h | h
      · rw [if_neg (by omega), Nat.descFactorial_eq_zero_iff_lt.2 h]; simp
      · subst h
        rw [if_pos rfl, lagu_coeff, Nat.descFactorial_self, Nat.sub_self, rising_zero]
        have : ((-1 : ℝ) ^ n) * (-1) ^ n = 1 := by rw [← mul_pow]; norm_num
        calc _ = ((-1 : ℝ) ^ n * (-1) ^ n) * (n ! / falling b n) := by ring
          _ = _ := by rw [this, one_mul]
    rw [Finset.sum_congr rfl this]
    simp

/-- The integral of the absolute value of a derivative. -/
theorem gder_norm {k : ℕ} {b : ℝ} (hb : (k : ℝ) < b) :
    IntegrableOn (fun t => |gder k b t|) (Ioi 0) ∧
      ∫ t in Ioi (0 : ℝ), |gder k b t| ≤ Real.sqrt (k ! / falling b k) := by
  have hbk : 0 < b - k := by linarith
  have hint : IntegrableOn (fun t => |gder k b t|) (Ioi 0) := by
    have := (gder_moment k 0 hb).1
    simp only [pow_zero, mul_one] at this
    exact this.abs
  refine ⟨hint, ?_⟩
  set R := (k ! : ℝ) / falling b k with hR
  have hR0 : 0 < R := div_pos (by positivity) (falling_pos hb)
  set s := Real.sqrt R with hs
  have hs0 : 0 < s := Real.sqrt_pos.2 hR0
  obtain ⟨i1, v1⟩ := lagu_square hb
  obtain ⟨i0, v0⟩ := gdens_moment hbk 0
  simp only [pow_zero, mul_one, rising_zero] at i0 v0
  have hle : ∀ t ∈ Ioi (0 : ℝ), |gder k b t| ≤
      s / 2 * gdens (b - k) t + 1 / (2 * s) * (gdens (b - k) t * (lagu k b).eval t ^ 2) := by
    intro t ht
    have hg := gdens_nonneg hbk (le_of_lt ht)
    rw [gder_eq k hb ht, abs_mul, abs_of_nonneg hg]
    have h : |(lagu k b).eval t| ≤ s / 2 + 1 / (2 * s) * (lagu k b).eval t ^ 2 := by
      rw [← sq_abs ((lagu k b).eval t)]
      generalize |(lagu k b).eval t| = y
      have : s / 2 + 1 / (2 * s) * y ^ 2 - y = (s - y) ^ 2 / (2 * s) := by field_simp; ring
      have : 0 ≤ (s - y) ^ 2 / (2 * s) := by positivity
      linarith
    nlinarith
  refine (setIntegral_mono_on hint ((i0.const_mul _).add (i1.const_mul _)) measurableSet_Ioi hle).trans ?_
  rw [integral_add' (i0.const_mul _) (i1.const_mul _), integral_const_mul, integral_const_mul, v0, v1]
  have : R = s * s := (Real.mul_self_sqrt hR0.le).symm
  rw [← hR, this]
  apply le_of_eq
  field_simp
  ring

theorem interval_le_Ioi {f : ℝ → ℝ} (hf : IntegrableOn f (Ioi 0)) (h0 : ∀ t, 0 ≤ f t) {l u : ℝ} (hl : 0 ≤ l)
    (hlu : l ≤ u) : ∫ t in l..u, f t ≤ ∫ t in Ioi (0 : ℝ), f t := by
  rw [intervalIntegral.integral_of_le hlu]
  exact setIntegral_mono_set hf (Filter.Eventually.of_forall fun t => h0 t)
    (Filter.Eventually.of_forall fun t ht => lt_of_le_of_lt hl ht.1)

theorem gder_at {k : ℕ} {b l : ℝ} (hb : (k : ℝ) + 2 ≤ b) (hl : 0 ≤ l) :
    |gder k b l| ≤ Real.sqrt ((k + 1)! / falling b (k + 1)) := by
  have hb' : ((k + 1 : ℕ) : ℝ) < b := by push_cast; linarith
  obtain ⟨hi, hv⟩ := gder_norm hb'
  have hc : Continuous (gder (k + 1) b) := gder_continuous (k + 1) (by push_cast; linarith)
  have := intervalIntegral.integral_eq_sub_of_hasDerivAt (a := 0) (b := l) (fun t _ => gder_hasDerivAt k hb t)
    (hc.intervalIntegrable _ _)
  rw [gder_zero_eq k (by linarith), sub_zero] at this
  rw [← this]
  exact (intervalIntegral.abs_integral_le_integral_abs hl).trans
    ((interval_le_Ioi hi (fun t => abs_nonneg _) le_rfl hl).trans hv)

/-! ## The tails -/

/-- Chernoff's bound of the mass on one side of `L`. -/
theorem gamma_tail {a L : ℝ} (ha : 0 < a) (hL : 0 < L) {S : Set ℝ} (hS : MeasurableSet S) (hS0 : S ⊆ Ioi 0)
    (hside : ∀ t ∈ S, (a / L - 1) * t ≤ (a / L - 1) * L) :
    ∫ t in S, gdens a t ≤ Real.exp (a - L + a * Real.log (L / a)) := by
  have hr : 0 < a / L := div_pos ha hL
  have hG := Real.Gamma_pos_of_pos ha
  have i0 : IntegrableOn (gdens a) (Ioi 0) := by simpa using (gdens_moment ha 0).1
  have hv := Real.integral_rpow_mul_exp_neg_mul_Ioi ha hr
  have hi : IntegrableOn (fun t : ℝ => t ^ (a - 1) * Real.exp (-(a / L * t))) (Ioi 0) := by
    by_contra h
    rw [integral_undef h] at hv
    have : 0 < (1 / (a / L)) ^ a * Real.Gamma a := by positivity
    linarith
  set E := Real.exp ((a / L - 1) * L) with hE
  have hle : ∀ t ∈ S, gdens a t ≤ E / Real.Gamma a * (t ^ (a - 1) * Real.exp (-(a / L * t))) := by
    intro t ht
    have h1 : Real.exp (-t) ≤ E * Real.exp (-(a / L * t)) := by
      rw [hE, ← Real.exp_add]
      exact Real.exp_le_exp.2 (by linarith [hside t ht])
    have h2 : 0 ≤ t ^ (a - 1) / Real.Gamma a := by
      have : 0 < t := hS0 ht
      positivity
    calc gdens a t = t ^ (a - 1) / Real.Gamma a * Real.exp (-t) := by unfold gdens; ring
      _ ≤ t ^ (a - 1) / Real.Gamma a * (E * Real.exp (-(a / L * t))) := mul_le_mul_of_nonneg_left h1 h2
      _ = _ := by ring
  refine (setIntegral_mono_on (i0.mono_set hS0) ((hi.mono_set hS0).const_mul _) hS hle).trans ?_
  rw [integral_const_mul]
  have h3 : ∫ t in S, t ^ (a - 1) * Real.exp (-(a / L * t)) ≤ (1 / (a / L)) ^ a * Real.Gamma a := by
    rw [← hv]
    refine setIntegral_mono_set hi ?_ (Filter.Eventually.of_forall fun t ht => hS0 ht)
    refine (ae_restrict_iff' measurableSet_Ioi).2 (Filter.Eventually.of_forall fun t ht => ?_)
    have : (0 : ℝ) < t := ht
    simp only [Pi.zero_apply]
    positivity
  refine (mul_le_mul_of_nonneg_left h3 (by positivity)).trans (le_of_eq ?_)
  rw [one_div_div, Real.rpow_def_of_pos (div_pos hL ha)]
  have : E / Real.Gamma a * (Real.exp (Real.log (L / a) * a) * Real.Gamma a) =
      E * Real.exp (Real.log (L / a) * a) := by field_simp
  rw [this, hE, ← Real.exp_add]
  congr 1
  have : (a / L - 1) * L = a - L := by field_simp
  rw [this]; ring

theorem log_le_half_sub_inv {y : ℝ} (hy : 1 ≤ y) : Real.log y ≤ (y - 1 / y) / 2 := by
  have h0 : 0 < y := by linarith
  have h := Real.self_le_sinh_iff.2 (Real.log_nonneg hy)
  rw [Real.sinh_eq, Real.exp_neg, Real.exp_log h0] at h
  simpa [one_div] using h

theorem gamma_upper_tail {a L : ℝ} (ha : 0 < a) (hL : a ≤ L) :
    ∫ t in Ioi L, gdens a t ≤ Real.exp (-((L - a) ^ 2 / (2 * L))) := by
  have hL0 : 0 < L := by linarith
  refine (gamma_tail ha hL0 measurableSet_Ioi (fun t ht => lt_trans hL0 ht) fun t ht => ?_).trans ?_
  · have : a / L ≤ 1 := (div_le_one hL0).2 hL
    have ht : L < t := ht
    nlinarith
  · refine Real.exp_le_exp.2 ?_
    have h := log_le_half_sub_inv (y := L / a) ((one_le_div ha).2 hL)
    have h2 := mul_le_mul_of_nonneg_left h ha.le
    refine (add_le_add_right h2 _).trans (le_of_eq ?_)
    field_simp
    ring

theorem gamma_lower_tail {a L : ℝ} (hL0 : 0 < L) (hL : L ≤ a) :
    ∫ t in Ioc 0 L, gdens a t ≤ Real.exp (-((a - L) ^ 2 / (2 * a))) := by
  have ha : 0 < a := by linarith
  refine (gamma_tail ha hL0 measurableSet_Ioc (fun t ht => ht.1) fun t ht => ?_).trans ?_
  · have : 1 ≤ a / L := (one_le_div hL0).2 hL
    have ht : t ≤ L := ht.2
    nlinarith
  · refine Real.exp_le_exp.2 ?_
    have h := Real.le_log_one_add_of_nonneg (x := a / L - 1) (sub_nonneg.2 ((one_le_div hL0).2 hL))
    rw [add_sub_cancel] at h
    have hlog : Real.log (L / a) = -Real.log (a / L) := by rw [← Real.log_inv, inv_div]
    have h1 : 2 * (a / L - 1) / (a / L - 1 + 2) = 2 * (a - L) / (a + L) := by
      have hs : a + L ≠ 0 := by linarith
      rw [show a / L - 1 + 2 = (a + L) / L by field_simp; ring, show a / L - 1 = (a - L) / L by field_simp]
      field_simp
    rw [h1] at h
    have h2 : (a - L) ^ 2 / (2 * a) ≤ (a - L) ^ 2 / (a + L) :=
      div_le_div_of_nonneg_left (sq_nonneg _) (by linarith) (by linarith)
    have h3 : a - L + a * -(2 * (a - L) / (a + L)) = -((a - L) ^ 2 / (a + L)) := by field_simp; ring
    rw [hlog]
    have h4 := mul_le_mul_of_nonneg_left h ha.le
    linarith

end Albatross
