import Verif.ProperScores
import Verif.ScoreProps
import Verif.LogScore
import Verif.LikelihoodProps

/-! # The scores are proper (C117)

No prediction has a smaller expected score than the distribution the truth comes from.  Specification: expected values
under the law of the measured truth, `HasMoments` (mean and covariance) and `IsNormal` (a normal law). -/

namespace Albatross

open MeasureTheory ProbabilityTheory Matrix

set_option linter.unusedSectionVars false

/-! ## Continuous ranked probability score -/

/-- The mean absolute value of a normal variable with variance `v` is smallest for mean zero, and only there. -/
theorem integral_abs_gaussianReal_strict {m : ℝ} (hm : m ≠ 0) {v : NNReal} :
    ∫ x, |x| ∂gaussianReal 0 v < ∫ x, |x| ∂gaussianReal m v := by
  rcases eq_or_ne v 0 with rfl | hv
  · simp [hm]
  have hi : ∀ c : ℝ, Integrable (fun x : ℝ => |x + c|) (gaussianReal 0 v) := fun c =>
    (((memLp_id_gaussianReal (μ := 0) (v := v) 1).integrable (by norm_num)).add (integrable_const c)).abs
  have hs : ∀ c : ℝ, ∫ x, |x| ∂gaussianReal c v = ∫ x, |x + c| ∂gaussianReal 0 v := by
    intro c
    have h := gaussianReal_map_add_const (μ := 0) (v := v) c
    rw [zero_add] at h
    rw [← h, integral_map (by fun_prop) (by fun_prop)]
  have heven : ∫ x, |x| ∂gaussianReal (-m) v = ∫ x, |x| ∂gaussianReal m v := by
    rw [integral_abs_gaussianReal _ hv, integral_abs_gaussianReal _ hv, neg_sq,
      show -m / Real.sqrt (2 * v) = -(m / Real.sqrt (2 * v)) by ring, erf_neg]
    ring
  have hint : Integrable (fun x : ℝ => |x + m| + |x + -m| - 2 * |x + 0|) (gaussianReal 0 v) :=
    ((hi m).add (hi (-m))).sub ((hi 0).const_mul 2)
  have hpos : 0 < ∫ x, (|x + m| + |x + -m| - 2 * |x + 0|) ∂gaussianReal 0 v := by
    rw [integral_pos_iff_support_of_nonneg]
    · have hopen : IsOpen (Function.support fun x : ℝ => |x + m| + |x + -m| - 2 * |x + 0|) :=
        Continuous.isOpen_support (by fun_prop)
      have hne : (Function.support fun x : ℝ => |x + m| + |x + -m| - 2 * |x + 0|).Nonempty :=
        ⟨0, by simp [hm]⟩
      have h1 := hopen.measure_pos volume hne
      rw [pos_iff_ne_zero] at h1 ⊢
      exact fun h0 => h1 (gaussianReal_absolutelyContinuous' 0 hv h0)
    · intro x
      have := abs_add_le (x + m) (x + -m)
      rw [show x + m + (x + -m) = 2 * (x + 0) by ring, abs_mul, abs_two] at this
      simp only [Pi.zero_apply]
      linarith
    · exact hint
  have h2 : Integrable (fun x : ℝ => |x + m| + |x + -m|) (gaussianReal 0 v) := (hi m).add (hi (-m))
  rw [integral_sub h2 ((hi 0).const_mul 2), integral_const_mul, integral_add (hi m) (hi (-m)), ← hs, ← hs, ← hs,
    heven] at hpos
  linarith

/-- The mean absolute value for mean zero. -/
theorem integral_abs_gaussianReal_zero (v : NNReal) :
    ∫ x, |x| ∂gaussianReal 0 v = Real.sqrt (2 * v / Real.pi) := by
  rcases eq_or_ne v 0 with rfl | hv
  · simp
  · rw [integral_abs_gaussianReal 0 hv]
    simp

/-- The code's score for a standard deviation that is not negative. -/
theorem crpsNormal_eq (mu y : ℝ) {sigma : ℝ} (hs : 0 ≤ sigma) :
    crpsNormal (.fin mu) (.fin sigma) (.fin y) =
      .fin ((∫ x, |x - y| ∂gaussianReal mu (sigma ^ 2).toNNReal) - sigma / Real.sqrt Real.pi) := by
  have hv : (((sigma ^ 2).toNNReal : NNReal) : ℝ) = sigma ^ 2 := Real.coe_toNNReal _ (sq_nonneg _)
  rcases hs.eq_or_lt with h | h
  · subst h
    simp [crpsNormal, abs_sub_comm]
  · rw [C68_crps h hv, integral_abs_pair, integral_abs_gaussianReal_zero]
    congr 2
    rw [NNReal.coe_mul, hv, NNReal.coe_ofNat, show 2 * (2 * sigma ^ 2) / Real.pi = (2 * sigma) ^ 2 / Real.pi by ring,
      Real.sqrt_div (sq_nonneg _), Real.sqrt_sq (by positivity)]
    ring

theorem integrable_abs_pair (m m' : ℝ) (v v' : NNReal) :
    Integrable (fun q : ℝ × ℝ => |q.2 - q.1|) ((gaussianReal m v).prod (gaussianReal m' v')) := by
  have h1 : Integrable (fun x : ℝ => x) (gaussianReal m v) :=
    (memLp_id_gaussianReal (μ := m) (v := v) 1).integrable (by norm_num)
  have h2 : Integrable (fun x : ℝ => x) (gaussianReal m' v') :=
    (memLp_id_gaussianReal (μ := m') (v := v') 1).integrable (by norm_num)
  exact ((h2.comp_snd (gaussianReal m v)).sub (h1.comp_fst (gaussianReal m' v'))).abs

/-- The mean absolute difference of independent normal variables. -/
theorem integral_abs_cross (m m' : ℝ) (v v' : NNReal) :
    Integrable (fun y => ∫ x, |x - y| ∂gaussianReal m' v') (gaussianReal m v) ∧
    ∫ y, ∫ x, |x - y| ∂gaussianReal m' v' ∂gaussianReal m v = ∫ x, |x| ∂gaussianReal (m' - m) (v' + v) := by
  refine ⟨(integrable_abs_pair m m' v v').integral_prod_left, ?_⟩
  rw [← integral_prod (fun q : ℝ × ℝ => |q.2 - q.1|) (integrable_abs_pair m m' v v')]
  have h : ((gaussianReal m v).prod (gaussianReal m' v')).map (fun q : ℝ × ℝ => q.2 - q.1) =
      gaussianReal (m' - m) (v' + v) := by
    have h1 : (gaussianReal (-m) v) ∗ (gaussianReal m' v') = gaussianReal (m' - m) (v' + v) := by
      rw [gaussianReal_conv_gaussianReal, add_comm v v', neg_add_eq_sub]
    rw [← h1, ← gaussianReal_map_neg, Measure.conv]
    have h2 : (((gaussianReal m v).map fun x => -x).prod (gaussianReal m' v')) =
        ((gaussianReal m v).prod (gaussianReal m' v')).map (Prod.map (fun x => -x) id) := by
      rw [← Measure.map_prod_map _ _ measurable_neg measurable_id, Measure.map_id]
    rw [h2, Measure.map_map (by fun_prop) (by fun_prop)]
    congr 1
    funext q
    simp [sub_eq_neg_add]
  rw [← h, integral_map (by fun_prop) (by fun_prop)]

/-- **C117**: the continuous ranked probability score of a normal prediction is strictly proper: if the truth is normal
with mean `mu0` and standard deviation `sigma0` (zero included), predicting just that has the smallest expected score,
and nothing else does as well. -/
theorem C117_crps (mu mu0 : ℝ) {sigma sigma0 : ℝ} (hs : 0 ≤ sigma) (hs0 : 0 ≤ sigma0) :
    ∃ s s0 : ℝ → ℝ,
      (∀ y, crpsNormal (.fin mu) (.fin sigma) (.fin y) = .fin (s y)) ∧
      (∀ y, crpsNormal (.fin mu0) (.fin sigma0) (.fin y) = .fin (s0 y)) ∧
      Integrable s (gaussianReal mu0 (sigma0 ^ 2).toNNReal) ∧
      Integrable s0 (gaussianReal mu0 (sigma0 ^ 2).toNNReal) ∧
      ∫ y, s0 y ∂gaussianReal mu0 (sigma0 ^ 2).toNNReal = sigma0 / Real.sqrt Real.pi ∧
      ∫ y, s0 y ∂gaussianReal mu0 (sigma0 ^ 2).toNNReal ≤ ∫ y, s y ∂gaussianReal mu0 (sigma0 ^ 2).toNNReal ∧
      (∫ y, s0 y ∂gaussianReal mu0 (sigma0 ^ 2).toNNReal = ∫ y, s y ∂gaussianReal mu0 (sigma0 ^ 2).toNNReal ↔
        mu = mu0 ∧ sigma = sigma0) := by
  have hpi : 0 < Real.sqrt Real.pi := Real.sqrt_pos.2 Real.pi_pos
  have hval : ∀ (m : ℝ) {σ : ℝ}, 0 ≤ σ →
      Integrable (fun y => (∫ x, |x - y| ∂gaussianReal m (σ ^ 2).toNNReal) - σ / Real.sqrt Real.pi)
        (gaussianReal mu0 (sigma0 ^ 2).toNNReal) ∧
      ∫ y, ((∫ x, |x - y| ∂gaussianReal m (σ ^ 2).toNNReal) - σ / Real.sqrt Real.pi)
        ∂gaussianReal mu0 (sigma0 ^ 2).toNNReal =
      (∫ x, |x| ∂gaussianReal (m - mu0) ((σ ^ 2).toNNReal + (sigma0 ^ 2).toNNReal)) - σ / Real.sqrt Real.pi := by
    intro m σ hσ
    have h := integral_abs_cross mu0 m (sigma0 ^ 2).toNNReal (σ ^ 2).toNNReal
    refine ⟨h.1.sub (integrable_const _), ?_⟩
    rw [integral_sub h.1 (integrable_const _), h.2, integral_const]
    simp
  have hzero : ∀ {σ : ℝ}, 0 ≤ σ →
      ∫ x, |x| ∂gaussianReal 0 ((σ ^ 2).toNNReal + (sigma0 ^ 2).toNNReal) =
        Real.sqrt (2 * (σ ^ 2 + sigma0 ^ 2)) / Real.sqrt Real.pi := by
    intro σ hσ
    rw [integral_abs_gaussianReal_zero, NNReal.coe_add, Real.coe_toNNReal _ (sq_nonneg _),
      Real.coe_toNNReal _ (sq_nonneg _), Real.sqrt_div (by positivity)]
  have h0 : (∫ x, |x| ∂gaussianReal (mu0 - mu0) ((sigma0 ^ 2).toNNReal + (sigma0 ^ 2).toNNReal)) -
      sigma0 / Real.sqrt Real.pi = sigma0 / Real.sqrt Real.pi := by
    rw [sub_self, hzero hs0, show 2 * (sigma0 ^ 2 + sigma0 ^ 2) = (2 * sigma0) ^ 2 by ring, Real.sqrt_sq (by positivity)]
    ring
  have hroot : sigma + sigma0 ≤ Real.sqrt (2 * (sigma ^ 2 + sigma0 ^ 2)) :=
    Real.le_sqrt_of_sq_le (by nlinarith [sq_nonneg (sigma - sigma0)])
  have hroot' : Real.sqrt (2 * (sigma ^ 2 + sigma0 ^ 2)) ≤ sigma + sigma0 → sigma = sigma0 := by
    intro h
    have h1 := Real.sqrt_le_left (by positivity) |>.1 h
    have h2 : (sigma - sigma0) ^ 2 ≤ 0 := by nlinarith
    have h3 := pow_eq_zero_iff (two_ne_zero) |>.1 (le_antisymm h2 (sq_nonneg _))
    linarith
  have hge : ∫ x, |x| ∂gaussianReal 0 ((sigma ^ 2).toNNReal + (sigma0 ^ 2).toNNReal) ≤
      ∫ x, |x| ∂gaussianReal (mu - mu0) ((sigma ^ 2).toNNReal + (sigma0 ^ 2).toNNReal) := by
    rcases eq_or_ne (mu - mu0) 0 with h | h
    · rw [h]
    · exact (integral_abs_gaussianReal_strict h).le
  have hdiv : (sigma + sigma0) / Real.sqrt Real.pi ≤ Real.sqrt (2 * (sigma ^ 2 + sigma0 ^ 2)) / Real.sqrt Real.pi :=
    div_le_div_of_nonneg_right hroot hpi.le
  rw [add_div] at hdiv
  refine ⟨_, _, fun y => crpsNormal_eq mu y hs, fun y => crpsNormal_eq mu0 y hs0, (hval mu hs).1, (hval mu0 hs0).1, ?_,
    ?_, ?_⟩
  · rw [(hval mu0 hs0).2, h0]
  · rw [(hval mu hs).2, (hval mu0 hs0).2, h0]
    rw [hzero hs] at hge
    linarith
  · rw [(hval mu hs).2, (hval mu0 hs0).2, h0]
    constructor
    · intro he
      have hmu : mu = mu0 := by
        by_contra hne
        have h1 := integral_abs_gaussianReal_strict (sub_ne_zero.2 hne)
          (v := (sigma ^ 2).toNNReal + (sigma0 ^ 2).toNNReal)
        rw [hzero hs] at h1
        linarith
      refine ⟨hmu, hroot' ?_⟩
      rw [hmu, sub_self, hzero hs] at he
      have h2 : Real.sqrt (2 * (sigma ^ 2 + sigma0 ^ 2)) / Real.sqrt Real.pi =
          (sigma + sigma0) / Real.sqrt Real.pi := by
        rw [add_div]
        linarith
      exact ((div_left_inj' hpi.ne').1 h2).le
    · rintro ⟨rfl, rfl⟩
      exact h0.symm

/-- The hypotheses: a truth with mean 1 and standard deviation 2, predicted with mean 0 and standard deviation 3, is
expected to score worse than it could. -/
example : ∃ s s0 : ℝ → ℝ,
    (∀ y, crpsNormal (.fin 0) (.fin 3) (.fin y) = .fin (s y)) ∧
    (∀ y, crpsNormal (.fin 1) (.fin 2) (.fin y) = .fin (s0 y)) ∧
    ∫ y, s0 y ∂gaussianReal 1 ((2 : ℝ) ^ 2).toNNReal < ∫ y, s y ∂gaussianReal 1 ((2 : ℝ) ^ 2).toNNReal := by
  obtain ⟨s, s0, h1, h2, -, -, -, h3, h4⟩ := C117_crps 0 1 (sigma := 3) (sigma0 := 2) (by norm_num) (by norm_num)
  refine ⟨s, s0, h1, h2, lt_of_le_of_ne h3 fun h => ?_⟩
  have := (h4.1 h).1
  norm_num at this

/-! ## Negative log likelihood -/

variable {Ω : Type} [MeasurableSpace Ω] {P : Measure Ω} [IsProbabilityMeasure P]

theorem gaussianLogPdf_deviation {n : Type} [Fintype n] [DecidableEq n] (m : n → ℝ) (S : Matrix n n ℝ) (y : n → ℝ) :
    gaussianLogPdf 0 S (fun i => m i - y i) = gaussianLogPdf m S y := by
  have h : (fun i => m i - y i) = -(y - m) := by
    funext i
    simp
  unfold gaussianLogPdf
  rw [sub_zero, h, mulVec_neg, dotProduct_neg, neg_dotProduct, neg_neg]

theorem nllJoint_value {n : Nat} (b : Build) (ldlt : LdltRoutine) (prediction : Joint (Fin n)) (y noise : Fin n → ℝ)
    (hS : (prediction.covariance + diagonal noise).PosDef)
    (hl : (ldlt n (prediction.covariance + diagonal noise)).Factors (prediction.covariance + diagonal noise)) :
    nllJoint b ldlt ⟨n, prediction⟩ (List.ofFn y, List.ofFn noise) =
      .ok (.fin (-gaussianLogPdf prediction.mean (prediction.covariance + diagonal noise) y)) := by
  unfold nllJoint
  simp only [List.length_ofFn, decide_true]
  rw [eigenAssert_true, except_ok_bind, except_ok_bind]
  have e1 : (fun i : Fin n => prediction.mean i - (List.ofFn y).getD i 0) = fun i => prediction.mean i - y i := by
    funext i
    simp
  have e2 : (fun i : Fin n => (List.ofFn noise).getD i 0) = noise := by
    funext i
    simp
  rw [e1, e2, C40_dense _ _ hl hS, gaussianLogPdf_deviation]
  rfl

/-- **C117**: the negative log likelihood of a joint prediction is strictly proper.  Let the measured truth have finite
second moments, with the mean `truth.mean` and the covariance `truth.covariance` plus that of the measurement noise;
it need not be normal.  Then predicting `truth` has the smallest expected score and nothing else does as well. -/
theorem C117_log_score {n : Nat} (b : Build) (ldlt : LdltRoutine) (prediction truth : Joint (Fin n)) (noise : Fin n → ℝ)
    {Y : Ω → Fin n → ℝ} (hY : HasMoments P Y truth.mean (truth.covariance + diagonal noise))
    (hp : (prediction.covariance + diagonal noise).PosDef) (ht : (truth.covariance + diagonal noise).PosDef)
    (hl : ∀ S : Matrix (Fin n) (Fin n) ℝ, S.PosDef → (ldlt n S).Factors S) :
    ∃ s s0 : Ω → ℝ,
      (∀ ω, nllJoint b ldlt ⟨n, prediction⟩ (List.ofFn (Y ω), List.ofFn noise) = .ok (.fin (s ω))) ∧
      (∀ ω, nllJoint b ldlt ⟨n, truth⟩ (List.ofFn (Y ω), List.ofFn noise) = .ok (.fin (s0 ω))) ∧
      Integrable s P ∧ Integrable s0 P ∧ ∫ ω, s0 ω ∂P ≤ ∫ ω, s ω ∂P ∧
      (∫ ω, s0 ω ∂P = ∫ ω, s ω ∂P ↔
        prediction.mean = truth.mean ∧ prediction.covariance = truth.covariance) := by
  have h := hY.log_score ht prediction.mean hp
  refine ⟨_, _, fun ω => nllJoint_value b ldlt prediction (Y ω) noise hp (hl _ hp),
    fun ω => nllJoint_value b ldlt truth (Y ω) noise ht (hl _ ht), (hY.integral_log _ _).1, (hY.integral_log _ _).1,
    h.1, fun he => ?_, fun he => ?_⟩
  · obtain ⟨h1, h2⟩ := h.2 he
    exact ⟨h1, add_right_cancel h2⟩
  · rw [he.1, he.2]

theorem nllMarginal_value {n : Nat} (b : Build) (m v y noise : Fin n → ℝ) (hv : ∀ i, 0 < v i + noise i) :
    nllMarginal b (List.ofFn m, List.ofFn v) (List.ofFn y, List.ofFn noise) =
      .ok (.fin (-gaussianLogPdf m (diagonal fun i => v i + noise i) y)) := by
  unfold nllMarginal
  simp only
  rw [vecSub_ofFn, except_ok_bind, decide_eq_true (by simp), eigenAssert_true, except_ok_bind]
  have e : List.zipWith (· + ·) (List.ofFn v) (List.ofFn noise) = List.ofFn fun i => v i + noise i := by
    apply List.ext_getElem <;> simp
  obtain ⟨h1, h2⟩ := C40_diagonal b (fun i => m i - y i) (fun i => v i + noise i) hv
  rw [e, h1, except_ok_bind, h2, gaussianLogPdf_deviation]
  rfl

/-- **C117**: the negative log likelihood of a marginal prediction is strictly proper for the means and the variances,
also if the truth is correlated (which a marginal prediction cannot say). -/
theorem C117_log_score_marginal {n : Nat} (b : Build) (mean variance mean0 noise : Fin n → ℝ)
    (truth : Matrix (Fin n) (Fin n) ℝ) {Y : Ω → Fin n → ℝ} (hY : HasMoments P Y mean0 (truth + diagonal noise))
    (hp : ∀ i, 0 < variance i + noise i) (ht : ∀ i, 0 < truth i i + noise i) :
    ∃ s s0 : Ω → ℝ,
      (∀ ω, nllMarginal b (List.ofFn mean, List.ofFn variance) (List.ofFn (Y ω), List.ofFn noise) = .ok (.fin (s ω))) ∧
      (∀ ω, nllMarginal b (List.ofFn mean0, List.ofFn fun i => truth i i) (List.ofFn (Y ω), List.ofFn noise) =
        .ok (.fin (s0 ω))) ∧
      Integrable s P ∧ Integrable s0 P ∧ ∫ ω, s0 ω ∂P ≤ ∫ ω, s ω ∂P ∧
      (∫ ω, s0 ω ∂P = ∫ ω, s ω ∂P ↔ mean = mean0 ∧ ∀ i, variance i = truth i i) := by
  have hd : ∀ i, (truth + diagonal noise) i i = truth i i + noise i := fun i => by simp
  have h := hY.log_score_diagonal (fun i => by rw [hd]; exact ht i) mean hp
  simp only [hd] at h
  refine ⟨_, _, fun ω => nllMarginal_value b mean variance (Y ω) noise hp,
    fun ω => nllMarginal_value b mean0 (fun i => truth i i) (Y ω) noise ht, (hY.integral_log _ _).1,
    (hY.integral_log _ _).1, h.1, fun he => ?_, fun he => ?_⟩
  · obtain ⟨h1, h2⟩ := h.2 he
    exact ⟨h1, fun i => add_right_cancel (h2 i)⟩
  · obtain ⟨rfl, h2⟩ := he
    simp only [h2]

/-- A two dimensional normal truth with unit covariance and unit noise, on some probability space. -/
theorem exists_unit_truth : IsNormal (multivariateGaussian (WithLp.toLp 2 (0 : Fin 2 → ℝ))
    ((1 : Matrix (Fin 2) (Fin 2) ℝ) + diagonal fun _ => 1)) (fun x => WithLp.ofLp x) 0
      ((1 : Matrix (Fin 2) (Fin 2) ℝ) + diagonal fun _ => 1) :=
  exists_isNormal 0 (Matrix.PosSemidef.one.add (Matrix.PosSemidef.diagonal fun _ => zero_le_one))

/-- The hypotheses: predicting the mean one instead of zero is expected to score worse. -/
example : ∃ (ldlt : LdltRoutine) (s s0 : EuclideanSpace ℝ (Fin 2) → ℝ),
    (∀ ω : EuclideanSpace ℝ (Fin 2), nllJoint .debug ldlt ⟨2, ⟨fun _ => 1, 1⟩⟩ (List.ofFn (WithLp.ofLp ω), List.ofFn fun _ : Fin 2 => 1) = .ok (.fin (s ω))) ∧
    (∀ ω : EuclideanSpace ℝ (Fin 2), nllJoint .debug ldlt ⟨2, ⟨0, 1⟩⟩ (List.ofFn (WithLp.ofLp ω), List.ofFn fun _ : Fin 2 => 1) = .ok (.fin (s0 ω))) ∧
    ∫ ω, s0 ω ∂multivariateGaussian (WithLp.toLp 2 (0 : Fin 2 → ℝ)) ((1 : Matrix (Fin 2) (Fin 2) ℝ) + diagonal fun _ => 1) <
      ∫ ω, s ω ∂multivariateGaussian (WithLp.toLp 2 (0 : Fin 2 → ℝ)) ((1 : Matrix (Fin 2) (Fin 2) ℝ) + diagonal fun _ => 1) := by
  have hex : ∀ d, ∃ l : Matrix (Fin d) (Fin d) ℝ → Ldlt (Fin d), ∀ M, M.PosDef → (l M).Factors M :=
    fun d => exists_ldlt (Fin d)
  choose ldlt hl using hex
  have hpd : ((1 : Matrix (Fin 2) (Fin 2) ℝ) + diagonal fun _ => 1).PosDef :=
    Matrix.PosDef.one.add_posSemidef (Matrix.PosSemidef.diagonal fun _ => zero_le_one)
  obtain ⟨s, s0, h1, h2, -, -, h3, h4⟩ := C117_log_score .debug ldlt ⟨fun _ => 1, 1⟩ ⟨0, 1⟩ (fun _ => 1)
    exists_unit_truth.hasMoments hpd hpd (hl 2)
  refine ⟨ldlt, s, s0, h1, h2, lt_of_le_of_ne h3 fun h => ?_⟩
  have := congrFun (h4.1 h).1 0
  simp at this

/-- The hypotheses for marginal predictions. -/
example : ∃ s s0 : EuclideanSpace ℝ (Fin 2) → ℝ,
    (∀ ω : EuclideanSpace ℝ (Fin 2), nllMarginal .debug (List.ofFn fun _ : Fin 2 => 0, List.ofFn fun _ : Fin 2 => 3)
      (List.ofFn (WithLp.ofLp ω), List.ofFn fun _ : Fin 2 => 1) = .ok (.fin (s ω))) ∧
    ∫ ω, s0 ω ∂multivariateGaussian (WithLp.toLp 2 (0 : Fin 2 → ℝ)) ((1 : Matrix (Fin 2) (Fin 2) ℝ) + diagonal fun _ => 1) <
      ∫ ω, s ω ∂multivariateGaussian (WithLp.toLp 2 (0 : Fin 2 → ℝ)) ((1 : Matrix (Fin 2) (Fin 2) ℝ) + diagonal fun _ => 1) := by
  obtain ⟨s, s0, h1, -, -, -, h3, h4⟩ := C117_log_score_marginal .debug (fun _ => 0) (fun _ => 3) 0 (fun _ => 1) 1
    exists_unit_truth.hasMoments (fun _ => by norm_num) (fun i => by simp)
  refine ⟨s, s0, h1, lt_of_le_of_ne h3 fun h => ?_⟩
  have := (h4.1 h).2 0
  norm_num at this

/-! ## Variogram score -/

/-- The expected value of the code is that of the predicted normal distribution. -/
theorem expectedAbs_normal {n : Nat} {X : Ω → Fin n → ℝ} {μ : Fin n → ℝ} {S : Matrix (Fin n) (Fin n) ℝ}
    (hX : IsNormal P X μ S) (o : VariogramOrder) (i j : Fin n) (hsmall : diffVar S i j = 0 ∨ 1 / 10 ^ 32 ≤ diffVar S i j) :
    expectedAbs (μ j - μ i) (Real.sqrt (diffVar S i j)) o = ∫ ω, |X ω i - X ω j| ^ variogramOrderP o ∂P := by
  have hd := diffVar_nonneg hX.1 i j
  obtain ⟨v, hv⟩ : ∃ v : NNReal, (v : ℝ) = diffVar S i j := ⟨Real.toNNReal _, Real.coe_toNNReal _ hd⟩
  have hlaw := hX.sub_law i j (v := v) hv
  rw [← expectedAbs_spec (μ j - μ i) (v := v) ?_ ?_ o, ← hlaw, integral_map ?_ (by fun_prop)]
  · simp only [abs_sub_comm (X _ j) (X _ i)]
  · have h1 : Measurable fun x : Fin n → ℝ => x j - x i := by fun_prop
    exact h1.comp_aemeasurable hX.2.1
  · rcases hsmall with h | h
    · left
      rw [h, Real.sqrt_zero]
    · right
      apply Real.le_sqrt_of_sq_le
      refine le_trans (le_of_eq ?_) h
      norm_num
  · rw [Real.sq_sqrt hd, hv]

/-- Powers of the absolute difference are square integrable. -/
theorem memLp_abs_diff {n : Nat} {X : Ω → Fin n → ℝ} {μ : Fin n → ℝ} {S : Matrix (Fin n) (Fin n) ℝ}
    (hX : IsNormal P X μ S) (o : VariogramOrder) (i j : Fin n) :
    MemLp (fun ω => |X ω i - X ω j| ^ variogramOrderP o) 2 P := by
  have hd := diffVar_nonneg hX.1 i j
  obtain ⟨v, hv⟩ : ∃ v : NNReal, (v : ℝ) = diffVar S i j := ⟨Real.toNNReal _, Real.coe_toNNReal _ hd⟩
  have hlaw := hX.sub_law i j (v := v) hv
  have hm : AEMeasurable (fun ω => X ω j - X ω i) P := by
    have h1 : Measurable fun x : Fin n → ℝ => x j - x i := by fun_prop
    exact h1.comp_aemeasurable hX.2.1
  have hp : (2 * variogramOrderP o) ≠ 0 := by cases o <;> simp [variogramOrderP]
  have h1 := (memLp_id_gaussianReal (μ := μ j - μ i) (v := v) ((2 * variogramOrderP o : ℕ) : NNReal))
  rw [← hlaw] at h1
  have h2 := (h1.comp_of_map hm).integrable_norm_pow' 
  rw [memLp_two_iff_integrable_sq]
  · refine h2.congr (Filter.Eventually.of_forall fun ω => ?_)
    simp [← pow_mul, mul_comm, abs_sub_comm]
  · have : AEMeasurable (fun ω => |X ω i - X ω j| ^ variogramOrderP o) P := by
      have h1 : Measurable fun x : Fin n → ℝ => |x i - x j| ^ variogramOrderP o := by fun_prop
      exact h1.comp_aemeasurable hX.2.1
    exact this.aestronglyMeasurable

/-- The expected squared distance to a constant. -/
theorem integral_sq_sub {Z : Ω → ℝ} (hZ : MemLp Z 2 P) (c : ℝ) :
    Integrable (fun ω => (Z ω - c) ^ 2) P ∧
    ∫ ω, (Z ω - c) ^ 2 ∂P = ∫ ω, (Z ω - ∫ ω, Z ω ∂P) ^ 2 ∂P + (c - ∫ ω, Z ω ∂P) ^ 2 := by
  have hi : Integrable Z P := hZ.integrable (by norm_num)
  have hsq : ∀ c : ℝ, Integrable (fun ω => (Z ω - c) ^ 2) P := fun c => (hZ.sub (memLp_const c)).integrable_sq
  refine ⟨hsq c, ?_⟩
  set e := ∫ ω, Z ω ∂P with he
  have h1 : Integrable (fun ω => 2 * (e - c) * Z ω + (c ^ 2 - e ^ 2)) P := (hi.const_mul _).add (integrable_const _)
  have h2 : ∀ ω, (Z ω - c) ^ 2 = (Z ω - e) ^ 2 + (2 * (e - c) * Z ω + (c ^ 2 - e ^ 2)) := fun ω => by ring
  simp_rw [h2]
  rw [integral_add (hsq e) h1, integral_add (hi.const_mul _) (integrable_const _), integral_const_mul, ← he,
    integral_const]
  simp only [probReal_univ, one_smul]
  ring

/-- The weight of a pair. -/
def pairWeight {n : Nat} (weights : Option (Matrix (Fin n) (Fin n) ℝ)) (i j : Fin n) : ℝ :=
  weights.elim 1 fun w => w i j

theorem variogramMeasured_value {n : Nat} (b : Build) (prediction : Joint (Fin n)) (y noise : Fin n → ℝ)
    (weights : Option (Matrix (Fin n) (Fin n) ℝ)) (o : VariogramOrder)
    (hp : (prediction.covariance + diagonal noise).PosSemidef)
    (hw : ∀ w, weights = some w → ∀ i j, i < j → 0 ≤ w i j) :
    variogramScoreMeasured b prediction y noise weights o = .ok (.fin (∑ i, ∑ j, if i < j then pairWeight weights i j *
      (|y i - y j| ^ variogramOrderP o - expectedAbs (prediction.mean j - prediction.mean i)
        (Real.sqrt (diffVar (prediction.covariance + diagonal noise) i j)) o) ^ 2 else 0)) := by
  have e : (∑ i, ∑ j, if i < j then pairWeight weights i j *
      (|y i - y j| ^ variogramOrderP o - expectedAbs (prediction.mean j - prediction.mean i)
        (Real.sqrt (diffVar (prediction.covariance + diagonal noise) i j)) o) ^ 2 else 0) =
      ∑ i, ∑ j, if i < j then (weights.getD (Matrix.of fun _ _ => 1)) i j *
        variogramReal (combinedPrediction prediction noise).mean y (combinedPrediction prediction noise).covariance o i j
        else 0 := by
    refine Finset.sum_congr rfl fun i _ => Finset.sum_congr rfl fun j _ => ?_
    cases weights <;> rfl
  unfold variogramScoreMeasured
  rw [variogramScore_sum b _ y weights o (fun i j _ => diffVar_nonneg hp i j) e, decide_eq_true, albatrossAssert_true]
  · rfl
  · refine Finset.sum_nonneg fun i _ => Finset.sum_nonneg fun j _ => ?_
    split_ifs with hij
    · refine mul_nonneg ?_ (sq_nonneg _)
      cases weights with
      | none => exact zero_le_one
      | some w => exact hw w rfl i j hij
    · exact le_rfl

/-- **C117**: the variogram score is proper.  Let the measured truth be normal with mean `truth.mean` and covariance
`truth.covariance` plus that of the measurement noise.  Then predicting `truth` has the smallest expected score among
all predictions, and a prediction does as well exactly if for every pair of positive weight it expects the right
`|X_i - X_j|^p`.  (Where a standard deviation of a difference is positive but below `1e-16` the code divides by `1e-16`:
these are excepted.) -/
theorem C117_variogram {n : Nat} (b : Build) (prediction truth : Joint (Fin n)) (noise : Fin n → ℝ)
    (weights : Option (Matrix (Fin n) (Fin n) ℝ)) (o : VariogramOrder) {Y : Ω → Fin n → ℝ}
    (hY : IsNormal P Y truth.mean (truth.covariance + diagonal noise))
    (hp : (prediction.covariance + diagonal noise).PosSemidef)
    (hw : ∀ w, weights = some w → ∀ i j, i < j → 0 ≤ w i j)
    (hsmall : ∀ i j, i < j → diffVar (truth.covariance + diagonal noise) i j = 0 ∨
      1 / 10 ^ 32 ≤ diffVar (truth.covariance + diagonal noise) i j) :
    ∃ s s0 : Ω → ℝ,
      (∀ ω, variogramScoreMeasured b prediction (Y ω) noise weights o = .ok (.fin (s ω))) ∧
      (∀ ω, variogramScoreMeasured b truth (Y ω) noise weights o = .ok (.fin (s0 ω))) ∧
      Integrable s P ∧ Integrable s0 P ∧ ∫ ω, s0 ω ∂P ≤ ∫ ω, s ω ∂P ∧
      ((∀ i j, i < j → diffVar (prediction.covariance + diagonal noise) i j = 0 ∨
          1 / 10 ^ 32 ≤ diffVar (prediction.covariance + diagonal noise) i j) →
        ∀ {Ω' : Type} [MeasurableSpace Ω'] {Q : Measure Ω'} [IsProbabilityMeasure Q] {X : Ω' → Fin n → ℝ},
          IsNormal Q X prediction.mean (prediction.covariance + diagonal noise) →
          (∫ ω, s0 ω ∂P = ∫ ω, s ω ∂P ↔ ∀ i j, i < j → weights.elim 1 (fun w => w i j) = 0 ∨
            ∫ ω, |X ω i - X ω j| ^ variogramOrderP o ∂Q = ∫ ω, |Y ω i - Y ω j| ^ variogramOrderP o ∂P)) := by
  have hwp : ∀ i j, i < j → 0 ≤ pairWeight weights i j := by
    intro i j hij
    cases weights with
    | none => exact zero_le_one
    | some w => exact hw w rfl i j hij
  have hint : ∀ (c : Fin n → Fin n → ℝ) i j, Integrable (fun ω => if i < j then pairWeight weights i j *
      (|Y ω i - Y ω j| ^ variogramOrderP o - c i j) ^ 2 else 0) P := by
    intro c i j
    by_cases hij : i < j
    · simp only [if_pos hij]
      exact ((integral_sq_sub (memLp_abs_diff hY o i j) _).1).const_mul _
    · simp only [if_neg hij]
      exact integrable_const _
  have hint' : ∀ (c : Fin n → Fin n → ℝ) i, Integrable (fun ω => ∑ j, if i < j then pairWeight weights i j *
      (|Y ω i - Y ω j| ^ variogramOrderP o - c i j) ^ 2 else 0) P := fun c i =>
    integrable_finsetSum _ fun j _ => hint c i j
  have hval : ∀ c : Fin n → Fin n → ℝ, ∫ ω, (∑ i, ∑ j, if i < j then pairWeight weights i j *
      (|Y ω i - Y ω j| ^ variogramOrderP o - c i j) ^ 2 else 0) ∂P =
      (∑ i, ∑ j, if i < j then pairWeight weights i j *
        ∫ ω, (|Y ω i - Y ω j| ^ variogramOrderP o - ∫ ω, |Y ω i - Y ω j| ^ variogramOrderP o ∂P) ^ 2 ∂P else 0) +
      ∑ i, ∑ j, if i < j then pairWeight weights i j *
        (c i j - ∫ ω, |Y ω i - Y ω j| ^ variogramOrderP o ∂P) ^ 2 else 0 := by
    intro c
    rw [integral_finsetSum _ fun i _ => hint' c i, ← Finset.sum_add_distrib]
    refine Finset.sum_congr rfl fun i _ => ?_
    rw [integral_finsetSum _ fun j _ => hint c i j, ← Finset.sum_add_distrib]
    refine Finset.sum_congr rfl fun j _ => ?_
    by_cases hij : i < j
    · simp only [if_pos hij]
      rw [integral_const_mul, (integral_sq_sub (memLp_abs_diff hY o i j) _).2, mul_add]
    · simp [if_neg hij]
  have hnn : ∀ i j, 0 ≤ if i < j then pairWeight weights i j *
        (expectedAbs (prediction.mean j - prediction.mean i)
          (Real.sqrt (diffVar (prediction.covariance + diagonal noise) i j)) o -
          ∫ ω, |Y ω i - Y ω j| ^ variogramOrderP o ∂P) ^ 2 else 0 := by
    intro i j
    split_ifs with hij
    · exact mul_nonneg (hwp i j hij) (sq_nonneg _)
    · exact le_rfl
  have hzero : (∑ i, ∑ j, if i < j then pairWeight weights i j *
      (expectedAbs (truth.mean j - truth.mean i) (Real.sqrt (diffVar (truth.covariance + diagonal noise) i j)) o -
        ∫ ω, |Y ω i - Y ω j| ^ variogramOrderP o ∂P) ^ 2 else 0) = 0 := by
    refine Finset.sum_eq_zero fun i _ => Finset.sum_eq_zero fun j _ => ?_
    split_ifs with hij
    · rw [expectedAbs_normal hY o i j (hsmall i j hij)]
      ring
    · rfl
  refine ⟨_, _, fun ω => variogramMeasured_value b prediction (Y ω) noise weights o hp hw,
    fun ω => variogramMeasured_value b truth (Y ω) noise weights o hY.1 hw,
    integrable_finsetSum _ fun i _ => hint' (fun i j => expectedAbs (prediction.mean j - prediction.mean i)
        (Real.sqrt (diffVar (prediction.covariance + diagonal noise) i j)) o) i,
    integrable_finsetSum _ fun i _ => hint' (fun i j => expectedAbs (truth.mean j - truth.mean i)
        (Real.sqrt (diffVar (truth.covariance + diagonal noise) i j)) o) i, ?_, ?_⟩
  · rw [hval fun i j => expectedAbs (prediction.mean j - prediction.mean i)
        (Real.sqrt (diffVar (prediction.covariance + diagonal noise) i j)) o,
      hval fun i j => expectedAbs (truth.mean j - truth.mean i)
        (Real.sqrt (diffVar (truth.covariance + diagonal noise) i j)) o, hzero, add_zero]
    exact le_add_of_nonneg_right (Finset.sum_nonneg fun i _ => Finset.sum_nonneg fun j _ => hnn i j)
  · intro hsp Ω' _ Q _ X hX
    rw [hval fun i j => expectedAbs (prediction.mean j - prediction.mean i)
        (Real.sqrt (diffVar (prediction.covariance + diagonal noise) i j)) o,
      hval fun i j => expectedAbs (truth.mean j - truth.mean i)
        (Real.sqrt (diffVar (truth.covariance + diagonal noise) i j)) o, hzero, add_zero, left_eq_add,
      Finset.sum_eq_zero_iff_of_nonneg fun i _ => Finset.sum_nonneg fun j _ => hnn i j]
    simp only [Finset.mem_univ, true_implies]
    refine forall_congr' fun i => ?_
    rw [Finset.sum_eq_zero_iff_of_nonneg fun j _ => hnn i j]
    simp only [Finset.mem_univ, true_implies]
    refine forall_congr' fun j => ?_
    by_cases hij : i < j
    · simp only [hij, if_true, true_implies]
      rw [expectedAbs_normal hX o i j (hsp i j hij), mul_eq_zero, sq_eq_zero_iff, sub_eq_zero]
      rfl
    · simp [hij]

/-- The hypotheses: predicting a difference of two where none is, for both orders. -/
example (o : VariogramOrder) : ∃ s s0 : EuclideanSpace ℝ (Fin 2) → ℝ,
    (∀ ω : EuclideanSpace ℝ (Fin 2), variogramScoreMeasured .debug ⟨![0, 2], 1⟩ (WithLp.ofLp ω) (fun _ => 1) none o = .ok (.fin (s ω))) ∧
    (∀ ω : EuclideanSpace ℝ (Fin 2), variogramScoreMeasured .debug ⟨0, 1⟩ (WithLp.ofLp ω) (fun _ => 1) none o = .ok (.fin (s0 ω))) ∧
    ∫ ω, s0 ω ∂multivariateGaussian (WithLp.toLp 2 (0 : Fin 2 → ℝ)) ((1 : Matrix (Fin 2) (Fin 2) ℝ) + diagonal fun _ => 1) ≤
      ∫ ω, s ω ∂multivariateGaussian (WithLp.toLp 2 (0 : Fin 2 → ℝ)) ((1 : Matrix (Fin 2) (Fin 2) ℝ) + diagonal fun _ => 1) := by
  have hpsd : ((1 : Matrix (Fin 2) (Fin 2) ℝ) + diagonal fun _ => 1).PosSemidef :=
    Matrix.PosSemidef.one.add (Matrix.PosSemidef.diagonal fun _ => zero_le_one)
  obtain ⟨s, s0, h1, h2, -, -, h3, -⟩ := C117_variogram .debug ⟨![0, 2], 1⟩ ⟨0, 1⟩ (fun _ => 1) none o
    exists_unit_truth hpsd (by simp) (fun i j hij => by
      right
      simp [diffVar, hij.ne]
      norm_num)
  exact ⟨s, s0, h1, h2, h3⟩

/-- **C117**: it is not strictly proper: shifting all predicted means by the same amount is never noticed. -/
theorem C117_variogram_not_strict {n : Nat} (b : Build) (prediction : Joint (Fin n)) (y noise : Fin n → ℝ)
    (weights : Option (Matrix (Fin n) (Fin n) ℝ)) (o : VariogramOrder) (c : ℝ) :
    variogramScoreMeasured b ⟨fun i => prediction.mean i + c, prediction.covariance⟩ y noise weights o =
      variogramScoreMeasured b prediction y noise weights o := by
  have h := C68_variogram_shift b (combinedPrediction prediction noise) y weights o c 0
  simp only [add_zero] at h
  exact h

/-! ## Measured truths -/

/-- **C117**: with a measured truth, only the sum of the predicted covariance and that of the measurement matters, for
the variogram score and for the energy score. -/
theorem C117_measured {n : Nat} (b : Build) (ldlt : Matrix (Fin n) (Fin n) ℝ → Bool × PivotedLdlt n)
    (prediction prediction' : Joint (Fin n)) (noise noise' : Fin n → ℝ) (hmean : prediction.mean = prediction'.mean)
    (hcov : ∀ i j, prediction.covariance i j + (if i = j then noise i else 0) =
      prediction'.covariance i j + (if i = j then noise' i else 0)) (y : Fin n → ℝ) :
    (∀ weights o, variogramScoreMeasured b prediction y noise weights o =
      variogramScoreMeasured b prediction' y noise' weights o) ∧
    (∀ weights k z zB, energyScoreMeasured b ldlt prediction y noise weights k z zB =
      energyScoreMeasured b ldlt prediction' y noise' weights k z zB) ∧
    (∀ weights o, variogramScoreMeasured b prediction y 0 weights o = variogramScore b prediction y weights o) := by
  have h : combinedPrediction prediction noise = combinedPrediction prediction' noise' := by
    unfold combinedPrediction
    rw [hmean]
    congr 1
    ext i j
    have := hcov i j
    simpa [Matrix.add_apply, diagonal_apply] using this
  refine ⟨fun _ _ => by unfold variogramScoreMeasured; rw [h],
    fun _ _ _ _ => by unfold energyScoreMeasured; rw [h], fun _ _ => ?_⟩
  unfold variogramScoreMeasured combinedPrediction
  rw [Pi.zero_def, diagonal_zero, add_zero]

/-- **C117**: with weights between zero and one (the default is one) the energy score of a measured truth is a number
that is not negative, whatever the draws, if the decomposition of the summed covariance has positive pivots. -/
theorem C117_energy_nonneg {n : Nat} (b : Build) (ldlt : Matrix (Fin n) (Fin n) ℝ → Bool × PivotedLdlt n)
    (prediction : Joint (Fin n)) (y noise : Fin n → ℝ) (weights : Option (Fin n → ℝ))
    (hw : ∀ w, weights = some w → ∀ i, 0 ≤ w i ∧ w i ≤ 1) {k : Nat} (hk : 1 < k)
    (hs : (ldlt (prediction.covariance + diagonal noise)).1 = true)
    (hD : ∀ i, (ldlt (prediction.covariance + diagonal noise)).2.diag i > 0)
    (z zB : Matrix (Fin n) (Fin (kGenerate k)) ℝ) :
    ∃ es, 0 ≤ es ∧ energyScoreMeasured b ldlt prediction y noise weights k z zB = .ok (.fin es) := by
  unfold energyScoreMeasured combinedPrediction
  simp only
  rw [hs]
  unfold energyScore antitheticSample
  rw [decide_eq_true hk, albatrossAssert_true, except_ok_bind, drawMvn_eq b _ hD, drawMvn_eq b _ hD]
  simp only [except_ok_bind, except_pure]
  have hk0 : 0 < kGenerate k + kGenerate k := by unfold kGenerate; omega
  obtain ⟨es, h1, -, h2⟩ := (C61_unit_weights_partial hk0 _ _ y (weights.getD fun _ => 1)).1 (by
    intro i
    cases weights with
    | none => exact ⟨zero_le_one, le_rfl⟩
    | some w => exact hw w rfl i)
  exact ⟨es, h1, h2 b⟩

example (z zB : Matrix (Fin 1) (Fin (kGenerate 10)) ℝ) : ∃ es, 0 ≤ es ∧
    energyScoreMeasured .debug (fun _ => (true, unitLdlt)) ⟨fun _ => 3, 1⟩ (fun _ => 2) (fun _ => 1) none 10 z zB =
      .ok (.fin es) :=
  C117_energy_nonneg .debug _ _ _ _ none (by simp) (by norm_num) rfl (fun i => by simp [unitLdlt]) z zB

end Albatross
