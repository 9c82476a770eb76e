import Verif.TrueModel
import Verif.ChiSquaredLaw
import Mathlib.Probability.Distributions.Gaussian.HasGaussianLaw.Independence

/-! # Expected sizes of the errors of predictions of held out rows

The random targets are normal with mean `m₀` and covariance `A`; the size of an error is its root mean square.  Rows are
predicted from the other rows by any function of them. -/

namespace Albatross

open MeasureTheory ProbabilityTheory Matrix

variable {Ω : Type} [MeasurableSpace Ω] {P : Measure Ω} [IsProbabilityMeasure P]
variable {n κ : Type} [Fintype n] [DecidableEq n] [Fintype κ] [DecidableEq κ]

/-- `RootMeanSquareError` of a mean prediction (evaluation/prediction_metrics.hpp lines 56-71). -/
noncomputable def rmseMetric (b : Build) (p : DynMean) (truth : List ℝ × List ℝ) : Outcome Dbl :=
  rootMeanSquareError b (List.ofFn p.mean) truth.1

/-- `LeaveOneOutRMSE` of a model (evaluation/model_metrics.hpp lines 95-106). -/
noncomputable def CvModel.looRmse {F : Type} (b : Build) (m : CvModel F Nat) (d : Dataset F ℝ) : Option (Outcome Dbl) :=
  (m.scores b meanKind (rmseMetric b) d (buildLeaveOneOut d.features)).map fun r => do
    let scores ← r
    pure (dblMean scores)

/-- The root mean square. -/
noncomputable def rms (x : κ → ℝ) : ℝ := Real.sqrt ((∑ i, x i ^ 2) / Fintype.card κ)

omit [DecidableEq κ] in
theorem rms_eq_norm (x : κ → ℝ) : rms x = ‖(WithLp.toLp 2 x : EuclideanSpace ℝ κ)‖ / Real.sqrt (Fintype.card κ) := by
  rw [rms, Real.sqrt_div (Finset.sum_nonneg fun i _ => sq_nonneg _), EuclideanSpace.norm_eq]
  simp

omit [DecidableEq κ] in
theorem rms_nonneg (x : κ → ℝ) : 0 ≤ rms x := Real.sqrt_nonneg _

omit [DecidableEq κ] in
theorem continuous_rms : Continuous (rms : (κ → ℝ) → ℝ) := by unfold rms; fun_prop

omit [DecidableEq κ] in
theorem rms_neg (x : κ → ℝ) : rms (-x) = rms x := by simp [rms]

omit [DecidableEq κ] in
theorem rms_zero : rms (0 : κ → ℝ) = 0 := by simp [rms]

omit [DecidableEq κ] in
theorem eq_zero_of_rms {x : κ → ℝ} (h : rms x = 0) : x = 0 := by
  funext i
  have hc : (0 : ℝ) < Fintype.card κ := by exact_mod_cast Fintype.card_pos_iff.2 ⟨i⟩
  have hs : (0 : ℝ) ≤ ∑ i, x i ^ 2 := Finset.sum_nonneg fun i _ => sq_nonneg _
  rw [rms, Real.sqrt_eq_zero (by positivity), div_eq_zero_iff] at h
  have h1 := h.resolve_right hc.ne'
  have := (Finset.sum_eq_zero_iff_of_nonneg fun i _ => sq_nonneg _).1 h1 i (Finset.mem_univ i)
  simpa using this

omit [DecidableEq κ] in
theorem rms_add_sub (x y : κ → ℝ) : 2 * rms x ≤ rms (x + y) + rms (x - y) := by
  rw [rms_eq_norm, rms_eq_norm, rms_eq_norm, ← add_div, mul_div_assoc']
  refine div_le_div_of_nonneg_right ?_ (Real.sqrt_nonneg _)
  have h := norm_add_le (WithLp.toLp 2 (x + y) : EuclideanSpace ℝ κ) (WithLp.toLp 2 (x - y))
  have e : (WithLp.toLp 2 (x + y) : EuclideanSpace ℝ κ) + WithLp.toLp 2 (x - y) = (2 : ℝ) • WithLp.toLp 2 x := by
    ext i
    simp
    ring
  rw [e, norm_smul] at h
  simpa using h

omit [DecidableEq κ] in
theorem rms_le_sum (x : κ → ℝ) : rms x ≤ ∑ i, |x i| := by
  refine Real.sqrt_le_iff.2 ⟨Finset.sum_nonneg fun i _ => abs_nonneg _, ?_⟩
  have h1 : ∑ i, x i ^ 2 ≤ (∑ i, |x i|) ^ 2 := by
    have := Finset.sum_sq_le_sq_sum_of_nonneg (s := Finset.univ) (f := fun i => |x i|) fun i _ => abs_nonneg _
    simpa using this
  refine le_trans ?_ h1
  refine div_le_of_le_mul₀ (by positivity) (Finset.sum_nonneg fun i _ => sq_nonneg _) ?_
  rcases Nat.eq_zero_or_pos (Fintype.card κ) with h0 | h0
  · have := Fintype.card_eq_zero_iff.1 h0
    simp
  · have h2 : (1 : ℝ) ≤ Fintype.card κ := by exact_mod_cast h0
    exact le_mul_of_one_le_right (Finset.sum_nonneg fun i _ => sq_nonneg _) h2

omit [DecidableEq κ] [IsProbabilityMeasure P] in
theorem integrable_rms {e : Ω → κ → ℝ} (he : ∀ i, Integrable (fun ω => e ω i) P) : Integrable (fun ω => rms (e ω)) P := by
  have hm : AEStronglyMeasurable (fun ω => rms (e ω)) P :=
    (continuous_rms.measurable.comp_aemeasurable (aemeasurable_pi_lambda _ fun i => (he i).aemeasurable)).aestronglyMeasurable
  refine (integrable_finsetSum Finset.univ fun i _ => (he i).abs).mono' hm (Filter.Eventually.of_forall fun ω => ?_)
  rw [Real.norm_of_nonneg (rms_nonneg _)]
  simpa using rms_le_sum (e ω)

omit [DecidableEq κ] in
/-- Adding something independent to a vector with a symmetric law does not make it smaller on average. -/
theorem rms_shift {e u : Ω → κ → ℝ} (he : ∀ i, Integrable (fun ω => e ω i) P) (hu : ∀ i, Integrable (fun ω => u ω i) P)
    (hind : IndepFun e u P) (hsym : P.map e = P.map fun ω => -e ω) :
    ∫ ω, rms (e ω) ∂P ≤ ∫ ω, rms (e ω + u ω) ∂P ∧
    ((∀ ε > 0, 0 < P {ω | rms (e ω) < ε}) →
      ∫ ω, rms (e ω) ∂P = ∫ ω, rms (e ω + u ω) ∂P → ∀ᵐ ω ∂P, u ω = 0) := by
  have hem : AEMeasurable e P := aemeasurable_pi_lambda _ fun i => (he i).aemeasurable
  have hum : AEMeasurable u P := aemeasurable_pi_lambda _ fun i => (hu i).aemeasurable
  have hnem : AEMeasurable (fun ω => -e ω) P := hem.neg
  have hind' : IndepFun (fun ω => -e ω) u P := hind.comp measurable_neg measurable_id
  have hlaw : P.map (fun ω => (e ω, u ω)) = P.map fun ω => (-e ω, u ω) := by
    rw [(indepFun_iff_map_prod_eq_prod_map_map hem hum).1 hind, (indepFun_iff_map_prod_eq_prod_map_map hnem hum).1 hind',
      hsym]
  have i0 := integrable_rms he
  have iu := integrable_rms hu
  have i1 : Integrable (fun ω => rms (e ω + u ω)) P := integrable_rms fun i => (he i).add (hu i)
  have i2 : Integrable (fun ω => rms (u ω - e ω)) P := integrable_rms fun i => (hu i).sub (he i)
  have hc : AEStronglyMeasurable (fun p : (κ → ℝ) × (κ → ℝ) => rms (p.1 + p.2)) (P.map fun ω => (e ω, u ω)) :=
    (continuous_rms.comp (continuous_fst.add continuous_snd)).aestronglyMeasurable
  have heq : ∫ ω, rms (e ω + u ω) ∂P = ∫ ω, rms (u ω - e ω) ∂P := by
    have h1 := integral_map (hem.prodMk hum) hc
    rw [hlaw] at h1 hc
    have h2 := integral_map (hnem.prodMk hum) hc
    rw [← h1, h2]
    refine integral_congr_ae (Filter.Eventually.of_forall fun ω => ?_)
    simp only
    congr 1
    abel
  have hpt : ∀ ω, 2 * max (rms (e ω)) (rms (u ω)) ≤ rms (e ω + u ω) + rms (u ω - e ω) := fun ω => by
    rcases le_total (rms (e ω)) (rms (u ω)) with h | h
    · rw [max_eq_right h, add_comm (e ω)]
      exact rms_add_sub _ _
    · rw [max_eq_left h, ← rms_neg (u ω - e ω), neg_sub]
      exact rms_add_sub _ _
  have im : Integrable (fun ω => max (rms (e ω)) (rms (u ω))) P := i0.sup iu
  have hmax : ∫ ω, max (rms (e ω)) (rms (u ω)) ∂P ≤ ∫ ω, rms (e ω + u ω) ∂P := by
    have h := integral_mono (im.const_mul 2) (i1.add i2) hpt
    simp only [Pi.add_apply] at h
    rw [integral_const_mul, integral_add i1 i2, ← heq] at h
    linarith
  refine ⟨(integral_mono i0 im fun ω => le_max_left _ _).trans hmax, fun hball he0 => ?_⟩
  have hle : ∀ᵐ ω ∂P, max (rms (e ω)) (rms (u ω)) - rms (e ω) = 0 := by
    have hz : ∫ ω, (max (rms (e ω)) (rms (u ω)) - rms (e ω)) ∂P = 0 := by
      rw [integral_sub im i0]
      have := integral_mono i0 im fun ω => le_max_left _ _
      linarith
    exact (integral_eq_zero_iff_of_nonneg (fun ω => sub_nonneg.2 (le_max_left _ _)) (im.sub i0)).1 hz
  have hzero : ∀ ε : ℝ, 0 < ε → P {ω | ε ≤ rms (u ω)} = 0 := by
    intro ε hε
    have hA : MeasurableSet {x : κ → ℝ | rms x < ε} := measurableSet_lt continuous_rms.measurable measurable_const
    have hB : MeasurableSet {x : κ → ℝ | ε ≤ rms x} := measurableSet_le measurable_const continuous_rms.measurable
    have h := hind.measure_inter_preimage_eq_mul _ _ hA hB
    have h0 : P (e ⁻¹' {x | rms x < ε} ∩ u ⁻¹' {x | ε ≤ rms x}) = 0 := by
      refine measure_mono_null (t := {ω | ¬ (max (rms (e ω)) (rms (u ω)) - rms (e ω) = 0)}) ?_ hle
      rintro ω ⟨h1, h2⟩ h3
      have h1' : rms (e ω) < ε := h1
      have h2' : ε ≤ rms (u ω) := h2
      have := le_max_right (rms (e ω)) (rms (u ω))
      linarith
    rw [h0, eq_comm, mul_eq_zero] at h
    exact h.resolve_left (hball ε hε).ne'
  have hall : ∀ᵐ ω ∂P, ∀ k : ℕ, ¬ (1 / ((k : ℝ) + 1) ≤ rms (u ω)) := by
    rw [ae_all_iff]
    intro k
    have := hzero (1 / ((k : ℝ) + 1)) (by positivity)
    rw [ae_iff]
    simpa using this
  filter_upwards [hall] with ω hω
  refine eq_zero_of_rms (le_antisymm ?_ (rms_nonneg _))
  by_contra hpos
  obtain ⟨k, hk⟩ := exists_nat_one_div_lt (not_le.1 hpos)
  exact hω k hk.le

/-- A centred normal vector has a symmetric law. -/
theorem IsNormal.symm_law {e : Ω → κ → ℝ} {T : Matrix κ κ ℝ} (h : IsNormal P e 0 T) :
    P.map e = P.map fun ω => -e ω := by
  have h1 := h.affine (-1 : Matrix κ κ ℝ) 0
  have e1 : (fun ω => (-1 : Matrix κ κ ℝ) *ᵥ e ω + 0) = fun ω => -e ω := by
    funext ω; rw [neg_mulVec, one_mulVec, add_zero]
  rw [e1, mulVec_zero, add_zero, neg_mul, Matrix.one_mul, transpose_neg, transpose_one, neg_mul_neg, Matrix.mul_one] at h1
  have hof : Measurable (fun v : EuclideanSpace ℝ κ => (WithLp.ofLp v : κ → ℝ)) := (PiLp.continuous_ofLp 2 _).measurable
  have hto : Measurable (fun v : κ → ℝ => (WithLp.toLp 2 v : EuclideanSpace ℝ κ)) := (PiLp.continuous_toLp 2 _).measurable
  have h2 := congrArg (fun M => M.map (fun v : EuclideanSpace ℝ κ => (WithLp.ofLp v : κ → ℝ))) (h.2.2.trans h1.2.2.symm)
  simp only at h2
  have m0 : AEMeasurable (fun ω => (WithLp.toLp 2 (e ω) : EuclideanSpace ℝ κ)) P := hto.comp_aemeasurable h.2.1
  have m1 : AEMeasurable (fun ω => (WithLp.toLp 2 (-e ω) : EuclideanSpace ℝ κ)) P := hto.comp_aemeasurable h1.2.1
  rw [AEMeasurable.map_map_of_aemeasurable hof.aemeasurable m0,
    AEMeasurable.map_map_of_aemeasurable hof.aemeasurable m1] at h2
  exact h2

/-- A normal vector with an invertible covariance comes arbitrarily near to its mean. -/
theorem IsNormal.near_zero {e : Ω → κ → ℝ} {T : Matrix κ κ ℝ} (h : IsNormal P e 0 T) (hT : T.PosDef) :
    ∀ ε > 0, 0 < P {ω | rms (e ω) < ε} := by
  intro ε hε
  rcases isEmpty_or_nonempty κ with hκ | hκ
  · have : {ω | rms (e ω) < ε} = Set.univ := Set.eq_univ_of_forall fun ω => by
      show rms (e ω) < ε
      rw [Subsingleton.elim (e ω) 0, rms_zero]
      exact hε
    rw [this, measure_univ]
    exact one_pos
  obtain ⟨R, hR, hRR⟩ := Bures.exists_sqrt hT.posSemidef
  have hRt : Rᵀ = R := Bures.psd_symm hR
  have hdet : R.det ≠ 0 := by
    have h := hT.det_pos
    rw [← hRR, det_mul] at h
    exact fun h0 => by rw [h0] at h; simp at h
  have hL : R * Rᵀ = T := by rw [hRt, hRR]
  have hcont : Continuous fun z : κ → ℝ => rms (R *ᵥ z) :=
    continuous_rms.comp (Continuous.matrix_mulVec continuous_const continuous_id)
  have h0 : rms (R *ᵥ (0 : κ → ℝ)) < ε := by rw [mulVec_zero, rms_zero]; exact hε
  obtain ⟨δ, hδ, hball⟩ := Metric.isOpen_iff.1 (hcont.isOpen_preimage _ isOpen_Iio) 0 h0
  have hx : (0 : ℝ) ≤ δ ^ 2 / 4 := by positivity
  have hle := h.mahalanobis_le hL hdet hx
  have hpos : 0 < chiCdf (Fintype.card κ) (δ ^ 2 / 4) := by
    have := chiCdf_lt (k := Fintype.card κ) (by exact_mod_cast Fintype.card_pos) le_rfl
      (show (0 : ℝ) < δ ^ 2 / 4 by positivity)
    rwa [chiCdf_zero] at this
  rw [← hle, Measure.real] at hpos
  have hpos' := (ENNReal.toReal_pos_iff.1 hpos).1
  refine lt_of_lt_of_le hpos' (measure_mono fun ω hω => ?_)
  have hω' : ∑ i, (R⁻¹ *ᵥ (e ω - 0)) i ^ 2 ≤ δ ^ 2 / 4 := hω
  rw [sub_zero] at hω'
  have hmem : R⁻¹ *ᵥ e ω ∈ Metric.ball (0 : κ → ℝ) δ := by
    rw [mem_ball_zero_iff, pi_norm_lt_iff hδ]
    intro i
    have h1 : (R⁻¹ *ᵥ e ω) i ^ 2 ≤ δ ^ 2 / 4 :=
      (Finset.single_le_sum (f := fun i => (R⁻¹ *ᵥ e ω) i ^ 2) (fun i _ => sq_nonneg _) (Finset.mem_univ i)).trans hω'
    rw [Real.norm_eq_abs]
    refine abs_lt_of_sq_lt_sq ?_ hδ.le
    nlinarith
  have := hball hmem
  simp only [Set.mem_preimage, Set.mem_Iio, mulVec_mulVec] at this
  rwa [mul_nonsing_inv _ (isUnit_iff_ne_zero.2 hdet), one_mulVec] at this

/-- The errors of the best predictor of rows from the other rows are normal and independent of the other rows. -/
theorem heldOut_indep {A : Matrix n n ℝ} {m₀ : n → ℝ} {Y : Ω → n → ℝ} (hY : IsNormal P Y m₀ A) (hA : A.PosDef)
    {s : κ → n} (hs : Function.Injective s) :
    IsNormal P (fun ω => heldOutWeights A s *ᵥ (Y ω - m₀)) 0 (A⁻¹.submatrix s s)⁻¹ ∧
    IndepFun (fun ω => heldOutWeights A s *ᵥ (Y ω - m₀)) (fun ω (j : {j // j ∉ Set.range s}) => Y ω j) P := by
  have hu : IsUnit A.det := (Matrix.isUnit_iff_isUnit_det _).1 hA.isUnit
  have hcov : heldOutWeights A s * A * (heldOutWeights A s)ᵀ = (A⁻¹.submatrix s s)⁻¹ := heldOut_cross hA s (heldOutWeights_own hA hs)
  have hrow : heldOutWeights A s * A = (A⁻¹.submatrix s s)⁻¹ * (1 : Matrix n n ℝ).submatrix s id := by
    rw [heldOutWeights, Matrix.mul_assoc, selection_mul A hu]
  have hN : ∀ c, IsNormal P (fun ω => heldOutWeights A s *ᵥ (Y ω - c)) (heldOutWeights A s *ᵥ (m₀ - c))
      (A⁻¹.submatrix s s)⁻¹ := by
    intro c
    have h := hY.affine (heldOutWeights A s) (-(heldOutWeights A s *ᵥ c))
    have e : ∀ v : n → ℝ, heldOutWeights A s *ᵥ v + -(heldOutWeights A s *ᵥ c) = heldOutWeights A s *ᵥ (v - c) :=
      fun v => by rw [mulVec_sub, sub_eq_add_neg]
    simp only [e] at h
    rwa [hcov] at h
  have h0 := hN m₀
  rw [sub_self, mulVec_zero] at h0
  refine ⟨h0, ?_⟩
  have hG : HasGaussianLaw (fun ω => (WithLp.toLp 2 (Y ω) : EuclideanSpace ℝ n)) P := by
    refine ⟨?_⟩
    rw [hY.2.2]
    infer_instance
  let L : EuclideanSpace ℝ n →L[ℝ] (κ → ℝ) × ({j // j ∉ Set.range s} → ℝ) :=
    LinearMap.toContinuousLinearMap
      { toFun := fun x => (heldOutWeights A s *ᵥ (WithLp.ofLp x), fun j => x j.1)
        map_add' := fun x y => by
          refine Prod.ext ?_ rfl
          exact mulVec_add _ _ _
        map_smul' := fun c x => by
          refine Prod.ext ?_ rfl
          exact mulVec_smul _ _ _ }
  have hL := hG.map L
  have hp : HasGaussianLaw (fun ω => (fun k => (heldOutWeights A s *ᵥ Y ω) k,
    fun j : {j // j ∉ Set.range s} => Y ω j.1)) P := hL
  have hmY := hY.hasMoments
  have hind : IndepFun (fun ω k => (heldOutWeights A s *ᵥ Y ω) k) (fun ω (j : {j // j ∉ Set.range s}) => Y ω j) P := by
    refine HasGaussianLaw.indepFun_of_covariance_eval (X := fun k ω => (heldOutWeights A s *ᵥ Y ω) k)
      (Y := fun (j : {j // j ∉ Set.range s}) ω => Y ω j.1) hp fun k j => ?_
    have e : (fun ω => (heldOutWeights A s *ᵥ Y ω) k) = fun ω => ∑ i, heldOutWeights A s k i * Y ω i := by
      funext ω; rfl
    rw [e, covariance_fun_sum_left (fun i => (hmY.memLp i).const_mul _) (hmY.memLp j)]
    have hc : ∀ i, cov[fun ω => heldOutWeights A s k i * Y ω i, fun ω => Y ω j.1; P] = heldOutWeights A s k i * A i j := by
      intro i
      rw [covariance_const_mul_left]
      congr 1
      unfold covariance
      rw [hmY.mean, hmY.mean, hmY.cov]
    simp only [hc]
    have := congrFun (congrFun hrow k) j.1
    rw [mul_apply] at this
    rw [this, mul_apply]
    refine Finset.sum_eq_zero fun l _ => ?_
    rw [submatrix_apply, id, one_apply_ne fun hl => j.2 ⟨l, hl⟩, mul_zero]
  have hsub : Measurable fun x : κ → ℝ => x - heldOutWeights A s *ᵥ m₀ := by fun_prop
  have := hind.comp hsub measurable_id
  refine this.congr (Filter.Eventually.of_forall fun ω => ?_) (Filter.Eventually.of_forall fun ω => rfl)
  simp only [Function.comp_apply]
  rw [mulVec_sub]

omit [DecidableEq n] in
/-- A sum with weight one on one row of a group and none on the others of the group. -/
theorem own_sum {s : κ → n} (hs : Function.Injective s) [Fintype {j // j ∉ Set.range s}] (k : κ) (w f : n → ℝ)
    (hw : ∀ l, w (s l) = if k = l then 1 else 0) :
    ∑ i, w i * f i = f (s k) + ∑ j : {j // j ∉ Set.range s}, w j.1 * f j.1 := by
  classical
  rw [← Fintype.sum_subtype_add_sum_subtype (fun i => i ∈ Set.range s)]
  congr 1
  · have h := (Equiv.ofInjective s hs).sum_comp fun i : Set.range s => w i.1 * f i.1
    simp only [Equiv.ofInjective_apply] at h
    have h3 : ∑ x, w (s x) * f (s x) = f (s k) := by simp only [hw]; simp
    rw [← h3, h]
    convert rfl
  · convert rfl

/-- No predictor of rows from the other rows has errors of a smaller expected size than the best linear one, and only this
one, almost surely, has errors of the same. -/
theorem heldOut_any {A : Matrix n n ℝ} {m₀ : n → ℝ} {Y : Ω → n → ℝ} (hY : IsNormal P Y m₀ A) (hA : A.PosDef)
    {s : κ → n} (hs : Function.Injective s) {F : ({j // j ∉ Set.range s} → ℝ) → κ → ℝ} (hF : Measurable F)
    (hF1 : ∀ k, Integrable (fun ω => F (fun j => Y ω j.1) k) P) :
    Integrable (fun ω => rms fun k => Y ω (s k) - F (fun j => Y ω j.1) k) P ∧
    ∫ ω, rms (heldOutWeights A s *ᵥ (Y ω - m₀)) ∂P ≤ ∫ ω, rms (fun k => Y ω (s k) - F (fun j => Y ω j.1) k) ∂P ∧
    (∫ ω, rms (heldOutWeights A s *ᵥ (Y ω - m₀)) ∂P = ∫ ω, rms (fun k => Y ω (s k) - F (fun j => Y ω j.1) k) ∂P →
      ∀ᵐ ω ∂P, (fun k => Y ω (s k) - F (fun j => Y ω j.1) k) = heldOutWeights A s *ᵥ (Y ω - m₀)) := by
  obtain ⟨hN, hind⟩ := heldOut_indep hY hA hs
  have hm := hY.hasMoments
  have hi : ∀ i, Integrable (fun ω => Y ω i) P := fun i => (hm.memLp i).integrable one_le_two
  have he : ∀ k, Integrable (fun ω => (heldOutWeights A s *ᵥ (Y ω - m₀)) k) P := fun k =>
    (hN.hasMoments.memLp k).integrable one_le_two
  -- the part of the best error that comes from the other rows
  let G : ({j // j ∉ Set.range s} → ℝ) → κ → ℝ := fun z k =>
    ∑ j : {j // j ∉ Set.range s}, heldOutWeights A s k j.1 * (z j - m₀ j.1)
  have hGm : Measurable G := by
    refine measurable_pi_lambda _ fun k => ?_
    refine Finset.measurable_sum _ fun j _ => ?_
    fun_prop
  have hG : ∀ y : n → ℝ, heldOutWeights A s *ᵥ (y - m₀) = (fun k => y (s k) - m₀ (s k)) + G fun j => y j.1 := by
    intro y
    funext k
    have hown := heldOutWeights_own hA hs
    show ∑ i, heldOutWeights A s k i * (y i - m₀ i) = (y (s k) - m₀ (s k)) +
      ∑ j : {j // j ∉ Set.range s}, heldOutWeights A s k j.1 * (y j.1 - m₀ j.1)
    refine own_sum hs k (fun i => heldOutWeights A s k i) (fun i => y i - m₀ i) fun l => ?_
    have := congrFun (congrFun hown k) l
    rw [submatrix_apply, id, one_apply] at this
    exact this
  let U : ({j // j ∉ Set.range s} → ℝ) → κ → ℝ := fun z k => m₀ (s k) - F z k - G z k
  have hUm : Measurable U := by
    refine measurable_pi_lambda _ fun k => ?_
    exact (measurable_const.sub ((measurable_pi_apply k).comp hF)).sub ((measurable_pi_apply k).comp hGm)
  have hsum : ∀ ω, (fun k => Y ω (s k) - F (fun j => Y ω j.1) k) =
      heldOutWeights A s *ᵥ (Y ω - m₀) + U fun j => Y ω j.1 := by
    intro ω
    rw [hG]
    funext k
    simp only [Pi.add_apply, U]
    ring
  have hUi : ∀ k, Integrable (fun ω => U (fun j => Y ω j.1) k) P := by
    intro k
    have : (fun ω => U (fun j => Y ω j.1) k) = fun ω => (Y ω (s k) - F (fun j => Y ω j.1) k) -
        (heldOutWeights A s *ᵥ (Y ω - m₀)) k := by
      funext ω
      have := congrFun (hsum ω) k
      simp only [Pi.add_apply] at this
      rw [this]
      ring
    rw [this]
    exact ((hi _).sub (hF1 k)).sub (he k)
  have hind' : IndepFun (fun ω => heldOutWeights A s *ᵥ (Y ω - m₀)) (fun ω => U fun j => Y ω j.1) P :=
    hind.comp measurable_id hUm
  obtain ⟨h1, h2⟩ := rms_shift he hUi hind' hN.symm_law
  simp only [hsum]
  refine ⟨integrable_rms fun k => (he k).add (hUi k), h1, fun h => ?_⟩
  filter_upwards [h2 (hN.near_zero (hA.inv.submatrix hs).inv) h] with ω hω
  rw [hω, add_zero]

/-- The same for linear predictors with any mean. -/
theorem heldOut_rms {A : Matrix n n ℝ} {m₀ : n → ℝ} {Y : Ω → n → ℝ} (hY : IsNormal P Y m₀ A) (hA : A.PosDef)
    {s : κ → n} (hs : Function.Injective s) {W : Matrix κ n ℝ} (hW : W.submatrix id s = 1) (m : n → ℝ) :
    Integrable (fun ω => rms (W *ᵥ (Y ω - m))) P ∧
    ∫ ω, rms (heldOutWeights A s *ᵥ (Y ω - m₀)) ∂P ≤ ∫ ω, rms (W *ᵥ (Y ω - m)) ∂P ∧
    (∫ ω, rms (heldOutWeights A s *ᵥ (Y ω - m₀)) ∂P = ∫ ω, rms (W *ᵥ (Y ω - m)) ∂P ↔
      W = heldOutWeights A s ∧ W *ᵥ m = W *ᵥ m₀) := by
  have hm := hY.hasMoments
  have hi : ∀ i, Integrable (fun ω => Y ω i) P := fun i => (hm.memLp i).integrable one_le_two
  let F : ({j // j ∉ Set.range s} → ℝ) → κ → ℝ := fun z k =>
    m (s k) - ∑ j : {j // j ∉ Set.range s}, W k j.1 * (z j - m j.1)
  have hF : Measurable F := by
    refine measurable_pi_lambda _ fun k => measurable_const.sub (Finset.measurable_sum _ fun j _ => ?_)
    fun_prop
  have hF1 : ∀ k, Integrable (fun ω => F (fun j => Y ω j.1) k) P := fun k =>
    (integrable_const _).sub (integrable_finsetSum _ fun j _ => ((hi j.1).sub (integrable_const _)).const_mul _)
  have hval : ∀ ω, (fun k => Y ω (s k) - F (fun j => Y ω j.1) k) = W *ᵥ (Y ω - m) := by
    intro ω
    funext k
    show Y ω (s k) - (m (s k) - ∑ j : {j // j ∉ Set.range s}, W k j.1 * (Y ω j.1 - m j.1)) =
      ∑ i, W k i * (Y ω i - m i)
    have h := own_sum hs k (fun i => W k i) (fun i => Y ω i - m i) fun l => by
      have := congrFun (congrFun hW k) l
      rw [submatrix_apply, id, one_apply] at this
      exact this
    refine Eq.trans ?_ h.symm
    ring
  have key := heldOut_any hY hA hs hF hF1
  simp only [hval] at key
  refine ⟨key.1, key.2.1, fun h => ?_, fun ⟨h1, h2⟩ => ?_⟩
  · have hae := key.2.2 h
    set V := W - heldOutWeights A s with hV
    have hmom := hm.affine V (W *ᵥ (m₀ - m) - V *ᵥ m₀)
    have hz : ∀ᵐ ω ∂P, V *ᵥ Y ω + (W *ᵥ (m₀ - m) - V *ᵥ m₀) = 0 := by
      filter_upwards [hae] with ω hω
      have : W *ᵥ (Y ω - m) - heldOutWeights A s *ᵥ (Y ω - m₀) = 0 := sub_eq_zero.2 hω
      rw [← this, hV]
      simp only [sub_mulVec, mulVec_sub]
      abel
    have hmean : V *ᵥ m₀ + (W *ᵥ (m₀ - m) - V *ᵥ m₀) = 0 := by
      funext k
      rw [← hmom.mean k, integral_eq_zero_of_ae]
      · rfl
      · filter_upwards [hz] with ω hω
        rw [hω]; rfl
    have hcov : V * A * Vᵀ = 0 := by
      ext k l
      rw [← hmom.cov k l, integral_eq_zero_of_ae]
      · rfl
      · filter_upwards [hz] with ω hω
        rw [hω, hmean]
        simp
    constructor
    · rw [← sub_eq_zero, ← hV]
      ext k j
      have hk : V k ⬝ᵥ (A *ᵥ V k) = 0 := by
        have := congrFun (congrFun hcov k) k
        rw [Matrix.zero_apply, Matrix.mul_assoc] at this
        exact this
      by_contra hne
      have hpos := hA.dotProduct_mulVec_pos (x := V k) fun h0 => hne (congrFun h0 j)
      rw [star_trivial, hk] at hpos
      exact lt_irrefl _ hpos
    · rw [add_sub_cancel, mulVec_sub, sub_eq_zero] at hmean
      exact hmean.symm
  · rw [← h1]
    simp only [mulVec_sub, h2]

end Albatross
