import Verif.Conditional
import Verif.HeldOutProps

/-! # C34: the conditional Gaussian model -/

namespace Albatross

open Matrix

variable {m : Nat}

/-- Covariance of the noisy truths at `idx`. -/
def truthCovariance (c : ConditionalGaussian m) (idx : List (Fin m)) :
    Matrix (Fin idx.length) (Fin idx.length) ℝ :=
  of fun k l => c.prior.covariance (idx.get k) (idx.get l) + if k = l then c.truth.variance (idx.get k) else 0

theorem truthCovariance_eq (c : ConditionalGaussian m) (idx : List (Fin m)) :
    (c.prior.select idx.get).covariance + diagonal (c.truth.select idx.get).variance = truthCovariance c idx := by
  ext k l
  simp [truthCovariance, Joint.select, Marginal.select, diagonal_apply]

theorem fit_ok (c : ConditionalGaussian m) (ldlt : LdltRoutine) (idx : List (Fin m)) :
    c.fit ldlt (idx.map (·.1)) = .ok ⟨idx,
      (ldlt idx.length (truthCovariance c idx)).solver.solveVec
        ((fun k => c.truth.mean (idx.get k)) - fun k => c.prior.mean (idx.get k)),
      ldlt idx.length (truthCovariance c idx)⟩ := by
  rw [ConditionalGaussian.fit, columnIndices_ok, ← truthCovariance_eq]
  rfl

theorem predictJoint_ok (c : ConditionalGaussian m) (fit : ConditionalFit m) (pred : List (Fin m)) :
    c.predictJoint (pred.map (·.1)) fit = .ok ⟨pred.length,
      (c.prior.covariance.submatrix fit.indices.get pred.get)ᵀ *ᵥ fit.information +
        (fun k => c.prior.mean (pred.get k)),
      c.prior.covariance.submatrix pred.get pred.get -
        (c.prior.covariance.submatrix fit.indices.get pred.get)ᵀ *
          fit.covLdlt.solver.solve (c.prior.covariance.submatrix fit.indices.get pred.get)⟩ := by
  rw [ConditionalGaussian.predictJoint, columnIndices_ok]
  rfl

/-- C34: fitting on the noisy truths at `idx` and predicting at `pred` gives the Gaussian conditional
distribution of the prior's variables at `pred`.  Indices may come in any order, repeat and overlap. -/
theorem C34_conditional (c : ConditionalGaussian m) (hs : ∀ i j, c.prior.covariance i j = c.prior.covariance j i)
    (ldlt : LdltRoutine) (idx pred : List (Fin m))
    (hF : (ldlt idx.length (truthCovariance c idx)).Factors (truthCovariance c idx))
    (hA : IsUnit (truthCovariance c idx).det) :
    ∃ (fit : ConditionalFit m) (dist : Joint (Fin pred.length)),
      c.fit ldlt (idx.map (·.1)) = .ok fit ∧ c.predictJoint (pred.map (·.1)) fit = .ok ⟨pred.length, dist⟩ ∧
      IsGaussianConditional (fun k => c.prior.mean (pred.get k)) (fun k => c.prior.mean (idx.get k))
        (of fun k l => c.prior.covariance (pred.get k) (pred.get l))
        (of fun k l => c.prior.covariance (pred.get k) (idx.get l))
        (truthCovariance c idx) (fun k => c.truth.mean (idx.get k)) dist.mean dist.covariance := by
  have hr := hF.represents hA
  have hsym : (truthCovariance c idx)ᵀ = truthCovariance c idx := by
    ext k l
    simp only [truthCovariance, transpose_apply, of_apply]
    rw [hs]
    by_cases h : k = l
    · subst h; rfl
    · rw [if_neg h, if_neg (Ne.symm h)]
  refine ⟨_, ⟨_, _⟩, fit_ok c ldlt idx, predictJoint_ok c _ pred, ?_⟩
  · rw [isGaussianConditional_iff hsym hA]
    have hcross : (c.prior.covariance.submatrix idx.get pred.get)ᵀ =
        of fun k l => c.prior.covariance (pred.get k) (idx.get l) := by
      ext k l; simp [hs]
    have hcross' : c.prior.covariance.submatrix idx.get pred.get =
        (of fun k l => c.prior.covariance (pred.get k) (idx.get l))ᵀ := by
      rw [← hcross, transpose_transpose]
    constructor
    · rw [hr.solveVec, hcross, mulVec_mulVec, add_comm]
    · rw [hr.2, hcross, hcross', ← Matrix.mul_assoc]
      rfl

/-- C34: mean and marginal predictions are the mean and diagonal of the joint prediction. -/
theorem C34_forms_agree (c : ConditionalGaussian m) (fit : ConditionalFit m) (pred : List (Fin m)) :
    ∃ dist : Joint (Fin pred.length), c.predictJoint (pred.map (·.1)) fit = .ok ⟨pred.length, dist⟩ ∧
      c.predictMarginal (pred.map (·.1)) fit = .ok ⟨pred.length, dist.mean, fun i => dist.covariance i i⟩ ∧
      c.predictMean (pred.map (·.1)) fit = .ok ⟨pred.length, dist.mean⟩ := by
  refine ⟨⟨_, _⟩, predictJoint_ok c fit pred, ?_, ?_⟩
  · rw [ConditionalGaussian.predictMarginal, columnIndices_ok]
    simp only [bind, Except.bind, pure, Except.pure, gpMarginalPrediction, Joint.marginal,
      Marginal.select]
    congr 3
    funext i
    simp [Matrix.mul_apply, mul_comm]
  · rw [ConditionalGaussian.predictMean, columnIndices_ok]
    rfl

/-- C34: an index outside the prior is not accepted. -/
theorem C34_out_of_range (c : ConditionalGaussian m) (ldlt : LdltRoutine) (indices : List Nat)
    (h : ∃ i ∈ indices, m ≤ i) : c.fit ldlt indices = .error .ub := by
  have : columnIndices m indices = .error .ub := by
    unfold columnIndices
    induction indices with
    | nil => simp at h
    | cons a t ih =>
      rw [List.mapM_cons]
      by_cases ha : a < m
      · have ht : ∃ i ∈ t, m ≤ i := by
          obtain ⟨i, hi, him⟩ := h
          rcases List.mem_cons.1 hi with rfl | hi
          · omega
          · exact ⟨i, hi, him⟩
        simp [ha, ih ht, bind, Except.bind]
      · simp [ha, bind, Except.bind]
  rw [ConditionalGaussian.fit, this]
  rfl

/-- The hypotheses of C34 are met, with correlated variables, a repeated index and a prediction at a
fitted index. -/
example : ∃ (c : ConditionalGaussian 3) (ldlt : LdltRoutine) (idx : List (Fin 3)),
    (∀ i j, c.prior.covariance i j = c.prior.covariance j i) ∧ c.prior.covariance 0 1 ≠ 0 ∧ idx = [2, 0, 2] ∧
    (ldlt idx.length (truthCovariance c idx)).Factors (truthCovariance c idx) ∧
    IsUnit (truthCovariance c idx).det := by
  have hpd : (truthCovariance ⟨⟨0, of fun _ _ => 1⟩, ⟨fun i : Fin 3 => i, fun _ => 1⟩⟩ [2, 0, 2]).PosDef := by
    have h1 : (of fun _ _ => 1 : Matrix (Fin [2, 0, (2 : Fin 3)].length) (Fin [2, 0, (2 : Fin 3)].length) ℝ).PosSemidef := by
      have := posSemidef_vecMulVec_self_star (fun _ : Fin [2, 0, (2 : Fin 3)].length => (1 : ℝ))
      convert this using 1
      ext i j; simp [vecMulVec]
    have h2 := Matrix.PosDef.posSemidef_add h1 (Matrix.PosDef.diagonal
      (d := fun _ : Fin [2, 0, (2 : Fin 3)].length => (1 : ℝ)) fun _ => by norm_num)
    convert h2 using 1
    ext k l
    simp only [truthCovariance, Matrix.add_apply, diagonal_apply, of_apply]
  have hex : ∀ d, ∃ l : Matrix (Fin d) (Fin d) ℝ → Ldlt (Fin d), ∀ M, M.PosDef → (l M).Factors M :=
    fun d => exists_ldlt (Fin d)
  choose ldlt hl using hex
  exact ⟨_, ldlt, [2, 0, 2], fun _ _ => rfl, by simp, rfl, hl _ _ hpd, (Matrix.isUnit_iff_isUnit_det _).1 hpd.isUnit⟩

end Albatross
