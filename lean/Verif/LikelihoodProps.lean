import Verif.Likelihood
import Verif.LinAlgProps
import Verif.GaussianSpec
import Mathlib.Probability.Distributions.Gaussian.Real

/-! # The likelihood functions agree (C40) and the differential entropy (C41) -/

namespace Albatross

open Matrix

theorem foldl_log_sum (l : List ℝ) (c : ℝ) :
    l.foldl (fun s v => s + Real.log v) c = c + (l.map Real.log).sum := by
  induction l generalizing c with
  | nil => simp
  | cons x l ih => simp [ih, add_assoc]

theorem logSum_diag {n : Type} (F : Ldlt n) : logSum (List.ofFn F.diag) = F.logDeterminant := by
  rw [logSum, foldl_log_sum, zero_add, Ldlt.logDeterminant, List.map_ofFn, List.sum_ofFn]
  rfl

theorem Ldlt.size_eq {n : Type} [Fintype n] (F : Ldlt n) : F.size = Fintype.card n := by
  rw [Fintype.card_congr F.perm, Fintype.card_fin]

/-- C40, decomposed covariance: it is minus the log density of the multivariate normal. -/
theorem C40_ldlt {n : Type} [Fintype n] [DecidableEq n] (F : Ldlt n) (S : Matrix n n ℝ) (h : F.Factors S)
    (hS : S.PosDef) (dev : n → ℝ) : nllLdlt dev F = -gaussianLogPdf 0 S dev := by
  have hu : IsUnit S.det := (Matrix.isUnit_iff_isUnit_det _).1 hS.isUnit
  unfold nllLdlt gaussianLogPdf
  rw [(h.represents hu).solveVec, logSum_diag, C32_log_determinant F S h hS, F.size_eq]
  simp only [sub_zero]
  ring

/-- C40, univariate: the log density is that of the normal distribution (Mathlib's
`gaussianPDFReal`), and `pdf` is its exponential. -/
theorem C40_univariate (dev var : ℝ) (hv : 0 < var) :
    nllUni dev var = -Real.log (ProbabilityTheory.gaussianPDFReal 0 var.toNNReal dev) ∧
    gaussianPdfUni dev var = ProbabilityTheory.gaussianPDFReal 0 var.toNNReal dev := by
  have h2 : gaussianPdfUni dev var = ProbabilityTheory.gaussianPDFReal 0 var.toNNReal dev := by
    unfold gaussianPdfUni ProbabilityTheory.gaussianPDFReal
    rw [Real.coe_toNNReal _ hv.le, sub_zero, div_eq_inv_mul, sq]
  refine ⟨?_, h2⟩
  rw [← h2]
  unfold nllUni gaussianLogPdfUni gaussianPdfUni
  have hp : 0 < 2 * Real.pi * var := by positivity
  rw [Real.log_div (Real.exp_pos _).ne' (Real.sqrt_pos.2 hp).ne', Real.log_exp, Real.log_sqrt hp.le]
  ring

/-- The multivariate specification for one variable. -/
theorem gaussianLogPdf_one (S : Matrix (Fin 1) (Fin 1) ℝ) (dev : Fin 1 → ℝ) (h : 0 < S 0 0) :
    -gaussianLogPdf 0 S dev = nllUni (dev 0) (S 0 0) := by
  have hdet : S.det = S 0 0 := by simp
  have hinv : S⁻¹ = Matrix.of fun _ _ => (S 0 0)⁻¹ := by
    apply Matrix.inv_eq_right_inv
    ext i j; fin_cases i; fin_cases j
    simp [Matrix.mul_apply, h.ne']
  unfold gaussianLogPdf nllUni gaussianLogPdfUni
  rw [hdet, hinv, Real.log_mul (by positivity) h.ne']
  simp [dotProduct, mulVec]
  field_simp
  ring

/-- C40, dense covariance (both branches of the code). -/
theorem C40_dense {m : Nat} (ldlt : Matrix (Fin m) (Fin m) ℝ → Ldlt (Fin m))
    (S : Matrix (Fin m) (Fin m) ℝ) (h : (ldlt S).Factors S) (hS : S.PosDef) (dev : Fin m → ℝ) :
    nllDense ldlt dev S = -gaussianLogPdf 0 S dev := by
  unfold nllDense
  split
  · rename_i hm
    subst hm
    exact (gaussianLogPdf_one S dev hS.diag_pos).symm
  · exact C40_ldlt _ S h hS dev

theorem nllDiagonal_eq (b : Build) (l : List (ℝ × ℝ)) :
    nllDiagonal b (l.map Prod.fst) (l.map Prod.snd) = .ok ((l.map fun p => nllUni p.1 p.2).sum) := by
  unfold nllDiagonal
  simp only [List.length_map, beq_self_eq_true, albatrossAssert_true, bind, Except.bind]
  have key : ∀ k ≤ l.length, (List.range k).foldlM (fun nll i => do
      let d ← vecGet (l.map Prod.fst) i
      let v ← vecGet (l.map Prod.snd) i
      pure (nll + nllUni d v)) (0 : ℝ) = (Except.ok (((l.take k).map fun p => nllUni p.1 p.2).sum) : Outcome ℝ) := by
    intro k hk
    induction k with
    | zero => simp [pure, Except.pure]
    | succ k ih =>
      rw [List.range_succ, List.foldlM_append, ih (by omega)]
      have h1 : vecGet (l.map Prod.fst) k = .ok (l[k]).1 := vecGet_ok.2 (by simp [List.getElem?_eq_getElem (show k < l.length by omega)])
      have h2 : vecGet (l.map Prod.snd) k = .ok (l[k]).2 := vecGet_ok.2 (by simp [List.getElem?_eq_getElem (show k < l.length by omega)])
      simp only [bind, Except.bind, List.foldlM_cons, List.foldlM_nil, h1, h2, pure, Except.pure]
      rw [List.take_add_one, List.getElem?_eq_getElem (by omega), Option.toList_some, List.map_append,
        List.sum_append]
      simp
  have := key l.length le_rfl
  rw [List.take_length] at this
  simpa only [bind, Except.bind] using this

/-- C40, diagonal covariance: the sum of the univariate ones, and the same as the dense function for
the diagonal matrix. -/
theorem C40_diagonal {m : Nat} (b : Build) (dev var : Fin m → ℝ) (hv : ∀ i, 0 < var i) :
    nllDiagonal b (List.ofFn dev) (List.ofFn var) = .ok (∑ i, nllUni (dev i) (var i)) ∧
    ∑ i, nllUni (dev i) (var i) = -gaussianLogPdf 0 (diagonal var) dev := by
  constructor
  · have := nllDiagonal_eq b (List.ofFn fun i => (dev i, var i))
    rw [List.map_ofFn, List.map_ofFn, List.map_ofFn, List.sum_ofFn] at this
    exact this
  · unfold gaussianLogPdf nllUni gaussianLogPdfUni
    have hinv : (diagonal var)⁻¹ = diagonal fun i => (var i)⁻¹ := by
      apply Matrix.inv_eq_right_inv
      rw [diagonal_mul_diagonal, ← diagonal_one]
      congr 1; funext i; exact mul_inv_cancel₀ (hv i).ne'
    rw [hinv, det_diagonal, Real.log_prod fun i _ => (hv i).ne']
    simp only [sub_zero, mulVec_diagonal, dotProduct, Fintype.card_fin]
    have : ∀ i, -(-dev i * dev i / (2 * var i) - 0.5 * Real.log (2 * Real.pi * var i)) =
        (1 / 2) * (dev i * ((var i)⁻¹ * dev i)) + (1 / 2) * Real.log (var i) + (1 / 2) * Real.log (2 * Real.pi) := by
      intro i
      rw [Real.log_mul (by positivity) (hv i).ne']
      have := (hv i).ne'
      field_simp
      ring
    rw [Finset.sum_congr rfl fun i _ => this i, Finset.sum_add_distrib, Finset.sum_add_distrib,
      ← Finset.mul_sum, ← Finset.mul_sum]
    simp only [Finset.sum_const, Finset.card_univ, Fintype.card_fin, nsmul_eq_mul]
    ring

/-- C40: all of them at once, for a diagonal covariance given as a dense matrix, as its decomposition
and as variances. -/
theorem C40_agree {m : Nat} (b : Build) (ldlt : Matrix (Fin m) (Fin m) ℝ → Ldlt (Fin m))
    (dev var : Fin m → ℝ) (hv : ∀ i, 0 < var i) (h : (ldlt (diagonal var)).Factors (diagonal var)) :
    nllDiagonal b (List.ofFn dev) (List.ofFn var) = .ok (nllDense ldlt dev (diagonal var)) ∧
    nllDense ldlt dev (diagonal var) = nllLdlt dev (ldlt (diagonal var)) ∧
    nllLdlt dev (ldlt (diagonal var)) = ∑ i, nllUni (dev i) (var i) := by
  have hS : (diagonal var).PosDef := Matrix.PosDef.diagonal hv
  obtain ⟨h1, h2⟩ := C40_diagonal b dev var hv
  rw [C40_dense ldlt _ h hS, C40_ldlt _ _ h hS, ← h2]
  exact ⟨h1, rfl, rfl⟩

theorem nllDiagonal_loop_ub (dev var : List ℝ) : ∀ (is : List Nat) (acc : ℝ), (∃ i ∈ is, var.length ≤ i) →
    is.foldlM (fun nll i => do
      let d ← vecGet dev i
      let v ← vecGet var i
      pure (nll + nllUni d v)) acc = (.error .ub : Outcome ℝ)
  | [], _, h => by simp at h
  | i :: is, acc, h => by
    rw [List.foldlM_cons]
    cases hd : dev[i]? with
    | none => simp only [vecGet, hd, bind, Except.bind]
    | some x =>
      cases hv : var[i]? with
      | none => simp only [vecGet, hd, hv, bind, Except.bind]
      | some y =>
        have hi : i < var.length := (List.getElem?_eq_some_iff.1 hv).1
        obtain ⟨j, hj, hjv⟩ := h
        have hj' : j ∈ is := by
          rcases List.mem_cons.1 hj with e | e
          · omega
          · exact e
        have e1 : vecGet dev i = .ok x := by simp [vecGet, hd]
        have e2 : vecGet var i = .ok y := by simp [vecGet, hv]
        simp only [e1, e2, except_ok_bind, except_pure]
        exact nllDiagonal_loop_ub dev var is _ ⟨j, hj', hjv⟩

/-- C40: deviations and variances of different lengths are rejected by the assertion; without assertions, fewer
variances than deviations are read out of bounds. -/
theorem C40_size_mismatch (dev var : List ℝ) (h : dev.length ≠ var.length) :
    nllDiagonal .debug dev var = .error .assertFail ∧
    (var.length < dev.length → nllDiagonal .ndebug dev var = .error .ub) := by
  constructor
  · unfold nllDiagonal
    have : (dev.length == var.length) = false := by simpa using h
    rw [this]; rfl
  · intro hlt
    unfold nllDiagonal
    have h1 : albatrossAssert .ndebug (dev.length == var.length) = .ok () := by
      cases (dev.length == var.length) <;> rfl
    rw [h1, except_ok_bind]
    exact nllDiagonal_loop_ub dev var _ _ ⟨var.length, by simpa using hlt, le_refl _⟩

/-- The hypotheses are met with different positive variances. -/
example : ∃ (var : Fin 2 → ℝ) (ldlt : Matrix (Fin 2) (Fin 2) ℝ → Ldlt (Fin 2)), var = ![1, 3] ∧
    (∀ i, 0 < var i) ∧ (ldlt (diagonal var)).Factors (diagonal var) := by
  have hv : ∀ i, 0 < (![1, 3] : Fin 2 → ℝ) i := by intro i; fin_cases i <;> norm_num
  obtain ⟨F, hF⟩ := C32_decomposition_exists (Matrix.PosDef.diagonal hv)
  exact ⟨_, fun _ => F, rfl, hv, hF⟩

/-! ## C41 -/

/-- Entropy of a Gaussian with covariance `S`. -/
noncomputable def gaussianEntropy {n : Type} [Fintype n] [DecidableEq n] (S : Matrix n n ℝ) : ℝ :=
  (Fintype.card n * (1 + Real.log (2 * Real.pi)) + Real.log S.det) / 2

/-- What the code computes: the log determinant is multiplied by the dimension. -/
theorem C41_code_value {n : Type} [Fintype n] [DecidableEq n] (F : Ldlt n) (S : Matrix n n ℝ)
    (h : F.Factors S) (hS : S.PosDef) :
    differentialEntropy F =
      gaussianEntropy S + (Fintype.card n - 1) / 2 * Real.log S.det := by
  unfold differentialEntropy gaussianEntropy logDetOfSymmetric
  rw [foldl_log_sum, zero_add, List.map_ofFn, List.sum_ofFn]
  have := C32_log_determinant F S h hS
  unfold Ldlt.logDeterminant at this
  simp only [Function.comp_def]
  rw [this, F.size_eq]
  ring

/-- C41, partial: right for one variable, and for unit determinants.  Missing: every other covariance,
for which the property is false (`C41_false`). -/
theorem C41_entropy_partial {n : Type} [Fintype n] [DecidableEq n] (F : Ldlt n) (S : Matrix n n ℝ)
    (h : F.Factors S) (hS : S.PosDef) :
    differentialEntropy F = gaussianEntropy S ↔ Fintype.card n = 1 ∨ S.det = 1 := by
  rw [C41_code_value F S h hS]
  have hd := hS.det_pos
  constructor
  · intro e
    have e : ((Fintype.card n : ℝ) - 1) / 2 * Real.log S.det = 0 := by linarith
    rcases mul_eq_zero.1 e with h1 | h1
    · left
      have : (Fintype.card n : ℝ) = 1 := by linarith
      exact_mod_cast this
    · right
      exact Real.eq_one_of_pos_of_log_eq_zero hd h1
  · rintro (h1 | h1)
    · rw [h1]; simp
    · rw [h1]; simp

/-- C41 is false: two independent variables of variance 2. -/
theorem C41_false : ∃ (S : Matrix (Fin 2) (Fin 2) ℝ) (F : Ldlt (Fin 2)), F.Factors S ∧ S.PosDef ∧
    differentialEntropy F ≠ gaussianEntropy S := by
  have hv : ∀ i, 0 < (![2, 2] : Fin 2 → ℝ) i := by intro i; fin_cases i <;> norm_num
  have hS : (diagonal (![2, 2] : Fin 2 → ℝ)).PosDef := Matrix.PosDef.diagonal hv
  obtain ⟨F, hF⟩ := C32_decomposition_exists hS
  refine ⟨_, F, hF, hS, fun e => ?_⟩
  rcases (C41_entropy_partial F _ hF hS).1 e with h | h
  · simp at h
  · norm_num [det_diagonal, Fin.prod_univ_two] at h

end Albatross
