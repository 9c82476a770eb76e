import Verif.Gp
import Verif.LikelihoodProps
import Verif.Psd

/-! # Gaussian process regression: C27, C28, C29, C37 (dense part), C39 -/

set_option linter.unusedSectionVars false

namespace Albatross

open Matrix

variable {X n p q : Type} [Fintype n] [DecidableEq n] [Fintype p] [DecidableEq p]

/-- Covariance of the observations `z = measured features + independent target noise` under the
prior. -/
def obsCovariance (g : Gp X) (xs : n → X) (variance : n → ℝ) : Matrix n n ℝ :=
  of fun i j => g.cov (g.asMeas (xs i)) (g.asMeas (xs j)) + if i = j then variance i else 0

theorem obsCovariance_eq (g : Gp X) (xs : n → X) (v : n → ℝ) :
    obsCovariance g xs v =
      g.covMat (fun i => g.asMeas (xs i)) (fun i => g.asMeas (xs i)) + diagonal v := by
  ext i j
  simp [obsCovariance, Gp.covMat, diagonal_apply]

/-- What a fit has to hold to be a fit of centred observations `z` with covariance `A`. -/
structure FitOf (f : GpFit X n) (A : Matrix n n ℝ) (z : n → ℝ) : Prop where
  symm : Aᵀ = A
  solver : f.trainCovariance.Represents A
  information : f.information = A⁻¹ *ᵥ z

theorem obsCovariance_symm (g : Gp X) (hsym : ∀ x y, g.cov x y = g.cov y x) (xs : n → X) (v : n → ℝ) :
    (obsCovariance g xs v)ᵀ = obsCovariance g xs v := by
  ext i j
  simp only [obsCovariance, transpose_apply, of_apply]
  rw [hsym]
  by_cases h : i = j
  · subst h; rfl
  · simp [h, Ne.symm h]

theorem covMat_transpose (g : Gp X) (hsym : ∀ x y, g.cov x y = g.cov y x) {m k : Type} (xs : m → X) (ys : k → X) :
    (g.covMat xs ys)ᵀ = g.covMat ys xs := by
  ext i j; simp [Gp.covMat, hsym (xs j)]

theorem fit_fitOf (g : Gp X) (hsym : ∀ x y, g.cov x y = g.cov y x) (ldlt : Matrix n n ℝ → Ldlt n) (xs : n → X)
    (t : Marginal n) (hF : (ldlt (obsCovariance g xs t.variance)).Factors (obsCovariance g xs t.variance))
    (hA : IsUnit (obsCovariance g xs t.variance).det) :
    FitOf (g.fit ldlt xs t) (obsCovariance g xs t.variance) (fun i => t.mean i - g.mean (g.asMeas (xs i))) := by
  have hr := hF.represents hA
  refine ⟨obsCovariance_symm g hsym xs _, ?_, ?_⟩
  · simp only [Gp.fit, gpFitFrom, ← obsCovariance_eq]; exact hr
  · simp only [Gp.fit, gpFitFrom, ← obsCovariance_eq]
    rw [hr.solveVec]; rfl

theorem predictJoint_of_fitOf (g : Gp X) (hsym : ∀ x y, g.cov x y = g.cov y x) {f : GpFit X n}
    {A : Matrix n n ℝ} {z : n → ℝ} (h : FitOf f A z) (xs : q → X) :
    g.predictJoint f xs =
      ⟨fun j => g.mean (xs j) + ((g.covMat xs f.features * A⁻¹) *ᵥ z) j,
        g.covMat xs xs - g.covMat xs f.features * A⁻¹ * g.covMat f.features xs⟩ := by
  simp only [Gp.predictJoint, gpJointPrediction, h.solver.2, covMat_transpose g hsym, Matrix.mul_assoc,
    gpMeanPrediction, h.information, mulVec_mulVec, add_comm]
  rfl

theorem isConditional_of_fitOf [Fintype q] (g : Gp X) (hsym : ∀ x y, g.cov x y = g.cov y x)
    {f : GpFit X n} {A : Matrix n n ℝ} {y m : n → ℝ} (h : FitOf f A (fun i => y i - m i)) (xs : q → X) :
    IsGaussianConditional (fun j => g.mean (xs j)) m (g.covMat xs xs) (g.covMat xs f.features) A y
      (g.predictJoint f xs).mean (g.predictJoint f xs).covariance := by
  rw [predictJoint_of_fitOf g hsym h]
  refine (isGaussianConditional_iff h.symm h.solver.1).2 ⟨?_, ?_⟩
  · funext j; rfl
  · rw [covMat_transpose g hsym]

/-! ## C27 -/

/-- C27: the joint prediction of a fitted model is the conditional distribution of the process at `xs`
given the targets. -/
theorem C27_prediction_is_conditional [Fintype q] (g : Gp X) (hsym : ∀ x y, g.cov x y = g.cov y x)
    (ldlt : Matrix n n ℝ → Ldlt n) (train : n → X) (t : Marginal n)
    (hF : (ldlt (obsCovariance g train t.variance)).Factors (obsCovariance g train t.variance))
    (hA : IsUnit (obsCovariance g train t.variance).det) (xs : q → X) :
    IsGaussianConditional (fun j => g.mean (xs j)) (fun i => g.mean (g.asMeas (train i)))
      (of fun j j' => g.cov (xs j) (xs j')) (of fun j i => g.cov (xs j) (train i))
      (obsCovariance g train t.variance) t.mean
      (g.predictJoint (g.fit ldlt train t) xs).mean
      (g.predictJoint (g.fit ldlt train t) xs).covariance :=
  isConditional_of_fitOf g hsym (f := g.fit ldlt train t) (y := t.mean)
    (m := fun i => g.mean (g.asMeas (train i))) (fit_fitOf g hsym ldlt train t hF hA) xs

/-- C27: the formulas `m(x*) + k*ᵀ (K+R)⁻¹ (y - m)` and `k** - k*ᵀ (K+R)⁻¹ k*`. -/
theorem C27_prediction_formulas (g : Gp X) (hsym : ∀ x y, g.cov x y = g.cov y x)
    (ldlt : Matrix n n ℝ → Ldlt n) (train : n → X) (t : Marginal n)
    (hF : (ldlt (obsCovariance g train t.variance)).Factors (obsCovariance g train t.variance))
    (hA : IsUnit (obsCovariance g train t.variance).det) (xs : q → X) :
    let ks : Matrix n q ℝ := of fun i j => g.cov (train i) (xs j)
    let KR := obsCovariance g train t.variance
    (∀ j, (g.predictJoint (g.fit ldlt train t) xs).mean j = g.mean (xs j) +
      (ksᵀ *ᵥ (KR⁻¹ *ᵥ fun i => t.mean i - g.mean (g.asMeas (train i)))) j) ∧
    (g.predictJoint (g.fit ldlt train t) xs).covariance =
      (of fun j j' => g.cov (xs j) (xs j')) - ksᵀ * KR⁻¹ * ks := by
  intro ks KR
  rw [predictJoint_of_fitOf g hsym (fit_fitOf g hsym ldlt train t hF hA)]
  have : ksᵀ = g.covMat xs train := covMat_transpose g hsym train xs
  rw [this]
  refine ⟨fun j => ?_, rfl⟩
  rw [mulVec_mulVec]
  rfl

/-- C27: for every fit whatsoever, all forms of prediction have the same mean and the marginal
variances are the diagonal of the joint covariance. -/
theorem C27_forms_agree (g : Gp X) (f : GpFit X n) (xs : q → X) :
    (g.predictMarginal f xs).mean = (g.predictJoint f xs).mean ∧
    g.predictMean f xs = (g.predictJoint f xs).mean ∧
    ∀ j, (g.predictMarginal f xs).variance j = (g.predictJoint f xs).covariance j j := by
  refine ⟨rfl, rfl, fun j => ?_⟩
  simp only [Gp.predictMarginal, gpMarginalPrediction, Gp.predictJoint, gpJointPrediction, Pi.sub_apply,
    Matrix.sub_apply, Matrix.mul_apply, transpose_apply]
  congr 1
  exact Finset.sum_congr rfl fun i _ => mul_comm _ _

/-- C27: predictions depend pointwise on the prediction features: predicting a sub-collection (in any
order, with repetitions) gives the corresponding entries. -/
theorem C27_prediction_pointwise (g : Gp X) (hsym : ∀ x y, g.cov x y = g.cov y x) (f : GpFit X n)
    {A : Matrix n n ℝ} {z : n → ℝ} (h : FitOf f A z) (xs : q → X) {r : Type} (sel : r → q) :
    g.predictJoint f (fun k => xs (sel k)) =
      ⟨fun k => (g.predictJoint f xs).mean (sel k),
        (g.predictJoint f xs).covariance.submatrix sel sel⟩ := by
  rw [predictJoint_of_fitOf g hsym h, predictJoint_of_fitOf g hsym h]
  congr 1

theorem IsPSD.matrix_fintype {k : X → X → ℝ} (h : IsPSD k) (x : q → X) [Fintype q] :
    (of fun i j => k (x i) (x j) : Matrix q q ℝ).PosSemidef := by
  have := h.matrix (Fintype.card q) (fun i => x ((Fintype.equivFin q).symm i))
  have h2 := this.submatrix (Fintype.equivFin q)
  have h3 : ((of fun i j => k (x ((Fintype.equivFin q).symm i)) (x ((Fintype.equivFin q).symm j)) :
      Matrix (Fin (Fintype.card q)) _ ℝ).submatrix (Fintype.equivFin q) (Fintype.equivFin q)) =
      (of fun i j => k (x i) (x j) : Matrix q q ℝ) := by
    ext i j; simp
  rwa [h3] at h2

/-- Schur complements of positive semi-definite block matrices. -/
theorem posterior_psd {A : Matrix n n ℝ} {B : Matrix n p ℝ} {C : Matrix p p ℝ} {A' : Matrix n n ℝ}
    (h : (fromBlocks A' B Bᵀ C).PosSemidef) (hAA : (A - A').PosSemidef) (hA : A.PosDef) :
    (C - Bᵀ * A⁻¹ * B).PosSemidef ∧ (C - (C - Bᵀ * A⁻¹ * B)).PosSemidef := by
  have hAu : IsUnit A.det := (Matrix.isUnit_iff_isUnit_det _).1 hA.isUnit
  let := Matrix.invertibleOfIsUnitDet A hAu
  constructor
  · have h2 : (fromBlocks A B Bᵀ C).PosSemidef := by
      have h3 : fromBlocks A B Bᵀ C = fromBlocks A' B Bᵀ C + fromBlocks (A - A') 0 0 0 := by
        rw [fromBlocks_add]; simp
      rw [h3]
      refine h.add ?_
      have h4 := hAA.conjTranspose_mul_mul_same (fromCols (1 : Matrix n n ℝ) (0 : Matrix n p ℝ))
      convert h4 using 1
      ext i j
      rcases i with i | i <;> rcases j with j | j <;>
        simp [Matrix.mul_apply, fromCols, Matrix.one_apply]
    have := (PosDef.fromBlocks₁₁ B C hA).1 (by rw [conjTranspose_eq_transpose_of_trivial]; exact h2)
    rwa [conjTranspose_eq_transpose_of_trivial] at this
  · rw [sub_sub_cancel]
    have := hA.inv.posSemidef.conjTranspose_mul_mul_same B
    rwa [conjTranspose_eq_transpose_of_trivial] at this

/-- C27: the joint covariance is positive semi-definite and never exceeds the prior covariance, for
every positive semi-definite kernel whose measurement wrapper adds positive semi-definite noise, and
non-negative target variances (with an invertible total). -/
theorem C27_covariance_psd [Fintype q] (g : Gp X) (hk : IsPSD g.cov) (noise : X → X → ℝ) (hnoise : IsPSD noise)
    (ldlt : Matrix n n ℝ → Ldlt n) (train : n → X)
    (hmeas : ∀ i j, g.cov (g.asMeas (train i)) (g.asMeas (train j)) =
      g.cov (train i) (train j) + noise (train i) (train j))
    (t : Marginal n) (hv : ∀ i, 0 ≤ t.variance i)
    (hF : (ldlt (obsCovariance g train t.variance)).Factors (obsCovariance g train t.variance))
    (hA : IsUnit (obsCovariance g train t.variance).det) (xs : q → X) :
    (g.predictJoint (g.fit ldlt train t) xs).covariance.PosSemidef ∧
    ((of fun j j' => g.cov (xs j) (xs j')) -
      (g.predictJoint (g.fit ldlt train t) xs).covariance).PosSemidef := by
  classical
  have hsym : ∀ x y, g.cov x y = g.cov y x := hk.1
  have hdiff : (obsCovariance g train t.variance - g.covMat train train).PosSemidef := by
    have : obsCovariance g train t.variance - g.covMat train train =
        (of fun i j => noise (train i) (train j)) + diagonal t.variance := by
      ext i j
      simp only [obsCovariance, Gp.covMat, Matrix.sub_apply, of_apply, hmeas, Matrix.add_apply, diagonal_apply]
      ring
    rw [this]
    exact (hnoise.matrix_fintype train).add (Matrix.PosSemidef.diagonal hv)
  have hK : (g.covMat train train).PosSemidef := hk.matrix_fintype train
  have hApsd : (obsCovariance g train t.variance).PosSemidef := by
    have := hK.add hdiff
    rwa [add_sub_cancel] at this
  have hApd : (obsCovariance g train t.variance).PosDef :=
    hApsd.posDef_iff_isUnit.2 ((Matrix.isUnit_iff_isUnit_det _).2 hA)
  have hjoint : (fromBlocks (g.covMat train train) (g.covMat train xs) (g.covMat train xs)ᵀ
      (g.covMat xs xs)).PosSemidef := by
    have := hk.matrix_fintype (Sum.elim train xs)
    convert this using 1
    ext i j
    rcases i with i | i <;> rcases j with j | j <;> simp [Gp.covMat, hsym]
  have := posterior_psd hjoint hdiff hApd
  rw [(C27_prediction_formulas g hsym ldlt train t hF hA xs).2]
  exact this

/-- White noise. -/
theorem IsPSD.delta : IsPSD (fun x y : ℝ => if x = y then (1 : ℝ) else 0) := by
  refine ⟨fun x y => by simp [eq_comm], fun n x w => ?_⟩
  classical
  have : ∑ i, ∑ j, w i * w j * (if x i = x j then (1 : ℝ) else 0) =
      ∑ c ∈ Finset.univ.image x, (∑ i with x i = c, w i) ^ 2 := by
    have e : ∀ i, ∑ j, w i * w j * (if x i = x j then (1 : ℝ) else 0) =
        w i * ∑ j with x j = x i, w j := by
      intro i
      rw [Finset.sum_filter, Finset.mul_sum]
      refine Finset.sum_congr rfl fun j _ => ?_
      by_cases h : x i = x j
      · simp [h]
      · simp [h, Ne.symm h]
    rw [Finset.sum_congr rfl fun i _ => e i]
    rw [← Finset.sum_fiberwise_of_maps_to (g := x) (t := Finset.univ.image x)
      (fun i _ => Finset.mem_image_of_mem x (Finset.mem_univ i))]
    refine Finset.sum_congr rfl fun c _ => ?_
    rw [sq, Finset.sum_mul]
    refine Finset.sum_congr rfl fun i hi => ?_
    rw [(Finset.mem_filter.1 hi).2]
  rw [this]
  exact Finset.sum_nonneg fun _ _ => sq_nonneg _

/-- A model used in the examples: features are positions on the line, measured or not; the covariance
is a constant plus unit measurement noise at equal positions; the mean is the position. -/
noncomputable def demoGp : Gp (Bool × ℝ) where
  cov x y := 1 + if x.1 ∧ y.1 ∧ x.2 = y.2 then 1 else 0
  mean x := x.2
  asMeas x := (true, x.2)

theorem demoGp_psd : IsPSD demoGp.cov := by
  have h1 : IsPSD (fun _ _ : Bool × ℝ => (1 : ℝ)) := IsPSD.const zero_le_one
  have h2 : IsPSD (fun x y : Bool × ℝ => if x.1 ∧ y.1 ∧ x.2 = y.2 then (1 : ℝ) else 0) := by
    have h4 := (IsPSD.rank_one (fun x : Bool × ℝ => if x.1 then (1 : ℝ) else 0)).mul
      (IsPSD.delta.comp (fun x : Bool × ℝ => x.2))
    convert h4 using 3 with x y
    by_cases hx : x.1 <;> by_cases hy : y.1 <;> simp [hx, hy]
  exact h1.add h2

/-- The hypotheses of C27 are met: two measured positions, one with additional target variance. -/
example : ∃ (ldlt : Matrix (Fin 2) (Fin 2) ℝ → Ldlt (Fin 2)) (train : Fin 2 → Bool × ℝ)
    (t : Marginal (Fin 2)) (noise : Bool × ℝ → Bool × ℝ → ℝ),
    IsPSD demoGp.cov ∧ IsPSD noise ∧
    (∀ i j, demoGp.cov (demoGp.asMeas (train i)) (demoGp.asMeas (train j)) =
      demoGp.cov (train i) (train j) + noise (train i) (train j)) ∧
    (∀ i, 0 ≤ t.variance i) ∧ t.variance 1 = 1 ∧ t.mean 0 ≠ demoGp.mean (train 0) ∧
    (ldlt (obsCovariance demoGp train t.variance)).Factors (obsCovariance demoGp train t.variance) ∧
    IsUnit (obsCovariance demoGp train t.variance).det := by
  let train : Fin 2 → Bool × ℝ := ![(false, 0), (false, 1)]
  let t : Marginal (Fin 2) := ⟨![3, 4], ![0, 1]⟩
  have hO : obsCovariance demoGp train t.variance = !![2, 1; 1, 3] := by
    ext i j
    fin_cases i <;> fin_cases j <;> norm_num [obsCovariance, demoGp, train, t]
  have hpd : (!![2, 1; 1, 3] : Matrix (Fin 2) (Fin 2) ℝ).PosDef := by
    refine PosDef.of_dotProduct_mulVec_pos ?_ ?_
    · ext i j; fin_cases i <;> fin_cases j <;> simp
    · intro x hx
      simp [dotProduct, mulVec, Fin.sum_univ_two]
      by_contra hc
      apply hx
      have h1 := sq_nonneg (x 0 + x 1)
      have h2 := sq_nonneg (x 0)
      have h3 := sq_nonneg (x 1)
      have h4 : x 0 = 0 := by nlinarith
      have h5 : x 1 = 0 := by nlinarith
      funext i; fin_cases i <;> simpa
  obtain ⟨F, hF⟩ := C32_decomposition_exists hpd
  have hnoise : IsPSD (fun x y : Bool × ℝ => if x.2 = y.2 then (1 : ℝ) else 0) :=
    IsPSD.delta.comp fun x : Bool × ℝ => x.2
  refine ⟨fun _ => F, train, t, _, demoGp_psd, hnoise, ?_, ?_, rfl, ?_, ?_, ?_⟩
  · intro i j
    fin_cases i <;> fin_cases j <;> norm_num [demoGp, train]
  · intro i; fin_cases i <;> norm_num [t]
  · norm_num [t, demoGp, train]
  · rw [hO]; exact hF
  · rw [hO]; exact (Matrix.isUnit_iff_isUnit_det _).1 hpd.isUnit

/-! ## C28 -/

/-- Covariance of the observations after an update, as the code builds it: the update features enter
without the measurement wrapper. -/
def updateCovariance (g : Gp X) (A : Matrix n n ℝ) (train : n → X) (u : p → X) (v : p → ℝ) :
    Matrix (n ⊕ p) (n ⊕ p) ℝ :=
  of fun i j => match i, j with
    | .inl i, .inl j => A i j
    | .inl i, .inr j => g.cov (train i) (u j)
    | .inr i, .inl j => g.cov (u i) (train j)
    | .inr i, .inr j => g.cov (u i) (u j) + if i = j then v i else 0

theorem updateCovariance_eq (g : Gp X) (hsym : ∀ x y, g.cov x y = g.cov y x) (A : Matrix n n ℝ) (train : n → X)
    (u : p → X) (v : p → ℝ) : updateCovariance g A train u v =
      fromBlocks A (g.covMat train u) (g.covMat train u)ᵀ (g.covMat u u + diagonal v) := by
  ext i j
  rcases i with i | i <;> rcases j with j | j <;>
    simp [updateCovariance, Gp.covMat, diagonal_apply, hsym (train _)]

theorem update_fitOf (g : Gp X) (hsym : ∀ x y, g.cov x y = g.cov y x) {f : GpFit X n} {A : Matrix n n ℝ}
    {z : n → ℝ} (h : FitOf f A z) (ldlt : Matrix p p ℝ → Ldlt p) (u : p → X) (t : Marginal p)
    (hF : (ldlt ((g.predictJoint f u).covariance + diagonal t.variance)).Factors
      ((g.predictJoint f u).covariance + diagonal t.variance))
    (hS : IsUnit ((g.predictJoint f u).covariance + diagonal t.variance).det) :
    FitOf (g.update ldlt f u t) (updateCovariance g A f.features u t.variance)
      (Sum.elim z fun i => t.mean i - g.mean (u i)) := by
  set B := g.covMat f.features u with hB
  set C := g.covMat u u + diagonal t.variance with hC
  have hBt : Bᵀ = g.covMat u f.features := covMat_transpose g hsym _ _
  have hSeq : (g.predictJoint f u).covariance + diagonal t.variance = C - Bᵀ * A⁻¹ * B := by
    rw [predictJoint_of_fitOf g hsym h, hBt, hC]; simp only [← hB]; abel
  rw [hSeq] at hF hS
  have hM := updateCovariance_eq g hsym A f.features u t.variance
  rw [← hB, ← hC] at hM
  have hrep := BlockSymmetric.ofSchur_represents h.symm h.solver hF hS
  have hinfo : (g.update ldlt f u t).information =
      Sum.elim (A⁻¹ *ᵥ z - (A⁻¹ * B) *ᵥ ((C - Bᵀ * A⁻¹ * B)⁻¹ *ᵥ (t.mean - (g.predictJoint f u).mean)))
        ((C - Bᵀ * A⁻¹ * B)⁻¹ *ᵥ (t.mean - (g.predictJoint f u).mean)) := by
    simp only [Gp.update, hSeq, (hF.represents hS).solveVec, BlockSymmetric.ofSchur, h.solver.2, ← hB,
      h.information]
  rw [hM]
  refine ⟨?_, ?_, ?_⟩
  · rw [fromBlocks_transpose, h.symm, transpose_transpose]
    congr 1
    rw [hC, transpose_add, diagonal_transpose, covMat_transpose g hsym]
  · simp only [Gp.update, hSeq, ← hB]; exact hrep
  · rw [hinfo]
    set s := (C - Bᵀ * A⁻¹ * B)⁻¹ *ᵥ (t.mean - (g.predictJoint f u).mean) with hs
    have hSs : (C - Bᵀ * A⁻¹ * B) *ᵥ s = t.mean - (g.predictJoint f u).mean := by
      rw [hs, mulVec_mulVec, Matrix.mul_nonsing_inv _ hS, one_mulVec]
    have hmean : (g.predictJoint f u).mean = (fun i => g.mean (u i)) + (Bᵀ * A⁻¹) *ᵥ z := by
      rw [predictJoint_of_fitOf g hsym h, hBt]; rfl
    have key : fromBlocks A B Bᵀ C *ᵥ Sum.elim (A⁻¹ *ᵥ z - (A⁻¹ * B) *ᵥ s) s =
        Sum.elim z fun i => t.mean i - g.mean (u i) := by
      rw [fromBlocks_mulVec]
      simp only [Sum.elim_comp_inl, Sum.elim_comp_inr]
      congr 1
      · rw [mulVec_sub, mulVec_mulVec, mulVec_mulVec, ← Matrix.mul_assoc,
          Matrix.mul_nonsing_inv _ h.solver.1, one_mulVec, Matrix.one_mul]
        abel
      · rw [mulVec_sub, mulVec_mulVec, mulVec_mulVec]
        have hCs : C *ᵥ s = t.mean - (g.predictJoint f u).mean + (Bᵀ * (A⁻¹ * B)) *ᵥ s := by
          rw [← hSs, ← add_mulVec, Matrix.mul_assoc]; congr 1; abel
        rw [hCs, hmean]
        funext i
        simp only [Pi.add_apply, Pi.sub_apply]
        ring
    rw [← key]
    generalize Sum.elim (A⁻¹ *ᵥ z - (A⁻¹ * B) *ᵥ s) s = w
    rw [mulVec_mulVec, Matrix.nonsing_inv_mul _ hrep.1, one_mulVec]

/-- C28, what an update does, for every covariance and every fit (in particular a fit which was already
updated): the predictions afterwards are the Gaussian conditional distribution given the old
observations (with covariance `A`) and the new ones, where the covariance of the new observations is
the covariance function at the update features as given plus the target variances. -/
theorem C28_update_is_conditioning [Fintype q] (g : Gp X) (hsym : ∀ x y, g.cov x y = g.cov y x)
    {f : GpFit X n} {A : Matrix n n ℝ} {y m : n → ℝ} (h : FitOf f A (fun i => y i - m i))
    (ldlt : Matrix p p ℝ → Ldlt p) (u : p → X) (t : Marginal p)
    (hF : (ldlt ((g.predictJoint f u).covariance + diagonal t.variance)).Factors
      ((g.predictJoint f u).covariance + diagonal t.variance))
    (hS : IsUnit ((g.predictJoint f u).covariance + diagonal t.variance).det) (xs : q → X) :
    IsGaussianConditional (fun j => g.mean (xs j)) (Sum.elim m fun i => g.mean (u i))
      (of fun j j' => g.cov (xs j) (xs j'))
      (of fun j i => g.cov (xs j) (Sum.elim f.features u i))
      (updateCovariance g A f.features u t.variance) (Sum.elim y t.mean)
      (g.predictJoint (g.update ldlt f u t) xs).mean
      (g.predictJoint (g.update ldlt f u t) xs).covariance := by
  have h1 := update_fitOf g hsym h ldlt u t hF hS
  have h2 : (Sum.elim (fun i => y i - m i) fun i => t.mean i - g.mean (u i)) =
      fun i => Sum.elim y t.mean i - Sum.elim m (fun i => g.mean (u i)) i := by
    funext i; cases i <;> rfl
  rw [h2] at h1
  exact isConditional_of_fitOf g hsym h1 xs

/-- C28, partial: if the measurement wrapper does not change the covariances and means of the update
features (no `MeasurementOnly` term touches them) updating gives the same predictions as fitting once
on both data sets.  Missing: covariance functions with measurement noise, for which the property is
false (`C28_false`). -/
theorem C28_update_eq_refit_partial (g : Gp X) (hsym : ∀ x y, g.cov x y = g.cov y x)
    (ldltA : Matrix n n ℝ → Ldlt n) (ldltB : Matrix p p ℝ → Ldlt p)
    (ldltAB : Matrix (n ⊕ p) (n ⊕ p) ℝ → Ldlt (n ⊕ p))
    (a : n → X) (b : p → X) (ta : Marginal n) (tb : Marginal p)
    (hcross : ∀ i j, g.cov (g.asMeas (a i)) (g.asMeas (b j)) = g.cov (a i) (b j))
    (hbb : ∀ i j, g.cov (g.asMeas (b i)) (g.asMeas (b j)) = g.cov (b i) (b j))
    (hmean : ∀ j, g.mean (g.asMeas (b j)) = g.mean (b j))
    (hA : (obsCovariance g a ta.variance).PosDef)
    (hAB : (obsCovariance g (Sum.elim a b) (Sum.elim ta.variance tb.variance)).PosDef)
    (hFA : ∀ M : Matrix n n ℝ, M.PosDef → (ldltA M).Factors M)
    (hFB : ∀ M : Matrix p p ℝ, M.PosDef → (ldltB M).Factors M)
    (hFAB : ∀ M : Matrix (n ⊕ p) (n ⊕ p) ℝ, M.PosDef → (ldltAB M).Factors M) (xs : q → X) :
    let both : Marginal (n ⊕ p) := ⟨Sum.elim ta.mean tb.mean, Sum.elim ta.variance tb.variance⟩
    g.predictJoint (g.update ldltB (g.fit ldltA a ta) b tb) xs =
      g.predictJoint (g.fit ldltAB (Sum.elim a b) both) xs := by
  intro both
  have hAu := (Matrix.isUnit_iff_isUnit_det _).1 hA.isUnit
  have hABu := (Matrix.isUnit_iff_isUnit_det _).1 hAB.isUnit
  have hfit := fit_fitOf g hsym ldltA a ta (hFA _ hA) hAu
  have hM : obsCovariance g (Sum.elim a b) (Sum.elim ta.variance tb.variance) =
      updateCovariance g (obsCovariance g a ta.variance) a b tb.variance := by
    ext i j
    rcases i with i | i <;> rcases j with j | j
    · simp [obsCovariance, updateCovariance]
    · simp [obsCovariance, updateCovariance, hcross]
    · simp only [obsCovariance, updateCovariance, of_apply, Sum.elim_inl, Sum.elim_inr]
      rw [hsym, hcross, hsym]; simp
    · simp [obsCovariance, updateCovariance, hbb]
  have hpd := hAB
  rw [hM, updateCovariance_eq g hsym] at hpd
  obtain ⟨-, -, hSu, -⟩ := C31_positive_definite_applies _ _ _ hpd
  have hSpd : (g.covMat b b + diagonal tb.variance -
      (g.covMat a b)ᵀ * (obsCovariance g a ta.variance)⁻¹ * g.covMat a b).PosDef := by
    refine PosSemidef.posDef_iff_isUnit ?_ |>.2 ((Matrix.isUnit_iff_isUnit_det _).2 hSu)
    let := Matrix.invertibleOfIsUnitDet _ hAu
    have := (PosDef.fromBlocks₁₁ (g.covMat a b) (g.covMat b b + diagonal tb.variance) hA).1
      (by rw [conjTranspose_eq_transpose_of_trivial]; exact hpd.posSemidef)
    rwa [conjTranspose_eq_transpose_of_trivial] at this
  have hSeq : (g.predictJoint (g.fit ldltA a ta) b).covariance + diagonal tb.variance =
      g.covMat b b + diagonal tb.variance -
      (g.covMat a b)ᵀ * (obsCovariance g a ta.variance)⁻¹ * g.covMat a b := by
    rw [predictJoint_of_fitOf g hsym hfit, covMat_transpose g hsym]
    change g.covMat b b - g.covMat b a * _ * g.covMat a b + _ = _
    abel
  have hup := update_fitOf g hsym hfit ldltB b tb (by rw [hSeq]; exact hFB _ hSpd) (by rw [hSeq]; exact hSu)
  have href := fit_fitOf g hsym ldltAB (Sum.elim a b) both (hFAB _ hAB) hABu
  rw [predictJoint_of_fitOf g hsym hup, predictJoint_of_fitOf g hsym href]
  have hM' : updateCovariance g (obsCovariance g a ta.variance) (g.fit ldltA a ta).features b tb.variance =
      obsCovariance g (Sum.elim a b) both.variance := hM.symm
  have hfeat : (g.update ldltB (g.fit ldltA a ta) b tb).features = (g.fit ldltAB (Sum.elim a b) both).features := rfl
  have hz : (Sum.elim (fun i => ta.mean i - g.mean (g.asMeas (a i))) fun i => tb.mean i - g.mean (b i)) =
      fun i => both.mean i - g.mean (g.asMeas (Sum.elim a b i)) := by
    funext i
    cases i with
    | inl i => rfl
    | inr i => simp [both, hmean]
  rw [hM', hfeat, hz]

theorem posDef_two {a b c : ℝ} (ha : 0 < a) (hd : b * b < a * c) :
    (!![a, b; b, c] : Matrix (Fin 2) (Fin 2) ℝ).PosDef := by
  refine PosDef.of_dotProduct_mulVec_pos ?_ ?_
  · ext i j; fin_cases i <;> fin_cases j <;> simp
  · intro x hx
    simp only [dotProduct, mulVec, Fin.sum_univ_two, Pi.star_apply, star_trivial, of_apply, cons_val',
      cons_val_zero, cons_val_one, cons_val_fin_one]
    have key : a * (x 0 * (a * x 0 + b * x 1) + x 1 * (b * x 0 + c * x 1)) =
        (a * x 0 + b * x 1) ^ 2 + (a * c - b * b) * x 1 ^ 2 := by ring
    have hpos : 0 < (a * x 0 + b * x 1) ^ 2 + (a * c - b * b) * x 1 ^ 2 := by
      by_cases h1 : x 1 = 0
      · have h0 : x 0 ≠ 0 := by
          intro h0; apply hx; funext i; fin_cases i <;> simpa
        have h2 := mul_ne_zero ha.ne' h0
        simp only [h1, mul_zero, add_zero, ne_eq, OfNat.ofNat_ne_zero, not_false_eq_true, zero_pow]
        positivity
      · have : 0 < a * c - b * b := by linarith
        positivity
    rw [← key] at hpos
    exact (pos_iff_pos_of_mul_pos hpos).1 ha

theorem posDef_sum_two {a b c : ℝ} (ha : 0 < a) (hd : b * b < a * c) :
    (fromBlocks !![a] !![b] !![b] !![c] : Matrix (Fin 1 ⊕ Fin 1) (Fin 1 ⊕ Fin 1) ℝ).PosDef := by
  have := (posDef_two ha hd).submatrix (e := (finSumFinEquiv : Fin 1 ⊕ Fin 1 ≃ Fin 2)) finSumFinEquiv.injective
  convert this using 1
  ext i j
  rcases i with i | i <;> rcases j with j | j <;> fin_cases i <;> fin_cases j <;> simp [finSumFinEquiv]

theorem inv_sum_two {a b c : ℝ} (hd : a * c - b * b ≠ 0) :
    (fromBlocks !![a] !![b] !![b] !![c] : Matrix (Fin 1 ⊕ Fin 1) (Fin 1 ⊕ Fin 1) ℝ)⁻¹ =
      fromBlocks !![c / (a * c - b * b)] !![-b / (a * c - b * b)] !![-b / (a * c - b * b)] !![a / (a * c - b * b)] := by
  apply Matrix.inv_eq_right_inv
  rw [fromBlocks_multiply]
  have e1 : a * (c / (a * c - b * b)) + b * (-b / (a * c - b * b)) = 1 := by
    rw [mul_div_assoc', mul_div_assoc', ← add_div, div_eq_one_iff_eq hd]; ring
  have e2 : a * (-b / (a * c - b * b)) + b * (a / (a * c - b * b)) = 0 := by ring
  have e3 : b * (c / (a * c - b * b)) + c * (-b / (a * c - b * b)) = 0 := by ring
  have e4 : b * (-b / (a * c - b * b)) + c * (a / (a * c - b * b)) = 1 := by
    rw [mul_div_assoc', mul_div_assoc', ← add_div, div_eq_one_iff_eq hd]; ring
  rw [← fromBlocks_one]
  congr 1 <;> ext i j <;> fin_cases i <;> fin_cases j <;> simp [e1, e2, e3, e4]

/-- C28 is false for covariance functions with measurement noise: with a constant signal and unit
measurement noise, updating with one more noiseless-target observation and refitting give different
predicted variances (0 and 1/3). -/
theorem C28_false : ∃ (g : Gp (Bool × ℝ)) (a b xs : Fin 1 → Bool × ℝ) (ta tb : Marginal (Fin 1)),
    IsPSD g.cov ∧ (obsCovariance g a ta.variance).PosDef ∧
    (obsCovariance g (Sum.elim a b) (Sum.elim ta.variance tb.variance)).PosDef ∧
    ∀ (ldlt : Matrix (Fin 1) (Fin 1) ℝ → Ldlt (Fin 1))
      (ldltAB : Matrix (Fin 1 ⊕ Fin 1) (Fin 1 ⊕ Fin 1) ℝ → Ldlt (Fin 1 ⊕ Fin 1)),
      (∀ M, M.PosDef → (ldlt M).Factors M) → (∀ M, M.PosDef → (ldltAB M).Factors M) →
      (g.predictMarginal (g.update ldlt (g.fit ldlt a ta) b tb) xs).variance 0 = 0 ∧
      (g.predictMarginal (g.fit ldltAB (Sum.elim a b)
        ⟨Sum.elim ta.mean tb.mean, Sum.elim ta.variance tb.variance⟩) xs).variance 0 = 1 / 3 := by
  let a : Fin 1 → Bool × ℝ := fun _ => (false, 0)
  let b : Fin 1 → Bool × ℝ := fun _ => (false, 1)
  let xs : Fin 1 → Bool × ℝ := fun _ => (false, 5)
  let t : Marginal (Fin 1) := ⟨fun _ => 0, fun _ => 0⟩
  have hsym := demoGp_psd.1
  have hA : obsCovariance demoGp a t.variance = !![2] := by
    ext i j; fin_cases i; fin_cases j; norm_num [obsCovariance, demoGp, a, t]
  have hAB : obsCovariance demoGp (Sum.elim a b) (Sum.elim t.variance t.variance) =
      fromBlocks !![2] !![1] !![1] !![2] := by
    ext i j
    rcases i with i | i <;> rcases j with j | j <;> fin_cases i <;> fin_cases j <;>
      norm_num [obsCovariance, demoGp, a, b, t]
  have hA1 : (!![2] : Matrix (Fin 1) (Fin 1) ℝ).PosDef := by
    have := Matrix.PosDef.diagonal (d := fun _ : Fin 1 => (2 : ℝ)) (fun _ => by norm_num)
    convert this using 1
    ext i j; fin_cases i; fin_cases j; rfl
  refine ⟨demoGp, a, b, xs, t, t, demoGp_psd, by rw [hA]; exact hA1,
    by rw [hAB]; exact posDef_sum_two (by norm_num) (by norm_num), ?_⟩
  intro ldlt ldltAB hl hlAB
  have hfit := fit_fitOf demoGp hsym ldlt a t (by rw [hA]; exact hl _ hA1)
    (by rw [hA]; norm_num)
  rw [hA] at hfit
  have hinv2 : (!![2] : Matrix (Fin 1) (Fin 1) ℝ)⁻¹ = !![1 / 2] := by
    apply Matrix.inv_eq_right_inv; ext i j; fin_cases i; fin_cases j; simp
  have hS : (demoGp.predictJoint (demoGp.fit ldlt a t) b).covariance + diagonal t.variance = !![1 / 2] := by
    rw [predictJoint_of_fitOf demoGp hsym hfit, hinv2]
    ext i j; fin_cases i; fin_cases j
    norm_num [Gp.covMat, Matrix.mul_apply, demoGp, Gp.fit, gpFitFrom, a, b, t]
  have hS1 : (!![1 / 2] : Matrix (Fin 1) (Fin 1) ℝ).PosDef := by
    have := Matrix.PosDef.diagonal (d := fun _ : Fin 1 => (1 / 2 : ℝ)) (fun _ => by norm_num)
    convert this using 1
    ext i j; fin_cases i; fin_cases j; rfl
  have hup := update_fitOf demoGp hsym hfit ldlt b t (by rw [hS]; exact hl _ hS1) (by rw [hS]; norm_num)
  have hUM : updateCovariance demoGp !![2] (demoGp.fit ldlt a t).features b t.variance =
      fromBlocks !![2] !![1] !![1] !![1] := by
    ext i j
    rcases i with i | i <;> rcases j with j | j <;> fin_cases i <;> fin_cases j <;>
      norm_num [updateCovariance, demoGp, Gp.fit, gpFitFrom, a, b, t]
  have href := fit_fitOf demoGp hsym ldltAB (Sum.elim a b)
    ⟨Sum.elim t.mean t.mean, Sum.elim t.variance t.variance⟩
    (by simp only [hAB]; exact hlAB _ (posDef_sum_two (by norm_num) (by norm_num)))
    (by simp only [hAB]; exact (Matrix.isUnit_iff_isUnit_det _).1 (posDef_sum_two (by norm_num) (by norm_num)).isUnit)
  simp only [hAB] at href
  rw [hUM] at hup
  rw [(C27_forms_agree demoGp _ xs).2.2, (C27_forms_agree demoGp _ xs).2.2,
    predictJoint_of_fitOf demoGp hsym hup, predictJoint_of_fitOf demoGp hsym href,
    inv_sum_two (by norm_num), inv_sum_two (by norm_num)]
  constructor
  · norm_num [Gp.covMat, Matrix.mul_apply, demoGp, Gp.update, Gp.fit, gpFitFrom, a, b, t, xs, Fintype.sum_sum_type]
  · norm_num [Gp.covMat, Matrix.mul_apply, demoGp, Gp.update, Gp.fit, gpFitFrom, a, b, t, xs, Fintype.sum_sum_type]

/-- The hypotheses of `C28_update_eq_refit_partial` are met: measured positions of the demonstration
model, updated with a different measured position. -/
example : ∃ (ldlt : Matrix (Fin 1) (Fin 1) ℝ → Ldlt (Fin 1))
    (ldltAB : Matrix (Fin 1 ⊕ Fin 1) (Fin 1 ⊕ Fin 1) ℝ → Ldlt (Fin 1 ⊕ Fin 1))
    (a b : Fin 1 → Bool × ℝ) (ta tb : Marginal (Fin 1)),
    (∀ i j, demoGp.cov (demoGp.asMeas (a i)) (demoGp.asMeas (b j)) = demoGp.cov (a i) (b j)) ∧
    (∀ i j, demoGp.cov (demoGp.asMeas (b i)) (demoGp.asMeas (b j)) = demoGp.cov (b i) (b j)) ∧
    (∀ j, demoGp.mean (demoGp.asMeas (b j)) = demoGp.mean (b j)) ∧
    (obsCovariance demoGp a ta.variance).PosDef ∧
    (obsCovariance demoGp (Sum.elim a b) (Sum.elim ta.variance tb.variance)).PosDef ∧
    (∀ M, M.PosDef → (ldlt M).Factors M) ∧ (∀ M, M.PosDef → (ldltAB M).Factors M) := by
  obtain ⟨ldlt, hl⟩ := exists_ldlt (Fin 1)
  obtain ⟨ldltAB, hlAB⟩ := exists_ldlt (Fin 1 ⊕ Fin 1)
  refine ⟨ldlt, ldltAB, fun _ => (true, 0), fun _ => (true, 1), ⟨fun _ => 1, fun _ => 1⟩,
    ⟨fun _ => 2, fun _ => 0⟩, ?_, ?_, ?_, ?_, ?_, hl, hlAB⟩
  · intro i j; norm_num [demoGp]
  · intro i j; norm_num [demoGp]
  · intro j; norm_num [demoGp]
  · have := Matrix.PosDef.diagonal (d := fun _ : Fin 1 => (3 : ℝ)) (fun _ => by norm_num)
    convert this using 1
    ext i j; fin_cases i; fin_cases j; norm_num [obsCovariance, demoGp]
  · have := posDef_sum_two (a := 3) (b := 1) (c := 2) (by norm_num) (by norm_num)
    convert this using 1
    ext i j
    rcases i with i | i <;> rcases j with j | j <;> fin_cases i <;> fin_cases j <;>
      simp [obsCovariance, demoGp] <;> norm_num

/-! ## C29 -/

/-- C29: the joint prediction, at the same features, of the model rebuilt from a prediction is that
prediction. -/
theorem C29_round_trip (g : Gp X) (hsym : ∀ x y, g.cov x y = g.cov y x) (ldlt : Matrix n n ℝ → Ldlt n)
    (u : n → X) (hF : (ldlt (of fun i j => g.cov (u i) (u j))).Factors (of fun i j => g.cov (u i) (u j)))
    (hK : IsUnit (of fun i j => g.cov (u i) (u j) : Matrix n n ℝ).det) (pred : Joint n) :
    g.predictJoint (g.fitFromPrediction ldlt u pred) u = pred := by
  have hr := hF.represents hK
  have hK' : (of fun i j => g.cov (u i) (u j) : Matrix n n ℝ) = g.covMat u u := rfl
  rw [hK'] at hr hK
  obtain ⟨m, P⟩ := pred
  have hsolve : ∀ B : Matrix n n ℝ, (ldlt (g.covMat u u)).solve B = (g.covMat u u)⁻¹ * B := fun B => hr.2 _ B
  have hKt := covMat_transpose g hsym u u
  simp only [Gp.predictJoint, gpJointPrediction, Gp.fitFromPrediction, gpFitFromPrediction,
    ExplainedCovariance.solver, ExplainedCovariance.solve, hsolve, gpMeanPrediction, hKt, hr.solveVec]
  congr 1
  · rw [mulVec_mulVec, Matrix.mul_nonsing_inv _ hK, one_mulVec]
    funext i; simp [Gp.addTo, Gp.removeFrom]
  · rw [Matrix.nonsing_inv_mul _ hK, Matrix.mul_one, Matrix.mul_nonsing_inv_cancel_left _ _ hK, sub_sub_cancel]

/-- C29, elsewhere: at other features the rebuilt model predicts by regressing on the process at `u`
and integrating over its given distribution: with `W = k(x*, u) K⁻¹` the mean is `m(x*) + W (μ - m(u))`
and the covariance the prior conditional covariance plus `W P Wᵀ`. -/
theorem C29_elsewhere (g : Gp X) (hsym : ∀ x y, g.cov x y = g.cov y x) (ldlt : Matrix n n ℝ → Ldlt n)
    (u : n → X) (hF : (ldlt (of fun i j => g.cov (u i) (u j))).Factors (of fun i j => g.cov (u i) (u j)))
    (hK : IsUnit (of fun i j => g.cov (u i) (u j) : Matrix n n ℝ).det) (pred : Joint n) (xs : q → X) :
    let W : Matrix q n ℝ := (of fun j i => g.cov (xs j) (u i)) * (of fun i j => g.cov (u i) (u j))⁻¹
    g.predictJoint (g.fitFromPrediction ldlt u pred) xs =
      ⟨fun j => g.mean (xs j) + (W *ᵥ fun i => pred.mean i - g.mean (u i)) j,
        (of fun j j' => g.cov (xs j) (xs j')) - W * (of fun i j => g.cov (u i) (xs j)) +
          W * pred.covariance * Wᵀ⟩ := by
  intro W
  have hr := hF.represents hK
  have hK' : (of fun i j => g.cov (u i) (u j) : Matrix n n ℝ) = g.covMat u u := rfl
  rw [hK'] at hr hK
  obtain ⟨m, P⟩ := pred
  have hsolve : ∀ (r : Type) (B : Matrix n r ℝ), (ldlt (g.covMat u u)).solve B = (g.covMat u u)⁻¹ * B := hr.2
  have hKt := covMat_transpose g hsym u u
  have hW : W = g.covMat xs u * (g.covMat u u)⁻¹ := rfl
  have hWt : Wᵀ = (g.covMat u u)⁻¹ * g.covMat u xs := by
    rw [hW, transpose_mul, transpose_nonsing_inv, hKt, covMat_transpose g hsym]
  simp only [Gp.predictJoint, gpJointPrediction, Gp.fitFromPrediction, gpFitFromPrediction,
    ExplainedCovariance.solver, ExplainedCovariance.solve, hsolve, gpMeanPrediction, hr.solveVec,
    covMat_transpose g hsym u xs]
  congr 1
  · rw [mulVec_mulVec, ← hW]
    funext j; simp only [Gp.addTo]; rw [add_comm]; rfl
  · rw [hWt]
    change g.covMat xs xs - _ = g.covMat xs xs - W * g.covMat u xs + _
    have : g.covMat xs u * ((g.covMat u u)⁻¹ * ((g.covMat u u - P) * ((g.covMat u u)⁻¹ * g.covMat u xs))) =
        W * g.covMat u xs - W * P * ((g.covMat u u)⁻¹ * g.covMat u xs) := by
      rw [Matrix.sub_mul, Matrix.mul_sub, Matrix.mul_sub, Matrix.mul_nonsing_inv_cancel_left _ _ hK, hW]
      simp only [Matrix.mul_assoc]
    rw [this]; abel

/-- The hypotheses of C29 are met: measured positions of the demonstration model. -/
example : ∃ (ldlt : Matrix (Fin 2) (Fin 2) ℝ → Ldlt (Fin 2)) (u : Fin 2 → Bool × ℝ),
    (ldlt (of fun i j => demoGp.cov (u i) (u j))).Factors (of fun i j => demoGp.cov (u i) (u j)) ∧
    IsUnit (of fun i j => demoGp.cov (u i) (u j) : Matrix (Fin 2) (Fin 2) ℝ).det := by
  obtain ⟨ldlt, hl⟩ := exists_ldlt (Fin 2)
  have hu : (of fun i j => demoGp.cov (![(true, 0), (true, 1)] i) (![(true, 0), (true, 1)] j) :
      Matrix (Fin 2) (Fin 2) ℝ) = !![2, 1; 1, 2] := by
    ext i j; fin_cases i <;> fin_cases j <;> norm_num [demoGp]
  have hpd : (!![2, 1; 1, 2] : Matrix (Fin 2) (Fin 2) ℝ).PosDef := posDef_two (by norm_num) (by norm_num)
  refine ⟨ldlt, ![(true, 0), (true, 1)], ?_, ?_⟩
  · rw [hu]; exact hl _ hpd
  · rw [hu]; exact (Matrix.isUnit_iff_isUnit_det _).1 hpd.isUnit

/-! ## C37, dense models -/

/-- The same covariance with mean function zero. -/
def Gp.centred (g : Gp X) : Gp X := { g with mean := fun _ => 0 }

/-- C37 (dense): fitting and predicting with mean `m` is `m(x*)` plus the zero-mean prediction for
`y - m`; covariances do not depend on the mean function. -/
theorem C37_dense_mean (g : Gp X) (ldlt : Matrix n n ℝ → Ldlt n) (train : n → X) (t : Marginal n) (xs : q → X) :
    let t0 : Marginal n := ⟨fun i => t.mean i - g.mean (g.asMeas (train i)), t.variance⟩
    (∀ j, (g.predictJoint (g.fit ldlt train t) xs).mean j =
      g.mean (xs j) + (g.centred.predictJoint (g.centred.fit ldlt train t0) xs).mean j) ∧
    (g.predictJoint (g.fit ldlt train t) xs).covariance =
      (g.centred.predictJoint (g.centred.fit ldlt train t0) xs).covariance := by
  intro t0
  have hfit : g.centred.fit ldlt train t0 = g.fit ldlt train t := by
    have : g.centred.removeFrom (fun i => g.asMeas (train i)) t0.mean =
        g.removeFrom (fun i => g.asMeas (train i)) t.mean := by
      funext i; simp [Gp.removeFrom, Gp.centred, t0]
    simp only [Gp.fit]
    change gpFitFrom _ _ _ ⟨g.centred.removeFrom (fun i => g.asMeas (train i)) t0.mean, _⟩ = _
    rw [this]; rfl
  rw [hfit]
  refine ⟨fun j => ?_, rfl⟩
  simp [Gp.predictJoint, gpJointPrediction, Gp.addTo, Gp.centred, Gp.covMat, add_comm]

/-- C37 (dense): shifting the mean function and the targets by the same function shifts the predicted
means by it and leaves the covariance alone. -/
theorem C37_dense_shift (g : Gp X) (s : X → ℝ) (ldlt : Matrix n n ℝ → Ldlt n) (train : n → X) (t : Marginal n)
    (xs : q → X) :
    let g' : Gp X := { g with mean := fun x => g.mean x + s x }
    let t' : Marginal n := ⟨fun i => t.mean i + s (g.asMeas (train i)), t.variance⟩
    (∀ j, (g'.predictJoint (g'.fit ldlt train t') xs).mean j =
      (g.predictJoint (g.fit ldlt train t) xs).mean j + s (xs j)) ∧
    (g'.predictJoint (g'.fit ldlt train t') xs).covariance =
      (g.predictJoint (g.fit ldlt train t) xs).covariance := by
  intro g' t'
  have hfit : g'.fit ldlt train t' = g.fit ldlt train t := by
    have : g'.removeFrom (fun i => g.asMeas (train i)) t'.mean =
        g.removeFrom (fun i => g.asMeas (train i)) t.mean := by
      funext i; simp [Gp.removeFrom, g', t']
    simp only [Gp.fit]
    change gpFitFrom _ _ _ ⟨g'.removeFrom (fun i => g.asMeas (train i)) t'.mean, _⟩ = _
    rw [this]; rfl
  rw [hfit]
  refine ⟨fun j => ?_, rfl⟩
  simp [Gp.predictJoint, gpJointPrediction, Gp.addTo, Gp.covMat, g', add_assoc]

/-- C37 (dense): the same for updates and for models built from predictions. -/
theorem C37_dense_shift_update (g : Gp X) (s : X → ℝ) (ldlt : Matrix p p ℝ → Ldlt p) (f : GpFit X n) (u : p → X)
    (t : Marginal p) :
    let g' : Gp X := { g with mean := fun x => g.mean x + s x }
    g'.update ldlt f u ⟨fun i => t.mean i + s (u i), t.variance⟩ = g.update ldlt f u t ∧
    ∀ P : Joint p, g'.fitFromPrediction ldlt u ⟨fun i => P.mean i + s (u i), P.covariance⟩ =
      g.fitFromPrediction ldlt u P := by
  intro g'
  constructor
  · have h1 : (g'.predictJoint f u).covariance = (g.predictJoint f u).covariance := rfl
    have h2 : (fun i => t.mean i + s (u i)) - (g'.predictJoint f u).mean = t.mean - (g.predictJoint f u).mean := by
      funext i
      simp only [Gp.predictJoint, gpJointPrediction, Gp.addTo, Pi.sub_apply, g', Gp.covMat]
      ring
    simp only [Gp.update, h1, h2]
    rfl
  · intro P
    have : g'.removeFrom u (fun i => P.mean i + s (u i)) = g.removeFrom u P.mean := by
      funext i; simp [Gp.removeFrom, g']
    simp only [Gp.fitFromPrediction, this]
    rfl

/-! ## C39 -/

/-- What `log_likelihood` is: the Gaussian log density under the prior covariance of the measurements,
whatever the target variances, plus the parameters' prior. -/
theorem C39_code_value {m : Nat} (g : Gp X) (ldlt : Matrix (Fin m) (Fin m) ℝ → Ldlt (Fin m)) (priorLL : ℝ)
    (xs : Fin m → X) (t : Marginal (Fin m)) (hpd : (obsCovariance g xs 0).PosDef)
    (hF : (ldlt (obsCovariance g xs 0)).Factors (obsCovariance g xs 0)) :
    g.logLikelihood ldlt priorLL xs t =
      gaussianLogPdf (fun i => g.mean (g.asMeas (xs i))) (obsCovariance g xs 0) t.mean + priorLL := by
  have h0 : obsCovariance g xs 0 = g.covMat (fun i => g.asMeas (xs i)) (fun i => g.asMeas (xs i)) := by
    rw [obsCovariance_eq]; simp
  unfold Gp.logLikelihood
  simp only
  rw [← h0, C40_dense ldlt _ hF hpd, neg_neg]
  congr 1
  unfold gaussianLogPdf
  have : g.removeFrom (fun i => g.asMeas (xs i)) t.mean - 0 = t.mean - fun i => g.mean (g.asMeas (xs i)) := by
    funext i; simp [Gp.removeFrom]
  rw [this]

/-- C39, partial: with zero target variances it is the log density under the covariance used for
fitting.  Missing: nonzero variances, for which the property is false (`C39_false`). -/
theorem C39_log_likelihood_partial {m : Nat} (g : Gp X) (ldlt : Matrix (Fin m) (Fin m) ℝ → Ldlt (Fin m))
    (priorLL : ℝ) (xs : Fin m → X) (t : Marginal (Fin m)) (hv : ∀ i, t.variance i = 0)
    (hpd : (obsCovariance g xs t.variance).PosDef)
    (hF : (ldlt (obsCovariance g xs t.variance)).Factors (obsCovariance g xs t.variance)) :
    g.logLikelihood ldlt priorLL xs t =
      gaussianLogPdf (fun i => g.mean (g.asMeas (xs i))) (obsCovariance g xs t.variance) t.mean + priorLL := by
  have : t.variance = 0 := funext hv
  rw [this] at hpd hF ⊢
  exact C39_code_value g ldlt priorLL xs t hpd hF

/-- C39 is false: one observation with unit target variance. -/
theorem C39_false : ∃ (g : Gp (Bool × ℝ)) (xs : Fin 1 → Bool × ℝ) (t : Marginal (Fin 1)),
    IsPSD g.cov ∧ (∀ i, 0 < t.variance i) ∧ (obsCovariance g xs t.variance).PosDef ∧
    ∀ (ldlt : Matrix (Fin 1) (Fin 1) ℝ → Ldlt (Fin 1)), (∀ M, M.PosDef → (ldlt M).Factors M) →
    ∀ priorLL, g.logLikelihood ldlt priorLL xs t ≠
      gaussianLogPdf (fun i => g.mean (g.asMeas (xs i))) (obsCovariance g xs t.variance) t.mean + priorLL := by
  let xs : Fin 1 → Bool × ℝ := fun _ => (false, 0)
  let t : Marginal (Fin 1) := ⟨fun _ => 0, fun _ => 1⟩
  have hA : ∀ v : Fin 1 → ℝ, obsCovariance demoGp xs v = diagonal fun i => 2 + v i := by
    intro v
    ext i j; fin_cases i; fin_cases j; norm_num [obsCovariance, demoGp, xs]
  have hpd : ∀ v : Fin 1 → ℝ, (∀ i, 0 ≤ v i) → (obsCovariance demoGp xs v).PosDef := by
    intro v hv
    rw [hA]; exact Matrix.PosDef.diagonal fun i => by have := hv i; linarith
  refine ⟨demoGp, xs, t, demoGp_psd, fun i => by norm_num [t], hpd _ fun i => by norm_num [t], ?_⟩
  intro ldlt hl priorLL
  rw [C39_code_value demoGp ldlt priorLL xs t (hpd 0 fun _ => le_rfl) (hl _ (hpd 0 fun _ => le_rfl))]
  rw [hA, hA]
  intro h
  have h := add_right_cancel h
  unfold gaussianLogPdf at h
  have hz : (t.mean - fun i => demoGp.mean (demoGp.asMeas (xs i))) = 0 := by
    funext i; simp [t, demoGp, xs]
  rw [hz] at h
  simp only [det_diagonal, mulVec_zero, dotProduct_zero] at h
  norm_num [t] at h
  have h3 : Real.log 2 < Real.log 3 := Real.log_lt_log (by norm_num) (by norm_num)
  linarith

end Albatross
