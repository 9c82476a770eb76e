import Verif.SparseGpLemmas

/-! # Properties C35, C36, C37, C38: the sparse Gaussian process -/

namespace Albatross

open Matrix

variable {X κ : Type} [LinearOrder κ] {n m : Nat}

/-! ## C35 -/

/-- Covariance of the observations under the low rank prior: `Q_ff + blockdiag(K_ff - Q_ff) + R`. -/
noncomputable def sparsePrior (g : SparseGp X κ) (u : Fin m → X) (features : Fin n → X)
    (variance : Fin n → ℝ) : Matrix (Fin n) (Fin n) ℝ :=
  sparseQ g u (fun i => g.gp.asMeas (features i)) (fun i => g.gp.asMeas (features i)) +
    sparseA g u features variance

theorem holds_conditional {p : Type} {g : SparseGp X κ} (hsym : ∀ x y, g.gp.cov x y = g.gp.cov y x)
    {u : Fin m → X} {features : Fin n → X} {targets : Marginal (Fin n)} (hK : (sparseK g u).PosDef)
    (hA : (sparseA g u features targets.variance).PosDef) {f : SparseFit X m}
    (hf : f.Holds g u (sparseK g u + sparseGain g u features targets.variance) (sparseRhs g u features targets))
    (xs : p → X) :
    IsGaussianConditional (fun j => g.gp.mean (xs j)) 0 (g.gp.covMat xs xs)
      (sparseQ g u xs fun i => g.gp.asMeas (features i)) (sparsePrior g u features targets.variance)
      targets.mean (g.predictJoint f xs).mean (g.predictJoint f xs).covariance := by
  have hMu := PosDef.isUnit_det' hf.posDef
  have hKu := PosDef.isUnit_det' hK
  have hAu := PosDef.isUnit_det' hA
  have hKT : ∀ {a b : Type} (xs : a → X) (ys : b → X), (g.gp.covMat xs ys)ᵀ = g.gp.covMat ys xs :=
    fun xs ys => covMat_transpose g.gp hsym xs ys
  rw [hf.predictJoint hsym hK]
  set z := fun i => g.gp.asMeas (features i) with hz
  set K := sparseK g u with hKdef
  set A := sparseA g u features targets.variance with hAdef
  set M := K + sparseGain g u features targets.variance with hM
  set Kxu := g.gp.covMat xs u with hKxu
  set Kuz := g.gp.covMat u z with hKuz
  have hKux : g.gp.covMat u xs = Kxuᵀ := (hKT _ _).symm
  have hKzu : g.gp.covMat z u = Kuzᵀ := (hKT _ _).symm
  have hQxz : sparseQ g u xs z = Kxu * K⁻¹ * Kuz := rfl
  have hQzz : sparseQ g u z z = Kuzᵀ * K⁻¹ * Kuz := by rw [← hKzu]; rfl
  have hQxx : sparseQ g u xs xs = Kxu * K⁻¹ * Kxuᵀ := by rw [← hKux]; rfl
  have hgain : Kuz * (A⁻¹ * Kuzᵀ) = M - K := by rw [hM, ← hKzu, add_sub_cancel_left]; rfl
  have hKs : (K⁻¹)ᵀ = K⁻¹ := by rw [transpose_nonsing_inv, PosDef.transpose_eq' hK]
  have hMs : (M⁻¹)ᵀ = M⁻¹ := by rw [transpose_nonsing_inv, PosDef.transpose_eq' hf.posDef]
  -- weights
  set W := Kxu * M⁻¹ * Kuz * A⁻¹ with hW
  have hWS : W * sparsePrior g u features targets.variance = Kxu * K⁻¹ * Kuz := by
    rw [sparsePrior, ← hz, hQzz, ← hAdef, Matrix.mul_add, hW, Matrix.nonsing_inv_mul_cancel_right _ _ hAu]
    have h1 : Kxu * M⁻¹ * Kuz * A⁻¹ * (Kuzᵀ * K⁻¹ * Kuz) =
        Kxu * M⁻¹ * (Kuz * (A⁻¹ * Kuzᵀ)) * K⁻¹ * Kuz := by simp only [Matrix.mul_assoc]
    rw [h1, hgain, Matrix.mul_sub, Matrix.nonsing_inv_mul_cancel_right _ _ hMu, Matrix.sub_mul,
      Matrix.mul_nonsing_inv_cancel_right _ _ hKu, Matrix.sub_mul, sub_add_cancel]
  refine ⟨W, ?_, ?_, ?_⟩
  · rw [hQxz, hWS, sub_self]
  · funext j
    simp only [Pi.add_apply, sub_zero]
    rw [add_comm, hW, sparseRhs, mulVec_mulVec, mulVec_mulVec, mulVec_mulVec]
  · change g.gp.covMat xs xs - _ + _ = _
    have h2 : sparseQ g u xs z * Wᵀ = W * sparsePrior g u features targets.variance * Wᵀ := by rw [hWS, hQxz]
    have h3 : W * (sparseQ g u xs z)ᵀ = Kxu * K⁻¹ * Kxuᵀ - Kxu * (M⁻¹ * Kxuᵀ) := by
      rw [hQxz, transpose_mul, transpose_mul, hKs, hW]
      have h1 : Kxu * M⁻¹ * Kuz * A⁻¹ * (Kuzᵀ * (K⁻¹ * Kxuᵀ)) =
        Kxu * (M⁻¹ * (Kuz * (A⁻¹ * Kuzᵀ)) * (K⁻¹ * Kxuᵀ)) := by simp only [Matrix.mul_assoc]
      rw [h1, hgain, Matrix.mul_sub, Matrix.nonsing_inv_mul _ hMu, Matrix.sub_mul, Matrix.one_mul,
        Matrix.mul_assoc M⁻¹, Matrix.mul_nonsing_inv_cancel_left _ _ hKu, Matrix.mul_sub, Matrix.mul_assoc]
    rw [h2, h3, hQxx, hKux]
    abel

/-- C35: the sparse model without mean function, fitted with inducing points `u`, predicts exactly the
conditional distribution given the targets, when the observations have prior covariance
`Q_ff + blockdiag(K_ff - Q_ff) + R` and covariance `Q_*f` with the process. -/
theorem C35_prediction_is_conditional {p : Type} (g : SparseGp X κ) (hsym : ∀ x y, g.gp.cov x y = g.gp.cov y x)
    (hmean : ∀ x, g.gp.mean x = 0) (rt : SparseRoutines) (hrt : rt.Meets) (u : Fin m → X)
    (features : Fin n → X) (targets : Marginal (Fin n)) (hK : (sparseK g u).PosDef)
    (hA : (sparseA g u features targets.variance).PosDef) (xs : p → X) :
    ∃ f, g.fitWith rt u features targets = .ok f ∧
      IsGaussianConditional 0 0 (of fun i j => g.gp.cov (xs i) (xs j))
        (sparseQ g u xs fun i => g.gp.asMeas (features i)) (sparsePrior g u features targets.variance)
        targets.mean (g.predictJoint f xs).mean (g.predictJoint f xs).covariance := by
  obtain ⟨f, hf, hh⟩ := fitWith_ok g hsym hrt u features targets hK hA
  refine ⟨f, hf, ?_⟩
  have h := holds_conditional hsym hK hA hh xs
  have h0 : (fun j => g.gp.mean (xs j)) = 0 := by funext j; exact hmean _
  rwa [h0] at h

/-- C35: fitting with the model's own strategy is fitting with the inducing points it returns. -/
theorem C35_fit_uses_strategy (b : Build) (g : SparseGp X κ) (rt : SparseRoutines) (features : Fin n → X)
    (targets : Marginal (Fin n)) (hne : g.inducing (List.ofFn features) ≠ []) :
    g.fit b rt features targets = g.fitWith rt (g.inducing (List.ofFn features)).get features targets := by
  have : 0 < (g.inducing (List.ofFn features)).length := List.length_pos_iff.2 hne
  simp [SparseGp.fit, this]

/-- C35: a strategy which returns no inducing points is refused. -/
theorem C35_no_inducing_points (g : SparseGp X κ) (rt : SparseRoutines) (features : Fin n → X)
    (targets : Marginal (Fin n)) (he : g.inducing (List.ofFn features) = []) :
    g.fit .debug rt features targets = .error .assertFail := by
  unfold SparseGp.fit
  rw [he]
  rfl

example : (⟨⟨fun _ _ => 1, fun _ => 0, id⟩, id, fun _ => [], 0, 0⟩ : SparseGp Unit Unit).inducing
    (List.ofFn fun _ : Fin 2 => ()) = [] := rfl

/-- C35: mean, marginal and joint predictions agree. -/
theorem C35_forms_agree (g : SparseGp X κ) (f : SparseFit X m) {p : Type} (xs : p → X) :
    (g.predictMarginal f xs).mean = (g.predictJoint f xs).mean ∧
    g.predictMean f xs = (g.predictJoint f xs).mean ∧
    ∀ j, (g.predictMarginal f xs).variance j = (g.predictJoint f xs).covariance j j := g.forms_agree f xs

/-- C35: the hypotheses hold for every positive semi-definite covariance function, positive nuggets and
non-negative target variances. -/
theorem C35_applies (g : SparseGp X κ) (hk : IsPSD g.gp.cov) (hsym : ∀ x y, g.gp.cov x y = g.gp.cov y x)
    (hi : 0 < g.inducingNugget) (hm : 0 < g.measurementNugget) (u : Fin m → X) (features : Fin n → X)
    (variance : Fin n → ℝ) (hv : ∀ i, 0 ≤ variance i) :
    (sparseK g u).PosDef ∧ (sparseA g u features variance).PosDef := by
  have hKT : ∀ {a b : Type} (xs : a → X) (ys : b → X), (g.gp.covMat xs ys)ᵀ = g.gp.covMat ys xs :=
    fun xs ys => covMat_transpose g.gp hsym xs ys
  have hKuu : (g.gp.covMat u u).PosSemidef := hk.matrix_fintype u
  have hnug : (diagonal fun _ : Fin m => g.inducingNugget).PosDef := Matrix.PosDef.diagonal fun _ => hi
  have hK : (sparseK g u).PosDef := by
    rw [← sparseK_eq, add_comm]
    exact hnug.add_posSemidef hKuu
  refine ⟨hK, ?_⟩
  set z := fun i => g.gp.asMeas (features i) with hz
  have hjoint : (fromBlocks (g.gp.covMat u u) (g.gp.covMat u z) (g.gp.covMat u z)ᵀ (g.gp.covMat z z)).PosSemidef := by
    have h := hk.matrix_fintype (Sum.elim u z)
    have h2 : (of fun i j => g.gp.cov (Sum.elim u z i) (Sum.elim u z j) : Matrix (Fin m ⊕ Fin n) (Fin m ⊕ Fin n) ℝ) =
        fromBlocks (g.gp.covMat u u) (g.gp.covMat u z) (g.gp.covMat u z)ᵀ (g.gp.covMat z z) := by
      rw [hKT]
      ext (i | i) (j | j) <;> rfl
    rwa [h2] at h
  have hschur := (posterior_psd (A := sparseK g u) hjoint (by
    rw [← sparseK_eq, add_sub_cancel_left]; exact hnug.posSemidef) hK).1
  -- the part within groups
  have hE : (of fun i j => if g.group (features i) = g.group (features j) then
      (g.gp.covMat z z - sparseQ g u z z) i j else 0 : Matrix (Fin n) (Fin n) ℝ).PosSemidef := by
    have hS : (g.gp.covMat z z - sparseQ g u z z).PosSemidef := by
      have : (g.gp.covMat u z)ᵀ * (sparseK g u)⁻¹ * g.gp.covMat u z = sparseQ g u z z := by rw [hKT]; rfl
      rwa [this] at hschur
    refine Matrix.PosSemidef.of_dotProduct_mulVec_nonneg ?_ ?_
    · ext i j
      have := congrFun (congrFun hS.isHermitian i) j
      simp only [conjTranspose_apply, of_apply] at this ⊢
      by_cases h : g.group (features i) = g.group (features j)
      · rw [if_pos h, if_pos h.symm, this]
      · rw [if_neg h, if_neg (fun h' => h h'.symm), star_zero]
    · intro x
      have hsplit : star x ⬝ᵥ ((of fun i j => if g.group (features i) = g.group (features j) then
          (g.gp.covMat z z - sparseQ g u z z) i j else 0 : Matrix (Fin n) (Fin n) ℝ) *ᵥ x) =
          ∑ k ∈ Finset.univ.image (fun i => g.group (features i)),
            star (fun i => if g.group (features i) = k then x i else 0) ⬝ᵥ
              ((g.gp.covMat z z - sparseQ g u z z) *ᵥ fun i => if g.group (features i) = k then x i else 0) := by
        simp only [dotProduct, mulVec, of_apply, Finset.mul_sum, Pi.star_apply, star_trivial]
        conv_rhs => rw [Finset.sum_comm]
        refine Finset.sum_congr rfl fun i _ => ?_
        rw [Finset.sum_comm]
        refine Finset.sum_congr rfl fun j _ => ?_
        rw [Finset.sum_eq_single (g.group (features i))]
        · rw [if_pos rfl]
          by_cases h : g.group (features i) = g.group (features j)
          · rw [if_pos h, if_pos h.symm]
          · rw [if_neg h, if_neg (fun h' => h h'.symm)]; ring
        · intro k _ hk
          rw [if_neg (Ne.symm hk), zero_mul]
        · intro h
          exact absurd (Finset.mem_image_of_mem _ (Finset.mem_univ i)) h
      rw [hsplit]
      exact Finset.sum_nonneg fun k _ => hS.dotProduct_mulVec_nonneg _
  have hR : (diagonal fun i => variance i + g.measurementNugget).PosDef :=
    Matrix.PosDef.diagonal fun i => by have := hv i; linarith
  have hsum : sparseA g u features variance = (diagonal fun i => variance i + g.measurementNugget) +
      (of fun i j => if g.group (features i) = g.group (features j) then
        (g.gp.covMat z z - sparseQ g u z z) i j else 0 : Matrix (Fin n) (Fin n) ℝ) := by
    ext i j
    simp only [sparseA, of_apply, Matrix.add_apply, Matrix.sub_apply, diagonal_apply, Gp.covMat, ← hz]
    ring
  rw [hsum]
  exact hR.add_posSemidef hE

/-- The model of the examples: covariance `1 + x y`, grouped by integer part. -/
noncomputable def demoSparse (mean : ℝ → ℝ) (measurementNugget inducingNugget : ℝ) : SparseGp ℝ ℤ :=
  ⟨⟨fun x y => 1 + x * y, mean, id⟩, Int.floor, id, measurementNugget, inducingNugget⟩

theorem demoSparse_psd (mean : ℝ → ℝ) (a b : ℝ) : IsPSD (demoSparse mean a b).gp.cov :=
  (IsPSD.const zero_le_one).add (IsPSD.rank_one fun x : ℝ => x)

theorem demoSparse_symm (mean : ℝ → ℝ) (a b : ℝ) (x y : ℝ) :
    (demoSparse mean a b).gp.cov x y = (demoSparse mean a b).gp.cov y x := by
  simp [demoSparse, mul_comm]

/-- The hypotheses of C35 are met with three features in two groups and two inducing points. -/
example : ∃ (rt : SparseRoutines) (g : SparseGp ℝ ℤ) (u : Fin 2 → ℝ) (features : Fin 3 → ℝ)
    (targets : Marginal (Fin 3)), rt.Meets ∧ (∀ x, g.gp.mean x = 0) ∧
    (∀ x y, g.gp.cov x y = g.gp.cov y x) ∧ g.group (features 0) = g.group (features 1) ∧
    g.group (features 1) ≠ g.group (features 2) ∧ targets.mean 0 ≠ 0 ∧
    (sparseK g u).PosDef ∧ (sparseA g u features targets.variance).PosDef := by
  obtain ⟨rt, hrt⟩ := exists_routines
  obtain ⟨h1, h2⟩ := C35_applies (demoSparse (fun _ => 0) 1 1) (demoSparse_psd _ _ _) (demoSparse_symm _ _ _)
    one_pos one_pos ![0, 2] ![0, 1 / 2, 1] ![0, 1, 2]
    (by intro i; fin_cases i <;> norm_num)
  refine ⟨rt, _, _, _, ⟨![3, 4, 5], ![0, 1, 2]⟩, hrt, fun _ => rfl, demoSparse_symm _ _ _, ?_, ?_, ?_, h1, h2⟩
  · norm_num [demoSparse]
  · change ⌊(1 / 2 : ℝ)⌋ ≠ ⌊(1 : ℝ)⌋
    norm_num
  · norm_num

/-- C35: when the inducing points span the training features (`W` expresses the measured features through
them: covariances with inducing points, prediction points and features of other groups), and no inducing
nugget is used, the predictions equal those of the dense model, with the measurement nugget counted as
noise. -/
theorem C35_spanning_inducing_points {p : Type} [Fintype p] (g : SparseGp X κ)
    (hsym : ∀ x y, g.gp.cov x y = g.gp.cov y x)
    (hmean : ∀ x, g.gp.mean x = 0) (rt : SparseRoutines) (hrt : rt.Meets) (u : Fin m → X)
    (features : Fin n → X) (targets : Marginal (Fin n)) (hi : g.inducingNugget = 0)
    (hK : (sparseK g u).PosDef) (hA : (sparseA g u features targets.variance).PosDef) (xs : p → X)
    (W : Matrix (Fin m) (Fin n) ℝ)
    (hu : ∀ k i, g.gp.cov (u k) (g.gp.asMeas (features i)) = ∑ l, g.gp.cov (u k) (u l) * W l i)
    (hx : ∀ j i, g.gp.cov (xs j) (features i) = ∑ l, g.gp.cov (xs j) (u l) * W l i)
    (hgrp : ∀ i j, g.group (features i) ≠ g.group (features j) →
      g.gp.cov (g.gp.asMeas (features i)) (g.gp.asMeas (features j)) =
        ∑ l, g.gp.cov (g.gp.asMeas (features i)) (u l) * W l j) :
    ∃ f, g.fitWith rt u features targets = .ok f ∧
      g.predictJoint f xs = g.gp.predictJoint (g.gp.fit (rt.ldlt n) features
        ⟨targets.mean, fun i => targets.variance i + g.measurementNugget⟩) xs := by
  obtain ⟨f, hf, hcond⟩ := C35_prediction_is_conditional g hsym hmean rt hrt u features targets hK hA xs
  refine ⟨f, hf, ?_⟩
  have hKu := PosDef.isUnit_det' hK
  set z := fun i => g.gp.asMeas (features i) with hz
  have hKuu : g.gp.covMat u u = sparseK g u := by
    rw [← sparseK_eq, hi]; simp
  have hKW : (sparseK g u)⁻¹ * g.gp.covMat u z = W := by
    have h1 : g.gp.covMat u z = sparseK g u * W := by
      rw [← hKuu]; ext k i; simp only [Matrix.mul_apply]; exact hu k i
    rw [h1, Matrix.nonsing_inv_mul_cancel_left _ _ hKu]
  have hQ : ∀ {a : Type} (ys : a → X), sparseQ g u ys z = g.gp.covMat ys u * W := by
    intro a ys; rw [sparseQ, Matrix.mul_assoc, hKW]
  have hQx : sparseQ g u xs z = g.gp.covMat xs features := by
    rw [hQ]; ext j i; rw [Matrix.mul_apply]; exact (hx j i).symm
  have hS : sparsePrior g u features targets.variance =
      obsCovariance g.gp features fun i => targets.variance i + g.measurementNugget := by
    ext i j
    simp only [sparsePrior, sparseA, obsCovariance, Matrix.add_apply, of_apply, ← hz]
    by_cases h : g.group (features i) = g.group (features j)
    · rw [if_pos h]; ring
    · rw [if_neg h, hQ, Matrix.mul_apply]
      rw [zero_add]
      congr 1
      exact (hgrp i j h).symm
  have hSpd : (sparsePrior g u features targets.variance).PosDef := by
    have hQpsd : (sparseQ g u z z).PosSemidef := by
      have h := hK.inv.posSemidef.conjTranspose_mul_mul_same (g.gp.covMat u z)
      rw [conjTranspose_eq_transpose_of_trivial, covMat_transpose g.gp hsym] at h
      exact h
    rw [sparsePrior, add_comm]
    exact hA.add_posSemidef hQpsd
  rw [hS] at hSpd hcond
  rw [hQx] at hcond
  have hdense := C27_prediction_is_conditional g.gp hsym (rt.ldlt n) features
    ⟨targets.mean, fun i => targets.variance i + g.measurementNugget⟩ (hrt.ldlt _ _ hSpd)
    (PosDef.isUnit_det' hSpd) xs
  have h0 : (fun j => g.gp.mean (xs j)) = 0 := by funext j; exact hmean _
  have h0' : (fun i => g.gp.mean (g.gp.asMeas (features i))) = 0 := by funext j; exact hmean _
  rw [h0, h0'] at hdense
  have := IsGaussianConditional.unique (PosDef.transpose_eq' hSpd)
    ⟨(obsCovariance g.gp features fun i => targets.variance i + g.measurementNugget)⁻¹ *ᵥ targets.mean, by
      rw [mulVec_mulVec, Matrix.mul_nonsing_inv _ (PosDef.isUnit_det' hSpd), one_mulVec, sub_zero]⟩ hcond hdense
  have hext : ∀ a b : Joint p, a.mean = b.mean → a.covariance = b.covariance → a = b := by
    rintro ⟨_, _⟩ ⟨_, _⟩ rfl rfl; rfl
  exact hext _ _ this.1 this.2

theorem demoSparse_span (u : Fin 2 → ℝ) (hu : u = ![0, 1]) (x f : ℝ) :
    1 + x * f = ∑ l, (1 + x * u l) * ![1 - f, f] l := by
  subst hu
  simp [Fin.sum_univ_two]
  ring

/-- The hypotheses of the theorem are met: the inducing points 0 and 1 span all features. -/
example : ∃ (rt : SparseRoutines) (g : SparseGp ℝ ℤ) (u : Fin 2 → ℝ) (features : Fin 3 → ℝ)
    (targets : Marginal (Fin 3)) (xs : Fin 1 → ℝ) (W : Matrix (Fin 2) (Fin 3) ℝ), rt.Meets ∧
    (∀ x, g.gp.mean x = 0) ∧ g.inducingNugget = 0 ∧ (∀ x y, g.gp.cov x y = g.gp.cov y x) ∧
    targets.mean 0 ≠ 0 ∧ (∀ i k, u k ≠ features i) ∧
    (sparseK g u).PosDef ∧ (sparseA g u features targets.variance).PosDef ∧
    (∀ k i, g.gp.cov (u k) (g.gp.asMeas (features i)) = ∑ l, g.gp.cov (u k) (u l) * W l i) ∧
    (∀ j i, g.gp.cov (xs j) (features i) = ∑ l, g.gp.cov (xs j) (u l) * W l i) ∧
    (∀ i j, g.group (features i) ≠ g.group (features j) →
      g.gp.cov (g.gp.asMeas (features i)) (g.gp.asMeas (features j)) =
        ∑ l, g.gp.cov (g.gp.asMeas (features i)) (u l) * W l j) := by
  obtain ⟨rt, hrt⟩ := exists_routines
  let g := demoSparse (fun _ => 0) 1 0
  let u : Fin 2 → ℝ := ![0, 1]
  let features : Fin 3 → ℝ := ![2, 3, 5 / 2]
  let W : Matrix (Fin 2) (Fin 3) ℝ := of fun l i => ![1 - features i, features i] l
  have hKeq : sparseK g u = !![1, 1; 1, 2] := by
    ext i j
    fin_cases i <;> fin_cases j <;> norm_num [sparseK, g, demoSparse, u]
  have hK : (sparseK g u).PosDef := by rw [hKeq]; exact posDef_two one_pos (by norm_num)
  have hKW : (sparseK g u)⁻¹ * g.gp.covMat u features = W := by
    have h1 : g.gp.covMat u features = sparseK g u * W := by
      have h2 : sparseK g u = g.gp.covMat u u := by rw [← sparseK_eq]; simp [g, demoSparse]
      rw [h2]
      ext k i
      rw [Matrix.mul_apply]
      exact demoSparse_span u rfl (u k) (features i)
    rw [h1, Matrix.nonsing_inv_mul_cancel_left _ _ (PosDef.isUnit_det' hK)]
  have hA : (sparseA g u features ![0, 1, 2]).PosDef := by
    have h1 : sparseA g u features ![0, 1, 2] = diagonal fun i => (![0, 1, 2] : Fin 3 → ℝ) i + 1 := by
      have hQ : ∀ i j, sparseQ g u features features i j = 1 + features i * features j := by
        intro i j
        rw [sparseQ, Matrix.mul_assoc, hKW, Matrix.mul_apply]
        exact (demoSparse_span u rfl (features i) (features j)).symm
      ext i j
      change (if _ then (1 + features i * features j) - sparseQ g u features features i j else 0) + _ = _
      rw [hQ, sub_self, ite_self, zero_add]
      rfl
    rw [h1]
    exact Matrix.PosDef.diagonal fun i => by fin_cases i <;> norm_num
  refine ⟨rt, g, u, features, ⟨![3, 4, 5], ![0, 1, 2]⟩, ![7], W, hrt, fun _ => rfl, rfl, demoSparse_symm _ _ _,
    by norm_num, ?_, hK, hA, ?_, ?_, ?_⟩
  · intro i k; fin_cases i <;> fin_cases k <;> norm_num [u, features]
  · intro k i; exact demoSparse_span u rfl (u k) (features i)
  · intro j i; exact demoSparse_span u rfl _ (features i)
  · intro i j _; exact demoSparse_span u rfl (features i) (features j)

/-! ## C36 -/

/-- A data set. -/
structure Batch (X : Type) where
  n : Nat
  features : Fin n → X
  targets : Marginal (Fin n)

/-- `concatenate_datasets` for two data sets. -/
def Batch.append (a b : Batch X) : Batch X :=
  ⟨a.n + b.n, Fin.append a.features b.features,
    ⟨Fin.append a.targets.mean b.targets.mean, Fin.append a.targets.variance b.targets.variance⟩⟩

/-- Successive calls of `update`. -/
noncomputable def sparseUpdates (g : SparseGp X κ) (rt : SparseRoutines) (f : SparseFit X m)
    (batches : List (Batch X)) : Outcome (SparseFit X m) :=
  batches.foldlM (fun f d => g.update rt f d.features d.targets) f

/-- No group has features in both data sets. -/
def Batch.DisjointGroups (grp : X → κ) (a b : Batch X) : Prop :=
  ∀ i j, grp (a.features i) ≠ grp (b.features j)

theorem inv_fromBlocks_diag {a b : Type} [Fintype a] [DecidableEq a] [Fintype b] [DecidableEq b]
    {A : Matrix a a ℝ} {B : Matrix b b ℝ} (hA : IsUnit A.det) (hB : IsUnit B.det) :
    (fromBlocks A 0 0 B)⁻¹ = fromBlocks A⁻¹ 0 0 B⁻¹ := by
  apply Matrix.inv_eq_right_inv
  rw [fromBlocks_multiply, Matrix.mul_nonsing_inv _ hA, Matrix.mul_nonsing_inv _ hB]
  simp

/-- Positions in the concatenation. -/
def Batch.appendEquiv (a b : Batch X) : Fin a.n ⊕ Fin b.n ≃ Fin (a.append b).n := finSumFinEquiv

theorem Batch.append_features (a b : Batch X) (s : Fin a.n ⊕ Fin b.n) :
    (a.append b).features (a.appendEquiv b s) = Sum.elim a.features b.features s := by
  rcases s with s | s
  · exact Fin.append_left a.features b.features s
  · exact Fin.append_right a.features b.features s

theorem Batch.append_mean (a b : Batch X) (s : Fin a.n ⊕ Fin b.n) :
    (a.append b).targets.mean (a.appendEquiv b s) = Sum.elim a.targets.mean b.targets.mean s := by
  rcases s with s | s
  · exact Fin.append_left a.targets.mean b.targets.mean s
  · exact Fin.append_right a.targets.mean b.targets.mean s

theorem Batch.append_variance (a b : Batch X) (s : Fin a.n ⊕ Fin b.n) :
    (a.append b).targets.variance (a.appendEquiv b s) = Sum.elim a.targets.variance b.targets.variance s := by
  rcases s with s | s
  · exact Fin.append_left a.targets.variance b.targets.variance s
  · exact Fin.append_right a.targets.variance b.targets.variance s

/-- Entries of `sparseA` without the noise, by feature. -/
noncomputable def unexplained (g : SparseGp X κ) (u : Fin m → X) (x y : X) : ℝ :=
  if g.group x = g.group y then g.gp.cov (g.gp.asMeas x) (g.gp.asMeas y) -
    sparseQ g u (fun _ : Unit => g.gp.asMeas x) (fun _ : Unit => g.gp.asMeas y) () () else 0

theorem sparseA_apply (g : SparseGp X κ) (u : Fin m → X) (features : Fin n → X) (variance : Fin n → ℝ) (i j) :
    sparseA g u features variance i j = unexplained g u (features i) (features j) +
      if i = j then variance i + g.measurementNugget else 0 := rfl

theorem sparseA_append (g : SparseGp X κ) (u : Fin m → X) {a b : Batch X} (h : a.DisjointGroups g.group b) :
    (sparseA g u (a.append b).features (a.append b).targets.variance).submatrix (a.appendEquiv b)
      (a.appendEquiv b) =
      fromBlocks (sparseA g u a.features a.targets.variance) 0 0
        (sparseA g u b.features b.targets.variance) := by
  ext s t
  rw [submatrix_apply, sparseA_apply, a.append_features, a.append_features, a.append_variance]
  simp only [(a.appendEquiv b).injective.eq_iff]
  rcases s with i | i <;> rcases t with j | j <;>
    simp only [Sum.elim_inl, Sum.elim_inr, fromBlocks_apply₁₁, fromBlocks_apply₁₂, fromBlocks_apply₂₁,
      fromBlocks_apply₂₂, sparseA_apply, Sum.inl.injEq, Sum.inr.injEq, reduceCtorEq, if_false,
      Matrix.zero_apply, add_zero]
  · exact if_neg (h i j)
  · exact if_neg (h j i).symm

theorem sparseA_append_posDef (g : SparseGp X κ) (u : Fin m → X) {a b : Batch X}
    (h : a.DisjointGroups g.group b)
    (hab : (sparseA g u (a.append b).features (a.append b).targets.variance).PosDef) :
    (sparseA g u a.features a.targets.variance).PosDef ∧ (sparseA g u b.features b.targets.variance).PosDef := by
  have h1 := Matrix.PosDef.submatrix hab (e := a.appendEquiv b) (a.appendEquiv b).injective
  rw [sparseA_append g u h] at h1
  constructor
  · exact Matrix.PosDef.submatrix h1 (e := (Sum.inl : Fin a.n → Fin a.n ⊕ Fin b.n)) Sum.inl_injective
  · exact Matrix.PosDef.submatrix h1 (e := (Sum.inr : Fin b.n → Fin a.n ⊕ Fin b.n)) Sum.inr_injective

theorem sparse_append (g : SparseGp X κ) (u : Fin m → X) {a b : Batch X} (h : a.DisjointGroups g.group b)
    (hab : (sparseA g u (a.append b).features (a.append b).targets.variance).PosDef) :
    sparseGain g u (a.append b).features (a.append b).targets.variance =
      sparseGain g u a.features a.targets.variance + sparseGain g u b.features b.targets.variance ∧
    sparseRhs g u (a.append b).features (a.append b).targets =
      sparseRhs g u a.features a.targets + sparseRhs g u b.features b.targets := by
  obtain ⟨hA, hB⟩ := sparseA_append_posDef g u h hab
  have hS := sparseA_append g u h
  set z := fun i => g.gp.asMeas ((a.append b).features i) with hz
  set za := fun i => g.gp.asMeas (a.features i) with hza
  set zb := fun i => g.gp.asMeas (b.features i) with hzb
  set e := a.appendEquiv b with he
  have hinv : ((sparseA g u (a.append b).features (a.append b).targets.variance)⁻¹).submatrix e e =
      fromBlocks (sparseA g u a.features a.targets.variance)⁻¹ 0 0
        (sparseA g u b.features b.targets.variance)⁻¹ := by
    rw [← inv_submatrix_equiv', hS, inv_fromBlocks_diag (PosDef.isUnit_det' hA) (PosDef.isUnit_det' hB)]
  have hze : ∀ s, z (e s) = Sum.elim za zb s := by
    intro s
    rw [hz]
    simp only [he, a.append_features]
    rcases s with s | s <;> rfl
  have hKuz : (g.gp.covMat u z).submatrix id e = fromCols (g.gp.covMat u za) (g.gp.covMat u zb) := by
    ext i (s | s) <;> simp only [submatrix_apply, Gp.covMat, of_apply, hze] <;> rfl
  have hKzu : (g.gp.covMat z u).submatrix e id = fromRows (g.gp.covMat za u) (g.gp.covMat zb u) := by
    ext (s | s) i <;> simp only [submatrix_apply, Gp.covMat, of_apply, hze] <;> rfl
  have hy : (a.append b).targets.mean ∘ e = Sum.elim a.targets.mean b.targets.mean := by
    funext s
    exact a.append_mean b s
  constructor
  · have h1 : sparseGain g u (a.append b).features (a.append b).targets.variance =
        (g.gp.covMat u z).submatrix id e *
          (((sparseA g u (a.append b).features (a.append b).targets.variance)⁻¹).submatrix e e *
            (g.gp.covMat z u).submatrix e id) := by
      rw [submatrix_mul_equiv, submatrix_mul_equiv]; rfl
    rw [h1, hinv, hKuz, hKzu, fromBlocks_mul_fromRows, fromCols_mul_fromRows]
    simp only [Matrix.zero_mul, add_zero, zero_add]
    rfl
  · have h1 : sparseRhs g u (a.append b).features (a.append b).targets =
        (g.gp.covMat u z).submatrix id e *ᵥ
          (((sparseA g u (a.append b).features (a.append b).targets.variance)⁻¹).submatrix e e *ᵥ
            ((a.append b).targets.mean ∘ e)) := by
      rw [submatrix_mulVec_equiv, submatrix_mulVec_equiv]
      simp only [Function.comp_assoc, Equiv.self_comp_symm, Function.comp_id]
      rfl
    rw [h1, hinv, hKuz, hy, fromBlocks_mulVec, fromCols_mulVec]
    funext i
    simp [sparseRhs, ← hza, ← hzb]

theorem updates_ok (g : SparseGp X κ) (hsym : ∀ x y, g.gp.cov x y = g.gp.cov y x) {rt : SparseRoutines}
    (hrt : rt.Meets) {u : Fin m → X} (hK : (sparseK g u).PosDef) (batches : List (Batch X))
    (hA : ∀ d ∈ batches, (sparseA g u d.features d.targets.variance).PosDef)
    {f : SparseFit X m} {M : Matrix (Fin m) (Fin m) ℝ} {b : Fin m → ℝ} (hf : f.Holds g u M b) :
    ∃ f', sparseUpdates g rt f batches = .ok f' ∧
      f'.Holds g u (M + (batches.map fun d => sparseGain g u d.features d.targets.variance).sum)
        (b + (batches.map fun d => sparseRhs g u d.features d.targets).sum) := by
  induction batches generalizing f M b with
  | nil => exact ⟨f, rfl, by simpa using hf⟩
  | cons d ds ih =>
    obtain ⟨f1, h1, hf1⟩ := update_ok g hsym hrt d.features d.targets hK (hA d List.mem_cons_self) hf
    obtain ⟨f2, h2, hf2⟩ := ih (fun d' hd' => hA d' (List.mem_cons_of_mem _ hd')) hf1
    refine ⟨f2, ?_, ?_⟩
    · rw [sparseUpdates, List.foldlM_cons, h1]; exact h2
    · simpa [add_assoc] using hf2

/-- Two fits with the same predictions of every kind, everywhere. -/
def SamePredictions (g : SparseGp X κ) {m' : Nat} (f : SparseFit X m) (f' : SparseFit X m') : Prop :=
  ∀ (p : Type) (xs : p → X), g.predictJoint f xs = g.predictJoint f' xs ∧
    g.predictMarginal f xs = g.predictMarginal f' xs ∧ g.predictMean f xs = g.predictMean f' xs

theorem SparseFit.Holds.same {g : SparseGp X κ} (hsym : ∀ x y, g.gp.cov x y = g.gp.cov y x) {u : Fin m → X}
    (hK : (sparseK g u).PosDef) {f f' : SparseFit X m} {M : Matrix (Fin m) (Fin m) ℝ} {b : Fin m → ℝ}
    (hf : f.Holds g u M b) (hf' : f'.Holds g u M b) : SamePredictions g f f' := by
  intro p xs
  have h1 : g.predictJoint f xs = g.predictJoint f' xs := by
    rw [hf.predictJoint hsym hK, hf'.predictJoint hsym hK]
  refine ⟨h1, ?_, ?_⟩
  · have ha := g.forms_agree f xs
    have hb := g.forms_agree f' xs
    have hext : ∀ a b : Marginal p, a.mean = b.mean → a.variance = b.variance → a = b := by
      rintro ⟨_, _⟩ ⟨_, _⟩ rfl rfl; rfl
    exact hext _ _ (by rw [ha.1, hb.1, h1]) (by funext j; rw [ha.2.2, hb.2.2, h1])
  · rw [(g.forms_agree f xs).2.1, (g.forms_agree f' xs).2.1, h1]

/-- C36: fitting the first data set and updating with the others in turn gives the predictions of one fit
to the concatenation of all of them, when no group is split between data sets. -/
theorem C36_updates_eq_batch (g : SparseGp X κ) (hsym : ∀ x y, g.gp.cov x y = g.gp.cov y x)
    (rt : SparseRoutines) (hrt : rt.Meets) (u : Fin m → X) (hK : (sparseK g u).PosDef)
    (first : Batch X) (rest : List (Batch X))
    (hdis : (first :: rest).Pairwise (Batch.DisjointGroups g.group))
    (hA : (sparseA g u (rest.foldl Batch.append first).features
      (rest.foldl Batch.append first).targets.variance).PosDef) :
    ∃ f0 f fAll, g.fitWith rt u first.features first.targets = .ok f0 ∧
      sparseUpdates g rt f0 rest = .ok f ∧
      g.fitWith rt u (rest.foldl Batch.append first).features (rest.foldl Batch.append first).targets = .ok fAll ∧
      SamePredictions g f fAll := by
  have key : ∀ (rest : List (Batch X)) (first : Batch X),
      (first :: rest).Pairwise (Batch.DisjointGroups g.group) →
      (sparseA g u (rest.foldl Batch.append first).features
        (rest.foldl Batch.append first).targets.variance).PosDef →
      (∀ d ∈ first :: rest, (sparseA g u d.features d.targets.variance).PosDef) ∧
      sparseGain g u (rest.foldl Batch.append first).features (rest.foldl Batch.append first).targets.variance =
        sparseGain g u first.features first.targets.variance +
          (rest.map fun d => sparseGain g u d.features d.targets.variance).sum ∧
      sparseRhs g u (rest.foldl Batch.append first).features (rest.foldl Batch.append first).targets =
        sparseRhs g u first.features first.targets +
          (rest.map fun d => sparseRhs g u d.features d.targets).sum := by
    intro rest
    induction rest with
    | nil => intro first _ h; exact ⟨by simpa using h, by simp, by simp⟩
    | cons d ds ih =>
      intro first hd h
      rw [List.pairwise_cons, List.pairwise_cons] at hd
      obtain ⟨hf, hd1, hds⟩ := hd
      have hpair : (first.append d :: ds).Pairwise (Batch.DisjointGroups g.group) := by
        refine List.pairwise_cons.2 ⟨fun e he i j => ?_, hds⟩
        change g.group (Fin.append first.features d.features i) ≠ _
        induction i using Fin.addCases with
        | left i => rw [Fin.append_left]; exact hf e (List.mem_cons_of_mem _ he) i j
        | right i => rw [Fin.append_right]; exact hd1 e he i j
      obtain ⟨h1, h2, h3⟩ := ih (first.append d) hpair h
      have hfd := hf d List.mem_cons_self
      have hpd := h1 _ List.mem_cons_self
      obtain ⟨h4, h5⟩ := sparseA_append_posDef g u hfd hpd
      obtain ⟨h6, h7⟩ := sparse_append g u hfd hpd
      refine ⟨?_, ?_, ?_⟩
      · intro e he
        rcases List.mem_cons.1 he with rfl | he
        · exact h4
        · rcases List.mem_cons.1 he with rfl | he
          · exact h5
          · exact h1 e (List.mem_cons_of_mem _ he)
      · rw [List.foldl_cons, h2, h6, List.map_cons, List.sum_cons, add_assoc]
      · rw [List.foldl_cons, h3, h7, List.map_cons, List.sum_cons, add_assoc]
  obtain ⟨h1, h2, h3⟩ := key rest first hdis hA
  obtain ⟨f0, hf0, hh0⟩ := fitWith_ok g hsym hrt u first.features first.targets hK (h1 _ List.mem_cons_self)
  obtain ⟨f, hf, hh⟩ := updates_ok g hsym hrt hK rest (fun d hd => h1 d (List.mem_cons_of_mem _ hd)) hh0
  obtain ⟨fAll, hfAll, hhAll⟩ := fitWith_ok g hsym hrt u _ _ hK hA
  refine ⟨f0, f, fAll, hf0, hf, hfAll, ?_⟩
  rw [h2, h3, ← add_assoc] at hhAll
  exact hh.same hsym hK hhAll

/-- C36: the order of the data sets does not matter (including which one is fitted first; groups may be
split between data sets). -/
theorem C36_any_order (g : SparseGp X κ) (hsym : ∀ x y, g.gp.cov x y = g.gp.cov y x)
    (rt : SparseRoutines) (hrt : rt.Meets) (u : Fin m → X) (hK : (sparseK g u).PosDef)
    (first first' : Batch X) (rest rest' : List (Batch X)) (hperm : (first :: rest).Perm (first' :: rest'))
    (hA : ∀ d ∈ first :: rest, (sparseA g u d.features d.targets.variance).PosDef) :
    ∃ f0 f f0' f', g.fitWith rt u first.features first.targets = .ok f0 ∧
      sparseUpdates g rt f0 rest = .ok f ∧
      g.fitWith rt u first'.features first'.targets = .ok f0' ∧
      sparseUpdates g rt f0' rest' = .ok f' ∧ SamePredictions g f f' := by
  have hA' : ∀ d ∈ first' :: rest', (sparseA g u d.features d.targets.variance).PosDef :=
    fun d hd => hA d (hperm.mem_iff.2 hd)
  obtain ⟨f0, hf0, hh0⟩ := fitWith_ok g hsym hrt u first.features first.targets hK (hA _ List.mem_cons_self)
  obtain ⟨f, hf, hh⟩ := updates_ok g hsym hrt hK rest (fun d hd => hA d (List.mem_cons_of_mem _ hd)) hh0
  obtain ⟨f0', hf0', hh0'⟩ := fitWith_ok g hsym hrt u first'.features first'.targets hK (hA' _ List.mem_cons_self)
  obtain ⟨f', hf', hh'⟩ := updates_ok g hsym hrt hK rest' (fun d hd => hA' d (List.mem_cons_of_mem _ hd)) hh0'
  refine ⟨f0, f, f0', f', hf0, hf, hf0', hf', ?_⟩
  have e1 := (hperm.map fun d => sparseGain g u d.features d.targets.variance).sum_eq
  have e2 := (hperm.map fun d => sparseRhs g u d.features d.targets).sum_eq
  simp only [List.map_cons, List.sum_cons] at e1 e2
  rw [add_assoc, e1, e2, ← add_assoc] at hh
  exact hh.same hsym hK hh'

/-- The hypotheses of the two theorems are met: three data sets, the second with two groups. -/
example : ∃ (rt : SparseRoutines) (g : SparseGp ℝ ℤ) (u : Fin 2 → ℝ) (a b c : Batch ℝ), rt.Meets ∧
    (∀ x y, g.gp.cov x y = g.gp.cov y x) ∧ (sparseK g u).PosDef ∧
    [a, b, c].Pairwise (Batch.DisjointGroups g.group) ∧ a.n = 1 ∧ b.n = 2 ∧ c.n = 1 ∧
    (sparseA g u ([b, c].foldl Batch.append a).features ([b, c].foldl Batch.append a).targets.variance).PosDef ∧
    (∀ d ∈ [a, b, c], (sparseA g u d.features d.targets.variance).PosDef) := by
  obtain ⟨rt, hrt⟩ := exists_routines
  let g := demoSparse (fun _ => 0) 1 1
  let u : Fin 2 → ℝ := ![0, 1]
  let a : Batch ℝ := ⟨1, ![0], ⟨![3], ![1]⟩⟩
  let b : Batch ℝ := ⟨2, ![1, 2], ⟨![4, 5], ![1, 0]⟩⟩
  let c : Batch ℝ := ⟨1, ![3], ⟨![6], ![2]⟩⟩
  have hA := fun (d : Batch ℝ) (hd : ∀ i, 0 ≤ d.targets.variance i) =>
    (C35_applies g (demoSparse_psd _ _ _) (demoSparse_symm _ _ _) one_pos one_pos u d.features
      d.targets.variance hd).2
  have happ : ∀ d e : Batch ℝ, (∀ i, 0 ≤ d.targets.variance i) → (∀ i, 0 ≤ e.targets.variance i) →
      ∀ i, 0 ≤ (d.append e).targets.variance i := by
    intro d e hd he i
    change 0 ≤ Fin.append d.targets.variance e.targets.variance i
    induction i using Fin.addCases with
    | left i => rw [Fin.append_left]; exact hd i
    | right i => rw [Fin.append_right]; exact he i
  have ha : ∀ i, 0 ≤ a.targets.variance i := by intro i; change Fin 1 at i; fin_cases i; norm_num [a]
  have hb : ∀ i, 0 ≤ b.targets.variance i := by intro i; change Fin 2 at i; fin_cases i <;> norm_num [b]
  have hc : ∀ i, 0 ≤ c.targets.variance i := by intro i; change Fin 1 at i; fin_cases i; norm_num [c]
  refine ⟨rt, g, u, a, b, c, hrt, demoSparse_symm _ _ _,
    (C35_applies g (demoSparse_psd _ _ _) (demoSparse_symm _ _ _) one_pos one_pos u a.features _ ha).1, ?_,
    rfl, rfl, rfl, hA _ (happ _ _ (happ _ _ ha hb) hc), ?_⟩
  · refine List.pairwise_cons.2 ⟨?_, List.pairwise_cons.2 ⟨?_, by simp⟩⟩
    · intro d hd
      simp only [List.mem_cons, List.not_mem_nil, or_false] at hd
      rcases hd with rfl | rfl <;> intro i j
      · change Fin 1 at i; change Fin 2 at j; fin_cases i; fin_cases j <;> norm_num [g, demoSparse, a, b]
      · change Fin 1 at i; change Fin 1 at j; fin_cases i; fin_cases j; norm_num [g, demoSparse, a, c]
    · intro d hd
      simp only [List.mem_cons, List.not_mem_nil, or_false] at hd
      subst hd
      intro i j
      change Fin 2 at i; change Fin 1 at j; fin_cases j; fin_cases i <;> norm_num [g, demoSparse, b, c]
  · intro d hd
    simp only [List.mem_cons, List.not_mem_nil, or_false] at hd
    rcases hd with rfl | rfl | rfl
    · exact hA _ ha
    · exact hA _ hb
    · exact hA _ hc

/-! ## C38 -/

/-- C38: the log likelihood is the Gaussian log density of the targets with mean zero and covariance
`Q_ff + A`, plus the log density of the parameters' priors. -/
theorem C38_log_likelihood (g : SparseGp X κ) (hsym : ∀ x y, g.gp.cov x y = g.gp.cov y x)
    (rt : SparseRoutines) (hrt : rt.Meets) (priorLL : ℝ) (u : Fin m → X) (features : Fin n → X)
    (targets : Marginal (Fin n)) (hK : (sparseK g u).PosDef)
    (hA : (sparseA g u features targets.variance).PosDef) :
    g.logLikelihood rt priorLL u features targets =
      .ok (gaussianLogPdf 0 (sparsePrior g u features targets.variance) targets.mean + priorLL) := by
  obtain ⟨c, hc, hKuu, hT, hy, ⟨hq1, hq2⟩, hdet⟩ := components_ok g hsym hrt u features targets hK hA
  have hBB : (SparseGp.sigmaB c)ᵀ * SparseGp.sigmaB c =
      sparseK g u + sparseGain g u features targets.variance := by
    rw [SparseGp.sigmaB, transpose_fromRows, fromCols_mul_fromRows, hT, Ldlt.sqrtTranspose_eq,
      transpose_transpose, hKuu.root_mul hK.posSemidef, add_comm]
    rfl
  have hM : (sparseK g u + sparseGain g u features targets.variance).PosDef :=
    hK.add_posSemidef (sparseGain_psd g hsym u features _ hA)
  have hqr := hrt.qr _ m (SparseGp.sigmaB c) (by rw [hBB]; exact hM)
  have hld := hqr.logDet (by rw [hBB]; exact hM)
  have hgr := hqr.gram
  rw [hBB] at hld hgr
  have hKu := PosDef.isUnit_det' hK
  have hAu := PosDef.isUnit_det' hA
  have hMu := PosDef.isUnit_det' hM
  set z := fun i => g.gp.asMeas (features i) with hz
  set K := sparseK g u with hKdef
  set A := sparseA g u features targets.variance with hAdef
  set M := K + sparseGain g u features targets.variance with hMdef
  set Kuz := g.gp.covMat u z with hKuz
  set Kzu := g.gp.covMat z u with hKzu
  have hKzuT : Kzu = Kuzᵀ := (covMat_transpose g.gp hsym u z).symm
  have hS : sparsePrior g u features targets.variance = A + Kzu * K⁻¹ * Kuz := by
    rw [sparsePrior, add_comm]; rfl
  have hMeq : M = K + Kuz * A⁻¹ * Kzu := by rw [Matrix.mul_assoc]; rfl
  -- determinant
  have hd : (A + Kzu * K⁻¹ * Kuz).det = A.det * (K.det)⁻¹ * M.det := by
    have h1 : A + Kzu * K⁻¹ * Kuz = A * (1 + (A⁻¹ * Kzu) * (K⁻¹ * Kuz)) := by
      rw [Matrix.mul_add, Matrix.mul_one, Matrix.mul_assoc A⁻¹, Matrix.mul_nonsing_inv_cancel_left _ _ hAu]
      simp only [Matrix.mul_assoc]
    have h2 : M = K * (1 + (K⁻¹ * Kuz) * (A⁻¹ * Kzu)) := by
      rw [Matrix.mul_add, Matrix.mul_one, Matrix.mul_assoc K⁻¹, Matrix.mul_nonsing_inv_cancel_left _ _ hKu, hMeq]
      simp only [Matrix.mul_assoc]
    rw [h1, det_mul, det_one_add_mul_comm, h2, det_mul]
    have := hK.det_pos.ne'
    field_simp
  have hlog : Real.log (A + Kzu * K⁻¹ * Kuz).det = Real.log A.det + Real.log M.det - Real.log K.det := by
    rw [hd, Real.log_mul (mul_ne_zero hA.det_pos.ne' (inv_ne_zero hK.det_pos.ne')) hM.det_pos.ne',
      Real.log_mul hA.det_pos.ne' (inv_ne_zero hK.det_pos.ne'), Real.log_inv]
    ring
  -- quadratic form
  have hw : (A + Kzu * K⁻¹ * Kuz)⁻¹ = A⁻¹ - A⁻¹ * Kzu * M⁻¹ * Kuz * A⁻¹ := by
    have h := Matrix.add_mul_mul_inv_eq_sub A Kzu K⁻¹ Kuz hA.isUnit hK.inv.isUnit (by
      rw [Matrix.nonsing_inv_nonsing_inv _ hKu, ← hMeq]; exact hM.isUnit)
    rwa [Matrix.nonsing_inv_nonsing_inv _ hKu, ← hMeq] at h
  have hAs : (A⁻¹)ᵀ = A⁻¹ := by rw [transpose_nonsing_inv, PosDef.transpose_eq' hA]
  have hquad : ∀ y : Fin n → ℝ, y ⬝ᵥ ((A + Kzu * K⁻¹ * Kuz)⁻¹ *ᵥ y) =
      y ⬝ᵥ (A⁻¹ *ᵥ y) - (Kuz *ᵥ (A⁻¹ *ᵥ y)) ⬝ᵥ (M⁻¹ *ᵥ (Kuz *ᵥ (A⁻¹ *ᵥ y))) := by
    intro y
    rw [hw, sub_mulVec, dotProduct_sub]
    congr 1
    have h1 : (A⁻¹ * Kzu * M⁻¹ * Kuz * A⁻¹) *ᵥ y = A⁻¹ *ᵥ (Kzu *ᵥ (M⁻¹ *ᵥ (Kuz *ᵥ (A⁻¹ *ᵥ y)))) := by
      simp only [mulVec_mulVec, Matrix.mul_assoc]
    rw [h1, dotProduct_mulVec, ← mulVec_transpose, hAs, dotProduct_mulVec, ← mulVec_transpose, hKzuT,
      transpose_transpose]
  -- the code's quadratic form
  set w : Fin m → ℝ := Kuz *ᵥ (A⁻¹ *ᵥ targets.mean) with hwdef
  have hyb : (fun i => qrSqrtSolve (rt.qr (SparseGp.sigmaB c)).getR (rt.qr (SparseGp.sigmaB c)).getP
      (of fun i (_ : Unit) => w i) i ()) ⬝ᵥ
      (fun i => qrSqrtSolve (rt.qr (SparseGp.sigmaB c)).getR (rt.qr (SparseGp.sigmaB c)).getP
      (of fun i (_ : Unit) => w i) i ()) = w ⬝ᵥ (M⁻¹ *ᵥ w) := by
    have h := qrSqrtSolve_gram (upperView_idem _) (by
        rw [show timesPermT (upperView (rt.qr (SparseGp.sigmaB c)).matrixR) (rt.qr (SparseGp.sigmaB c)).perm =
          timesPermT (rt.qr (SparseGp.sigmaB c)).getR (rt.qr (SparseGp.sigmaB c)).perm from rfl, hgr]
        exact hMu)
      (of fun i (_ : Unit) => w i) (of fun i (_ : Unit) => w i)
    rw [show timesPermT (upperView (rt.qr (SparseGp.sigmaB c)).matrixR) (rt.qr (SparseGp.sigmaB c)).perm =
          timesPermT (rt.qr (SparseGp.sigmaB c)).getR (rt.qr (SparseGp.sigmaB c)).perm from rfl, hgr] at h
    exact congrFun (congrFun h ()) ()
  rw [SparseGp.logLikelihood, hc]
  simp only [bind, Except.bind, pure, Except.pure]
  rw [hq1, hq2, hyb, hdet, hld, C32_log_determinant _ _ hKuu hK, gaussianLogPdf, hS, sub_zero, hquad, hlog,
    ← hwdef, Fintype.card_fin]
  congr 1
  ring

/-! ## C37 -/

/-- The model without mean function. -/
def SparseGp.centred (g : SparseGp X κ) : SparseGp X κ := { g with gp := g.gp.centred }

/-- C37 for the sparse model, in full: with mean function `m`, fitted on targets `y`, it predicts `m` plus
what the model without mean function predicts from `y - m`. -/
def SparseMeanHonoured (g : SparseGp X κ) (rt : SparseRoutines) (u : Fin m → X) (features : Fin n → X)
    (targets : Marginal (Fin n)) : Prop :=
  ∃ f f', g.fitWith rt u features targets = .ok f ∧
    g.centred.fitWith rt u features
      ⟨fun i => targets.mean i - g.gp.mean (features i), targets.variance⟩ = .ok f' ∧
    ∀ (p : Type) (xs : p → X),
      (∀ j, (g.predictJoint f xs).mean j = g.gp.mean (xs j) + (g.centred.predictJoint f' xs).mean j) ∧
      (g.predictJoint f xs).covariance = (g.centred.predictJoint f' xs).covariance

/-- C37: what the sparse model computes.  The covariance does not depend on the mean function, but the mean
is `m` plus the centred model's prediction from the targets themselves: `m` has not been removed
from them (sparse_gp.hpp lines 665-668). -/
theorem C37_sparse_code_value {p : Type} (g : SparseGp X κ) (rt : SparseRoutines) (u : Fin m → X)
    (features : Fin n → X) (targets : Marginal (Fin n)) (xs : p → X) :
    g.centred.fitWith rt u features targets = g.fitWith rt u features targets ∧
    ∀ f : SparseFit X m,
      (∀ j, (g.predictJoint f xs).mean j = g.gp.mean (xs j) + (g.centred.predictJoint f xs).mean j) ∧
      (g.predictJoint f xs).covariance = (g.centred.predictJoint f xs).covariance := by
  refine ⟨rfl, fun f => ⟨fun j => ?_, rfl⟩⟩
  simp only [SparseGp.predictJoint, SparseGp.centred, Gp.centred, Gp.addTo, Gp.covMat, add_zero]
  rw [add_comm]

/-- C37 for the sparse model, missing case: mean functions that are not zero at the training features,
for which it is false (`C37_sparse_false`). -/
theorem C37_sparse_partial (g : SparseGp X κ) (hsym : ∀ x y, g.gp.cov x y = g.gp.cov y x)
    (rt : SparseRoutines) (hrt : rt.Meets) (u : Fin m → X) (features : Fin n → X) (targets : Marginal (Fin n))
    (hK : (sparseK g u).PosDef) (hA : (sparseA g u features targets.variance).PosDef)
    (hmean : ∀ i, g.gp.mean (features i) = 0) : SparseMeanHonoured g rt u features targets := by
  obtain ⟨f, hf, -⟩ := fitWith_ok g hsym hrt u features targets hK hA
  refine ⟨f, f, hf, ?_, fun p xs => (C37_sparse_code_value g rt u features targets xs).2 f⟩
  have h0 : (⟨fun i => targets.mean i - g.gp.mean (features i), targets.variance⟩ : Marginal (Fin n)) = targets := by
    simp only [hmean, sub_zero]
  rw [h0]
  exact hf

/-- C37 fails for the sparse model: one feature, constant covariance 1 and mean 1, target 1 with
variance 1.  The prediction should be 1 and is 3/2. -/
theorem C37_sparse_false : ∃ (g : SparseGp Unit Unit) (u features : Fin 1 → Unit) (targets : Marginal (Fin 1)),
    IsPSD g.gp.cov ∧ (∀ x y, g.gp.cov x y = g.gp.cov y x) ∧ (sparseK g u).PosDef ∧
    (sparseA g u features targets.variance).PosDef ∧
    ∀ rt : SparseRoutines, rt.Meets → ¬ SparseMeanHonoured g rt u features targets := by
  let g : SparseGp Unit Unit := ⟨⟨fun _ _ => 1, fun _ => 1, id⟩, id, id, 0, 0⟩
  let u : Fin 1 → Unit := fun _ => ()
  let targets : Marginal (Fin 1) := ⟨fun _ => 1, fun _ => 1⟩
  have hK1 : sparseK g u = 1 := by
    ext i j
    rw [Subsingleton.elim i j]
    simp [sparseK, g]
  have hQ1 : sparseQ g u (fun i => g.gp.asMeas (u i)) (fun i => g.gp.asMeas (u i)) = 1 := by
    rw [sparseQ, hK1]
    ext i j
    rw [Subsingleton.elim i j]
    simp [Gp.covMat, Matrix.mul_apply, g]
  have hA1 : sparseA g u u targets.variance = 1 := by
    ext i j
    rw [Subsingleton.elim i j]
    simp only [sparseA, of_apply, hQ1]
    simp [g, targets]
  have hsym : ∀ x y, g.gp.cov x y = g.gp.cov y x := fun _ _ => rfl
  have hK : (sparseK g u).PosDef := hK1 ▸ Matrix.PosDef.one
  have hA : (sparseA g u u targets.variance).PosDef := hA1 ▸ Matrix.PosDef.one
  refine ⟨g, u, u, targets, IsPSD.const zero_le_one, hsym, hK, hA, fun rt hrt hh => ?_⟩
  obtain ⟨f, f', hf, hf', h⟩ := hh
  obtain ⟨f1, hf1, hH⟩ := fitWith_ok g hsym hrt u u targets hK hA
  rw [hf] at hf1; cases hf1
  obtain ⟨f2, hf2, hH'⟩ := fitWith_ok g.centred hsym hrt u u
    ⟨fun i => targets.mean i - g.gp.mean (u i), targets.variance⟩ hK hA
  rw [hf'] at hf2; cases hf2
  have h1 := (h (Fin 1) u).1 0
  have e2 := SparseFit.Holds.predictJoint (g := g.centred) (fun _ _ => rfl)
    (show (sparseK g.centred u).PosDef from hK) hH' u
  rw [hH.predictJoint hsym hK, e2] at h1
  have hG : sparseGain g u u targets.variance = 1 := by
    rw [sparseGain, hA1]
    ext i j
    rw [Subsingleton.elim i j]
    simp [Gp.covMat, Matrix.mul_apply, g]
  have hGc : sparseGain g.centred u u targets.variance = 1 := hG
  have hKc : sparseK g.centred u = 1 := hK1
  have hR : sparseRhs g u u targets = 1 := by
    rw [sparseRhs, hA1]
    funext i
    simp [mulVec, dotProduct, Gp.covMat, g, targets]
  have hRc : sparseRhs g.centred u u ⟨fun i => targets.mean i - g.gp.mean (u i), targets.variance⟩ = 0 := by
    have hA1c : sparseA g.centred u u targets.variance = 1 := hA1
    rw [sparseRhs]
    simp only [hA1c]
    funext i
    simp [mulVec, dotProduct, Gp.covMat, g, targets]
  have hinv : ((1 : Matrix (Fin 1) (Fin 1) ℝ) + 1)⁻¹ = of fun _ _ => 1 / 2 := by
    apply Matrix.inv_eq_right_inv
    ext i j
    rw [Subsingleton.elim i 0, Subsingleton.elim j 0]
    simp only [Matrix.mul_apply, Matrix.add_apply, Matrix.one_apply, of_apply, Fin.sum_univ_one]
    norm_num
  rw [hG, hGc, hKc, hK1, hR, hRc, hinv] at h1
  simp [mulVec, dotProduct, Gp.covMat, g, SparseGp.centred, Gp.centred] at h1

/-! ## C76: rebasing -/

/-- C76: what a fit made from a joint distribution over new inducing points `z` predicts: the
distribution is propagated through the conditional law of the process given its values at `z`, with the
default nugget added to the covariance and the mean function added to the mean once more. -/
theorem C76_code_value {p : Type} (g : SparseGp X κ) (hsym : ∀ x y, g.gp.cov x y = g.gp.cov y x)
    (rt : SparseRoutines) (hrt : rt.Meets) (z : Fin m → X) (d : Joint (Fin m)) (xs : p → X)
    (hK : (g.gp.covMat z z).PosDef) (hC : (d.covariance + diagonal fun _ => (1e-8 : ℝ)).PosDef) :
    let W := g.gp.covMat xs z * (g.gp.covMat z z)⁻¹
    (∀ j, (g.predictJoint (g.fitFromPrediction rt z d) xs).mean j = g.gp.mean (xs j) + (W *ᵥ d.mean) j) ∧
    (g.predictJoint (g.fitFromPrediction rt z d) xs).covariance =
      g.gp.covMat xs xs - W * g.gp.covMat z xs + W * (d.covariance + diagonal fun _ => (1e-8 : ℝ)) * Wᵀ := by
  intro W
  have hKu := PosDef.isUnit_det' hK
  have hCu := PosDef.isUnit_det' hC
  have hKs := PosDef.transpose_eq' hK
  set K := g.gp.covMat z z with hKdef
  set C := d.covariance + diagonal fun _ => (1e-8 : ℝ) with hCdef
  have hF := hrt.ldlt m K hK
  have hFC := hrt.ldlt m C hC
  set B := (rt.ldlt m C).sqrtSolve K with hB
  have hBB : Bᵀ * B = K * (C⁻¹ * K) := by rw [hB, hFC.gram hC, hKs]
  have hBpd : (Bᵀ * B).PosDef := by
    rw [hBB]
    have h := hC.inv.conjTranspose_mul_mul_same (B := K) (by
      intro a b hab
      have h2 := congrArg (fun v => K⁻¹ *ᵥ v) hab
      simpa [mulVec_mulVec, Matrix.nonsing_inv_mul _ hKu] using h2)
    rw [conjTranspose_eq_transpose_of_trivial, hKs, Matrix.mul_assoc] at h
    exact h
  have hq := hrt.qr _ m B hBpd
  have hgram := hq.gram
  rw [hBB] at hgram
  have hMinv : (K * (C⁻¹ * K))⁻¹ = K⁻¹ * C * K⁻¹ := by
    rw [Matrix.mul_inv_rev, Matrix.mul_inv_rev, Matrix.nonsing_inv_nonsing_inv _ hCu]
  have hsolve := (hF.represents hKu).solveVec d.mean
  have hxz : (g.gp.covMat z xs)ᵀ = g.gp.covMat xs z := covMat_transpose g.gp hsym z xs
  have hWT : Wᵀ = K⁻¹ * g.gp.covMat z xs := by
    rw [show W = g.gp.covMat xs z * K⁻¹ from rfl, transpose_mul, transpose_nonsing_inv, hKs,
      covMat_transpose g.gp hsym]
  constructor
  · intro j
    simp only [SparseGp.predictJoint, SparseGp.fitFromPrediction, Gp.addTo]
    rw [hsolve, hxz, mulVec_mulVec, add_comm]
  · have hcode : g.gp.covMat xs xs - ((rt.ldlt m K).sqrtSolve (g.gp.covMat z xs))ᵀ *
        (rt.ldlt m K).sqrtSolve (g.gp.covMat z xs) +
        (qrSqrtSolve (rt.qr B).getR (rt.qr B).perm (g.gp.covMat z xs))ᵀ *
          qrSqrtSolve (rt.qr B).getR (rt.qr B).perm (g.gp.covMat z xs) =
        g.gp.covMat xs xs - W * g.gp.covMat z xs + W * C * Wᵀ := by
      rw [hF.gram hK]
      have h1 := qrSqrtSolve_gram (R := (rt.qr B).getR) (P := (rt.qr B).perm) (upperView_idem _) (by
        rw [hgram]; rw [hBB] at hBpd; exact PosDef.isUnit_det' hBpd) (g.gp.covMat z xs) (g.gp.covMat z xs)
      rw [hgram, hMinv, hxz] at h1
      rw [h1, hxz, hWT]
      congr 1
      · rw [← Matrix.mul_assoc]
      · simp only [W, Matrix.mul_assoc, hKdef]
    exact hcode

/-- C76, without a mean function and up to the default nugget: predicting at the new inducing points returns
the distribution the fit was made from.  Missing: mean functions other than zero, for which the mean
is wrong (`C76_false`), and equality without the nugget. -/
theorem C76_rebase_partial {m' : Nat} (g : SparseGp X κ) (hsym : ∀ x y, g.gp.cov x y = g.gp.cov y x)
    (rt : SparseRoutines) (hrt : rt.Meets) (hmean : ∀ x, g.gp.mean x = 0) (f : SparseFit X m')
    (z : Fin m → X) (hK : (g.gp.covMat z z).PosDef)
    (hC : ((g.predictJoint f z).covariance + diagonal fun _ => (1e-8 : ℝ)).PosDef) :
    (g.predictJoint (g.rebase rt f z) z).mean = (g.predictJoint f z).mean ∧
    (g.predictJoint (g.rebase rt f z) z).covariance =
      (g.predictJoint f z).covariance + diagonal fun _ => (1e-8 : ℝ) := by
  have hKu := PosDef.isUnit_det' hK
  have hKs := PosDef.transpose_eq' hK
  obtain ⟨h1, h2⟩ := C76_code_value g hsym rt hrt z (g.predictJoint f z) z hK hC
  rw [Matrix.mul_nonsing_inv _ hKu] at h1 h2
  constructor
  · funext j
    rw [SparseGp.rebase, h1, hmean, zero_add, one_mulVec]
  · rw [SparseGp.rebase, h2, Matrix.one_mul, sub_self, zero_add, Matrix.one_mul, transpose_one, Matrix.mul_one]

/-- C76 fails with a mean function: rebasing adds the mean function to the predicted means. -/
theorem C76_false {m' : Nat} (g : SparseGp X κ) (hsym : ∀ x y, g.gp.cov x y = g.gp.cov y x)
    (rt : SparseRoutines) (hrt : rt.Meets) (f : SparseFit X m')
    (z : Fin m → X) (hK : (g.gp.covMat z z).PosDef)
    (hC : ((g.predictJoint f z).covariance + diagonal fun _ => (1e-8 : ℝ)).PosDef)
    (j : Fin m) (hmean : g.gp.mean (z j) ≠ 0) :
    (g.predictJoint (g.rebase rt f z) z).mean j = (g.predictJoint f z).mean j + g.gp.mean (z j) ∧
    (g.predictJoint (g.rebase rt f z) z).mean ≠ (g.predictJoint f z).mean := by
  have hKu := PosDef.isUnit_det' hK
  obtain ⟨h1, -⟩ := C76_code_value g hsym rt hrt z (g.predictJoint f z) z hK hC
  rw [Matrix.mul_nonsing_inv _ hKu] at h1
  have hj : (g.predictJoint (g.rebase rt f z) z).mean j = (g.predictJoint f z).mean j + g.gp.mean (z j) := by
    rw [SparseGp.rebase, h1, one_mulVec, add_comm]
  refine ⟨hj, fun h => hmean ?_⟩
  have := congrFun h j
  rw [hj] at this
  linarith

/-- The hypotheses of the C76 theorems are met (with mean 0 and with mean 1). -/
example (c : ℝ) : ∃ (rt : SparseRoutines) (g : SparseGp ℝ ℤ) (z : Fin 2 → ℝ) (f : SparseFit ℝ 2), rt.Meets ∧
    (∀ x y, g.gp.cov x y = g.gp.cov y x) ∧ (∀ x, g.gp.mean x = c) ∧ (g.gp.covMat z z).PosDef ∧
    ((g.predictJoint f z).covariance + diagonal fun _ => (1e-8 : ℝ)).PosDef := by
  obtain ⟨rt, hrt⟩ := exists_routines
  let g := demoSparse (fun _ => c) 1 1
  let z : Fin 2 → ℝ := ![0, 1]
  have hz : g.gp.covMat z z = !![1, 1; 1, 2] := by
    ext i j
    fin_cases i <;> fin_cases j <;> norm_num [Gp.covMat, g, demoSparse, z]
  have hK : (g.gp.covMat z z).PosDef := by rw [hz]; exact posDef_two one_pos (by norm_num)
  obtain ⟨hKn, hA⟩ := C35_applies g (demoSparse_psd _ _ _) (demoSparse_symm _ _ _) one_pos one_pos z z ![0, 1]
    (by intro i; fin_cases i <;> norm_num)
  obtain ⟨f, -, hf⟩ := fitWith_ok g (demoSparse_symm _ _ _) hrt z z ⟨![3, 4], ![0, 1]⟩ hKn hA
  refine ⟨rt, g, z, f, hrt, demoSparse_symm _ _ _, fun _ => rfl, hK, ?_⟩
  rw [hf.predictJoint (demoSparse_symm _ _ _) hKn]
  -- prior minus explained is positive semi-definite, and the last term too
  have hKT : ∀ {a b : Type} (xs : a → ℝ) (ys : b → ℝ), (g.gp.covMat xs ys)ᵀ = g.gp.covMat ys xs :=
    fun xs ys => covMat_transpose g.gp (demoSparse_symm _ _ _) xs ys
  have hjoint : (fromBlocks (g.gp.covMat z z) (g.gp.covMat z z) (g.gp.covMat z z)ᵀ (g.gp.covMat z z)).PosSemidef := by
    have h := (demoSparse_psd (fun _ => c) 1 1).matrix_fintype (Sum.elim z z)
    have h2 : (of fun i j => g.gp.cov (Sum.elim z z i) (Sum.elim z z j) : Matrix (Fin 2 ⊕ Fin 2) (Fin 2 ⊕ Fin 2) ℝ) =
        fromBlocks (g.gp.covMat z z) (g.gp.covMat z z) (g.gp.covMat z z)ᵀ (g.gp.covMat z z) := by
      rw [hKT]
      ext (i | i) (j | j) <;> rfl
    rwa [← h2]
  have hschur := (posterior_psd (A := sparseK g z) hjoint (by
    rw [← sparseK_eq, add_sub_cancel_left]
    exact (Matrix.PosDef.diagonal fun _ => one_pos).posSemidef) hKn).1
  rw [hKT] at hschur
  have hlast := hf.posDef.inv.posSemidef.conjTranspose_mul_mul_same (g.gp.covMat z z)
  rw [conjTranspose_eq_transpose_of_trivial, hKT, Matrix.mul_assoc] at hlast
  rw [add_comm]
  exact (Matrix.PosDef.diagonal fun _ => by norm_num).add_posSemidef (hschur.add hlast)

/-! ## C77: setters -/

omit [LinearOrder κ] in
/-- C77 for the grouping function: it is stored, and nothing else changes. -/
theorem C77_grouper_partial (g : SparseGp X κ) (grp : X → κ) :
    (g.setGroup grp).group = grp ∧ (g.setGroup grp).inducing = g.inducing ∧ (g.setGroup grp).gp = g.gp ∧
    (g.setGroup grp).measurementNugget = g.measurementNugget ∧
    (g.setGroup grp).inducingNugget = g.inducingNugget := ⟨rfl, rfl, rfl, rfl, rfl⟩

/-- C77 fails for the inducing point strategy: the model keeps the old one (sparse_gp.hpp lines 609-613). -/
theorem C77_inducing_false : ∃ (g : SparseGp ℝ ℤ) (strategy : List ℝ → List ℝ) (features : List ℝ),
    (g.setInducing strategy).inducing features ≠ strategy features ∧
    (g.setInducing strategy).inducing features = g.inducing features :=
  ⟨demoSparse (fun _ => 0) 1 1, fun _ => [], [1], by simp [SparseGp.setInducing, demoSparse], rfl⟩

end Albatross
