import Verif.SparseExample
import Verif.SparseCloseProps
import Verif.SparseWholeProps
import Verif.SincExampleProps
import Verif.IndexingProps

/-! # C138: the sparse example, and noise that inducing points share -/

namespace Albatross

open Matrix

variable {X κ : Type} [LinearOrder κ] {n m : Nat}

/-- What a fitted sparse model without a mean function predicts at one place, in two ways. -/
theorem sparse_predicts {p : Type} (g : SparseGp X κ) (hk : IsPSD g.gp.cov) (hmean : ∀ x, g.gp.mean x = 0)
    (hi : 0 < g.inducingNugget) (hm : 0 < g.measurementNugget) (rt : SparseRoutines) (hrt : rt.Meets) (u : Fin m → X)
    (features : Fin n → X) (targets : Marginal (Fin n)) (hv : ∀ i, 0 ≤ targets.variance i) (xs : p → X) :
    ∃ f, g.fitWith rt u features targets = .ok f ∧ (sparsePrior g u features targets.variance).PosDef ∧ ∀ j,
      (g.predictJoint f xs).mean j = (fun i => explained g u (xs j) (g.gp.asMeas (features i))) ⬝ᵥ
        ((sparsePrior g u features targets.variance)⁻¹ *ᵥ targets.mean) ∧
      (g.predictJoint f xs).covariance j j = g.gp.cov (xs j) (xs j) -
        (fun i => explained g u (xs j) (g.gp.asMeas (features i))) ⬝ᵥ
        ((sparsePrior g u features targets.variance)⁻¹ *ᵥ fun i => explained g u (xs j) (g.gp.asMeas (features i))) ∧
      leftover g u (xs j) ≤ (g.predictJoint f xs).covariance j j := by
  have hsym := hk.1
  obtain ⟨hK, hA⟩ := C35_applies g hk hsym hi hm u features targets.variance hv
  obtain ⟨f, hf, hh⟩ := fitWith_ok g hsym hrt u features targets hK hA
  have hT : (sparsePrior g u features targets.variance).PosDef := by
    rw [sparsePrior, add_comm]
    refine hA.add_posSemidef ?_
    have h := hK.inv.posSemidef.conjTranspose_mul_mul_same (g.gp.covMat u fun i => g.gp.asMeas (features i))
    rw [conjTranspose_eq_transpose_of_trivial, covMat_transpose g.gp hsym] at h
    exact h
  refine ⟨f, hf, hT, fun j => ?_⟩
  have hcond := holds_conditional hsym hK hA hh xs
  rw [isGaussianConditional_iff (PosDef.transpose_eq' hT) (PosDef.isUnit_det' hT)] at hcond
  obtain ⟨c1, c2⟩ := hcond
  refine ⟨?_, ?_, ?_⟩
  · rw [c1, Pi.add_apply, hmean, zero_add, ← mulVec_mulVec, sub_zero]
    rfl
  · rw [c2, Matrix.sub_apply, Matrix.mul_assoc]
    rfl
  · rw [hh.predictJoint hsym hK xs]
    show leftover g u (xs j) ≤ (g.gp.covMat xs xs j j - sparseQ g u xs xs j j) + _
    have h := hh.posDef.inv.posSemidef.conjTranspose_mul_mul_same (g.gp.covMat u fun _ : Unit => xs j)
    rw [conjTranspose_eq_transpose_of_trivial, covMat_transpose g.gp hsym, Matrix.mul_assoc] at h
    have h0 := h.diag_nonneg (i := ())
    have e : leftover g u (xs j) = g.gp.covMat xs xs j j - sparseQ g u xs xs j j := rfl
    rw [e]
    exact le_add_of_nonneg_right h0

/-! ## Noise in the covariance function -/

/-- C138: a covariance function `h + s`, where `s` is zero between a place and the inducing points: the predicted variance
there is at least `s`, and at most the variance before. -/
theorem C138_floor {p : Type} (g : SparseGp X κ) {h s : X → X → ℝ} (hh : IsPSD h) (hs : IsPSD s)
    (hc : ∀ x y, g.gp.cov x y = h x y + s x y) (hmean : ∀ x, g.gp.mean x = 0) (hi : 0 < g.inducingNugget)
    (hm : 0 < g.measurementNugget) (rt : SparseRoutines) (hrt : rt.Meets) (u : Fin m → X) (features : Fin n → X)
    (targets : Marginal (Fin n)) (hv : ∀ i, 0 ≤ targets.variance i) (xs : p → X) :
    ∃ f, g.fitWith rt u features targets = .ok f ∧ ∀ j, (g.predictJoint f xs).covariance j j ≤ g.gp.cov (xs j) (xs j) ∧
      ((∀ l, s (xs j) (u l) = 0) → s (xs j) (xs j) ≤ (g.predictJoint f xs).covariance j j) := by
  have hk : IsPSD g.gp.cov := by
    have : g.gp.cov = fun x y => h x y + s x y := by funext x y; exact hc x y
    rw [this]; exact hh.add hs
  obtain ⟨f, hf, hT, hp⟩ := sparse_predicts g hk hmean hi hm rt hrt u features targets hv xs
  refine ⟨f, hf, fun j => ?_⟩
  obtain ⟨-, h2, h3⟩ := hp j
  refine ⟨?_, fun hz => le_trans ?_ h3⟩
  · rw [h2]
    have := hT.inv.posSemidef.dotProduct_mulVec_nonneg fun i => explained g u (xs j) (g.gp.asMeas (features i))
    rw [star_trivial] at this
    linarith
  · have hK := sparseK_posDef g hk hi u
    set c : Fin m → ℝ := fun l => g.gp.cov (xs j) (u l) with hcdef
    set w := c ᵥ* (sparseK g u)⁻¹ with hw
    have hq : explained g u (xs j) (xs j) = c ⬝ᵥ w := by
      have h1 : explained g u (xs j) (xs j) = w ⬝ᵥ fun l => g.gp.cov (u l) (xs j) := rfl
      have h2 : (fun l => g.gp.cov (u l) (xs j)) = c := by funext l; exact hk.1 _ _
      rw [h1, h2, dotProduct_comm]
    have hle := explains_le (S := sparseK g u) hh u (xs j) (w := w) (c := c) (fun v => by
      have e : v ⬝ᵥ (sparseK g u *ᵥ v) = ∑ i, ∑ k, v i * v k * h (u i) (u k) + ∑ i, ∑ k, v i * v k * s (u i) (u k) +
          ∑ i, g.inducingNugget * v i ^ 2 := by
        rw [← form_covMat, ← form_covMat, ← sparseK_eq, Matrix.add_mulVec, dotProduct_add]
        congr 1
        · rw [← dotProduct_add, ← Matrix.add_mulVec]
          congr 2
          ext i k
          exact hc _ _
        · refine Finset.sum_congr rfl fun i _ => ?_
          rw [mulVec_diagonal]; ring
      rw [e]
      have h1 := hs.2 m u v
      have h2 : 0 ≤ ∑ i, g.inducingNugget * v i ^ 2 := Finset.sum_nonneg fun i _ => by positivity
      linarith) (by rw [hw, vecMul_vecMul, Matrix.nonsing_inv_mul _ (PosDef.isUnit_det' hK), vecMul_one])
      (fun l => by rw [hcdef]; simp only; rw [hc, hz, add_zero])
    show _ ≤ g.gp.cov (xs j) (xs j) - explained g u (xs j) (xs j)
    rw [hq, hc]
    linarith

/-- The hypotheses are met: one inducing point at zero, noise at equal places, predictions at zero and one. -/
example : ∃ (g : SparseGp ℝ ℝ) (h s : ℝ → ℝ → ℝ) (rt : SparseRoutines) (u : Fin 1 → ℝ) (xs : Fin 2 → ℝ), IsPSD h ∧ IsPSD s ∧
    (∀ x y, g.gp.cov x y = h x y + s x y) ∧ (∀ x, g.gp.mean x = 0) ∧ 0 < g.inducingNugget ∧ 0 < g.measurementNugget ∧
    rt.Meets ∧ (∀ l, s (xs 1) (u l) = 0) ∧ 0 < s (xs 1) (xs 1) ∧ s (xs 0) (u 0) ≠ 0 := by
  obtain ⟨rt, hrt⟩ := exists_routines
  refine ⟨⟨⟨fun x y => 1 + noiseCov 1 x y, fun _ => 0, id⟩, id, id, 1, 1⟩, fun _ _ => 1, noiseCov 1, rt, ![0], ![0, 1],
    IsPSD.const zero_le_one, C22_noise_psd 1, fun _ _ => rfl, fun _ => rfl, one_pos, one_pos, hrt, fun l => ?_, ?_, ?_⟩
  · fin_cases l; simp [noiseCov]
  · simp [noiseCov]
  · simp [noiseCov]

/-- C138: a training point that is an inducing point, in a group of its own: there the prediction follows the target.  The
variance is at most the variance of the target and the nuggets, `v + ν_m + 2 ν_i`, whatever the noise in the covariance
function, and the squared distance of the mean from the target is at most `v + ν_m + ν_i` times `y (Q + A)⁻¹ y`. -/
theorem C138_at_inducing {p : Type} (g : SparseGp X κ) (hk : IsPSD g.gp.cov) (hmean : ∀ x, g.gp.mean x = 0)
    (hi : 0 < g.inducingNugget) (hm : 0 < g.measurementNugget) (rt : SparseRoutines) (hrt : rt.Meets) (u : Fin m → X)
    (features : Fin n → X) (targets : Marginal (Fin n)) (hv : ∀ i, 0 ≤ targets.variance i) (xs : p → X) :
    ∃ f, g.fitWith rt u features targets = .ok f ∧ ∀ (j : p) (l : Fin m) (i : Fin n),
      (∀ y, g.gp.cov (xs j) y = g.gp.cov (u l) y) → (∀ y, g.gp.cov (g.gp.asMeas (features i)) y = g.gp.cov (u l) y) →
      (∀ i', g.group (features i') = g.group (features i) → i' = i) →
      (g.predictJoint f xs).covariance j j ≤ targets.variance i + g.measurementNugget + 2 * g.inducingNugget ∧
      (targets.mean i - (g.predictJoint f xs).mean j) ^ 2 ≤
        (targets.variance i + g.measurementNugget + g.inducingNugget) *
          (targets.mean ⬝ᵥ ((sparsePrior g u features targets.variance)⁻¹ *ᵥ targets.mean)) := by
  obtain ⟨f, hf, hT, hp⟩ := sparse_predicts g hk hmean hi hm rt hrt u features targets hv xs
  refine ⟨f, hf, fun j l i hx hz hgr => ?_⟩
  obtain ⟨h1, h2, -⟩ := hp j
  have hsym := hk.1
  set z := fun i => g.gp.asMeas (features i) with hzdef
  set T := sparsePrior g u features targets.variance with hTdef
  set q : Fin n → ℝ := fun i' => explained g u (xs j) (z i') with hqdef
  set y := targets.mean with hy
  set K := g.gp.cov (u l) (u l) with hKdef
  set ℓ := leftover g u (u l) with hℓ
  set v := targets.variance i + g.measurementNugget with hvdef
  have hv0 : 0 < v := by have := hv i; rw [hvdef]; linarith
  -- the same place
  have exl : ∀ (a b w : X), (∀ y, g.gp.cov a y = g.gp.cov b y) → explained g u a w = explained g u b w := by
    intro a b w hab
    have : ∀ a, explained g u a w = ((fun k => g.gp.cov a (u k)) ᵥ* (sparseK g u)⁻¹) ⬝ᵥ fun k => g.gp.cov (u k) w :=
      fun _ => rfl
    rw [this, this]
    simp only [hab]
  have exs : ∀ a b, explained g u a b = explained g u b a := (explained_psd g hk hi u).1
  have kxx : g.gp.cov (xs j) (xs j) = K := by rw [hx, hsym, hx]
  have kzz : g.gp.cov (z i) (z i) = K := by
    show g.gp.cov (g.gp.asMeas (features i)) (g.gp.asMeas (features i)) = K
    rw [hz, hsym, hz]
  have exz : explained g u (z i) (z i) = explained g u (u l) (u l) := by
    rw [exl (z i) (u l) _ hz, exs, exl (z i) (u l) _ hz]
  have hqi : q i = K - ℓ := by
    have : q i = explained g u (u l) (u l) := by
      rw [hqdef]; simp only
      rw [exl _ _ _ hx, exs, exl (z i) (u l) _ hz]
    rw [this, hℓ, leftover]
    show _ = K - (K - explained g u (u l) (u l))
    ring
  have hTi : ∀ i', T i i' = q i' + if i = i' then ℓ + v else 0 := by
    intro i'
    have e : T i i' = explained g u (z i) (z i') + ((if g.group (features i) = g.group (features i') then
        g.gp.cov (z i) (z i') - explained g u (z i) (z i') else 0) +
        if i = i' then targets.variance i + g.measurementNugget else 0) := rfl
    have e1 : explained g u (z i) (z i') = q i' := by
      rw [hqdef]; simp only
      rw [exl (z i) (u l) _ hz, exl (xs j) (u l) _ hx]
    rw [e, e1]
    by_cases hii : i = i'
    · subst hii
      rw [if_pos rfl, if_pos rfl, if_pos rfl, kzz, hqi]
      ring
    · rw [if_neg hii, if_neg hii, if_neg fun h => hii (hgr i' h.symm).symm]
      ring
  obtain ⟨l1, l2, l3⟩ := C128_leftover g hk hi u (u l)
  have hKn : 0 ≤ K := hk.diag_nonneg _
  have hℓi : ℓ ≤ g.inducingNugget := by
    refine (l3 l).trans ?_
    rw [← hKdef, sub_le_iff_le_add, ← sub_le_iff_le_add', le_div_iff₀ (by linarith)]
    nlinarith [sq_nonneg g.inducingNugget]
  have hℓ0 : 0 ≤ ℓ := l1
  have hd : 0 < ℓ + v := by linarith
  have hTu := PosDef.isUnit_det' hT
  have hTt := PosDef.transpose_eq' hT
  -- q is the row of T up to one entry
  set P := T⁻¹ with hP
  have hPt : Pᵀ = P := by rw [hP, transpose_nonsing_inv, hTt]
  have hrow : ∀ w : Fin n → ℝ, q ⬝ᵥ (P *ᵥ w) = w i - (ℓ + v) * (P *ᵥ w) i := by
    intro w
    have e1 : (T *ᵥ (P *ᵥ w)) i = w i := by rw [mulVec_mulVec, hP, Matrix.mul_nonsing_inv _ hTu, one_mulVec]
    have e2 : (T *ᵥ (P *ᵥ w)) i = q ⬝ᵥ (P *ᵥ w) + (ℓ + v) * (P *ᵥ w) i := by
      have : T i = q + Pi.single i (ℓ + v) := by
        funext i'
        rw [hTi, Pi.add_apply, Pi.single_apply]
        congr 1
        simp only [eq_comm]
      rw [mulVec, this, add_dotProduct, single_dotProduct]
    linarith
  have hcs : ∀ w : Fin n → ℝ, (P *ᵥ w) i ^ 2 ≤ P i i * (w ⬝ᵥ (P *ᵥ w)) := by
    intro w
    have hps : ∀ t : ℝ, 0 ≤ P i i * (t * t) + 2 * (P *ᵥ w) i * t + w ⬝ᵥ (P *ᵥ w) := by
      intro t
      have h0 := hT.inv.posSemidef.dotProduct_mulVec_nonneg (t • Pi.single i 1 + w)
      rw [star_trivial] at h0
      have e1 : w ⬝ᵥ (P *ᵥ Pi.single i 1) = (P *ᵥ w) i := by
        rw [dotProduct_mulVec, ← mulVec_transpose, hPt, dotProduct_single, mul_one]
      rw [← hP, mulVec_add, mulVec_smul, dotProduct_add, add_dotProduct, add_dotProduct, smul_dotProduct, smul_dotProduct,
        dotProduct_smul, dotProduct_smul, single_one_dotProduct, single_one_dotProduct, e1] at h0
      have e2 : (P *ᵥ Pi.single i 1) i = P i i := by simp
      rw [e2] at h0
      simp only [smul_eq_mul] at h0
      linarith
    have := discrim_le_zero hps
    unfold discrim at this
    nlinarith
  -- the entry of the inverse
  have hPi : (ℓ + v) * P i i ≤ 1 := by
    -- `T` is at least `ℓ + v` at this entry
    set a := P *ᵥ (Pi.single i 1 : Fin n → ℝ) with ha
    have hai : a i = P i i := by rw [ha]; simp
    have hTa : a ⬝ᵥ (T *ᵥ a) = P i i := by
      rw [ha, mulVec_mulVec, hP, Matrix.mul_nonsing_inv _ hTu, one_mulVec, dotProduct_single, mul_one]
      simp
    have hQ := (explained_psd g hk hi u).2 n z a
    have hA := (C35_applies g hk hsym hi hm u features targets.variance hv).2
    have hsplit : a ⬝ᵥ (T *ᵥ a) = ∑ i, ∑ k, a i * a k * explained g u (z i) (z k) +
        a ⬝ᵥ (sparseA g u features targets.variance *ᵥ a) := by
      rw [hTdef, sparsePrior, Matrix.add_mulVec, dotProduct_add]
      congr 1
      exact form_covMat (explained g u) z a
    have hAi : ∀ i', sparseA g u features targets.variance i i' = if i = i' then ℓ + v else 0 := by
      intro i'
      have e := hTi i'
      have e1 : T i i' = explained g u (z i) (z i') + sparseA g u features targets.variance i i' := rfl
      have e2 : explained g u (z i) (z i') = q i' := by
        rw [hqdef]; simp only
        rw [exl (z i) (u l) _ hz, exl (xs j) (u l) _ hx]
      linarith
    have hAs : (sparseA g u features targets.variance)ᵀ = sparseA g u features targets.variance := PosDef.transpose_eq' hA
    have hAge : (ℓ + v) * a i ^ 2 ≤ a ⬝ᵥ (sparseA g u features targets.variance *ᵥ a) := by
      set A := sparseA g u features targets.variance with hAdef
      have h0 := hA.posSemidef.dotProduct_mulVec_nonneg (a - a i • Pi.single i 1)
      rw [star_trivial] at h0
      have e1 : A *ᵥ (Pi.single i 1 : Fin n → ℝ) = Pi.single i (ℓ + v) := by
        funext i'
        have : A i' i = A i i' := congrFun (congrFun hAs i) i'
        rw [mulVec_single_one, col_apply, this, hAi, Pi.single_apply]
        simp only [eq_comm]
      have e2 : (A *ᵥ a) i = (ℓ + v) * a i := by
        have : A i = Pi.single i (ℓ + v) := by
          funext i'
          rw [hAi, Pi.single_apply]
          simp only [eq_comm]
        rw [mulVec, this, single_dotProduct]
      rw [mulVec_sub, mulVec_smul, e1, sub_dotProduct, dotProduct_sub, dotProduct_sub, smul_dotProduct, smul_dotProduct,
        dotProduct_smul, dotProduct_smul, single_one_dotProduct, single_one_dotProduct, e2, dotProduct_single] at h0
      simp only [smul_eq_mul, Pi.single_eq_same] at h0
      nlinarith
    have hpos : 0 < P i i := hT.inv.diag_pos
    have : (ℓ + v) * P i i ^ 2 ≤ P i i := by
      rw [← hai] at hTa ⊢
      linarith
    nlinarith
  have hPpos : 0 < P i i := hT.inv.diag_pos
  constructor
  · rw [h2, kxx, hrow q, hqi]
    have e : (P *ᵥ q) i = 1 - (ℓ + v) * P i i := by
      have h0 := hrow (Pi.single i 1)
      rw [dotProduct_mulVec, ← mulVec_transpose, hPt, dotProduct_single, mul_one, Pi.single_eq_same] at h0
      rw [h0]
      simp
    rw [e]
    nlinarith [mul_pos hd hPpos, mul_nonneg hd.le hPpos.le]
  · rw [h1, hrow y]
    have := hcs y
    have hyy : 0 ≤ y ⬝ᵥ (P *ᵥ y) := by
      have := hT.inv.posSemidef.dotProduct_mulVec_nonneg y
      rwa [star_trivial] at this
    calc (y i - (y i - (ℓ + v) * (P *ᵥ y) i)) ^ 2 = (ℓ + v) ^ 2 * (P *ᵥ y) i ^ 2 := by ring
      _ ≤ (ℓ + v) ^ 2 * (P i i * (y ⬝ᵥ (P *ᵥ y))) := by gcongr
      _ = (ℓ + v) * ((ℓ + v) * P i i) * (y ⬝ᵥ (P *ᵥ y)) := by ring
      _ ≤ (ℓ + v) * 1 * (y ⬝ᵥ (P *ᵥ y)) := by gcongr
      _ ≤ (v + g.inducingNugget) * (y ⬝ᵥ (P *ᵥ y)) := by
        refine mul_le_mul_of_nonneg_right ?_ hyy
        linarith

/-! ## The example -/

/-- The covariance function of the example: noise of 0.1, and a squared exponential with length scale 3.5 and scale 5.7. -/
noncomputable def exampleKernel (x y : ℝ) : ℝ := (if x = y then 0.01 else 0) + 5.7 ^ 2 * Real.exp (-((x - y) / 3.5) ^ 2)

/-- The covariance of two values that goes through the inducing points. -/
noncomputable def throughInducing (u : Fin m → ℝ) (x y : ℝ) : ℝ :=
  ∑ k, ∑ l, exampleKernel x (u k) *
    (of fun k l => exampleKernel (u k) (u l) + if k = l then 10⁻¹ ^ 8 else 0 : Matrix (Fin m) (Fin m) ℝ)⁻¹ k l *
    exampleKernel (u l) y

/-- The covariance of the targets: every target on its own, through the inducing points between targets. -/
noncomputable def exampleTargets (u : Fin m → ℝ) (train : Fin n → ℝ) : Matrix (Fin n) (Fin n) ℝ :=
  of fun i j => if i = j then 0.01 + 5.7 ^ 2 + 10⁻¹ ^ 8 else throughInducing u (train i) (train j)

/-- The true function of this example has neither slope nor constant: a bump of height ten at three. -/
theorem C138_truth : Continuous sparseTruth ∧ sparseTruth 3 = 10 ∧ ∀ x, x ≠ 3 → |sparseTruth x| < 10 := by
  obtain ⟨h1, -, h2, -, h3⟩ := C131_sinc
  refine ⟨?_, by simp [sparseTruth, h2], fun x hx => ?_⟩
  · unfold sparseTruth; fun_prop
  · have := h3 (x - 3) (sub_ne_zero.2 hx)
    unfold sparseTruth
    rw [mul_zero, add_zero, zero_add, abs_mul, abs_of_pos (by norm_num : (0 : ℝ) < 10)]
    linarith

/-- The numbers in the object as it is constructed, and what its functions compute. -/
theorem C138_model : ∃ m c, sparseExampleModel =
      .sparse ⟨.fin (10⁻¹ ^ 8), .logScaleUniform (.fin (2⁻¹ ^ 52)) (.fin ((2 - 2⁻¹ ^ 52) * 2 ^ 1023))⟩
        ⟨.fin (10⁻¹ ^ 8), .logScaleUniform (.fin (2⁻¹ ^ 52)) (.fin ((2 - 2⁻¹ ^ 52) * 2 ^ 1023))⟩ m c ∧
    (∀ x y, sparseExampleCov.call c x y = some (exampleKernel x.value y.value)) ∧
    (∀ x, MeanType.zero.call m x = some 0) ∧ paramsAreValid sparseExampleModel.getParams = true := by
  refine ⟨_, _, rfl, fun x y => ?_, fun x => rfl, ?_⟩
  · have h1 : CovType.noise.call (makeNoise (.fin 0.1)) x.value y.value = some (noiseCov 0.1 x.value y.value) := rfl
    simp only [sparseExampleCov, ModelCov.call, h1, seCall, exampleKernel, noiseCov]
    norm_num
  · show paramsAreValid [("inducing_nugget", ⟨.fin (10⁻¹ ^ 8), .logScaleUniform (.fin dblEpsilon) (.fin dblMax)⟩),
      ("measurement_nugget", ⟨.fin (10⁻¹ ^ 8), .logScaleUniform (.fin dblEpsilon) (.fin dblMax)⟩),
      ("sigma_independent_noise", ⟨.fin 0.1, .positive⟩), ("sigma_squared_exponential", ⟨.fin 5.7, .nonNegative⟩),
      ("squared_exponential_length_scale", ⟨.fin 3.5, .positive⟩)] = true
    have he : Prior.epsilon ≤ 1 / 10000 := by unfold Prior.epsilon; norm_num
    have h1 : dblEpsilon ≤ 10⁻¹ ^ 8 := by unfold dblEpsilon; norm_num
    have h2 : (10⁻¹ : ℝ) ^ 8 ≤ dblMax := by
      have h3 : (1 : ℝ) ≤ 2 ^ 1023 := one_le_pow₀ (by norm_num)
      have h4 : (1 : ℝ) ≤ 2 - dblEpsilon := by unfold dblEpsilon; norm_num
      have h5 : (1 : ℝ) ≤ dblMax := by unfold dblMax; exact one_le_mul_of_one_le_of_one_le h4 h3
      exact le_trans (by norm_num) h5
    simp only [paramsAreValid, Parameter.isValid, Prior.lower, Prior.upper]
    norm_num at h1 h2 ⊢
    refine ⟨⟨h1, h2⟩, ?_, ?_⟩ <;> linarith

theorem alter_last {f : Option (List Nat) → List Nat} {k : Nat} (out : SMap Nat (List Nat)) (h : ∀ kv ∈ out, kv.1 < k) :
    SMap.alter f k out = out ++ [(k, f none)] := by
  induction out with
  | nil => rfl
  | cons kv t ih =>
    obtain ⟨k', v⟩ := kv
    have h1 : k' < k := h (k', v) (by simp)
    rw [SMap.alter, if_neg (by omega), if_neg (by omega), ih fun x hx => h x (by simp [hx])]
    rfl

/-- `LeaveOneOutGrouper` groups by position. -/
theorem C138_groups {α : Type} (x : Fin n → α) :
    buildIndexer Prod.fst (List.ofFn fun i : Fin n => ((i : Nat), x i)) = buildLeaveOneOut (List.ofFn x) := by
  have key : ∀ (xs : List α) (i : Nat) (out : SMap Nat (List Nat)), (∀ kv ∈ out, kv.1 < i) →
      buildKeys i (List.range' i xs.length) out = buildLeaveOneOutLoop i xs out := by
    intro xs
    induction xs with
    | nil => intro i out _; rfl
    | cons a t ih =>
      intro i out h
      rw [List.length_cons, List.range'_succ, buildKeys, buildLeaveOneOutLoop, SMap.put, alter_last out h, alter_last out h]
      refine ih (i + 1) _ fun kv hkv => ?_
      rcases List.mem_append.1 hkv with hkv | hkv
      · have := h kv hkv; omega
      · rw [List.mem_singleton.1 hkv]; exact Nat.lt_succ_self i
  rw [buildIndexer_eq, buildLeaveOneOut, ← key (List.ofFn x) 0 [] (by simp)]
  congr 1
  refine List.ext_getElem (by simp) fun i h1 h2 => ?_
  simp

/-- A grid without numbers that are not finite. -/
theorem example_points (b : Build) (k : Nat) (h2 : 2 ≤ k) (hk : k ≤ 2 ^ 53 + 1) (train : Fin n → ℝ) (hn : 0 < n) :
    ∃ i₀ i₁ : Fin n, (∀ i, train i₀ ≤ train i ∧ train i ≤ train i₁) ∧ ∃ us : List ℝ, us.length = k ∧
      uniformInducingPoints b k (List.ofFn fun i => .fin (train i)) = .ok (us.map .fin) ∧
      ∀ l (hl : l < us.length), us[l] = train i₀ + l * ((train i₁ - train i₀) / (k - 1)) := by
  have hne : List.ofFn train ≠ [] := by
    intro h0
    have := congrArg List.length h0
    simp at this
    omega
  obtain ⟨mn, m1, mx, m2, m3, g, g1, ⟨g2, g3, g4, step, g5⟩, -⟩ := C96_uniform_points b k h2 hk (List.ofFn train) hne
  obtain ⟨i₀, rfl⟩ := (List.mem_ofFn' _ _).1 m1
  obtain ⟨i₁, rfl⟩ := (List.mem_ofFn' _ _).1 m2
  refine ⟨i₀, i₁, fun i => m3 _ ((List.mem_ofFn' _ _).2 ⟨i, rfl⟩), (List.range k).map fun l : Nat => train i₀ + l * step,
    by simp, ?_, fun l hl => ?_⟩
  · have e : (List.ofFn fun i => Dbl.fin (train i)) = (List.ofFn train).map .fin := by rw [List.map_ofFn]; rfl
    rw [e, g1]
    congr 1
    refine List.ext_getElem? fun i => ?_
    by_cases hi : i < k
    · rw [g5 i hi]
      simp [hi]
    · rw [List.getElem?_eq_none (by omega), List.getElem?_eq_none (by simp; omega)]
  · have hk1 : (k : ℝ) - 1 ≠ 0 := by
      have : (2 : ℝ) ≤ k := by exact_mod_cast h2
      linarith
    have hs : step = (train i₁ - train i₀) / (k - 1) := by
      have := g5 (k - 1) (by omega)
      rw [g4] at this
      have h := Dbl.fin.inj (Option.some.inj this)
      rw [Nat.cast_sub (by omega), Nat.cast_one] at h
      field_simp
      linarith
    simp only [List.getElem_map, List.getElem_range, hs]

theorem exampleKernel_parts : (IsPSD fun x y : ℝ => 5.7 ^ 2 * Real.exp (-((x - y) / 3.5) ^ 2)) ∧
    IsPSD fun x y : ℝ => if x = y then (0.01 : ℝ) else 0 := by
  constructor
  · have h := (sincKernel_psd "radial_only").smul (c := 5.7 ^ 2 / 100 ^ 2) (by positivity)
    refine cast (congrArg IsPSD ?_) h
    funext x y
    simp only [sincKernel]
    ring
  · refine cast (congrArg IsPSD ?_) (C22_noise_psd (X := ℝ) 0.1)
    funext x y
    simp only [noiseCov]
    norm_num

/-- C138.  Full claim: the example predicts measurements, so no predicted variance is below the variance of the noise.
Proved for the places that are not inducing points (it is false at others: `C138_floor_false`).  With two or more inducing
points, uniform from the smallest to the largest training point, the example predicts the posterior under the prior in which
targets are related through the inducing points only; every predicted variance is at most the variance before.  Where a
training point is an inducing point, the noise is taken for signal: the predicted variance is at most three nuggets, and the
prediction follows the target. -/
theorem C138_predictions_partial {q : Type} (b : Build) (rt : SparseRoutines) (hrt : rt.Meets) (k : Nat) (h2 : 2 ≤ k)
    (hk : k ≤ 2 ^ 53 + 1) (train y : Fin n → ℝ) (hn : 0 < n) (grid : q → ℝ) :
    ∃ i₀ i₁ : Fin n, (∀ i, train i₀ ≤ train i ∧ train i ≤ train i₁) ∧
    ∃ (u : Fin k → ℝ) (p : Marginal q), (∀ l : Fin k, u l = train i₀ + l * ((train i₁ - train i₀) / (k - 1))) ∧
      sparseExamplePredict b rt k train y grid = .ok (some p) ∧ (exampleTargets u train).PosDef ∧ ∀ j,
      p.mean j = (fun i => throughInducing u (grid j) (train i)) ⬝ᵥ ((exampleTargets u train)⁻¹ *ᵥ y) ∧
      p.variance j = 0.01 + 5.7 ^ 2 - (fun i => throughInducing u (grid j) (train i)) ⬝ᵥ
        ((exampleTargets u train)⁻¹ *ᵥ fun i => throughInducing u (grid j) (train i)) ∧
      p.variance j ≤ 0.01 + 5.7 ^ 2 ∧
      ((∀ l, grid j ≠ u l) → 0.01 ≤ p.variance j) ∧
      ∀ i l, grid j = train i → train i = u l → p.variance j ≤ 3 / 10 ^ 8 ∧
        (y i - p.mean j) ^ 2 ≤ 2 / 10 ^ 8 * (y ⬝ᵥ ((exampleTargets u train)⁻¹ *ᵥ y)) := by
  obtain ⟨i₀, i₁, hex, us, hlen, hus, hget⟩ := example_points b k h2 hk train hn
  subst hlen
  refine ⟨i₀, i₁, hex, ?_⟩
  obtain ⟨m, c, hmodel, hcov, hmean, -⟩ := C138_model
  set g := sparseExampleGp m c (10⁻¹ ^ 8) (10⁻¹ ^ 8) us with hg
  have hcv : ∀ x y, g.gp.cov x y = exampleKernel x.2.value y.2.value := fun x y => by
    show (sparseExampleCov.call c x.2 y.2).getD 0 = _
    rw [hcov]; rfl
  have hmv : ∀ x, g.gp.mean x = 0 := fun x => by
    show (MeanType.zero.call m x.2.value).getD 0 = _
    rw [hmean]; rfl
  obtain ⟨hse, hno⟩ := exampleKernel_parts
  have hse' := hse.comp fun x : Nat × MeasDouble => x.2.value
  have hno' := hno.comp fun x : Nat × MeasDouble => x.2.value
  have hsum : ∀ x y, g.gp.cov x y = 5.7 ^ 2 * Real.exp (-((x.2.value - y.2.value) / 3.5) ^ 2) +
      if x.2.value = y.2.value then (0.01 : ℝ) else 0 := fun x y => by rw [hcv, exampleKernel, add_comm]
  have hpsd : IsPSD g.gp.cov := by
    have : g.gp.cov = fun x y => 5.7 ^ 2 * Real.exp (-((x.2.value - y.2.value) / 3.5) ^ 2) +
      if x.2.value = y.2.value then (0.01 : ℝ) else 0 := by funext x y; exact hsum x y
    rw [this]
    exact hse'.add hno'
  set z : Fin n → Nat × MeasDouble := fun i => ((i : Nat), ⟨false, train i⟩) with hz
  set t : Marginal (Fin n) := ⟨y, fun _ => 0⟩ with ht
  set xs : q → Nat × MeasDouble := fun j => (0, ⟨true, grid j⟩) with hxs
  have hind : g.inducing (List.ofFn z) = us.map fun u => (0, ⟨false, u⟩) := rfl
  have hne : g.inducing (List.ofFn z) ≠ [] := by
    rw [hind]
    intro h0
    have h1 := congrArg List.length h0
    rw [List.length_map, List.length_nil] at h1
    omega
  set L := (g.inducing (List.ofFn z)).get with hL
  set u := fun l => (L l).2.value with hu
  have hm : (g.inducing (List.ofFn z)).length = us.length := by rw [hind, List.length_map]
  have hval : ∀ l : Fin (us.map fun u => ((0, ⟨false, u⟩) : Nat × MeasDouble)).length,
      ((us.map fun u => ((0, ⟨false, u⟩) : Nat × MeasDouble)).get l).2.value = us[l.1]'(by simpa using l.2) := by
    intro l
    simp
  have hLu : ∀ l, u l = train i₀ + (l : Nat) * ((train i₁ - train i₀) / (us.length - 1)) := by
    intro l
    rw [← hget l.1 (lt_of_lt_of_eq l.2 hm)]
    exact hval l
  have hi : 0 < g.inducingNugget := by show (0 : ℝ) < 10⁻¹ ^ 8; positivity
  have hmn : 0 < g.measurementNugget := by show (0 : ℝ) < 10⁻¹ ^ 8; positivity
  have hv : ∀ i, 0 ≤ t.variance i := fun _ => le_refl _
  obtain ⟨f, hf, hT, hp⟩ := sparse_predicts g hpsd hmv hi hmn rt hrt L z t hv xs
  obtain ⟨f', hf', hfloor⟩ := C138_floor g hse' hno' hsum hmv hi hmn rt hrt L z t hv xs
  obtain ⟨f'', hf'', hat⟩ := C138_at_inducing g hpsd hmv hi hmn rt hrt L z t hv xs
  rw [hf] at hf' hf''
  cases hf'
  cases hf''
  have hK : sparseK g L = of fun k l => exampleKernel (u k) (u l) + if k = l then 10⁻¹ ^ 8 else 0 := by
    ext k l
    simp only [sparseK, of_apply, hcv]
    rfl
  have hex' : ∀ x w, explained g L x w = throughInducing u x.2.value w.2.value := by
    intro x w
    have : explained g L x w = ∑ l, (∑ k, g.gp.cov x (L k) * (sparseK g L)⁻¹ k l) * g.gp.cov (L l) w := rfl
    rw [this, throughInducing, hK, Finset.sum_comm]
    simp only [hcv, Finset.sum_mul]
    rfl
  have hkk : ∀ x, exampleKernel x x = 0.01 + 5.7 ^ 2 := fun x => by simp [exampleKernel]
  have hprior : sparsePrior g L z t.variance = exampleTargets u train := by
    ext i j
    have e : sparsePrior g L z t.variance i j = explained g L (g.gp.asMeas (z i)) (g.gp.asMeas (z j)) +
        ((if (i : Nat) = (j : Nat) then g.gp.cov (g.gp.asMeas (z i)) (g.gp.asMeas (z j)) -
          explained g L (g.gp.asMeas (z i)) (g.gp.asMeas (z j)) else 0) + if i = j then 0 + 10⁻¹ ^ 8 else 0) := rfl
    rw [e, hex', exampleTargets, of_apply]
    by_cases hij : i = j
    · subst hij
      rw [if_pos rfl, if_pos rfl, if_pos rfl, hcv, hkk]
      ring
    · rw [if_neg hij, if_neg hij, if_neg fun h => hij (Fin.ext h), add_zero, add_zero]
      rfl
  rw [hprior] at hT hp hat
  have hq : ∀ j, (fun i => explained g L (xs j) (g.gp.asMeas (z i))) = fun i => throughInducing u (grid j) (train i) :=
    fun j => by funext i; exact hex' _ _
  have hrun : sparseExamplePredict b rt us.length train y grid = .ok (some (g.predictMarginal f xs)) := by
    unfold sparseExamplePredict
    rw [hmodel]
    simp only [hus, except_ok_bind, allFinite_map]
    rw [← hg, C35_fit_uses_strategy b g rt z t hne, hf]
    rfl
  have main : ∃ (k : Nat) (u : Fin k → ℝ), k = us.length ∧
      (∀ l : Fin k, u l = train i₀ + l * ((train i₁ - train i₀) / (us.length - 1))) ∧
      (exampleTargets u train).PosDef ∧ ∀ j, let p := g.predictMarginal f xs
      p.mean j = (fun i => throughInducing u (grid j) (train i)) ⬝ᵥ ((exampleTargets u train)⁻¹ *ᵥ y) ∧
      p.variance j = 0.01 + 5.7 ^ 2 - (fun i => throughInducing u (grid j) (train i)) ⬝ᵥ
        ((exampleTargets u train)⁻¹ *ᵥ fun i => throughInducing u (grid j) (train i)) ∧
      p.variance j ≤ 0.01 + 5.7 ^ 2 ∧
      ((∀ l, grid j ≠ u l) → 0.01 ≤ p.variance j) ∧
      ∀ i l, grid j = train i → train i = u l → p.variance j ≤ 3 / 10 ^ 8 ∧
        (y i - p.mean j) ^ 2 ≤ 2 / 10 ^ 8 * (y ⬝ᵥ ((exampleTargets u train)⁻¹ *ᵥ y)) := by
    refine ⟨_, u, hm, hLu, hT, fun j => ?_⟩
    obtain ⟨f1, -, f3⟩ := C35_forms_agree g f xs
    intro p
    have e1 : p.mean j = (g.predictJoint f xs).mean j := congrFun f1 j
    have e2 : p.variance j = (g.predictJoint f xs).covariance j j := f3 j
    obtain ⟨p1, p2, -⟩ := hp j
    obtain ⟨p3, p4⟩ := hfloor j
    have kx : g.gp.cov (xs j) (xs j) = 0.01 + 5.7 ^ 2 := by rw [hcv, hkk]
    rw [hq] at p1 p2
    rw [kx] at p2 p3
    rw [e1, e2]
    refine ⟨p1, p2, p3, fun h => ?_, fun i l h1 h2 => ?_⟩
    · have := p4 fun l => if_neg (h l)
      simpa using this
    · have := hat j l i (fun w => by rw [hcv, hcv]; show exampleKernel (grid j) _ = exampleKernel (u l) _; rw [h1, h2])
        (fun w => by rw [hcv, hcv]; show exampleKernel (train i) _ = exampleKernel (u l) _; rw [h2])
        fun i' h => Fin.ext h
      obtain ⟨a1, a2⟩ := this
      have b1 : t.variance i + g.measurementNugget + 2 * g.inducingNugget = 3 / 10 ^ 8 := by
        show (0 : ℝ) + 10⁻¹ ^ 8 + 2 * 10⁻¹ ^ 8 = _
        norm_num
      have b2 : t.variance i + g.measurementNugget + g.inducingNugget = 2 / 10 ^ 8 := by
        show (0 : ℝ) + 10⁻¹ ^ 8 + 10⁻¹ ^ 8 = _
        norm_num
      rw [b1] at a1
      rw [b2] at a2
      exact ⟨a1, a2⟩
  obtain ⟨k', u', rfl, m1, m2, m3⟩ := main
  exact ⟨u', _, m1, hrun, m2, m3⟩

/-- The claim without the exception: no predicted variance is below the variance of the noise. -/
def ExampleNoiseFloor : Prop :=
  ∀ (b : Build) (rt : SparseRoutines), rt.Meets → ∀ (n : Nat) (train y : Fin n → ℝ) (grid : Fin 161 → ℝ) (p : Marginal (Fin 161)),
    (∀ j : Fin 161, grid j = -13 + j * 0.225) → sparseExamplePredict b rt 5 train y grid = .ok (some p) →
    ∀ j, 0.01 ≤ p.variance j

/-- C138 is false: for any training data whose smallest point is on the grid, the variance predicted there is less than a
hundred thousandth of the variance of the noise.  Here the points 0.5, 3 and 5. -/
theorem C138_floor_false : ¬ ExampleNoiseFloor := by
  intro h
  obtain ⟨rt, hrt⟩ := exists_routines
  obtain ⟨i₀, i₁, hex, u, p, hu, hp, -, hall⟩ := C138_predictions_partial .debug rt hrt 5 (by norm_num) (by norm_num)
    ![0.5, 3, 5] ![1, 2, 3] (by norm_num) fun j : Fin 161 => (-13 : ℝ) + j * 0.225
  have h1 := h .debug rt hrt 3 _ _ _ p (fun _ => rfl) hp 60
  have hu0 : u 0 = 0.5 := by
    rw [hu]
    have ha := (hex 0).1
    have hb : (![0.5, 3, 5] : Fin 3 → ℝ) 0 ≤ (![0.5, 3, 5] : Fin 3 → ℝ) i₀ := by fin_cases i₀ <;> norm_num
    have := le_antisymm ha hb
    rw [this]
    simp
  have h2 := ((hall 60).2.2.2.2 0 0 (by norm_num) (by rw [hu0]; rfl)).1
  norm_num at h1 h2
  linarith

theorem Except.bind_ok {ε α β : Type} {x : Except ε α} {f : α → Except ε β} {v : β} (h : (x >>= f) = .ok v) :
    ∃ a, x = .ok a ∧ f a = .ok v := by
  cases x with
  | error e => exact nomatch h
  | ok a => exact ⟨a, rfl, h⟩

/-- As many features as targets, and not none. -/
theorem readCsvInput_lengths {lines : List (List String)} {d : Dataset Dbl Dbl} (hd : readCsvInput lines = .ok d) :
    d.features.length = d.mean.length ∧ d.mean ≠ [] := by
  cases lines with
  | nil => exact nomatch hd
  | cons header rows =>
    unfold readCsvInput at hd
    simp only at hd
    split_ifs at hd with hall
    swap
    · exact nomatch hd
    obtain ⟨⟨xs, ys⟩, h1, hd⟩ := Except.bind_ok hd
    simp only at hd
    have key : ∀ (rows : List (List String)) (acc out : List Dbl × List Dbl), acc.1.length = acc.2.length →
        rows.foldlM (fun (acc : List Dbl × List Dbl) row => do
          let x ← numberOf header row "feature"
          let _ ← numberOf header row "prediction"
          let _ ← fieldOf header row "prediction_variance"
          let y ← numberOf header row "target"
          let _ ← fieldOf header row "target_variance"
          pure (acc.1 ++ [x], acc.2 ++ [y])) acc = (.ok out : Outcome _) → out.1.length = out.2.length := by
      intro rows
      induction rows with
      | nil => intro acc out h ho; cases ho; exact h
      | cons r t ih =>
        intro acc out h ho
        rw [List.foldlM_cons] at ho
        obtain ⟨acc', ha, ho⟩ := Except.bind_ok ho
        refine ih acc' out ?_ ho
        obtain ⟨x, -, ha⟩ := Except.bind_ok ha
        obtain ⟨-, -, ha⟩ := Except.bind_ok ha
        obtain ⟨-, -, ha⟩ := Except.bind_ok ha
        obtain ⟨y, -, ha⟩ := Except.bind_ok ha
        obtain ⟨-, -, ha⟩ := Except.bind_ok ha
        cases ha
        simp [h]
    have hl := key rows ([], []) (xs, ys) rfl h1
    split_ifs at hd with he
    cases hd
    refine ⟨hl, fun h0 => he ?_⟩
    simp only at h0
    simp [h0]

theorem uniform_grid (N : Nat) (hN : 2 ≤ N) (low high : ℝ) : uniformPoints N low high =
    (List.ofFn fun j : Fin N => low + j * ((high - low) / (N - 1))).map .fin := by
  obtain ⟨g1, g2, -⟩ := C131_grid_partial N hN low high
  refine List.ext_getElem (by rw [g1]; simp) fun i h1 h2 => ?_
  rw [g2 i h1]
  simp only [List.getElem_map, List.getElem_ofFn]

theorem getD_ofFn {N : Nat} (f : Fin N → ℝ) (j : Fin N) : (List.ofFn f).getD j 0 = f j := by
  rw [List.getD_eq_getElem?_getD, List.getElem?_ofFn]
  simp

/-- C138: reading the file and predicting.  The training data are all rows of the file, the grid has 161 points from -13 to
23, in steps of 0.225. -/
theorem C138_example (b : Build) (rt : SparseRoutines) (k : Nat) (lines : List (List String)) (d : Dataset Dbl Dbl)
    (hd : readCsvInput lines = .ok d) (xs ys : List ℝ) (hx : d.features = xs.map .fin) (hy : d.mean = ys.map .fin) :
    xs.length = ys.length ∧ xs ≠ [] ∧
    sparseExample b rt k lines = sparseExamplePredict b rt k (fun i : Fin xs.length => xs[i])
      (fun i : Fin xs.length => ys.getD i 0) fun j : Fin 161 => (-13 : ℝ) + j * 0.225 := by
  obtain ⟨hl, hne⟩ := readCsvInput_lengths hd
  have hlen : xs.length = ys.length := by simpa [hx, hy] using hl
  refine ⟨hlen, fun h0 => ?_, ?_⟩
  · rw [h0] at hlen
    refine hne ?_
    rw [hy, List.eq_nil_of_length_eq_zero hlen.symm]
    rfl
  · unfold sparseExample
    rw [hd, except_ok_bind, hx, hy, uniform_grid 161 (by norm_num)]
    simp only [allFinite_map, getD_ofFn]
    congr 1
    funext j
    norm_num

/-- A file that was written with two rows. -/
example : ∃ lines d, readCsvInput lines = .ok d ∧ d.features = [0.5, 5].map .fin ∧ d.mean = [1, 2].map .fin := by
  obtain ⟨out, d', h1, -, h2, -, -, -, -, h3, h4⟩ := C131_file_partial .debug
    ⟨[.fin 0.5, .fin 5], [.fin 1, .fin 2], [.fin 1, .fin 1], []⟩ ⟨rfl, rfl⟩ rfl (by simp)
  refine ⟨_, d', h2, h3 ?_, h4 ?_⟩ <;> intro x hx <;> simp only [List.mem_cons, List.not_mem_nil, or_false] at hx <;>
    rcases hx with rfl | rfl
  · exact ⟨5 * 10 ^ 5, by norm_num⟩
  · exact ⟨5 * 10 ^ 6, by norm_num⟩
  · exact ⟨10 ^ 6, by norm_num⟩
  · exact ⟨2 * 10 ^ 6, by norm_num⟩

end Albatross
