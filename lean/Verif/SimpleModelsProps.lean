import Verif.SimpleModels
import Verif.AsyncProps
import Verif.IndexingLemmas
import Mathlib.LinearAlgebra.Matrix.DotProduct
import Mathlib.Tactic.Linarith

/-! # C62 and C63: least squares and the null model -/

namespace Albatross

open Matrix

/-! ## C62 -/

theorem norm_isometry {m k : Type} [Fintype m] [Fintype k] [DecidableEq m] [DecidableEq k]
    (q : Matrix m k ℝ) (h : q * qᵀ = 1) (v : m → ℝ) : (qᵀ *ᵥ v) ⬝ᵥ (qᵀ *ᵥ v) = v ⬝ᵥ v := by
  rw [dotProduct_mulVec, vecMul_transpose, mulVec_mulVec, h, one_mulVec]

theorem upper_det_ne_zero {r : Nat} (R : Matrix (Fin r) (Fin r) ℝ) (hu : ∀ i j, j < i → R i j = 0)
    (hp : ∀ i, R i i ≠ 0) : IsUnit R.det := by
  rw [isUnit_iff_ne_zero, det_of_isUpperTriangular (M := R) fun i j h => hu i j h]
  exact Finset.prod_ne_zero_iff.2 fun i _ => hp i

/-- The factored least squares solution satisfies the normal equations in rotated coordinates: what is left of
the residual is the part of the right hand side which no coefficients can reach. -/
theorem qr_residual {m n : Nat} {F : ColPivQr m n} {A : Matrix (Fin m) (Fin n) ℝ} (hF : F.Factors A)
    (rhs : Fin m → ℝ) (y : Fin n → ℝ) :
    (A *ᵥ y - rhs) ⬝ᵥ (A *ᵥ y - rhs) =
      (∑ i, ((F.r11 *ᵥ (fun i => y (F.perm (.inl i))) + F.r12 *ᵥ fun i => y (F.perm (.inr i))) i -
        (F.qᵀ *ᵥ rhs) (.inl i)) ^ 2) + ∑ i, ((F.qᵀ *ᵥ rhs) (.inr i)) ^ 2 := by
  have hA : A *ᵥ y = F.q *ᵥ (fromBlocks F.r11 F.r12 0 0 *ᵥ (y ∘ F.perm)) := by
    rw [mulVec_mulVec, ← hF.factor]
    ext i
    simp only [mulVec, dotProduct, submatrix_apply, id, Function.comp]
    exact (Equiv.sum_comp F.perm fun j => A i j * y j).symm
  rw [← norm_isometry F.q hF.right, mulVec_sub, hA, mulVec_mulVec, hF.left, one_mulVec, fromBlocks_mulVec]
  simp only [dotProduct, Fintype.sum_sum_type, Pi.sub_apply, Sum.elim_inl, Sum.elim_inr, zero_mulVec,
    Pi.add_apply, Pi.zero_apply, add_zero, zero_sub, ← pow_two, neg_sq]
  rfl

theorem solve_minimises {m n : Nat} {F : ColPivQr m n} {A : Matrix (Fin m) (Fin n) ℝ} (hF : F.Factors A)
    (rhs : Fin m → ℝ) (y : Fin n → ℝ) :
    (A *ᵥ F.solve rhs - rhs) ⬝ᵥ (A *ᵥ F.solve rhs - rhs) ≤ (A *ᵥ y - rhs) ⬝ᵥ (A *ᵥ y - rhs) := by
  rw [qr_residual hF, qr_residual hF]
  have h1 : (fun i => F.solve rhs (F.perm (.inl i))) = F.r11⁻¹ *ᵥ fun i => (F.qᵀ *ᵥ rhs) (.inl i) := by
    ext i; simp [ColPivQr.solve]
  have h2 : (fun i => F.solve rhs (F.perm (.inr i))) = 0 := by
    ext i; simp [ColPivQr.solve]
  rw [h1, h2, mulVec_mulVec, mul_nonsing_inv _ (upper_det_ne_zero _ hF.upper hF.pivots), one_mulVec]
  simp only [mulVec_zero, add_zero, sub_self, ne_eq, OfNat.ofNat_ne_zero, not_false_eq_true, zero_pow,
    Finset.sum_const_zero, zero_add]
  exact le_add_of_nonneg_left (Finset.sum_nonneg fun i _ => sq_nonneg _)

/-- The sum of squared residuals of the coefficients `c`. -/
noncomputable def residualSumOfSquares (features : List (List ℝ)) (targets c : List ℝ) : ℝ :=
  (List.zipWith (fun f t => ((List.zipWith (· * ·) f c).sum - t) ^ 2) features targets).sum

theorem eigenAssert_true (b : Build) : eigenAssert b true = .ok () := rfl

theorem forM_eigenAssert (b : Build) (p : List ℝ → Bool) (fs : List (List ℝ)) (h : ∀ f ∈ fs, p f = true) :
    fs.forM (fun f => eigenAssert b (p f)) = .ok () := by
  induction fs with
  | nil => rfl
  | cons a t ih =>
    rw [List.forM_eq_forM, List.forM_cons, h a (by simp), eigenAssert_true, except_ok_bind]
    exact ih fun f hf => h f (by simp [hf])

theorem designMatrix_ok (b : Build) (features : List (List ℝ)) (n : Nat) (hne : features ≠ [])
    (hn : ∀ f ∈ features, f.length = n) :
    designMatrix b features = .ok ⟨features.length, n, Matrix.of fun i j => (features[i])[j.val]?.getD 0⟩ := by
  rcases features with - | ⟨f, fs⟩
  · exact absurd rfl hne
  · have hf : f.length = n := hn f (by simp)
    subst hf
    unfold designMatrix
    rw [show vecGet (f :: fs) 0 = .ok f from rfl, except_ok_bind,
      forM_eigenAssert b _ _ fun g hg => by simpa using hn g hg]
    rfl

theorem zipWith_sum_eq {n : Nat} (f c : List ℝ) (hf : f.length = n) (hc : c.length = n) :
    (List.zipWith (· * ·) f c).sum = ∑ j : Fin n, f[j.val]?.getD 0 * c[j.val]?.getD 0 := by
  subst hf
  rw [← List.sum_ofFn]
  congr 1
  apply List.ext_getElem
  · simp [hc]
  · intro i h1 h2
    have : i < f.length := by simpa using h2
    simp [hc]

theorem residual_eq (features : List (List ℝ)) (n : Nat) (hn : ∀ f ∈ features, f.length = n)
    (mean : List ℝ) (hm : mean.length = features.length) (c : List ℝ) (hc : c.length = n) :
    residualSumOfSquares features mean c =
      let A : Matrix (Fin features.length) (Fin n) ℝ := Matrix.of fun i j => (features[i])[j.val]?.getD 0
      let v := A *ᵥ (fun j => c[j.val]?.getD 0) - fun i => mean[i.val]?.getD 0
      v ⬝ᵥ v := by
  unfold residualSumOfSquares
  simp only [dotProduct]
  rw [← List.sum_ofFn]
  congr 1
  apply List.ext_getElem
  · simp [hm]
  · intro i h1 h2
    have hi : i < features.length := by simpa using h2
    have hi' : i < mean.length := by omega
    simp only [List.getElem_zipWith, List.getElem_ofFn, Pi.sub_apply, mulVec, dotProduct, of_apply]
    rw [zipWith_sum_eq _ c (hn _ (List.getElem_mem hi)) hc, pow_two]
    simp [hi']

/-- C62: with a QR factorisation meeting its contract, fitting features of one size to as many targets of equal
variance succeeds, and no other coefficients have a smaller sum of squared residuals. -/
theorem C62_fit_minimises [DecidableEq ℝ] (b : Build) (factor : (A : DynMat) → ColPivQr A.rows A.cols)
    (features : List (List ℝ)) (mean variance : List ℝ) (n : Nat) (hne : features ≠ [])
    (hn : ∀ f ∈ features, f.length = n) (hm : mean.length = features.length)
    (hv : ∀ x ∈ variance, ∀ y ∈ variance, x = y)
    (hq : ∀ A : DynMat, designMatrix b features = .ok A → (factor A).Factors A.mat) :
    ∃ coefs, leastSquaresFit b factor features mean variance = .ok coefs ∧ coefs.length = n ∧
      ∀ c : List ℝ, c.length = n →
        residualSumOfSquares features mean coefs ≤ residualSumOfSquares features mean c := by
  have hA := designMatrix_ok b features n hne hn
  have hF := hq _ hA
  have hs : allSameValue variance = true := by
    rcases variance with - | ⟨x, xs⟩
    · rfl
    · simp only [allSameValue, List.all_eq_true]
      intro y hy
      simp [hv y hy x (by simp)]
  refine ⟨List.ofFn ((factor ⟨features.length, n, Matrix.of fun i j => (features[i])[j.val]?.getD 0⟩).solve
    fun i => mean[i.val]?.getD 0), ?_, ?_, fun c hc => ?_⟩
  · simp only [leastSquaresFit, hs, albatrossAssert_true, except_ok_bind, hA, leastSquaresSolver, hm,
      decide_true, eigenAssert_true, except_pure]
  · simp
  · rw [residual_eq features n hn mean hm _ (by simp), residual_eq features n hn mean hm c hc]
    have e : ∀ x : Fin n → ℝ, (fun j : Fin n => (List.ofFn x)[j.val]?.getD 0) = x := by
      intro x; ext j; simp
    rw [e]
    exact solve_minimises hF _ _

/-- C62: each prediction is the dot product of the feature and the coefficients. -/
theorem C62_predict (b : Build) (coefs : List ℝ) (features : List (List ℝ))
    (h : ∀ f ∈ features, f.length = coefs.length) :
    leastSquaresPredict b coefs features =
      .ok (features.map fun f => (List.zipWith (· * ·) f coefs).sum) := by
  unfold leastSquaresPredict
  induction features with
  | nil => rfl
  | cons a t ih =>
    rw [List.mapM_cons, ih fun f hf => h f (by simp [hf])]
    simp only [eigenDot, h a (by simp), decide_true, eigenAssert_true, except_ok_bind, except_pure, List.map_cons]

theorem convertFeatures_eq (xs : List ℝ) : convertFeatures xs = xs.map fun x => [1, x] := by
  have : ∀ (xs : List ℝ) (acc : List (List ℝ)),
      xs.foldl (fun output f => output ++ [convertFeature f]) acc = acc ++ xs.map fun x => [1, x] := by
    intro xs
    induction xs with
    | nil => simp
    | cons a t ih => intro acc; rw [List.foldl_cons, ih]; simp [convertFeature]
  simpa [convertFeatures] using this xs []

/-- C62: when the data are on a line and there are two different abscissae, `LinearRegression` finds exactly
that line, and predicts it everywhere. -/
theorem C62_linear_regression [DecidableEq ℝ] (b : Build) (factor : (A : DynMat) → ColPivQr A.rows A.cols)
    (xs variance : List ℝ) (intercept slope : ℝ) (hv : ∀ x ∈ variance, ∀ y ∈ variance, x = y)
    (hx : ∃ x ∈ xs, ∃ y ∈ xs, x ≠ y)
    (hq : ∀ A : DynMat, designMatrix b (xs.map fun x => [1, x]) = .ok A → (factor A).Factors A.mat) :
    linearRegressionFit b factor xs (xs.map fun x => intercept + slope * x) variance =
      .ok [intercept, slope] ∧
    ∀ zs, linearRegressionPredict b [intercept, slope] zs = .ok (zs.map fun z => intercept + slope * z) := by
  constructor
  · unfold linearRegressionFit
    rw [convertFeatures_eq]
    obtain ⟨x, hxm, y, hym, hxy⟩ := hx
    obtain ⟨coefs, hfit, hlen, hmin⟩ := C62_fit_minimises b factor (xs.map fun x => [1, x])
      (xs.map fun x => intercept + slope * x) variance 2 (by rintro h; rw [List.map_eq_nil_iff] at h; simp [h] at hxm)
      (by simp) (by simp) hv hq
    rw [hfit]
    obtain ⟨a, c, rfl⟩ := List.length_eq_two.1 hlen
    have h0 := hmin [intercept, slope] rfl
    have e : ∀ a c : ℝ, residualSumOfSquares (xs.map fun x => [1, x]) (xs.map fun x => intercept + slope * x) [a, c] =
        (xs.map fun x => (a + c * x - (intercept + slope * x)) ^ 2).sum := by
      intro a c
      unfold residualSumOfSquares
      rw [List.zipWith_map_left, List.zipWith_map_right, List.zipWith_self]
      congr 1
      apply List.map_congr_left
      intro z _
      simp [mul_comm]
    rw [e, e] at h0
    have hz : (xs.map fun x => (intercept + slope * x - (intercept + slope * x)) ^ 2).sum = 0 := by
      simp
    rw [hz] at h0
    have hall : ∀ z ∈ xs, (a + c * z - (intercept + slope * z)) ^ 2 = 0 := by
      intro z hz
      have hle := List.single_le_sum (l := xs.map fun x => (a + c * x - (intercept + slope * x)) ^ 2)
        (by intro v hv; obtain ⟨w, -, rfl⟩ := List.mem_map.1 hv; exact sq_nonneg _) _
        (List.mem_map.2 ⟨z, hz, rfl⟩)
      exact le_antisymm (hle.trans h0) (sq_nonneg _)
    have ex := pow_eq_zero_iff (n := 2) (by norm_num) |>.1 (hall x hxm)
    have ey := pow_eq_zero_iff (n := 2) (by norm_num) |>.1 (hall y hym)
    have hs : (c - slope) * (x - y) = 0 := by linear_combination ex - ey
    have hc : c = slope := by
      rcases mul_eq_zero.1 hs with h | h
      · linarith
      · exact absurd (by linarith) hxy
    subst hc
    have : a = intercept := by linarith
    rw [this]
  · intro zs
    unfold linearRegressionPredict
    rw [convertFeatures_eq, C62_predict b _ _ (by simp), List.map_map]
    congr 1
    apply List.map_congr_left
    intro z _
    simp [mul_comm]

/-- C62: targets of different variance stop a debug build; no features are undefined behaviour. -/
theorem C62_rejects [DecidableEq ℝ] (b : Build) (factor : (A : DynMat) → ColPivQr A.rows A.cols)
    (features : List (List ℝ)) (mean : List ℝ) (variance : List ℝ) :
    ((∃ x ∈ variance, ∃ y ∈ variance, x ≠ y) →
      leastSquaresFit .debug factor features mean variance = .error .assertFail) ∧
    leastSquaresFit b factor [] mean [] = .error .ub := by
  constructor
  · rintro ⟨x, hx, y, hy, hne⟩
    have : allSameValue variance = false := by
      rcases variance with - | ⟨z, zs⟩
      · cases hx
      · rw [Bool.eq_false_iff]
        intro h
        simp only [allSameValue, List.all_eq_true] at h
        have h1 := h x hx
        have h2 := h y hy
        simp only [ne_eq, decide_not, Bool.not_not, decide_eq_true_eq] at h1 h2
        exact hne (h1.trans h2.symm)
    rw [leastSquaresFit, this]
    rfl
  · rfl

/-- A factorisation meeting the contract, with a rotation and a row that cannot be reached: one feature equal to
3 and 4. -/
example : ∃ F : ColPivQr 2 1, F.Factors !![3; 4] :=
  ⟨⟨1, 1, 0, Matrix.of fun i j => match i, j with
      | 0, .inl _ => 3 / 5
      | 1, .inl _ => 4 / 5
      | 0, .inr _ => -4 / 5
      | 1, .inr _ => 3 / 5, Equiv.sumEmpty _ _, !![5], 0⟩, by
    refine ⟨?_, ?_, ?_, ?_, ?_⟩
    · ext i j
      rcases i with i | i <;> rcases j with j | j <;> fin_cases i <;> fin_cases j <;>
        norm_num [Matrix.mul_apply, Fin.sum_univ_two, Matrix.one_apply] <;> exact nofun
    · ext i j
      fin_cases i <;> fin_cases j <;> norm_num [Matrix.mul_apply, Fintype.sum_sum_type]
    · intro i j h
      fin_cases i; fin_cases j; exact absurd h (lt_irrefl _)
    · intro i; fin_cases i; norm_num
    · ext i j
      rcases j with j | j
      · fin_cases i <;> fin_cases j <;> norm_num [Matrix.mul_apply, Fintype.sum_sum_type]
      · exact j.elim0⟩

/-! ## C63 -/

/-- C63 as stated: the parameters given to the constructor are reported. -/
def NullModelReportsParameters : Prop :=
  ∀ store : ParameterStore, (NullModel.ofStore store).getParams = store

/-- C63: whatever parameters a null model is given, it reports none. -/
theorem C63_parameters_lost (store : ParameterStore) : (NullModel.ofStore store).getParams = [] := rfl

/-- C63 is false: the constructor initialises a member which hides the inherited one. -/
theorem C63_parameters_false : ¬ NullModelReportsParameters := by
  intro h
  have := h [("sigma", ⟨.fin 1, .uninformative⟩)]
  rw [C63_parameters_lost] at this
  cases this

/-- C63, the part that holds: zero mean and variance `1e4` at every feature, uncorrelated, whatever the
parameters. -/
theorem C63_prediction_partial {X : Type} (m : NullModel) (features : List X) :
    (∀ i, (m.predictJoint features).mean i = 0) ∧
    (∀ i j, (m.predictJoint features).covariance i j = if i = j then 10000 else 0) ∧
    (∀ i, (m.predictMarginal features).mean i = 0) ∧
    (∀ i, (m.predictMarginal features).variance i = 10000) := by
  refine ⟨fun i => rfl, fun i j => ?_, fun i => rfl, fun i => ?_⟩
  · simp only [NullModel.predictJoint, Matrix.smul_apply, Matrix.one_apply, smul_eq_mul]
    split_ifs <;> norm_num
  · simp only [NullModel.predictMarginal, Pi.smul_apply, Pi.one_apply, smul_eq_mul]
    norm_num

/-- C63: a debug build also refuses to set the parameters passed to the constructor. -/
theorem C63_set_param_partial (store : ParameterStore) (name : String) (p : Parameter) :
    (NullModel.ofStore store).setParam .debug name p = .error .assertFail := rfl

end Albatross
