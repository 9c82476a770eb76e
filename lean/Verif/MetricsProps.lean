import Verif.Metrics
import Verif.NormalSpec
import Verif.UtilsProps
import Verif.SimpleModelsProps

/-! # C60, C61, C68: samples, scores and metrics -/

namespace Albatross

open Matrix MeasureTheory

/-! ## C60: draws -/

/-- The permutation made of the exchanges at the given steps. -/
def PivotedLdlt.permOf {n : Nat} (F : PivotedLdlt n) (ks : List (Fin n)) : Equiv.Perm (Fin n) :=
  (ks.map fun k => Equiv.swap k (F.transpositions k)).prod

/-- The permutation of the decomposition: `(P v) i = v (perm i)`. -/
def PivotedLdlt.perm {n : Nat} (F : PivotedLdlt n) : Equiv.Perm (Fin n) := F.permOf (List.finRange n)

theorem foldl_swaps {n : Nat} {q : Type} (F : PivotedLdlt n) (ks : List (Fin n)) (rhs : Matrix (Fin n) q ℝ) :
    ks.foldl (fun m k => m.submatrix (Equiv.swap k (F.transpositions k)) id) rhs =
      rhs.submatrix (F.permOf ks) id := by
  induction ks generalizing rhs with
  | nil => rfl
  | cons k ks ih =>
    rw [List.foldl_cons, ih]
    ext i j
    simp [PivotedLdlt.permOf]

theorem timesP_eq {n : Nat} {q : Type} (F : PivotedLdlt n) (rhs : Matrix (Fin n) q ℝ) :
    F.timesP rhs = rhs.submatrix F.perm id := foldl_swaps F _ rhs

theorem permOf_reverse {n : Nat} (F : PivotedLdlt n) (ks : List (Fin n)) :
    F.permOf ks.reverse = (F.permOf ks)⁻¹ := by
  unfold PivotedLdlt.permOf
  rw [List.prod_inv_reverse, List.map_reverse, List.map_map]
  congr 2

theorem timesPTranspose_eq {n : Nat} {q : Type} (F : PivotedLdlt n) (rhs : Matrix (Fin n) q ℝ) :
    F.timesPTranspose rhs = rhs.submatrix F.perm.symm id := by
  unfold PivotedLdlt.timesPTranspose
  rw [foldl_swaps, permOf_reverse]
  rfl

/-- The product of the factors. -/
def PivotedLdlt.core {n : Nat} (F : PivotedLdlt n) : Matrix (Fin n) (Fin n) ℝ :=
  F.lower * diagonal F.diag * F.lowerᵀ

theorem PivotedLdlt.Factors.eq {n : Nat} {F : PivotedLdlt n} {A : Matrix (Fin n) (Fin n) ℝ} (h : F.Factors A) :
    A = F.core.submatrix F.perm.symm F.perm.symm := by
  rw [h.factor, timesPTranspose_eq, timesP_eq]
  ext i j
  simp only [Matrix.submatrix_apply, id, Matrix.mul_apply (M := F.lower * diagonal F.diag * F.lowerᵀ),
    PivotedLdlt.core, Matrix.one_apply]
  rw [Finset.sum_eq_single (F.perm.symm j)]
  · simp
  · intro k _ hk
    rw [if_neg, mul_zero]
    intro h
    exact hk (by rw [← h]; simp)
  · simp

/-- The permutation of the decomposition, twice. -/
def PivotedLdlt.permTwice {n : Nat} (F : PivotedLdlt n) : Equiv.Perm (Fin n) := F.perm * F.perm

theorem permTwice_apply {n : Nat} (F : PivotedLdlt n) (i : Fin n) : F.permTwice i = F.perm (F.perm i) := rfl

/-- The matrix through which `draw_mvn` sends standard normal draws. -/
noncomputable def PivotedLdlt.drawMatrix {n : Nat} (F : PivotedLdlt n) : Matrix (Fin n) (Fin n) ℝ :=
  F.timesP (F.lower * diagonal fun i => Real.sqrt (F.diag i))

theorem drawMvn_eq {n k : Nat} (b : Build) (F : PivotedLdlt n) (hD : ∀ i, F.diag i > 0) (mean : Fin n → ℝ)
    (z : Matrix (Fin n) (Fin k) ℝ) :
    drawMvn b true F mean z = .ok (Matrix.of fun i j => (F.drawMatrix * z) i j + mean i) := by
  unfold drawMvn
  rw [albatrossAssert_true, except_ok_bind, @decide_eq_true _ (Classical.dec _) hD, albatrossAssert_true,
    except_ok_bind]
  simp only [PivotedLdlt.drawMatrix, timesP_eq, ← Matrix.mul_assoc]
  rfl

theorem core_eq_sq {n : Nat} (F : PivotedLdlt n) (hD : ∀ i, F.diag i > 0) :
    F.core = (F.lower * diagonal fun i => Real.sqrt (F.diag i)) *
      (F.lower * diagonal fun i => Real.sqrt (F.diag i))ᵀ := by
  rw [Matrix.transpose_mul, Matrix.diagonal_transpose, PivotedLdlt.core]
  have h : diagonal F.diag = (diagonal fun i => Real.sqrt (F.diag i)) * diagonal fun i => Real.sqrt (F.diag i) := by
    rw [Matrix.diagonal_mul_diagonal]
    congr 1
    funext i
    exact (Real.mul_self_sqrt (hD i).le).symm
  rw [h]
  simp only [Matrix.mul_assoc]

/-- **C60**: what `draw_mvn` does: draws are sent through a matrix `S`, and `S Sᵀ` is the decomposed matrix
with its rows and columns permuted by the square of the pivoting permutation. -/
theorem C60_draws {n k : Nat} (b : Build) {F : PivotedLdlt n} {A : Matrix (Fin n) (Fin n) ℝ} (hF : F.Factors A)
    (hD : ∀ i, F.diag i > 0) (mean : Fin n → ℝ) (z : Matrix (Fin n) (Fin k) ℝ) :
    (∃ x, drawMvn b true F mean z = .ok x ∧
      ∀ j, (fun i => x i j) = F.drawMatrix *ᵥ (fun i => z i j) + mean) ∧
    F.drawMatrix * F.drawMatrixᵀ = A.submatrix F.permTwice F.permTwice := by
  refine ⟨⟨_, drawMvn_eq b F hD mean z, fun j => ?_⟩, ?_⟩
  · funext i
    simp [Matrix.mul_apply, mulVec, dotProduct]
  · have hS : F.drawMatrix * F.drawMatrixᵀ = F.core.submatrix F.perm F.perm := by
      rw [core_eq_sq F hD, PivotedLdlt.drawMatrix, timesP_eq]
      rfl
    rw [hS]
    conv_rhs => rw [hF.eq]
    rw [Matrix.submatrix_submatrix]
    congr 1 <;> funext i <;> simp [permTwice_apply]

/-- **C60**: the law of a draw: normal with the given mean and the permuted covariance. -/
theorem C60_law {Ω : Type} [MeasurableSpace Ω] {P : Measure Ω} [IsProbabilityMeasure P] {n : Nat}
    {F : PivotedLdlt n} {A : Matrix (Fin n) (Fin n) ℝ} (hF : F.Factors A) (hD : ∀ i, F.diag i > 0)
    (mean : Fin n → ℝ) {Z : Ω → Fin n → ℝ} (hZ : IsNormal P Z 0 1) :
    IsNormal P (fun ω => F.drawMatrix *ᵥ Z ω + mean) mean
      (A.submatrix F.permTwice F.permTwice) := by
  have h := hZ.affine F.drawMatrix mean
  rwa [Matrix.mulVec_zero, zero_add, Matrix.mul_one,
    (C60_draws (k := 0) .debug hF hD mean 0).2] at h

/-- **C60**, the part that holds: if the pivoting permutation is its own inverse, as it is when no or only
one exchange was made, the draws have the requested covariance.  Missing: the other permutations, for which it
fails. -/
theorem C60_involution_partial {n : Nat} {F : PivotedLdlt n} {A : Matrix (Fin n) (Fin n) ℝ} (hF : F.Factors A)
    (hD : ∀ i, F.diag i > 0) (hP : ∀ i, F.perm (F.perm i) = i) : F.drawMatrix * F.drawMatrixᵀ = A := by
  rw [(C60_draws (k := 0) .debug hF hD 0 0).2]
  ext i j
  rw [Matrix.submatrix_apply, permTwice_apply, permTwice_apply, hP, hP]

/-- The claim of C60: the draws have the covariance that was decomposed. -/
def DrawsHaveCovariance : Prop :=
  ∀ (n : Nat) (F : PivotedLdlt n) (A : Matrix (Fin n) (Fin n) ℝ), F.Factors A → A.PosDef →
    (∀ i, F.diag i > 0) → F.drawMatrix * F.drawMatrixᵀ = A

/-- The decomposition of `diag(1, 3, 2)`: pivoting on the largest diagonal entry exchanges rows 0 and 1, then
rows 1 and 2. -/
def pivotWitness : PivotedLdlt 3 where
  transpositions := ![1, 2, 2]
  lower := 1
  diag := ![3, 2, 1]

theorem pivotWitness_perm : pivotWitness.perm 0 = 1 ∧ pivotWitness.perm 1 = 2 ∧ pivotWitness.perm 2 = 0 := by
  refine ⟨?_, ?_, ?_⟩ <;> decide

theorem pivotWitness_factors : pivotWitness.Factors (diagonal ![1, 3, 2]) where
  unit := by intro i; simp [pivotWitness]
  lowerTri := by
    intro i j h
    simp [pivotWitness, h.ne]
  factor := by
    obtain ⟨h0, h1, h2⟩ := pivotWitness_perm
    have s0 : pivotWitness.perm.symm 0 = 2 := by rw [← h2]; simp
    have s1 : pivotWitness.perm.symm 1 = 0 := by rw [← h0]; simp
    have s2 : pivotWitness.perm.symm 2 = 1 := by rw [← h1]; simp
    have hl : pivotWitness.lower = 1 := rfl
    have hd : pivotWitness.diag = ![3, 2, 1] := rfl
    rw [timesPTranspose_eq, timesP_eq, hl, hd]
    ext i j
    fin_cases i <;> fin_cases j <;>
      simp [Matrix.mul_apply, Fin.sum_univ_three, Matrix.one_apply, h0, h1, h2, s0, s1, s2,
        Matrix.diagonal_apply]

/-- **C60 is false**: drawing from the distribution with covariance `diag(1, 3, 2)` gives draws with
covariance `diag(2, 1, 3)`. -/
theorem C60_covariance_false : ¬ DrawsHaveCovariance := by
  intro h
  have hpd : (diagonal ![(1 : ℝ), 3, 2]).PosDef := by
    rw [Matrix.posDef_diagonal_iff]
    intro i
    fin_cases i <;> norm_num
  have hD : ∀ i, pivotWitness.diag i > 0 := by
    intro i
    fin_cases i <;> simp [pivotWitness]
  have h1 := h 3 pivotWitness _ pivotWitness_factors hpd hD
  rw [(C60_draws (k := 0) .debug pivotWitness_factors hD 0 0).2] at h1
  obtain ⟨h0, h1', h2⟩ := pivotWitness_perm
  have h2 := congrFun (congrFun h1 0) 0
  simp [Matrix.submatrix_apply, permTwice_apply, h0, h1'] at h2

/-- **C60**: antithetic samples: more than `num_samples` columns, the second half mirroring the first at the
mean, so that the average of the samples is the mean itself. -/
theorem C60_antithetic {n : Nat} (b : Build) {F : PivotedLdlt n} (hD : ∀ i, F.diag i > 0) (numSamples : Nat)
    (mean : Fin n → ℝ) (z : Matrix (Fin n) (Fin (kGenerate numSamples)) ℝ) :
    ∃ left x, drawMvn b true F mean z = .ok left ∧ antitheticSample b true numSamples mean F z = .ok x ∧
      numSamples < kGenerate numSamples + kGenerate numSamples ∧
      (∀ i j, x i (Fin.castAdd _ j) = left i j) ∧
      (∀ i j, x i (Fin.castAdd _ j) + x i (Fin.natAdd _ j) = 2 * mean i) ∧
      ∀ i, ∑ j, x i j = ((kGenerate numSamples + kGenerate numSamples : Nat) : ℝ) * mean i := by
  have hd := drawMvn_eq b F hD mean z
  refine ⟨_, Matrix.of fun i => Fin.append (fun j => (F.drawMatrix * z) i j + mean i)
    (fun j => -((F.drawMatrix * z) i j + mean i) + 2 * mean i), hd, ?_, ?_, ?_, ?_, ?_⟩
  · unfold antitheticSample
    rw [hd, except_ok_bind]
    rfl
  · unfold kGenerate; omega
  · intro i j
    simp
  · intro i j
    simp only [Matrix.of_apply, Fin.append_left, Fin.append_right]
    ring
  · intro i
    rw [Fin.sum_univ_add]
    simp only [Matrix.of_apply, Fin.append_left, Fin.append_right]
    rw [← Finset.sum_add_distrib]
    have : ∀ j : Fin (kGenerate numSamples), ((F.drawMatrix * z) i j + mean i) +
        (-((F.drawMatrix * z) i j + mean i) + 2 * mean i) = 2 * mean i := by intro j; ring
    simp only [this, Finset.sum_const, Finset.card_univ, Fintype.card_fin, nsmul_eq_mul]
    push_cast
    ring

/-- **C60**: a decomposition that failed or is not positive definite trips an assertion. -/
theorem C60_rejects {n k : Nat} (F : PivotedLdlt n) (mean : Fin n → ℝ) (z : Matrix (Fin n) (Fin k) ℝ) :
    drawMvn .debug false F mean z = .error .assertFail ∧
    ((∃ i, F.diag i ≤ 0) → drawMvn .debug true F mean z = .error .assertFail) := by
  constructor
  · rfl
  · rintro ⟨i, hi⟩
    unfold drawMvn
    rw [albatrossAssert_true, except_ok_bind, @decide_eq_false _ (Classical.dec _) (fun h => absurd (h i) (not_lt.2 hi))]
    rfl

example : ∃ x, drawMvn .debug true pivotWitness ![0, 0, 0] (1 : Matrix (Fin 3) (Fin 3) ℝ) = .ok x ∧
    x 0 1 = Real.sqrt 2 := by
  have hD : ∀ i, pivotWitness.diag i > 0 := by
    intro i
    fin_cases i <;> simp [pivotWitness]
  refine ⟨_, drawMvn_eq .debug pivotWitness hD _ _, ?_⟩
  obtain ⟨h0, h1, h2⟩ := pivotWitness_perm
  have hl : pivotWitness.lower = 1 := rfl
  have hd : pivotWitness.diag = ![3, 2, 1] := rfl
  simp [PivotedLdlt.drawMatrix, timesP_eq, h0, hl, hd]

/-! ## C61: the energy score -/

/-- The weighted norm `sqrt (Σ w d²)`. -/
noncomputable def weightedNorm {n : Nat} (w d : Fin n → ℝ) : ℝ := Real.sqrt (∑ i, w i * d i ^ 2)

theorem dblSum_foldl (xs : List ℝ) (a : ℝ) :
    (xs.map Dbl.fin).foldl (· + ·) (.fin a) = .fin (a + xs.sum) := by
  induction xs generalizing a with
  | nil => simp
  | cons x xs ih =>
    rw [List.map_cons, List.foldl_cons, Dbl.fin_add, ih, List.sum_cons]
    congr 1
    ring

theorem dblSum_fin (xs : List ℝ) : dblSum (xs.map Dbl.fin) = .fin xs.sum := by
  unfold dblSum
  rw [dblSum_foldl, zero_add]

theorem dblMean_ofFn {k : Nat} (hk : 0 < k) (g : Fin k → ℝ) :
    dblMean (List.ofFn fun j => Dbl.fin (g j)) = .fin ((∑ j, g j) / k) := by
  have h : (List.ofFn fun j => Dbl.fin (g j)) = (List.ofFn g).map Dbl.fin := by
    rw [List.map_ofFn]; rfl
  unfold dblMean
  rw [h, dblSum_fin, List.sum_ofFn, List.length_map, List.length_ofFn, Dbl.fin_div (by positivity)]

theorem sqrt_fin {x : ℝ} (h : 0 ≤ x) : Dbl.sqrt (.fin x) = .fin (Real.sqrt x) := by
  simp only [Dbl.sqrt]
  rw [if_neg (not_lt.2 h)]

/-- **C61**: what the two terms are: the mean norm of the errors with weights `w`, and the mean norm of the
differences with weights `w²`. -/
theorem C61_terms {n k : Nat} (hk : 0 < k) (a b : Matrix (Fin n) (Fin k) ℝ) (truth w : Fin n → ℝ)
    (hw : ∀ i, 0 ≤ w i) :
    meanErrNorms a truth w = .fin ((∑ j, weightedNorm w fun i => a i j - truth i) / k) ∧
    pairwiseErrorsPaired a b w =
      .fin ((∑ j, weightedNorm (fun i => w i ^ 2) fun i => a i j - b i j) / k) := by
  constructor
  · unfold meanErrNorms
    rw [← dblMean_ofFn hk]
    congr 2
    funext j
    rw [sqrt_fin (Finset.sum_nonneg fun i _ => mul_nonneg (sq_nonneg _) (hw i))]
    unfold weightedNorm
    congr 2
    exact Finset.sum_congr rfl fun i _ => mul_comm _ _
  · unfold pairwiseErrorsPaired
    rw [← dblMean_ofFn hk]
    congr 2
    funext j
    rw [sqrt_fin (Finset.sum_nonneg fun i _ => sq_nonneg _)]
    unfold weightedNorm
    congr 2
    exact Finset.sum_congr rfl fun i _ => by ring

/-- The claim of C61 about the norms: if the second set of samples consists of copies of the truth, both
terms measure the same distances, so they agree. -/
def SameWeightedNorm : Prop :=
  ∀ (n k : Nat) (a b : Matrix (Fin n) (Fin k) ℝ) (truth w : Fin n → ℝ), 0 < k → (∀ i, 0 ≤ w i) →
    (∀ i j, b i j = truth i) → pairwiseErrorsPaired a b w = meanErrNorms a truth w

theorem weightedNorm_one (w d : ℝ) : weightedNorm (fun _ : Fin 1 => w) (fun _ => d) = Real.sqrt (w * d ^ 2) := by
  simp [weightedNorm]

theorem sqrt_four : Real.sqrt 4 = 2 := by
  rw [show (4 : ℝ) = 2 ^ 2 by norm_num, Real.sqrt_sq (by norm_num)]

theorem sqrt_sixteen : Real.sqrt 16 = 4 := by
  rw [show (16 : ℝ) = 4 ^ 2 by norm_num, Real.sqrt_sq (by norm_num)]

/-- **C61 is false**: with weight 4 the norm of the first term is `2 |d|`, that of the second `4 |d|`. -/
theorem C61_same_norm_false : ¬ SameWeightedNorm := by
  intro h
  have h1 := h 1 1 (fun _ _ => 1) (fun _ _ => 0) (fun _ => 0) (fun _ => 4) (by norm_num)
    (fun _ => by norm_num) (fun _ _ => rfl)
  have h2 := C61_terms (n := 1) (k := 1) (by norm_num) (fun _ _ => 1) (fun _ _ => 0) (fun _ => 0) (fun _ => 4)
    (fun _ => by norm_num)
  rw [h2.1, h2.2] at h1
  have h3 := Dbl.fin.inj h1
  simp only [weightedNorm_one] at h3
  norm_num [sqrt_four, sqrt_sixteen] at h3

/-- The score before it is checked and clamped. -/
noncomputable def energyValue {n k : Nat} (a b : Matrix (Fin n) (Fin k) ℝ) (truth w : Fin n → ℝ) : Dbl :=
  .fin (1 / 2) * (meanErrNorms a truth w + meanErrNorms b truth w) - .fin (1 / 2) * pairwiseErrorsPaired a b w

theorem energyValue_eq {n k : Nat} (hk : 0 < k) (a b : Matrix (Fin n) (Fin k) ℝ) (truth w : Fin n → ℝ)
    (hw : ∀ i, 0 ≤ w i) :
    energyValue a b truth w = .fin ((∑ j, (weightedNorm w (fun i => a i j - truth i) +
      weightedNorm w (fun i => b i j - truth i) -
      weightedNorm (fun i => w i ^ 2) fun i => a i j - b i j)) / (2 * k)) := by
  have hk' : (k : ℝ) ≠ 0 := by positivity
  unfold energyValue
  rw [(C61_terms hk a b truth w hw).1, (C61_terms hk b b truth w hw).1, (C61_terms hk a b truth w hw).2,
    Dbl.fin_add, Dbl.fin_mul, Dbl.fin_mul, Dbl.fin_sub, Finset.sum_sub_distrib, Finset.sum_add_distrib]
  congr 1
  field_simp

/-- Scaling a coordinate system by `c` and the weights by `c⁻ᵉ` should leave the score alone. -/
def ScaleInvariant (e : Nat) : Prop :=
  ∀ (n k : Nat) (a b : Matrix (Fin n) (Fin k) ℝ) (truth w : Fin n → ℝ) (c : ℝ), 0 < k → (∀ i, 0 ≤ w i) →
    0 < c → energyValue (c • a) (c • b) (c • truth) (fun i => w i / c ^ e) = energyValue a b truth w

/-- **C61 is false**: no scaling of the weights undoes a change of units; with `w / c²` (right for the first
term) or `w / c` (right for the second) the score changes. -/
theorem C61_scaling_false : ¬ ScaleInvariant 2 ∧ ¬ ScaleInvariant 1 := by
  have h0 := energyValue_eq (n := 1) (k := 1) (by norm_num) (Matrix.of fun _ _ => 1) (Matrix.of fun _ _ => 0)
    (fun _ => 0) (fun _ => 1) (fun _ => by norm_num)
  have hc : ∀ c : ℝ, (2 : ℝ) • (Matrix.of fun (_ : Fin 1) (_ : Fin 1) => c) = Matrix.of fun _ _ => 2 * c :=
    fun c => rfl
  have hv : (2 : ℝ) • (fun _ : Fin 1 => (0 : ℝ)) = fun _ => 0 := by funext i; simp
  simp only [Matrix.of_apply, sub_zero, weightedNorm_one] at h0
  constructor
  · intro h
    have h1 := h 1 1 (Matrix.of fun _ _ => 1) (Matrix.of fun _ _ => 0) (fun _ => 0) (fun _ => 1) 2 (by norm_num)
      (fun _ => by norm_num) (by norm_num)
    rw [hc, hc, hv, energyValue_eq (by norm_num) _ _ _ _ (fun _ => by norm_num), h0] at h1
    have h2 := Dbl.fin.inj h1
    simp only [Matrix.of_apply, sub_zero, weightedNorm_one, mul_zero, mul_one] at h2
    have e1 : Real.sqrt (1 / 2 ^ 2 * 2 ^ 2) = 1 := by norm_num
    have e2 : Real.sqrt ((1 / 2 ^ 2) ^ 2 * 2 ^ 2) = 1 / 2 := by
      rw [show ((1 : ℝ) / 2 ^ 2) ^ 2 * 2 ^ 2 = (1 / 2) ^ 2 by norm_num, Real.sqrt_sq (by norm_num)]
    rw [e1, e2] at h2
    norm_num at h2
  · intro h
    have h1 := h 1 1 (Matrix.of fun _ _ => 1) (Matrix.of fun _ _ => 0) (fun _ => 0) (fun _ => 1) 2 (by norm_num)
      (fun _ => by norm_num) (by norm_num)
    rw [hc, hc, hv, energyValue_eq (by norm_num) _ _ _ _ (fun _ => by norm_num), h0] at h1
    have h2 := Dbl.fin.inj h1
    simp only [Matrix.of_apply, sub_zero, weightedNorm_one, mul_zero, mul_one] at h2
    have e1 : Real.sqrt (1 / 2 ^ 1 * 2 ^ 2) = Real.sqrt 2 := by norm_num
    have e2 : Real.sqrt ((1 / 2 ^ 1) ^ 2 * 2 ^ 2) = 1 := by norm_num
    rw [e1, e2] at h2
    norm_num at h2
    have h3 : Real.sqrt 2 = 1 := by linarith
    have := Real.sq_sqrt (show (0 : ℝ) ≤ 2 by norm_num)
    rw [h3] at this
    norm_num at this

/-- One dimensional standard normal predictions. -/
def unitLdlt : PivotedLdlt 1 := ⟨fun k => k, 1, fun _ => 1⟩

/-- **C61 is false**: with a weight above one the score of a reasonable prediction comes out negative and trips
the assertion: for the prediction N(0, 1), truth 0, weight 4 and draws ±1 it is -2. -/
theorem C61_assertion_false :
    energyScore .debug true unitLdlt (fun _ => 0) (fun _ => 0) (some fun _ => 4) 2
      (Matrix.of fun _ _ => 1) (Matrix.of fun _ _ => -1) = .error .assertFail ∧
    energyScore .ndebug true unitLdlt (fun _ => 0) (fun _ => 0) (some fun _ => 4) 2
      (Matrix.of fun _ _ => 1) (Matrix.of fun _ _ => -1) = .ok (.fin 0) := by
  have hD : ∀ i, unitLdlt.diag i > 0 := fun i => by simp [unitLdlt]
  have hperm : ∀ i, unitLdlt.perm i = i := fun i => Subsingleton.elim _ _
  have hS : ∀ i j, unitLdlt.drawMatrix i j = 1 := by
    intro i j
    rw [Subsingleton.elim i 0, Subsingleton.elim j 0]
    have hl : unitLdlt.lower = 1 := rfl
    have hd : unitLdlt.diag = fun _ => 1 := rfl
    simp only [PivotedLdlt.drawMatrix, timesP_eq, hl, hd, Matrix.submatrix_apply, hperm]
    simp
  have hs : ∀ (b : Build) (c : ℝ), antitheticSample b true 2 (fun _ => 0) unitLdlt (Matrix.of fun _ _ => c) =
      .ok (Matrix.of fun _ => Fin.append (fun _ => c) (fun _ => -c)) := by
    intro b c
    unfold antitheticSample
    rw [drawMvn_eq b unitLdlt hD, except_ok_bind]
    simp only [Matrix.of_apply, Matrix.mul_apply, hS, Finset.univ_unique, Finset.sum_const, Finset.card_singleton,
      one_smul, one_mul, add_zero, mul_zero]
    rfl
  have hval : energyValue (Matrix.of fun _ : Fin 1 => Fin.append (fun _ : Fin (kGenerate 2) => (1 : ℝ))
        (fun _ : Fin (kGenerate 2) => -1))
      (Matrix.of fun _ : Fin 1 => Fin.append (fun _ : Fin (kGenerate 2) => (-1 : ℝ))
        (fun _ : Fin (kGenerate 2) => - -1)) (fun _ => 0) (fun _ => 4) = .fin (-2) := by
    rw [energyValue_eq (by unfold kGenerate; norm_num) _ _ _ _ (fun _ => by norm_num)]
    congr 1
    rw [Fin.sum_univ_add]
    simp only [Matrix.of_apply, Fin.append_left, Fin.append_right, weightedNorm_one, Finset.sum_const,
      Finset.card_univ, Fintype.card_fin]
    have h4 : Real.sqrt (4 ^ 2 * (1 - -1) ^ 2) = 8 := by
      rw [show (4 : ℝ) ^ 2 * (1 - -1) ^ 2 = 8 ^ 2 by norm_num, Real.sqrt_sq (by norm_num)]
    have h5 : Real.sqrt (4 ^ 2 * (-1 - - -1) ^ 2) = 8 := by
      rw [show (4 : ℝ) ^ 2 * (-1 - - -1) ^ 2 = 8 ^ 2 by norm_num, Real.sqrt_sq (by norm_num)]
    have h6 : Real.sqrt (4 * (1 - 0) ^ 2) = 2 := by rw [show (4 : ℝ) * (1 - 0) ^ 2 = 4 by norm_num, sqrt_four]
    have h7 : Real.sqrt (4 * (-1 - 0) ^ 2) = 2 := by rw [show (4 : ℝ) * (-1 - 0) ^ 2 = 4 by norm_num, sqrt_four]
    have h8 : Real.sqrt (4 * (- -1 - 0) ^ 2) = 2 := by
      rw [show (4 : ℝ) * (- -1 - 0) ^ 2 = 4 by norm_num, sqrt_four]
    rw [h4, h5, h6, h7, h8]
    simp only [kGenerate]
    norm_num
  have hscore : ∀ b, energyScore b true unitLdlt (fun _ => 0) (fun _ => 0) (some fun _ => 4) 2
      (Matrix.of fun _ _ => 1) (Matrix.of fun _ _ => -1) = (do
        albatrossAssert b (decide (Dbl.fin (-(1 / 10 ^ 12)) ≤ .fin (-2)))
        pure (stdMax (.fin 0) (.fin (-2)))) := by
    intro b
    unfold energyScore
    rw [decide_eq_true (by norm_num), albatrossAssert_true, except_ok_bind, hs b 1, except_ok_bind, hs b (-1),
      except_ok_bind]
    unfold energyScoreOf
    simp only [Option.getD_some]
    rw [← hval]
    rfl
  rw [hscore, hscore]
  have hneg : ¬ Dbl.fin (-(1 / 10 ^ 12)) ≤ .fin (-2) := by rw [Dbl.fin_le]; norm_num
  rw [decide_eq_false hneg]
  refine ⟨rfl, ?_⟩
  show Except.ok (stdMax (.fin 0) (.fin (-2))) = _
  unfold stdMax
  rw [if_neg (by rw [Dbl.fin_lt]; norm_num)]

theorem weightedNorm_triangle {n : Nat} (w a b t : Fin n → ℝ) (hw : ∀ i, 0 ≤ w i) :
    weightedNorm w (fun i => a i - b i) ≤ weightedNorm w (fun i => a i - t i) + weightedNorm w (fun i => b i - t i) := by
  have h : ∀ d : Fin n → ℝ, weightedNorm w d = ‖(WithLp.toLp 2 fun i => Real.sqrt (w i) * d i : EuclideanSpace ℝ (Fin n))‖ := by
    intro d
    rw [EuclideanSpace.norm_eq]
    unfold weightedNorm
    congr 1
    refine Finset.sum_congr rfl fun i _ => ?_
    rw [Real.norm_eq_abs, sq_abs]
    show w i * d i ^ 2 = (Real.sqrt (w i) * d i) ^ 2
    rw [mul_pow, Real.sq_sqrt (hw i)]
  rw [h, h, h]
  have e : (WithLp.toLp 2 fun i => Real.sqrt (w i) * (a i - b i) : EuclideanSpace ℝ (Fin n)) =
      (WithLp.toLp 2 fun i => Real.sqrt (w i) * (a i - t i)) - (WithLp.toLp 2 fun i => Real.sqrt (w i) * (b i - t i)) := by
    ext i
    simp
    ring
  rw [e]
  exact norm_sub_le _ _

/-- **C61**, the parts that hold: with weights between zero and one the score is not negative, so that the
assertion holds and nothing is clamped; and with weights zero or one, such as the default, both terms use the
same norm.  Missing: all other weights, for which it fails. -/
theorem C61_unit_weights_partial {n k : Nat} (hk : 0 < k) (a b : Matrix (Fin n) (Fin k) ℝ) (truth w : Fin n → ℝ) :
    ((∀ i, 0 ≤ w i ∧ w i ≤ 1) → ∃ es, 0 ≤ es ∧ energyValue a b truth w = .fin es ∧
      ∀ build, energyScoreOf build a b truth w = .ok (.fin es)) ∧
    ((∀ i, w i = 0 ∨ w i = 1) →
      pairwiseErrorsPaired a b w = .fin ((∑ j, weightedNorm w fun i => a i j - b i j) / k) ∧
      meanErrNorms a truth w = .fin ((∑ j, weightedNorm w fun i => a i j - truth i) / k)) := by
  constructor
  · intro hw
    have hw0 : ∀ i, 0 ≤ w i := fun i => (hw i).1
    have hes := energyValue_eq hk a b truth w hw0
    have hnn : 0 ≤ (∑ j, (weightedNorm w (fun i => a i j - truth i) +
      weightedNorm w (fun i => b i j - truth i) -
      weightedNorm (fun i => w i ^ 2) fun i => a i j - b i j)) / (2 * (k : ℝ)) := by
      apply div_nonneg _ (by positivity)
      apply Finset.sum_nonneg
      intro j _
      have h1 := weightedNorm_triangle w (fun i => a i j) (fun i => b i j) truth hw0
      have h2 : weightedNorm (fun i => w i ^ 2) (fun i => a i j - b i j) ≤
          weightedNorm w (fun i => a i j - b i j) := by
        unfold weightedNorm
        apply Real.sqrt_le_sqrt
        apply Finset.sum_le_sum
        intro i _
        have := hw i
        apply mul_le_mul_of_nonneg_right _ (sq_nonneg _)
        nlinarith
      linarith
    refine ⟨_, hnn, hes, fun build => ?_⟩
    unfold energyScoreOf
    show (do
      albatrossAssert build (decide (Dbl.fin (-(1 / 10 ^ 12)) ≤ energyValue a b truth w))
      pure (stdMax (.fin 0) (energyValue a b truth w))) = _
    rw [hes, decide_eq_true (by rw [Dbl.fin_le]; linarith [show (0:ℝ) < 1 / 10 ^ 12 by norm_num]),
      albatrossAssert_true, except_ok_bind]
    unfold stdMax
    by_cases hlt : Dbl.fin 0 < .fin ((∑ j, (weightedNorm w (fun i => a i j - truth i) +
      weightedNorm w (fun i => b i j - truth i) -
      weightedNorm (fun i => w i ^ 2) fun i => a i j - b i j)) / (2 * (k : ℝ)))
    · rw [if_pos hlt]; rfl
    · rw [if_neg hlt]
      rw [Dbl.fin_lt] at hlt
      rw [le_antisymm (not_lt.1 hlt) hnn]
      rfl
  · intro hw
    have hw0 : ∀ i, 0 ≤ w i := fun i => by rcases hw i with h | h <;> rw [h]; norm_num
    have hsq : (fun i => w i ^ 2) = w := by
      funext i
      rcases hw i with h | h <;> rw [h] <;> norm_num
    have h := C61_terms hk a b truth w hw0
    rw [hsq] at h
    exact ⟨h.2, h.1⟩

/-- **C61**: samples that all equal the truth score zero; but a prediction without variance, of which these
would be the samples, is rejected before it is sampled. -/
theorem C61_point_mass {n k : Nat} (hk : 0 < k) (b : Build) (truth w : Fin n → ℝ) (hw : ∀ i, 0 ≤ w i)
    (a : Matrix (Fin n) (Fin k) ℝ) (ha : ∀ i j, a i j = truth i) :
    energyScoreOf b a a truth w = .ok (.fin 0) ∧
    ∀ (F : PivotedLdlt n) (mean : Fin n → ℝ) numSamples z zB, 1 < numSamples → (∃ i, F.diag i = 0) →
      energyScore .debug true F mean truth (some w) numSamples z zB = .error .assertFail := by
  constructor
  · have hes := energyValue_eq hk a a truth w hw
    have hz : ∀ v : Fin n → ℝ, weightedNorm v (fun _ => 0) = 0 := by intro v; simp [weightedNorm]
    simp only [ha, sub_self, hz, add_zero, Finset.sum_const_zero, zero_div] at hes
    unfold energyScoreOf
    show (do
      albatrossAssert b (decide (Dbl.fin (-(1 / 10 ^ 12)) ≤ energyValue a a truth w))
      pure (stdMax (.fin 0) (energyValue a a truth w))) = _
    rw [hes, decide_eq_true (by rw [Dbl.fin_le]; norm_num), albatrossAssert_true, except_ok_bind]
    unfold stdMax
    rw [if_neg (by rw [Dbl.fin_lt]; norm_num)]
    rfl
  · intro F mean numSamples z zB h1 ⟨i, hi⟩
    unfold energyScore antitheticSample
    rw [decide_eq_true h1, albatrossAssert_true, except_ok_bind, (C60_rejects F mean z).2 ⟨i, hi.le⟩]
    rfl

end Albatross
