import Verif.SparseCloseProps
import Verif.LogScore

/-! # C132: how far the log likelihood of a sparse Gaussian process is from the dense log density -/

namespace Albatross

open Matrix

section Algebra

variable {n : Nat}

/-- The entries of the inverse of a matrix of at least `s`. -/
theorem inverse_entry_le {S : Matrix (Fin n) (Fin n) ℝ} {s : ℝ} (hs : 0 < s)
    (hS : ∀ v, s * lengthOf v ^ 2 ≤ v ⬝ᵥ (S *ᵥ v)) (hu : IsUnit S.det) (i j : Fin n) : |S⁻¹ i j| ≤ 1 / s := by
  have h1 : S *ᵥ (S⁻¹ *ᵥ Pi.single j 1) = Pi.single j 1 := by
    rw [mulVec_mulVec, Matrix.mul_nonsing_inv _ hu, one_mulVec]
  have h2 := length_of_solution hs hS h1
  have h3 : lengthOf (Pi.single j 1 : Fin n → ℝ) = 1 := by
    rw [lengthOf, Real.sqrt_eq_one]
    rw [Finset.sum_eq_single j] <;> simp +contextual
  rw [h3] at h2
  refine le_trans ?_ h2
  refine abs_le_of_sq_le_sq ?_ (lengthOf_nonneg _)
  rw [lengthOf_sq]
  have : (S⁻¹ *ᵥ Pi.single j 1) i = S⁻¹ i j := by simp
  rw [← this]
  exact Finset.single_le_sum (f := fun k => (S⁻¹ *ᵥ Pi.single j 1) k ^ 2) (fun _ _ => sq_nonneg _) (Finset.mem_univ i)

/-- The logarithms of the determinants of two matrices of at least `s`, one way. -/
theorem log_det_sub_le {S T : Matrix (Fin n) (Fin n) ℝ} {s ε : ℝ} (hs : 0 < s)
    (hS : ∀ v, s * lengthOf v ^ 2 ≤ v ⬝ᵥ (S *ᵥ v)) (hSp : S.PosDef) (hTp : T.PosDef)
    (hd : ∀ i j, |S i j - T i j| ≤ ε) : Real.log T.det - Real.log S.det ≤ n ^ 2 * (ε / s) := by
  have hu := PosDef.isUnit_det' hSp
  have h := (log_det_add_card_le hSp hTp).1
  have e : (S⁻¹ * T).trace = n + ∑ i, ∑ j, S⁻¹ i j * (T j i - S j i) := by
    have h1 : S⁻¹ * T = 1 + S⁻¹ * (T - S) := by
      rw [Matrix.mul_sub, Matrix.nonsing_inv_mul _ hu]; abel
    rw [h1, trace_add, trace_one, Fintype.card_fin]
    rfl
  have b : ∑ i, ∑ j, S⁻¹ i j * (T j i - S j i) ≤ ∑ _i : Fin n, ∑ _j : Fin n, 1 / s * ε := by
    refine Finset.sum_le_sum fun i _ => Finset.sum_le_sum fun j _ => ?_
    refine (le_abs_self _).trans ?_
    rw [abs_mul]
    refine mul_le_mul (inverse_entry_le hs hS hu i j) ?_ (abs_nonneg _) (by positivity)
    rw [abs_sub_comm]
    exact hd j i
  rw [e, Fintype.card_fin] at h
  simp only [Finset.sum_const, Finset.card_univ, Fintype.card_fin, nsmul_eq_mul] at b
  have : (n : ℝ) ^ 2 * (ε / s) = n * (n * (1 / s * ε)) := by ring
  linarith

/-- Two normal log densities with nearly the same covariance are nearly the same. -/
theorem log_densities_close {S T : Matrix (Fin n) (Fin n) ℝ} {s ε : ℝ} (hs : 0 < s)
    (hS : ∀ v, s * lengthOf v ^ 2 ≤ v ⬝ᵥ (S *ᵥ v)) (hT : ∀ v, s * lengthOf v ^ 2 ≤ v ⬝ᵥ (T *ᵥ v)) (hSp : S.PosDef)
    (hTp : T.PosDef) (hε : 0 ≤ ε) (hd : ∀ i j, |S i j - T i j| ≤ ε) (y : Fin n → ℝ) :
    |gaussianLogPdf 0 T y - gaussianLogPdf 0 S y| ≤ ε / 2 * (n * (lengthOf y / s) ^ 2 + n ^ 2 / s) := by
  have d1 := log_det_sub_le hs hS hSp hTp hd
  have d2 := log_det_sub_le hs hT hTp hSp fun i j => by rw [abs_sub_comm]; exact hd i j
  set a := S⁻¹ *ᵥ y with ha
  set c := T⁻¹ *ᵥ y with hc
  have hSa : S *ᵥ a = y := by rw [ha, mulVec_mulVec, Matrix.mul_nonsing_inv _ (PosDef.isUnit_det' hSp), one_mulVec]
  have hTc : T *ᵥ c = y := by rw [hc, mulVec_mulVec, Matrix.mul_nonsing_inv _ (PosDef.isUnit_det' hTp), one_mulVec]
  have e : y ⬝ᵥ c - y ⬝ᵥ a = a ⬝ᵥ ((S - T) *ᵥ c) := by
    have h1 : a ⬝ᵥ (S *ᵥ c) = y ⬝ᵥ c := by
      rw [dotProduct_mulVec, ← mulVec_transpose, PosDef.transpose_eq' hSp, hSa]
    rw [Matrix.sub_mulVec, dotProduct_sub, h1, hTc, dotProduct_comm a y]
  have hal := length_of_solution hs hS hSa
  have hcl := length_of_solution hs hT hTc
  have b := small_form (E := S - T) hd a c
  rw [← e] at b
  have b' : |y ⬝ᵥ c - y ⬝ᵥ a| ≤ ε * (n * (lengthOf y / s) ^ 2) := by
    refine b.trans ?_
    have : lengthOf a * lengthOf c ≤ (lengthOf y / s) ^ 2 := by
      rw [pow_two]
      exact mul_le_mul hal hcl (lengthOf_nonneg _) (div_nonneg (lengthOf_nonneg _) hs.le)
    gcongr
  have hval : gaussianLogPdf 0 T y - gaussianLogPdf 0 S y =
      -(1 / 2) * ((y ⬝ᵥ c - y ⬝ᵥ a) + (Real.log T.det - Real.log S.det)) := by
    simp only [gaussianLogPdf, sub_zero, ha, hc]
    ring
  rw [hval, abs_mul, abs_neg, abs_of_pos (by norm_num : (0 : ℝ) < 1 / 2)]
  have d : |Real.log T.det - Real.log S.det| ≤ n ^ 2 * (ε / s) := abs_le.2 ⟨by linarith, d1⟩
  have := abs_add_le (y ⬝ᵥ c - y ⬝ᵥ a) (Real.log T.det - Real.log S.det)
  have e2 : ε / 2 * (n * (lengthOf y / s) ^ 2 + n ^ 2 / s) =
      1 / 2 * (ε * (n * (lengthOf y / s) ^ 2) + n ^ 2 * (ε / s)) := by ring
  rw [e2]
  linarith

end Algebra

variable {X κ : Type} [LinearOrder κ] {n m : Nat}

/-- The covariances of the targets in the sparse and in the dense model: both at least the noise, and as close as what
the inducing points leave. -/
theorem sparse_covariances_close (g : SparseGp X κ) (hk : IsPSD g.gp.cov) (hi : 0 < g.inducingNugget) (u : Fin m → X)
    (features : Fin n → X) (variance : Fin n → ℝ) {s ε : ℝ} (hs : 0 < s)
    (hv : ∀ i, s ≤ variance i + g.measurementNugget) (hε : 0 ≤ ε)
    (hz : ∀ i, leftover g u (g.gp.asMeas (features i)) ≤ ε) :
    (sparseA g u features variance).PosDef ∧ (sparsePrior g u features variance).PosDef ∧
    (obsCovariance g.gp features fun i => variance i + g.measurementNugget).PosDef ∧
    (∀ v, s * lengthOf v ^ 2 ≤ v ⬝ᵥ (sparsePrior g u features variance *ᵥ v)) ∧
    (∀ v, s * lengthOf v ^ 2 ≤
      v ⬝ᵥ ((obsCovariance g.gp features fun i => variance i + g.measurementNugget) *ᵥ v)) ∧
    ∀ i j, |(obsCovariance g.gp features fun i => variance i + g.measurementNugget) i j -
      sparsePrior g u features variance i j| ≤ ε := by
  have hsym := hk.1
  have hK := sparseK_posDef g hk hi u
  set z := fun i => g.gp.asMeas (features i) with hzdef
  set A := sparseA g u features variance with hA
  set T := sparsePrior g u features variance with hT
  set S := obsCovariance g.gp features fun i => variance i + g.measurementNugget with hS
  have hAge := sparseA_ge g hk hi u features variance hv
  have pd : ∀ M : Matrix (Fin n) (Fin n) ℝ, Mᵀ = M → (∀ v, s * lengthOf v ^ 2 ≤ v ⬝ᵥ (M *ᵥ v)) → M.PosDef := by
    intro M hM h
    refine Matrix.PosDef.of_dotProduct_mulVec_pos (by rw [Matrix.IsHermitian, conjTranspose_eq_transpose_of_trivial, hM])
      fun v hv => ?_
    rw [star_trivial]
    refine lt_of_lt_of_le (mul_pos hs ?_) (h v)
    rw [lengthOf_sq]
    obtain ⟨i, hi⟩ := Function.ne_iff.1 hv
    exact Finset.sum_pos' (fun _ _ => sq_nonneg _) ⟨i, Finset.mem_univ i, by
      have : v i ≠ 0 := hi
      positivity⟩
  have hQs : ∀ i j, sparseQ g u z z i j = sparseQ g u z z j i := fun i j => (explained_psd g hk hi u).1 _ _
  have hAt : Aᵀ = A := by
    ext i j
    simp only [hA, sparseA, transpose_apply, of_apply, ← hzdef]
    rw [hQs i j, hsym (g.gp.asMeas (features i))]
    by_cases hij : i = j
    · subst hij; rfl
    · simp only [if_neg hij, eq_comm]
  have hQt : (sparseQ g u z z)ᵀ = sparseQ g u z z := by ext i j; exact hQs j i
  have hTt : Tᵀ = T := by rw [hT, sparsePrior, transpose_add, hQt, hAt]
  have hSt : Sᵀ = S := by
    ext i j
    simp only [hS, obsCovariance, transpose_apply, of_apply]
    rw [hsym]
    by_cases hij : i = j
    · subst hij; rfl
    · simp only [if_neg hij, if_neg (Ne.symm hij)]
  have hTge : ∀ v, s * lengthOf v ^ 2 ≤ v ⬝ᵥ (T *ᵥ v) := by
    intro v
    have h1 := (explained_psd g hk hi u).2 n z v
    have h2 := hAge v
    have h3 : v ⬝ᵥ (sparseQ g u z z *ᵥ v) = ∑ i, ∑ j, v i * v j * explained g u (z i) (z j) :=
      form_covMat (explained g u) z v
    rw [hT, sparsePrior, Matrix.add_mulVec, dotProduct_add, h3]
    linarith
  have hSge : ∀ v, s * lengthOf v ^ 2 ≤ v ⬝ᵥ (S *ᵥ v) := by
    intro v
    have h1 := hk.2 n z v
    have h2 : s * lengthOf v ^ 2 ≤ ∑ i, (variance i + g.measurementNugget) * v i ^ 2 := by
      rw [lengthOf_sq, Finset.mul_sum]
      exact Finset.sum_le_sum fun i _ => mul_le_mul_of_nonneg_right (hv i) (sq_nonneg _)
    have h3 : v ⬝ᵥ (S *ᵥ v) = ∑ i, ∑ j, v i * v j * g.gp.cov (z i) (z j) +
        ∑ i, (variance i + g.measurementNugget) * v i ^ 2 := by
      rw [hS, obsCovariance_eq, Matrix.add_mulVec, dotProduct_add]
      congr 1
      · exact form_covMat g.gp.cov z v
      · refine Finset.sum_congr rfl fun i _ => ?_
        rw [mulVec_diagonal]
        ring
    linarith
  refine ⟨pd A hAt hAge, pd T hTt hTge, pd S hSt hSge, hTge, hSge, fun i j => ?_⟩
  by_cases hij : g.group (features i) = g.group (features j)
  · have : S i j - T i j = 0 := by
      simp only [hS, hT, obsCovariance, sparsePrior, sparseA, Matrix.add_apply, of_apply, if_pos hij, ← hzdef]
      ring
    rw [this, abs_zero]; exact hε
  · have : S i j - T i j = g.gp.cov (z i) (z j) - explained g u (z i) (z j) := by
      simp only [hS, hT, obsCovariance, sparsePrior, sparseA, Matrix.add_apply, of_apply, if_neg hij, ← hzdef,
        sparseQ_explained]
      ring
    rw [this]
    refine abs_le_of_sq_le_sq ?_ hε
    refine ((unexplained_psd g hk hi u).sq_le _ _).trans ?_
    rw [pow_two]
    exact mul_le_mul (hz i) (hz j) ((unexplained_psd g hk hi u).diag_nonneg _) hε

/-- C132, partial: a sparse model with noise of at least `s` in every target, whose inducing points leave at most `ε` of
the variance of every training point unexplained: its log likelihood is the log density of the targets with mean zero
and the covariance the dense model is fitted with, plus the priors, up to `ε / 2 (n |y|² / s² + n² / s)`. Missing: the
comparison with what the dense model's `log_likelihood` returns, for which it is false (`C132_dense_false`). -/
theorem C132_log_likelihood_partial (g : SparseGp X κ) (hk : IsPSD g.gp.cov) (hi : 0 < g.inducingNugget)
    (rt : SparseRoutines) (hrt : rt.Meets) (priorLL : ℝ) (u : Fin m → X) (features : Fin n → X)
    (targets : Marginal (Fin n)) {s ε : ℝ} (hs : 0 < s) (hv : ∀ i, s ≤ targets.variance i + g.measurementNugget)
    (hε : 0 ≤ ε) (hz : ∀ i, leftover g u (g.gp.asMeas (features i)) ≤ ε) :
    ∃ ll, g.logLikelihood rt priorLL u features targets = .ok ll ∧
      |ll - (gaussianLogPdf 0 (obsCovariance g.gp features fun i => targets.variance i + g.measurementNugget)
        targets.mean + priorLL)| ≤ ε / 2 * (n * (lengthOf targets.mean / s) ^ 2 + n ^ 2 / s) := by
  obtain ⟨hA, hT, hS, hTge, hSge, hd⟩ := sparse_covariances_close g hk hi u features targets.variance hs hv hε hz
  refine ⟨_, C38_log_likelihood g hk.1 rt hrt priorLL u features targets (sparseK_posDef g hk hi u) hA, ?_⟩
  rw [add_sub_add_right_eq_sub]
  exact log_densities_close hs hSge hTge hS hT hε hd targets.mean

/-- C132: when every feature is in one group the log likelihood of the sparse model is exactly that log density,
whatever the inducing points. -/
theorem C132_one_group (g : SparseGp X κ) (hk : IsPSD g.gp.cov) (hi : 0 < g.inducingNugget)
    (rt : SparseRoutines) (hrt : rt.Meets) (priorLL : ℝ) (u : Fin m → X) (features : Fin n → X)
    (targets : Marginal (Fin n)) (hv : ∀ i, 0 < targets.variance i + g.measurementNugget)
    (hone : ∀ i j, g.group (features i) = g.group (features j)) :
    g.logLikelihood rt priorLL u features targets =
      .ok (gaussianLogPdf 0 (obsCovariance g.gp features fun i => targets.variance i + g.measurementNugget)
        targets.mean + priorLL) := by
  have hA : (sparseA g u features targets.variance).PosDef := by
    rcases n.eq_zero_or_pos with rfl | hn
    · refine Matrix.PosDef.of_dotProduct_mulVec_pos (by ext i; exact i.elim0) fun v hv => absurd (Subsingleton.elim v 0) hv
    · have : Nonempty (Fin n) := ⟨⟨0, hn⟩⟩
      obtain ⟨i₀, h₀⟩ := Finite.exists_min fun i => targets.variance i + g.measurementNugget
      obtain ⟨i₁, h₁⟩ := Finite.exists_max fun i => leftover g u (g.gp.asMeas (features i))
      exact (sparse_covariances_close g hk hi u features targets.variance (hv i₀) h₀
        ((unexplained_psd g hk hi u).diag_nonneg _) h₁).1
  rw [C38_log_likelihood g hk.1 rt hrt priorLL u features targets (sparseK_posDef g hk hi u) hA]
  have : sparsePrior g u features targets.variance =
      obsCovariance g.gp features fun i => targets.variance i + g.measurementNugget := by
    ext i j
    simp only [obsCovariance, sparsePrior, sparseA, Matrix.add_apply, of_apply, if_pos (hone i j)]
    ring
  rw [this]

/-- C132: the sparse model with a squared exponential or an exponential covariance and the state space grid as its
inducing points: the bound with `ε = r σ² + ν`, where `r` is 1.125 % or 7.5 %. -/
theorem C132_state_space (g : SparseGp ℝ κ) (hmeas : ∀ x, g.gp.asMeas x = x) (hi : 0 < g.inducingNugget) (b : Build)
    {l σ : ℝ} (hl : 0 < l) (k r : ℝ) (f : ℝ → ℝ → ℝ → ℝ) (hf : f = squaredExponential ∧ k = 10 ∧ r = 9 / 800 ∨
      f = exponentialCov ∧ k = 20 ∧ r = 3 / 40)
    (hcov : ∀ x y, g.gp.cov x y = f (euclideanDistance x y) l σ) (rt : SparseRoutines) (hrt : rt.Meets) (priorLL : ℝ)
    (features : Fin n → ℝ) (targets : Marginal (Fin n))
    (hsize : ∀ i j, k * (features j - features i) / l ≤ 2 ^ 53)
    (hu : ssrGrid k b (.fin l) ((List.ofFn features).map .fin) = .ok ((g.inducing (List.ofFn features)).map .fin))
    {s : ℝ} (hs : 0 < s) (hv : ∀ i, s ≤ targets.variance i + g.measurementNugget) :
    ∃ ll, g.logLikelihood rt priorLL (g.inducing (List.ofFn features)).get features targets = .ok ll ∧
      |ll - (gaussianLogPdf 0 (obsCovariance g.gp features fun i => targets.variance i + g.measurementNugget)
        targets.mean + priorLL)| ≤
        (r * σ ^ 2 + g.inducingNugget) / 2 * (n * (lengthOf targets.mean / s) ^ 2 + n ^ 2 / s) := by
  have hsize' : ∀ x ∈ List.ofFn features, ∀ y ∈ List.ofFn features, k * (y - x) / l ≤ 2 ^ 53 := by
    intro x hx y hy
    obtain ⟨i, rfl⟩ := (List.mem_ofFn' _ _).1 hx
    obtain ⟨j, rfl⟩ := (List.mem_ofFn' _ _).1 hy
    exact hsize i j
  have hmem : ∀ i, features i ∈ List.ofFn features := fun i => (List.mem_ofFn' _ _).2 ⟨i, rfl⟩
  have hpsd : IsPSD g.gp.cov := by
    have : g.gp.cov = fun x y => f (euclideanDistance x y) l σ := by funext x y; exact hcov x y
    rw [this]
    rcases hf with ⟨rfl, -⟩ | ⟨rfl, -⟩
    · exact C22_squared_exponential_real_psd l σ
    · exact C22_exponential_real_psd l σ
  have hr0 : 0 < r := by rcases hf with ⟨-, -, rfl⟩ | ⟨-, -, rfl⟩ <;> norm_num
  exact C132_log_likelihood_partial g hpsd hi rt hrt priorLL _ features targets hs hv (by positivity) fun i => by
    rw [hmeas]
    exact C128_grid g hi b hl k r f hf hcov (List.ofFn features) hsize' _ hu _ _ _ (hmem i) (hmem i) le_rfl le_rfl

/-- C132 is false of what the two `log_likelihood`s return: the dense one leaves out the variances of the targets, which
the sparse one takes in. However little the inducing points leave, they can be `log 2 / 2` apart. -/
theorem C132_dense_false : ∀ ε : ℝ, 0 < ε → ∃ (g : SparseGp ℝ ℤ) (u features : Fin 1 → ℝ) (targets : Marginal (Fin 1)),
    IsPSD g.gp.cov ∧ (∀ x, g.gp.mean x = 0) ∧ 0 < g.inducingNugget ∧ 0 ≤ g.measurementNugget ∧
    (∀ i, 0 < targets.variance i) ∧ (∀ i, leftover g u (g.gp.asMeas (features i)) ≤ ε) ∧
    ∀ rt : SparseRoutines, rt.Meets → ∀ priorLL, ∃ ll, g.logLikelihood rt priorLL u features targets = .ok ll ∧
      Real.log 2 / 2 ≤ |ll - g.gp.logLikelihood (rt.ldlt 1) priorLL features targets| := by
  intro ε hε
  let g : SparseGp ℝ ℤ := ⟨⟨fun _ _ => 1, fun _ => 0, id⟩, fun _ => 0, fun x => x, 0, ε⟩
  let t : Marginal (Fin 1) := ⟨fun _ => 0, fun _ => 1⟩
  have hk : IsPSD g.gp.cov := IsPSD.const zero_le_one
  refine ⟨g, fun _ => 0, fun _ => 0, t, hk, fun _ => rfl, hε, le_rfl, fun _ => one_pos, fun i => ?_, fun rt hrt priorLL => ?_⟩
  · refine ((C128_leftover g hk hε (fun _ : Fin 1 => 0) _).2.2 0).trans ?_
    show (1 : ℝ) - 1 ^ 2 / (1 + ε) ≤ ε
    rw [sub_le_iff_le_add, ← sub_le_iff_le_add', le_div_iff₀ (by linarith)]
    nlinarith
  · refine ⟨_, C132_one_group g hk hε rt hrt priorLL _ _ t (fun _ => by norm_num [t, g]) fun _ _ => rfl, ?_⟩
    have hobs : ∀ v : Fin 1 → ℝ, obsCovariance g.gp (fun _ => 0) v = diagonal fun i => 1 + v i := by
      intro v
      ext i j; fin_cases i; fin_cases j; simp [obsCovariance, g]
    have hpd : (obsCovariance g.gp (fun _ : Fin 1 => 0) 0).PosDef := by
      rw [hobs]; exact Matrix.PosDef.diagonal fun i => by norm_num
    rw [C39_code_value g.gp (rt.ldlt 1) priorLL _ t hpd (hrt.ldlt _ _ hpd), add_sub_add_right_eq_sub, hobs, hobs]
    have hz : (t.mean - fun i => g.gp.mean (g.gp.asMeas ((fun _ : Fin 1 => (0 : ℝ)) i))) = 0 := by
      funext i; simp [t, g]
    have hz' : t.mean - 0 = 0 := by funext i; simp [t]
    unfold gaussianLogPdf
    rw [hz, hz']
    simp only [det_diagonal, mulVec_zero, dotProduct_zero]
    have h2 : 0 ≤ Real.log 2 := Real.log_nonneg (by norm_num)
    rw [abs_sub_comm]
    refine le_trans (le_of_eq ?_) (le_abs_self _)
    norm_num [t, g]
    ring

/-! ## Instances -/

/-- Three targets in two groups, an inducing point at each feature and noise of a half meet the hypotheses of
`C132_log_likelihood_partial`; what is left is at most the nugget. -/
example : ∃ (rt : SparseRoutines) (g : SparseGp ℝ ℤ) (u features : Fin 3 → ℝ) (targets : Marginal (Fin 3)), rt.Meets ∧
    IsPSD g.gp.cov ∧ 0 < g.inducingNugget ∧ (∀ i, 1 / 2 ≤ targets.variance i + g.measurementNugget) ∧
    g.group (features 0) ≠ g.group (features 1) ∧ targets.mean 0 ≠ 0 ∧ g.gp.cov (features 0) (features 1) ≠ 0 ∧
    ∀ i, leftover g u (g.gp.asMeas (features i)) ≤ 1 / 100 := by
  obtain ⟨rt, hrt⟩ := exists_routines
  let g : SparseGp ℝ ℤ := ⟨⟨fun x y => squaredExponential (euclideanDistance x y) 1 2, fun _ => 0, id⟩, Int.floor, fun x => x,
    0, 1 / 100⟩
  have hk : IsPSD g.gp.cov := C22_squared_exponential_real_psd 1 2
  refine ⟨rt, g, ![0, 1, 1], ![0, 1, 1], ⟨![3, 4, 5], fun _ => 1 / 2⟩, hrt, hk, by norm_num [g], fun i => by norm_num [g],
    by norm_num [g], by norm_num, ?_, fun i => ?_⟩
  · show squaredExponential _ 1 2 ≠ 0
    rw [squaredExponential, if_neg (by norm_num)]
    positivity
  · refine ((C128_leftover g hk (by norm_num [g]) ![0, 1, 1] _).2.2 i).trans ?_
    have hxx : ∀ x, g.gp.cov x x = 4 := by
      intro x
      show squaredExponential _ 1 2 = 4
      rw [squaredExponential, if_neg (by norm_num)]
      norm_num [euclideanDistance]
    show g.gp.cov _ _ - g.gp.cov _ _ ^ 2 / (g.gp.cov _ _ + 1 / 100) ≤ 1 / 100
    simp only [show ∀ x, g.gp.asMeas x = x from fun _ => rfl, hxx]
    norm_num

/-- Three features and noise one meet the hypotheses of `C132_state_space`. -/
example : ∃ (rt : SparseRoutines) (g : SparseGp ℝ ℤ) (features : Fin 3 → ℝ) (targets : Marginal (Fin 3)), rt.Meets ∧
    (∀ x, g.gp.asMeas x = x) ∧ 0 < g.inducingNugget ∧ targets.mean 0 ≠ 0 ∧
    (∀ x y, g.gp.cov x y = exponentialCov (euclideanDistance x y) 1 2) ∧
    (∀ i j, 20 * (features j - features i) / 1 ≤ 2 ^ 53) ∧
    ssrGrid 20 .debug (.fin 1) ((List.ofFn features).map .fin) = .ok ((g.inducing (List.ofFn features)).map .fin) ∧
    ∀ i, 1 ≤ targets.variance i + g.measurementNugget := by
  obtain ⟨rt, hrt⟩ := exists_routines
  have hs : ∀ i j, (20 : ℝ) * ((![0, 1, 3] : Fin 3 → ℝ) j - (![0, 1, 3] : Fin 3 → ℝ) i) / 1 ≤ 2 ^ 53 := by
    intro i j
    fin_cases i <;> fin_cases j <;> norm_num
  have hs' : ∀ x ∈ List.ofFn (![0, 1, 3] : Fin 3 → ℝ), ∀ y ∈ List.ofFn (![0, 1, 3] : Fin 3 → ℝ),
      (20 : ℝ) * (y - x) / 1 ≤ 2 ^ 53 := by
    intro x hx y hy
    obtain ⟨i, rfl⟩ := (List.mem_ofFn' _ _).1 hx
    obtain ⟨j, rfl⟩ := (List.mem_ofFn' _ _).1 hy
    exact hs i j
  obtain ⟨u, hu⟩ := grid_finite 20 (by norm_num) .debug 1 one_pos (List.ofFn (![0, 1, 3] : Fin 3 → ℝ)) (by simp) hs'
  exact ⟨rt, ⟨⟨fun x y => exponentialCov (euclideanDistance x y) 1 2, fun _ => 0, id⟩, Int.floor, fun _ => u,
    1 / 10 ^ 8, 1 / 10 ^ 8⟩, ![0, 1, 3], ⟨![3, 4, 5], fun _ => 1⟩, hrt, fun _ => rfl, by norm_num, by norm_num,
    fun _ _ => rfl, hs, hu, fun i => by norm_num⟩

/-- Two features in one group and one inducing point meet the hypotheses of `C132_one_group`. -/
example : ∃ (g : SparseGp ℝ ℤ) (features : Fin 2 → ℝ) (targets : Marginal (Fin 2)), IsPSD g.gp.cov ∧
    0 < g.inducingNugget ∧ (∀ i, 0 < targets.variance i + g.measurementNugget) ∧ features 0 ≠ features 1 ∧
    ∀ i j, g.group (features i) = g.group (features j) :=
  ⟨⟨⟨fun x y => squaredExponential (euclideanDistance x y) 1 2, fun _ => 0, id⟩, fun _ => 0, fun x => x, 0, 1⟩, ![0, 1],
    ⟨![3, 4], fun _ => 1⟩, C22_squared_exponential_real_psd 1 2, one_pos, fun i => by norm_num, by norm_num, fun _ _ => rfl⟩

end Albatross
