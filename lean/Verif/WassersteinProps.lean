import Verif.Metrics
import Verif.Bures

/-! # The Wasserstein distance of joint distributions (C82)

`distance::wasserstein_2` returns the square of the 2-Wasserstein distance of two normal distributions: the
least expected squared distance of `x` and `y` over all ways to draw `x` from the first and `y` from the second
distribution.  A joint covariance of `(x, y)` with the given marginals is a matrix `C` for which the block matrix
`[[A, C], [Cᵀ, B]]` is positive semidefinite. -/

namespace Albatross

open Matrix

/-! ## Specification -/

/-- `C` is the cross covariance of `x` and `y` for some joint covariance with marginals `A` and `B`. -/
def IsCrossCovariance {n : Nat} (A B C : Matrix (Fin n) (Fin n) ℝ) : Prop := (fromBlocks A C Cᵀ B).PosSemidef

/-- `E ‖x - y‖²` when `x - y` has mean `a.mean - b.mean` and `cov(x, y) = C`. -/
noncomputable def expectedSquaredDistance {n : Nat} (a b : Joint (Fin n)) (C : Matrix (Fin n) (Fin n) ℝ) : ℝ :=
  ∑ i, ((a.mean i - b.mean i) ^ 2 + (a.covariance i i + b.covariance i i - 2 * C i i))

/-- The contract of `Eigen::SelfAdjointEigenSolver`. -/
def EigenSolver.Correct {n : Nat} (solver : Matrix (Fin n) (Fin n) ℝ → EigenDecomp n) : Prop :=
  ∀ A : Matrix (Fin n) (Fin n) ℝ, A.IsSymm → (solver A).Of A

theorem exists_eigen_solver (n : Nat) :
    ∃ solver : Matrix (Fin n) (Fin n) ℝ → EigenDecomp n, EigenSolver.Correct solver := by
  classical
  refine ⟨fun A => if h : A.IsSymm then
      ⟨(Bures.exists_eigen h).choose_spec.choose, (Bures.exists_eigen h).choose⟩ else ⟨0, 0⟩, fun A h => ?_⟩
  have := (Bures.exists_eigen h).choose_spec.choose_spec
  simp only [dif_pos h]
  exact ⟨this.1, this.2⟩

/-! ## The square root -/

/-- The principal square root of a covariance is the positive semidefinite matrix whose square it is. -/
theorem C82_principal_sqrt {n : Nat} {e : EigenDecomp n} {A : Matrix (Fin n) (Fin n) ℝ} (h : e.Of A)
    (hA : A.PosSemidef) :
    ∃ S, principalSqrt e = some S ∧ S.PosSemidef ∧ S * S = A ∧
      ∀ T : Matrix (Fin n) (Fin n) ℝ, T.PosSemidef → T * T = A → T = S := by
  have hd := Bures.eigen_nonneg hA h.orthogonal h.factor
  have hc : clampedValues e.values = e.values := by
    unfold clampedValues
    rw [if_neg (not_not.mpr hd)]
  have hS : (e.vectors * diagonal (fun i => Real.sqrt (e.values i)) * e.vectorsᵀ).PosSemidef :=
    Bures.psd_congr (Bures.diagonal_psd fun i => Real.sqrt_nonneg _) e.vectors
  have hSS : e.vectors * diagonal (fun i => Real.sqrt (e.values i)) * e.vectorsᵀ *
      (e.vectors * diagonal (fun i => Real.sqrt (e.values i)) * e.vectorsᵀ) = A := by
    calc e.vectors * diagonal (fun i => Real.sqrt (e.values i)) * e.vectorsᵀ *
          (e.vectors * diagonal (fun i => Real.sqrt (e.values i)) * e.vectorsᵀ)
        = e.vectors * diagonal (fun i => Real.sqrt (e.values i)) * (e.vectorsᵀ * e.vectors) *
          (diagonal (fun i => Real.sqrt (e.values i)) * e.vectorsᵀ) := by simp only [Matrix.mul_assoc]
      _ = e.vectors * (diagonal (fun i => Real.sqrt (e.values i)) * diagonal (fun i => Real.sqrt (e.values i))) *
          e.vectorsᵀ := by rw [h.orthogonal, Matrix.mul_one]; simp only [Matrix.mul_assoc]
      _ = A := by
        rw [diagonal_mul_diagonal]
        have : (fun i => Real.sqrt (e.values i) * Real.sqrt (e.values i)) = e.values :=
          funext fun i => Real.mul_self_sqrt (hd i)
        rw [this, ← h.factor]
  refine ⟨_, ?_, hS, hSS, fun T hT hTT => Bures.sqrt_unique hT hS (hTT.trans hSS.symm)⟩
  unfold principalSqrt
  simp only [hc]
  rw [if_neg (by push Not; exact hd)]

/-- What `wasserstein_2` computes. -/
theorem wasserstein2_parts {n : Nat} {solver : Matrix (Fin n) (Fin n) ℝ → EigenDecomp n}
    (hs : EigenSolver.Correct solver) {a b : Joint (Fin n)} (ha : a.covariance.PosSemidef)
    (hb : b.covariance.PosSemidef) :
    ∃ RA RB S : Matrix (Fin n) (Fin n) ℝ, RA.PosSemidef ∧ RA * RA = a.covariance ∧ RB.PosSemidef ∧
      RB * RB = b.covariance ∧ S.PosSemidef ∧ S * S = RB * a.covariance * RB ∧
      wasserstein2 solver a b = some ((a.mean - b.mean) ⬝ᵥ (a.mean - b.mean) +
        (a.covariance + b.covariance - (2 : ℝ) • S).trace) := by
  obtain ⟨RA, hRA, hAA⟩ := Bures.exists_sqrt ha
  obtain ⟨RB, eB, hRB, hBB, -⟩ := C82_principal_sqrt (hs _ (Bures.psd_symm hb)) hb
  have hM : (RB * a.covariance * RB).PosSemidef := by
    have := Bures.psd_congr ha RB
    rwa [Bures.psd_symm hRB] at this
  obtain ⟨S, eS, hS, hSS, -⟩ := C82_principal_sqrt (hs _ (Bures.psd_symm hM)) hM
  refine ⟨RA, RB, S, hRA, hAA, hRB, hBB, hS, hSS, ?_⟩
  unfold wasserstein2
  rw [eB]
  simp only [Option.bind_eq_bind, Option.bind_some, eS]
  rfl

theorem expectedSquaredDistance_eq {n : Nat} (a b : Joint (Fin n)) (C : Matrix (Fin n) (Fin n) ℝ) :
    expectedSquaredDistance a b C = (a.mean - b.mean) ⬝ᵥ (a.mean - b.mean) +
      (a.covariance.trace + b.covariance.trace - 2 * C.trace) := by
  unfold expectedSquaredDistance
  rw [Finset.sum_add_distrib]
  congr 1
  · simp only [dotProduct, Pi.sub_apply]
    exact Finset.sum_congr rfl fun i _ => by ring
  · rw [Finset.sum_sub_distrib, Finset.sum_add_distrib, ← Finset.mul_sum]
    rfl

/-- `wasserstein_2` is the least expected squared distance over all couplings of the two distributions. -/
theorem C82_wasserstein_least {n : Nat} {solver : Matrix (Fin n) (Fin n) ℝ → EigenDecomp n}
    (hs : EigenSolver.Correct solver) {a b : Joint (Fin n)} (ha : a.covariance.PosSemidef)
    (hb : b.covariance.PosSemidef) :
    ∃ w, wasserstein2 solver a b = some w ∧
      IsLeast {d | ∃ C, IsCrossCovariance a.covariance b.covariance C ∧ d = expectedSquaredDistance a b C} w := by
  obtain ⟨RA, RB, S, hRA, hAA, hRB, hBB, hS, hSS, e⟩ := wasserstein2_parts hs ha hb
  refine ⟨_, e, ?_, ?_⟩
  · obtain ⟨W, hW, hM⟩ := Bures.exists_polar (M := RA * RB) hS (by
      rw [transpose_mul, Bures.psd_symm hRA, Bures.psd_symm hRB, hSS, ← hAA]; simp only [Matrix.mul_assoc])
    refine ⟨RA * W * RB, Bures.orth_coupling hRA hAA hRB hBB hW, ?_⟩
    rw [expectedSquaredDistance_eq]
    have ht : (RA * W * RB).trace = S.trace := by
      have hM' : RB * RA = S * Wᵀ := by
        have := congrArg Matrix.transpose hM
        rw [transpose_mul, transpose_mul, Bures.psd_symm hRA, Bures.psd_symm hRB, Bures.psd_symm hS] at this
        exact this
      rw [trace_mul_comm, ← Matrix.mul_assoc, hM', Matrix.mul_assoc, hW, Matrix.mul_one]
    rw [ht, trace_sub, trace_add, trace_smul, smul_eq_mul]
  · rintro d ⟨C, hC, rfl⟩
    have := Bures.coupling_le hC hRA hAA hRB hBB hS hSS
    rw [expectedSquaredDistance_eq, trace_sub, trace_add, trace_smul, smul_eq_mul]
    linarith

/-- The distance as a norm: for some orthogonal `W`, which is best possible. -/
theorem wasserstein2_orth {n : Nat} {solver : Matrix (Fin n) (Fin n) ℝ → EigenDecomp n}
    (hs : EigenSolver.Correct solver) {a b : Joint (Fin n)} {RA RB : Matrix (Fin n) (Fin n) ℝ}
    (hRA : RA.PosSemidef) (hAA : RA * RA = a.covariance) (hRB : RB.PosSemidef)
    (hBB : RB * RB = b.covariance) :
    ∃ w, wasserstein2 solver a b = some w ∧
      (∃ W : Matrix (Fin n) (Fin n) ℝ, Wᵀ * W = 1 ∧
        w = (a.mean - b.mean) ⬝ᵥ (a.mean - b.mean) + ((RA * W - RB)ᵀ * (RA * W - RB)).trace) ∧
      ∀ W : Matrix (Fin n) (Fin n) ℝ, Wᵀ * W = 1 →
        w ≤ (a.mean - b.mean) ⬝ᵥ (a.mean - b.mean) + ((RA * W - RB)ᵀ * (RA * W - RB)).trace := by
  have ha : a.covariance.PosSemidef := by
    rw [← hAA]; have := Bures.psd_mul_transpose RA; rwa [Bures.psd_symm hRA] at this
  have hb : b.covariance.PosSemidef := by
    rw [← hBB]; have := Bures.psd_mul_transpose RB; rwa [Bures.psd_symm hRB] at this
  have hexp : ∀ W : Matrix (Fin n) (Fin n) ℝ, Wᵀ * W = 1 →
      ((RA * W - RB)ᵀ * (RA * W - RB)).trace =
        a.covariance.trace + b.covariance.trace - 2 * (RA * W * RB).trace := by
    intro W hW
    rw [transpose_sub, Matrix.sub_mul, Matrix.mul_sub, Matrix.mul_sub, transpose_mul, Bures.psd_symm hRA,
      Bures.psd_symm hRB, hBB, trace_sub, trace_sub, trace_sub]
    have e1 : (Wᵀ * RA * (RA * W)).trace = a.covariance.trace := by
      rw [Matrix.mul_assoc, ← Matrix.mul_assoc RA, hAA, ← Matrix.mul_assoc, trace_mul_comm, ← Matrix.mul_assoc,
        Bures.orth_comm hW, Matrix.one_mul]
    have e2 : (Wᵀ * RA * RB).trace = (RA * W * RB).trace := by
      rw [← trace_transpose, transpose_mul, transpose_mul, transpose_transpose, Bures.psd_symm hRA,
        Bures.psd_symm hRB, trace_mul_comm]
    have e3 : (RB * (RA * W)).trace = (RA * W * RB).trace := by rw [trace_mul_comm]
    rw [e1, e2, e3]; ring
  obtain ⟨RA', RB', S, hRA', hAA', hRB', hBB', hS, hSS, e⟩ := wasserstein2_parts hs ha hb
  obtain rfl := Bures.sqrt_unique hRA' hRA (hAA'.trans hAA.symm)
  obtain rfl := Bures.sqrt_unique hRB' hRB (hBB'.trans hBB.symm)
  obtain ⟨W, hW, hM⟩ := Bures.exists_polar (M := RA' * RB') hS (by
      rw [transpose_mul, Bures.psd_symm hRA, Bures.psd_symm hRB, hSS, ← hAA]; simp only [Matrix.mul_assoc])
  refine ⟨_, e, ⟨W, hW, ?_⟩, fun W hW => ?_⟩
  · rw [hexp W hW]
    have ht : (RA' * W * RB').trace = S.trace := by
      have hM' : RB' * RA' = S * Wᵀ := by
        have := congrArg Matrix.transpose hM
        rw [transpose_mul, transpose_mul, Bures.psd_symm hRA, Bures.psd_symm hRB, Bures.psd_symm hS] at this
        exact this
      rw [trace_mul_comm, ← Matrix.mul_assoc, hM', Matrix.mul_assoc, hW, Matrix.mul_one]
    rw [ht, trace_sub, trace_add, trace_smul, smul_eq_mul]
  · rw [hexp W hW]
    have := Bures.coupling_le (Bures.orth_coupling hRA hAA hRB hBB hW) hRA hAA hRB hBB hS hSS
    rw [trace_sub, trace_add, trace_smul, smul_eq_mul]
    linarith

theorem dot_self_nonneg {n : Nat} (x : Fin n → ℝ) : 0 ≤ x ⬝ᵥ x :=
  Finset.sum_nonneg fun _ _ => mul_self_nonneg _

/-- `wasserstein_2` is not negative, and zero exactly for equal distributions. -/
theorem C82_wasserstein_zero_iff {n : Nat} {solver : Matrix (Fin n) (Fin n) ℝ → EigenDecomp n}
    (hs : EigenSolver.Correct solver) {a b : Joint (Fin n)} (ha : a.covariance.PosSemidef)
    (hb : b.covariance.PosSemidef) :
    ∃ w, wasserstein2 solver a b = some w ∧ 0 ≤ w ∧ (w = 0 ↔ a = b) := by
  obtain ⟨RA, hRA, hAA⟩ := Bures.exists_sqrt ha
  obtain ⟨RB, hRB, hBB⟩ := Bures.exists_sqrt hb
  obtain ⟨w, e, ⟨W, hW, hw⟩, hmin⟩ := wasserstein2_orth hs (a := a) (b := b) hRA hAA hRB hBB
  have h1 := dot_self_nonneg (a.mean - b.mean)
  have h2 := Bures.trace_transpose_mul_self_nonneg (RA * W - RB)
  have h0 : 0 ≤ w := by rw [hw]; positivity
  refine ⟨w, e, h0, fun h => ?_, fun h => ?_⟩
  · have z1 : (a.mean - b.mean) ⬝ᵥ (a.mean - b.mean) = 0 := by linarith
    have z2 := Bures.trace_transpose_mul_self_eq_zero
      (show ((RA * W - RB)ᵀ * (RA * W - RB)).trace = 0 by linarith)
    have m1 : a.mean = b.mean := by
      funext i
      have := (Finset.sum_eq_zero_iff_of_nonneg (fun x _ => mul_self_nonneg _)).mp z1 i (Finset.mem_univ _)
      have := mul_self_eq_zero.mp this
      simpa [sub_eq_zero] using this
    have m2 : a.covariance = b.covariance := by
      rw [← hBB, ← hAA]
      conv_rhs => rw [show RB * RB = RB * RBᵀ by rw [Bures.psd_symm hRB]]
      rw [← sub_eq_zero.mp z2, transpose_mul, Bures.psd_symm hRA]
      calc RA * RA = RA * (W * Wᵀ) * RA := by rw [Bures.orth_comm hW, Matrix.mul_one]
        _ = RA * W * (Wᵀ * RA) := by simp only [Matrix.mul_assoc]
    cases a; cases b
    simp only at m1 m2
    rw [m1, m2]
  · subst h
    obtain rfl := Bures.sqrt_unique hRA hRB (hAA.trans hBB.symm)
    have := hmin 1 (by simp)
    simp at this
    linarith

/-- Between distributions of equal covariance only the means matter. -/
theorem C82_wasserstein_shift {n : Nat} {solver : Matrix (Fin n) (Fin n) ℝ → EigenDecomp n}
    (hs : EigenSolver.Correct solver) {a b : Joint (Fin n)} (ha : a.covariance.PosSemidef)
    (hab : a.covariance = b.covariance) :
    wasserstein2 solver a b = some (∑ i, (a.mean i - b.mean i) ^ 2) := by
  obtain ⟨RA, hRA, hAA⟩ := Bures.exists_sqrt ha
  obtain ⟨w, e, ⟨W, hW, hw⟩, hmin⟩ := wasserstein2_orth hs (a := a) (b := b) hRA hAA hRA (hAA.trans hab)
  have h1 := hmin 1 (by simp)
  have h2 := Bures.trace_transpose_mul_self_nonneg (RA * W - RA)
  simp only [Matrix.mul_one, sub_self, Matrix.mul_zero, trace_zero, add_zero] at h1
  have : w = (a.mean - b.mean) ⬝ᵥ (a.mean - b.mean) := le_antisymm h1 (by linarith)
  rw [e, this]
  congr 1
  simp only [dotProduct, Pi.sub_apply]
  exact Finset.sum_congr rfl fun i _ => by ring

/-- `wasserstein_2` is symmetric. -/
theorem C82_wasserstein_symm {n : Nat} {solver : Matrix (Fin n) (Fin n) ℝ → EigenDecomp n}
    (hs : EigenSolver.Correct solver) {a b : Joint (Fin n)} (ha : a.covariance.PosSemidef)
    (hb : b.covariance.PosSemidef) : wasserstein2 solver a b = wasserstein2 solver b a := by
  have half : ∀ {a b : Joint (Fin n)}, a.covariance.PosSemidef → b.covariance.PosSemidef →
      ∀ {w v : ℝ}, wasserstein2 solver a b = some w → wasserstein2 solver b a = some v → v ≤ w := by
    intro a b ha hb w v hw hv
    obtain ⟨w', e, ⟨C, hC, hd⟩, -⟩ := C82_wasserstein_least hs ha hb
    obtain ⟨v', e', -, hmin⟩ := C82_wasserstein_least hs hb ha
    rw [hw] at e; rw [hv] at e'
    obtain rfl := Option.some.inj e
    obtain rfl := Option.some.inj e'
    refine hmin ⟨Cᵀ, ?_, ?_⟩
    · unfold IsCrossCovariance at hC ⊢
      have := hC.submatrix (Equiv.sumComm (Fin n) (Fin n))
      rw [transpose_transpose]
      convert this using 1
      ext (i | i) (j | j) <;> rfl
    · rw [hd]
      unfold expectedSquaredDistance
      exact Finset.sum_congr rfl fun i _ => by rw [transpose_apply]; ring
  obtain ⟨w, e, -⟩ := C82_wasserstein_least hs ha hb
  obtain ⟨v, e', -⟩ := C82_wasserstein_least hs hb ha
  rw [e, e']
  exact congrArg some (le_antisymm (half hb ha e' e) (half ha hb e e'))

/-- The vector of all entries of a mean difference and a matrix. -/
noncomputable def stacked {n : Nat} (x : Fin n → ℝ) (M : Matrix (Fin n) (Fin n) ℝ) :
    EuclideanSpace ℝ (Fin n ⊕ Fin n × Fin n) :=
  WithLp.toLp 2 (Sum.elim x fun p => M p.1 p.2)

theorem norm_stacked {n : Nat} (x : Fin n → ℝ) (M : Matrix (Fin n) (Fin n) ℝ) :
    ‖stacked x M‖ = Real.sqrt (x ⬝ᵥ x + (Mᵀ * M).trace) := by
  rw [EuclideanSpace.norm_eq]
  congr 1
  simp only [stacked, Fintype.sum_sum_type, Sum.elim_inl, Sum.elim_inr, Real.norm_eq_abs, sq_abs, dotProduct,
    Fintype.sum_prod_type, Matrix.trace, diag_apply, mul_apply, transpose_apply]
  congr 1
  · exact Finset.sum_congr rfl fun i _ => by ring
  · rw [Finset.sum_comm]
    exact Finset.sum_congr rfl fun i _ => Finset.sum_congr rfl fun j _ => by ring

/-- The square root of `wasserstein_2` satisfies the triangle inequality. -/
theorem C82_wasserstein_triangle {n : Nat} {solver : Matrix (Fin n) (Fin n) ℝ → EigenDecomp n}
    (hs : EigenSolver.Correct solver) {a b c : Joint (Fin n)} (ha : a.covariance.PosSemidef)
    (hb : b.covariance.PosSemidef) (hc : c.covariance.PosSemidef) :
    ∃ ab bc ac, wasserstein2 solver a b = some ab ∧ wasserstein2 solver b c = some bc ∧
      wasserstein2 solver a c = some ac ∧ Real.sqrt ac ≤ Real.sqrt ab + Real.sqrt bc := by
  obtain ⟨RA, hRA, hAA⟩ := Bures.exists_sqrt ha
  obtain ⟨RB, hRB, hBB⟩ := Bures.exists_sqrt hb
  obtain ⟨RC, hRC, hCC⟩ := Bures.exists_sqrt hc
  obtain ⟨ab, e1, ⟨W, hW, hab⟩, -⟩ := wasserstein2_orth hs (a := a) (b := b) hRA hAA hRB hBB
  obtain ⟨bc, e2, ⟨V, hV, hbc⟩, -⟩ := wasserstein2_orth hs (a := b) (b := c) hRB hBB hRC hCC
  obtain ⟨ac, e3, -, hac⟩ := wasserstein2_orth hs (a := a) (b := c) hRA hAA hRC hCC
  refine ⟨ab, bc, ac, e1, e2, e3, ?_⟩
  have hWV : (W * V)ᵀ * (W * V) = 1 := by
    rw [transpose_mul]
    calc Vᵀ * Wᵀ * (W * V) = Vᵀ * (Wᵀ * W) * V := by simp only [Matrix.mul_assoc]
      _ = 1 := by rw [hW, Matrix.mul_one, hV]
  have h1 : stacked (a.mean - c.mean) (RA * (W * V) - RC) =
      stacked (a.mean - b.mean) ((RA * W - RB) * V) + stacked (b.mean - c.mean) (RB * V - RC) := by
    have hm : RA * (W * V) - RC = (RA * W - RB) * V + (RB * V - RC) := by
      rw [Matrix.sub_mul, Matrix.mul_assoc]; abel
    have hx : a.mean - c.mean = (a.mean - b.mean) + (b.mean - c.mean) := by abel
    rw [hm, hx]
    ext (i | p) <;> simp [stacked]
  have h2 : ‖stacked (a.mean - b.mean) ((RA * W - RB) * V)‖ = Real.sqrt ab := by
    rw [norm_stacked, hab]
    congr 2
    rw [transpose_mul, Matrix.mul_assoc, trace_mul_comm, Matrix.mul_assoc, Matrix.mul_assoc, Bures.orth_comm hV,
      Matrix.mul_one]
  have h3 : ‖stacked (b.mean - c.mean) (RB * V - RC)‖ = Real.sqrt bc := by rw [norm_stacked, hbc]
  calc Real.sqrt ac ≤ Real.sqrt ((a.mean - c.mean) ⬝ᵥ (a.mean - c.mean) +
        ((RA * (W * V) - RC)ᵀ * (RA * (W * V) - RC)).trace) := Real.sqrt_le_sqrt (hac _ hWV)
    _ = ‖stacked (a.mean - c.mean) (RA * (W * V) - RC)‖ := (norm_stacked _ _).symm
    _ ≤ Real.sqrt ab + Real.sqrt bc := by rw [h1, ← h2, ← h3]; exact norm_add_le _ _

/-! ## Matrices which are not covariances -/

theorem foldl_stdMin_spec (xs : List Dbl) : ∀ acc : Dbl, acc ≠ .nan → (∀ x ∈ xs, x ≠ .nan) →
    xs.foldl stdMin acc ≤ acc ∧ (∀ x ∈ xs, xs.foldl stdMin acc ≤ x) ∧
      (xs.foldl stdMin acc = acc ∨ xs.foldl stdMin acc ∈ xs) := by
  induction xs with
  | nil => intro acc h _; exact ⟨Dbl.le_refl h, by simp, Or.inl rfl⟩
  | cons y ys ih =>
    intro acc hacc hxs
    have hy : y ≠ .nan := hxs y (by simp)
    have hys : ∀ x ∈ ys, x ≠ .nan := fun x hx => hxs x (by simp [hx])
    rw [List.foldl_cons]
    by_cases hlt : y < acc
    · have hm : stdMin acc y = y := if_pos hlt
      rw [hm]
      obtain ⟨h1, h2, h3⟩ := ih y hy hys
      refine ⟨Dbl.le_trans h1 (Dbl.le_of_lt hlt), fun x hx => ?_, ?_⟩
      · rcases List.mem_cons.mp hx with rfl | hx
        · exact h1
        · exact h2 x hx
      · rcases h3 with h3 | h3
        · right; rw [h3]; simp
        · right; exact List.mem_cons_of_mem _ h3
    · have hm : stdMin acc y = acc := if_neg hlt
      rw [hm]
      obtain ⟨h1, h2, h3⟩ := ih acc hacc hys
      refine ⟨h1, fun x hx => ?_, ?_⟩
      · rcases List.mem_cons.mp hx with rfl | hx
        · exact Dbl.le_trans h1 ((Dbl.not_lt hy hacc).mp hlt)
        · exact h2 x hx
      · rcases h3 with h3 | h3
        · exact Or.inl h3
        · right; exact List.mem_cons_of_mem _ h3

/-- `min_positive` is infinite without positive eigenvalue, and otherwise the smallest one. -/
theorem minPositive_spec {n : Nat} (values : Fin n → ℝ) :
    (minPositive values = .pinf ∧ ∀ i, values i ≤ 0) ∨
      ∃ k, 0 < values k ∧ minPositive values = .fin (values k) ∧ ∀ i, 0 < values i → values k ≤ values i := by
  have hnan : ∀ x ∈ List.ofFn fun i => if 0 < values i then Dbl.fin (values i) else .pinf, x ≠ .nan := by
    intro x hx
    obtain ⟨i, rfl⟩ := List.mem_ofFn.mp hx
    split_ifs <;> simp
  obtain ⟨h1, h2, h3⟩ := foldl_stdMin_spec _ .pinf (by simp) hnan
  have h2' : ∀ i, 0 < values i → minPositive values ≤ .fin (values i) := fun i hi => by
    have := h2 (.fin (values i)) (List.mem_ofFn.mpr ⟨i, by simp [hi]⟩)
    exact this
  rcases h3 with h3 | h3
  · left
    refine ⟨h3, fun i => ?_⟩
    by_contra hi
    have := h2' i (lt_of_not_ge hi)
    rw [show minPositive values = .pinf from h3] at this
    simp at this
  · obtain ⟨k, hk⟩ := List.mem_ofFn.mp h3
    by_cases hpos : 0 < values k
    · right
      simp only [if_pos hpos] at hk
      refine ⟨k, hpos, hk.symm, fun i hi => ?_⟩
      have := h2' i hi
      rw [show minPositive values = .fin (values k) from hk.symm] at this
      exact this
    · left
      simp only [if_neg hpos] at hk
      refine ⟨hk.symm, fun i => ?_⟩
      by_contra hi
      have := h2' i (lt_of_not_ge hi)
      rw [show minPositive values = .pinf from hk.symm] at this
      simp at this

/-- With a positive eigenvalue present, a matrix is rejected (the root is NaN) exactly if some eigenvalue is
negative and at least ten times as large as the smallest positive one; otherwise the root is that of the matrix
without its negative part. -/
theorem C82_negative_reported_partial {n : Nat} (e : EigenDecomp n) {i : Fin n} (hi : 0 < e.values i)
    (hmin : ∀ k, 0 < e.values k → e.values i ≤ e.values k) :
    (principalSqrt e = none ↔ ∃ j, e.values j ≤ -10 * e.values i) ∧
      ((¬ ∃ j, e.values j ≤ -10 * e.values i) →
        principalSqrt e = some (e.vectors * diagonal (fun k => Real.sqrt (max 0 (e.values k))) * e.vectorsᵀ)) := by
  have hm : minPositive e.values = .fin (e.values i) := by
    rcases minPositive_spec e.values with ⟨-, h⟩ | ⟨k, hk, h, hle⟩
    · exact absurd hi (not_lt.mpr (h i))
    · rw [h, le_antisymm (hle i hi) (hmin k hk)]
  have hc : ∀ k, clampedValues e.values k =
      if e.values k < 0 ∧ -10 * e.values i < e.values k then 0 else e.values k := by
    intro k
    unfold clampedValues
    by_cases h1 : ∀ i, 0 ≤ e.values i
    · rw [if_neg (not_not.mpr h1), if_neg fun h => absurd (h1 k) (not_le.mpr h.1)]
    · rw [if_pos h1]
      simp only [hm, Dbl.fin_mul, Dbl.fin_lt]
  have hneg : (∃ k, clampedValues e.values k < 0) ↔ ∃ j, e.values j ≤ -10 * e.values i := by
    constructor
    · rintro ⟨k, hk⟩
      rw [hc] at hk
      split_ifs at hk with h
      · exact absurd hk (lt_irrefl _)
      · exact ⟨k, not_lt.mp fun h' => h ⟨hk, h'⟩⟩
    · rintro ⟨j, hj⟩
      refine ⟨j, ?_⟩
      rw [hc, if_neg fun h => absurd h.2 (not_lt.mpr hj)]
      linarith
  refine ⟨?_, fun h => ?_⟩
  · unfold principalSqrt
    simp only
    by_cases h : ∃ k, clampedValues e.values k < 0
    · rw [if_pos h]; exact ⟨fun _ => hneg.mp h, fun _ => rfl⟩
    · rw [if_neg h]; exact ⟨fun h' => absurd h' (by simp), fun h' => absurd (hneg.mpr h') h⟩
  · unfold principalSqrt
    simp only
    rw [if_neg (fun h' => h (hneg.mp h'))]
    congr 4
    funext k
    rw [hc]
    have hk : -10 * e.values i < e.values k := not_le.mp fun h' => h ⟨k, h'⟩
    split_ifs with h1
    · rw [max_eq_left h1.1.le]
    · rw [max_eq_right (not_lt.mp fun h' => h1 ⟨h', hk⟩)]

/-- The comment in the code says that only negative eigenvalues which are small compared with the positive ones
are clamped; a matrix without positive eigenvalues gets the root zero however negative it is. -/
theorem C82_only_small_negative_clamped_false {n : Nat} (e : EigenDecomp n) (h : ∀ i, e.values i ≤ 0) :
    principalSqrt e = some 0 := by
  have hm : minPositive e.values = .pinf := by
    rcases minPositive_spec e.values with ⟨h1, -⟩ | ⟨k, hk, -⟩
    · exact h1
    · exact absurd hk (not_lt.mpr (h k))
  have hc : clampedValues e.values = 0 := by
    funext k
    unfold clampedValues
    by_cases h1 : ∀ i, 0 ≤ e.values i
    swap
    · rw [if_pos h1]
      simp only [hm]
      have : (.fin (-10) * .pinf : Dbl) = .ninf := by
        show Dbl.signInf (-10) = _
        unfold Dbl.signInf
        rw [if_neg (by norm_num), if_pos (by norm_num)]
      rw [this]
      rcases (h k).lt_or_eq with hk | hk
      · rw [if_pos ⟨hk, by simp⟩]; rfl
      · rw [if_neg (fun h' => absurd h'.1 (by rw [hk]; exact lt_irrefl _)), hk]; rfl
    · rw [if_neg (not_not.mpr h1)]
      exact le_antisymm (h k) (h1 k)
  unfold principalSqrt
  simp only [hc]
  rw [if_neg (by simp)]
  simp

/-! ## Examples -/

/-- The one dimensional case: `(σ_a - σ_b)²` plus the squared difference of the means. -/
theorem C82_wasserstein_one_dimension {solver : Matrix (Fin 1) (Fin 1) ℝ → EigenDecomp 1}
    (hs : EigenSolver.Correct solver) (x y : ℝ) {s t : ℝ} (h : 0 ≤ s) (h' : 0 ≤ t) :
    wasserstein2 solver ⟨fun _ => x, diagonal fun _ => s ^ 2⟩ ⟨fun _ => y, diagonal fun _ => t ^ 2⟩ =
      some ((x - y) ^ 2 + (s - t) ^ 2) := by
  obtain ⟨RA, RB, S, hRA, hAA, hRB, hBB, hS, hSS, e⟩ := wasserstein2_parts hs
    (a := ⟨fun _ => x, diagonal fun _ => s ^ 2⟩) (b := ⟨fun _ => y, diagonal fun _ => t ^ 2⟩)
    (Bures.diagonal_psd fun _ => sq_nonneg s) (Bures.diagonal_psd fun _ => sq_nonneg t)
  have hB := Bures.sqrt_unique hRB (Bures.diagonal_psd (d := fun _ : Fin 1 => t) fun _ => h')
    (hBB.trans (by rw [diagonal_mul_diagonal]; simp only [pow_two]))
  have hS' := Bures.sqrt_unique hS (Bures.diagonal_psd (d := fun _ : Fin 1 => s * t) fun _ => mul_nonneg h h')
    (hSS.trans (by rw [hB]; simp only [diagonal_mul_diagonal]; congr 1; funext i; ring))
  rw [e, hS']
  congr 1
  simp [Matrix.trace, dotProduct]
  ring

example : ∃ solver : Matrix (Fin 2) (Fin 2) ℝ → EigenDecomp 2, EigenSolver.Correct solver ∧
    wasserstein2 solver ⟨![1, 0], 1⟩ ⟨![0, 3], 1⟩ = some 10 := by
  obtain ⟨solver, hs⟩ := exists_eigen_solver 2
  refine ⟨solver, hs, ?_⟩
  refine (C82_wasserstein_shift hs (a := ⟨![1, 0], 1⟩) (b := ⟨![0, 3], 1⟩) PosSemidef.one rfl).trans ?_
  congr 1
  simp [Fin.sum_univ_two]; norm_num

/-- `[-5]` gets the root `0`. -/
example : principalSqrt (⟨fun _ => -5, 1⟩ : EigenDecomp 1) = some 0 :=
  C82_only_small_negative_clamped_false _ fun _ => by norm_num

/-- Eigenvalues `1` and `-20`: rejected. -/
example : principalSqrt (⟨![1, -20], 1⟩ : EigenDecomp 2) = none :=
  (C82_negative_reported_partial ⟨![1, -20], 1⟩ (i := 0) (by simp) (fun k hk => by
    fin_cases k
    · simp
    · simp at hk; linarith)).1.mpr ⟨1, by simp; norm_num⟩

end Albatross
