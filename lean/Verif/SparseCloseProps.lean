import Verif.SparseGpProps
import Verif.KernelsProps
import Verif.UtilsProps

/-! # C128: how far a sparse Gaussian process is from the dense one -/

namespace Albatross

open Matrix

/-! ## Linear algebra -/

/-- The Euclidean length of a vector of coefficients. -/
noncomputable def lengthOf {n : Nat} (v : Fin n → ℝ) : ℝ := Real.sqrt (∑ i, v i ^ 2)

section Algebra

variable {n : Nat}

theorem lengthOf_nonneg (v : Fin n → ℝ) : 0 ≤ lengthOf v := Real.sqrt_nonneg _

theorem lengthOf_sq (v : Fin n → ℝ) : lengthOf v ^ 2 = ∑ i, v i ^ 2 :=
  Real.sq_sqrt (Finset.sum_nonneg fun _ _ => sq_nonneg _)

theorem dot_le_lengths (v w : Fin n → ℝ) : |v ⬝ᵥ w| ≤ lengthOf v * lengthOf w := by
  refine abs_le_of_sq_le_sq ?_ (mul_nonneg (lengthOf_nonneg _) (lengthOf_nonneg _))
  rw [mul_pow, lengthOf_sq, lengthOf_sq]
  exact Finset.sum_mul_sq_le_sq_mul_sq _ _ _

theorem sum_abs_le_length (v : Fin n → ℝ) : ∑ i, |v i| ≤ Real.sqrt n * lengthOf v := by
  have h := dot_le_lengths (fun _ => 1) fun i => |v i|
  have e1 : lengthOf (fun _ : Fin n => (1 : ℝ)) = Real.sqrt n := by simp [lengthOf]
  have e2 : (lengthOf fun i => |v i|) = lengthOf v := by simp [lengthOf]
  rw [e1, e2] at h
  have e3 : (fun _ : Fin n => (1 : ℝ)) ⬝ᵥ (fun i => |v i|) = ∑ i, |v i| := by simp [dotProduct]
  rw [e3] at h
  exact (le_abs_self _).trans h

theorem small_dot {c : Fin n → ℝ} {ε : ℝ} (hc : ∀ i, |c i| ≤ ε) (v : Fin n → ℝ) :
    |c ⬝ᵥ v| ≤ ε * (Real.sqrt n * lengthOf v) := by
  rcases n.eq_zero_or_pos with rfl | hn
  · simp [dotProduct]
  have hε : 0 ≤ ε := (abs_nonneg _).trans (hc ⟨0, hn⟩)
  refine (Finset.abs_sum_le_sum_abs _ _).trans ?_
  refine le_trans ?_ (mul_le_mul_of_nonneg_left (sum_abs_le_length v) hε)
  rw [Finset.mul_sum]
  refine Finset.sum_le_sum fun i _ => ?_
  rw [abs_mul]
  exact mul_le_mul_of_nonneg_right (hc i) (abs_nonneg _)

theorem small_form {E : Matrix (Fin n) (Fin n) ℝ} {ε : ℝ} (hE : ∀ i j, |E i j| ≤ ε) (v w : Fin n → ℝ) :
    |v ⬝ᵥ (E *ᵥ w)| ≤ ε * (n * (lengthOf v * lengthOf w)) := by
  rcases n.eq_zero_or_pos with rfl | hn
  · simp [dotProduct]
  have hε : 0 ≤ ε := (abs_nonneg _).trans (hE ⟨0, hn⟩ ⟨0, hn⟩)
  have h1 : ∀ i, |(E *ᵥ w) i| ≤ ε * (Real.sqrt n * lengthOf w) := fun i => small_dot (hE i) w
  rw [dotProduct_comm]
  refine (small_dot h1 v).trans_eq ?_
  have : Real.sqrt n * Real.sqrt n = n := Real.mul_self_sqrt (Nat.cast_nonneg n)
  calc _ = ε * (Real.sqrt n * Real.sqrt n * (lengthOf v * lengthOf w)) := by ring
    _ = _ := by rw [this]

theorem length_of_solution {S : Matrix (Fin n) (Fin n) ℝ} {s : ℝ} (hs : 0 < s)
    (hS : ∀ v, s * lengthOf v ^ 2 ≤ v ⬝ᵥ (S *ᵥ v)) {a y : Fin n → ℝ} (h : S *ᵥ a = y) : lengthOf a ≤ lengthOf y / s := by
  have h1 := hS a
  rw [h] at h1
  have h2 := (le_abs_self _).trans (dot_le_lengths a y)
  rw [le_div_iff₀ hs]
  rcases (lengthOf_nonneg a).eq_or_lt with h0 | h0
  · rw [← h0, zero_mul]; exact lengthOf_nonneg _
  · nlinarith

theorem length_of_weights {S : Matrix (Fin n) (Fin n) ℝ} {s k : ℝ} (hs : 0 < s)
    (hS : ∀ v, s * lengthOf v ^ 2 ≤ v ⬝ᵥ (S *ᵥ v)) {w c : Fin n → ℝ} (h : w ᵥ* S = c) (hk : c ⬝ᵥ w ≤ k) :
    lengthOf w ≤ Real.sqrt (k / s) := by
  have h1 := hS w
  rw [dotProduct_mulVec, h] at h1
  refine Real.le_sqrt_of_sq_le ?_
  rw [le_div_iff₀ hs]
  linarith

/-- Two predictions with nearly the same covariances are nearly the same. -/
theorem predictions_close {S T : Matrix (Fin n) (Fin n) ℝ} {s ε k : ℝ} (hs : 0 < s)
    (hS : ∀ v, s * lengthOf v ^ 2 ≤ v ⬝ᵥ (S *ᵥ v)) (hT : ∀ v, s * lengthOf v ^ 2 ≤ v ⬝ᵥ (T *ᵥ v)) (hSt : Sᵀ = S)
    (hTu : IsUnit T.det) (hd : ∀ i j, |S i j - T i j| ≤ ε) {c q w v : Fin n → ℝ} (hw : w ᵥ* S = c) (hv : v ᵥ* T = q)
    (hcq : ∀ i, |c i - q i| ≤ ε) (hc : c ⬝ᵥ w ≤ k) (hq : q ⬝ᵥ v ≤ k) (hε : 0 ≤ ε) (y : Fin n → ℝ) :
    |v ⬝ᵥ y - w ⬝ᵥ y| ≤ ε * (lengthOf y / s) * (Real.sqrt n + n * Real.sqrt (k / s)) ∧
    |c ⬝ᵥ w - q ⬝ᵥ v| ≤ ε * (2 * Real.sqrt n * Real.sqrt (k / s) + n * (k / s)) := by
  have hwl := length_of_weights hs hS hw hc
  have hvl := length_of_weights hs hT hv hq
  have hk : 0 ≤ k / s := by
    by_contra h
    rw [Real.sqrt_eq_zero_of_nonpos (not_le.1 h).le] at hwl
    have h0 : lengthOf w = 0 := le_antisymm hwl (lengthOf_nonneg w)
    have h1 := hS w
    rw [dotProduct_mulVec, hw, h0] at h1
    have : 0 ≤ k := by nlinarith
    exact h (div_nonneg this hs.le)
  constructor
  · set a := T⁻¹ *ᵥ y with ha
    have hTa : T *ᵥ a = y := by rw [ha, mulVec_mulVec, Matrix.mul_nonsing_inv _ hTu, one_mulVec]
    have hal := length_of_solution hs hT hTa
    have e : v ⬝ᵥ y - w ⬝ᵥ y = -((fun i => c i - q i) ⬝ᵥ a) + w ⬝ᵥ ((S - T) *ᵥ a) := by
      have e1 : v ⬝ᵥ y = q ⬝ᵥ a := by rw [← hTa, dotProduct_mulVec, hv]
      have e2 : w ⬝ᵥ (S *ᵥ a) = c ⬝ᵥ a := by rw [dotProduct_mulVec, hw]
      have e3 : (fun i => c i - q i) ⬝ᵥ a = c ⬝ᵥ a - q ⬝ᵥ a := sub_dotProduct c q a
      rw [e1, Matrix.sub_mulVec, dotProduct_sub, hTa, e2, e3]
      ring
    rw [e]
    have b1 := small_dot hcq a
    have b2 := small_form (E := S - T) hd w a
    have b3 : lengthOf w * lengthOf a ≤ Real.sqrt (k / s) * (lengthOf y / s) :=
      mul_le_mul hwl hal (lengthOf_nonneg _) (Real.sqrt_nonneg _)
    calc _ ≤ |(fun i => c i - q i) ⬝ᵥ a| + |w ⬝ᵥ ((S - T) *ᵥ a)| := by
          rw [← abs_neg ((fun i => c i - q i) ⬝ᵥ a)]; exact abs_add_le _ _
      _ ≤ ε * (Real.sqrt n * (lengthOf y / s)) + ε * (n * (Real.sqrt (k / s) * (lengthOf y / s))) := by
          refine add_le_add (b1.trans ?_) (b2.trans ?_) <;> gcongr
      _ = _ := by ring
  · have e : c ⬝ᵥ w - q ⬝ᵥ v = (fun i => c i - q i) ⬝ᵥ w + (fun i => c i - q i) ⬝ᵥ v - v ⬝ᵥ ((S - T) *ᵥ w) := by
      have hSw : w ⬝ᵥ (S *ᵥ v) = c ⬝ᵥ v := by rw [dotProduct_mulVec, hw]
      have hTv : v ⬝ᵥ (T *ᵥ w) = q ⬝ᵥ w := by rw [dotProduct_mulVec, hv]
      have e3 : ∀ a, (fun i => c i - q i) ⬝ᵥ a = c ⬝ᵥ a - q ⬝ᵥ a := fun a => sub_dotProduct c q a
      have hSs : v ⬝ᵥ (S *ᵥ w) = c ⬝ᵥ v := by
        rw [← hSw, dotProduct_mulVec w, dotProduct_comm, ← vecMul_transpose, hSt]
      rw [e3, e3, Matrix.sub_mulVec, dotProduct_sub, hSs, hTv]
      ring
    rw [e]
    have b1 := small_dot hcq w
    have b2 := small_dot hcq v
    have b3 := small_form (E := S - T) hd v w
    have b4 : lengthOf v * lengthOf w ≤ k / s := by
      refine (mul_le_mul hvl hwl (lengthOf_nonneg _) (Real.sqrt_nonneg _)).trans_eq ?_
      exact Real.mul_self_sqrt hk
    calc _ ≤ |(fun i => c i - q i) ⬝ᵥ w| + |(fun i => c i - q i) ⬝ᵥ v| + |v ⬝ᵥ ((S - T) *ᵥ w)| :=
          (abs_sub _ _).trans (add_le_add_left (abs_add_le _ _) _)
      _ ≤ ε * (Real.sqrt n * Real.sqrt (k / s)) + ε * (Real.sqrt n * Real.sqrt (k / s)) + ε * (n * (k / s)) := by
          refine add_le_add (add_le_add (b1.trans ?_) (b2.trans ?_)) (b3.trans ?_) <;> gcongr
      _ = _ := by ring

end Algebra

/-! ## What the inducing points leave unexplained -/

variable {X κ : Type} [LinearOrder κ] {n m : Nat}

/-- The variance at `x` that the inducing points do not explain: `k(x, x) - k(x, u) (K_uu + ν)⁻¹ k(u, x)`. -/
noncomputable def leftover (g : SparseGp X κ) (u : Fin m → X) (x : X) : ℝ :=
  g.gp.cov x x - sparseQ g u (fun _ : Unit => x) (fun _ : Unit => x) () ()

/-- The covariance explained by the inducing points. -/
noncomputable def explained (g : SparseGp X κ) (u : Fin m → X) (x y : X) : ℝ :=
  sparseQ g u (fun _ : Unit => x) (fun _ : Unit => y) () ()

omit [LinearOrder κ] in
theorem sparseQ_explained (g : SparseGp X κ) (u : Fin m → X) {a b : Type} (xs : a → X) (ys : b → X) (i : a) (j : b) :
    sparseQ g u xs ys i j = explained g u (xs i) (ys j) := rfl

theorem sparseK_posDef (g : SparseGp X κ) (hk : IsPSD g.gp.cov) (hi : 0 < g.inducingNugget) (u : Fin m → X) :
    (sparseK g u).PosDef := by
  rw [← sparseK_eq, add_comm]
  exact (Matrix.PosDef.diagonal fun _ => hi).add_posSemidef (hk.matrix_fintype u)

theorem explained_psd (g : SparseGp X κ) (hk : IsPSD g.gp.cov) (hi : 0 < g.inducingNugget) (u : Fin m → X) :
    IsPSD (explained g u) := by
  refine IsPSD.of_matrix fun n z => ?_
  have h := (sparseK_posDef g hk hi u).inv.posSemidef.conjTranspose_mul_mul_same (g.gp.covMat u z)
  rw [conjTranspose_eq_transpose_of_trivial, covMat_transpose g.gp hk.1] at h
  exact h

theorem unexplained_psd (g : SparseGp X κ) (hk : IsPSD g.gp.cov) (hi : 0 < g.inducingNugget) (u : Fin m → X) :
    IsPSD fun x y => g.gp.cov x y - explained g u x y := by
  refine IsPSD.of_matrix fun n z => ?_
  have hKT : ∀ {a b : Type} (xs : a → X) (ys : b → X), (g.gp.covMat xs ys)ᵀ = g.gp.covMat ys xs :=
    fun xs ys => covMat_transpose g.gp hk.1 xs ys
  have hjoint : (fromBlocks (g.gp.covMat u u) (g.gp.covMat u z) (g.gp.covMat u z)ᵀ (g.gp.covMat z z)).PosSemidef := by
    have h := hk.matrix_fintype (Sum.elim u z)
    have h2 : (of fun i j => g.gp.cov (Sum.elim u z i) (Sum.elim u z j) : Matrix (Fin m ⊕ Fin n) (Fin m ⊕ Fin n) ℝ) =
        fromBlocks (g.gp.covMat u u) (g.gp.covMat u z) (g.gp.covMat u z)ᵀ (g.gp.covMat z z) := by
      rw [hKT]
      ext (i | i) (j | j) <;> rfl
    rwa [h2] at h
  have hnug : (diagonal fun _ : Fin m => g.inducingNugget).PosSemidef :=
    (Matrix.PosDef.diagonal fun _ => hi).posSemidef
  have h := (posterior_psd (A := sparseK g u) hjoint (by rw [← sparseK_eq, add_sub_cancel_left]; exact hnug)
    (sparseK_posDef g hk hi u)).1
  rw [hKT] at h
  exact h

/-- What is left is not negative, and one inducing point alone leaves at least as much: `k(x, x) - k(x, u)² /
(k(u, u) + ν)` for every inducing point `u`. -/
theorem C128_leftover (g : SparseGp X κ) (hk : IsPSD g.gp.cov) (hi : 0 < g.inducingNugget) (u : Fin m → X) (x : X) :
    0 ≤ leftover g u x ∧ leftover g u x ≤ g.gp.cov x x ∧
    ∀ l, leftover g u x ≤ g.gp.cov x x - g.gp.cov x (u l) ^ 2 / (g.gp.cov (u l) (u l) + g.inducingNugget) := by
  refine ⟨(unexplained_psd g hk hi u).diag_nonneg x, ?_, fun l => ?_⟩
  · have := (explained_psd g hk hi u).diag_nonneg x
    exact sub_le_self _ this
  · refine sub_le_sub_left ?_ _
    have hK := sparseK_posDef g hk hi u
    have hu := PosDef.isUnit_det' hK
    set c : Fin m → ℝ := fun i => g.gp.cov (u i) x with hc
    have hq : explained g u x x = c ⬝ᵥ ((sparseK g u)⁻¹ *ᵥ c) := by
      have : explained g u x x = ((fun i => g.gp.cov x (u i)) ᵥ* (sparseK g u)⁻¹) ⬝ᵥ c := rfl
      rw [this, ← dotProduct_mulVec]
      congr 1
      funext i
      exact hk.1 _ _
    set a := (sparseK g u)⁻¹ *ᵥ c with ha
    have hKa : sparseK g u *ᵥ a = c := by rw [ha, mulVec_mulVec, Matrix.mul_nonsing_inv _ hu, one_mulVec]
    set d := sparseK g u l l with hd
    have hdv : d = g.gp.cov (u l) (u l) + g.inducingNugget := by simp [hd, sparseK]
    have hdpos : 0 < d := hK.diag_pos
    have hpos := hK.posSemidef.dotProduct_mulVec_nonneg (a - (c l / d) • Pi.single l 1)
    have hKl : a ⬝ᵥ (sparseK g u *ᵥ Pi.single l 1) = c l := by
      rw [dotProduct_mulVec, ← mulVec_transpose, PosDef.transpose_eq' hK, hKa]
      simp
    have e : star (a - (c l / d) • Pi.single l 1) ⬝ᵥ (sparseK g u *ᵥ (a - (c l / d) • Pi.single l 1)) =
        c ⬝ᵥ a - c l ^ 2 / d := by
      rw [star_trivial, mulVec_sub, mulVec_smul, hKa, sub_dotProduct, dotProduct_sub, dotProduct_sub, dotProduct_smul, hKl,
        smul_dotProduct, smul_dotProduct, dotProduct_smul, single_one_dotProduct, single_one_dotProduct, dotProduct_comm a c]
      have : (sparseK g u *ᵥ Pi.single l 1) l = d := by simp [hd]
      rw [this]
      simp only [smul_eq_mul]
      field_simp
      ring
    rw [e] at hpos
    have hg : g.gp.cov x (u l) = c l := hk.1 _ _
    show _ ≤ explained g u x x
    rw [hq, ← hdv, hg]
    linarith

/-- Weights that reproduce covariances explain at most the variance. -/
theorem explains_le {h : X → X → ℝ} (hh : IsPSD h) {S : Matrix (Fin n) (Fin n) ℝ} (z : Fin n → X) (x : X)
    (hS : ∀ v : Fin n → ℝ, ∑ i, ∑ j, v i * v j * h (z i) (z j) ≤ v ⬝ᵥ (S *ᵥ v)) {w c : Fin n → ℝ} (hw : w ᵥ* S = c)
    (hc : ∀ i, c i = h x (z i)) : c ⬝ᵥ w ≤ h x x := by
  have h1 := hh.2 (n + 1) (Fin.cons x z) (Fin.cons 1 (-w))
  simp only [Fin.sum_univ_succ, Fin.cons_zero, Fin.cons_succ, Pi.neg_apply, one_mul, mul_one, neg_mul, mul_neg,
    Finset.sum_neg_distrib, Finset.sum_add_distrib] at h1
  have h2 := hS w
  rw [dotProduct_mulVec, hw] at h2
  have e1 : ∑ i, w i * h x (z i) = c ⬝ᵥ w := by
    simp only [dotProduct, hc]
    exact Finset.sum_congr rfl fun i _ => mul_comm _ _
  have e2 : ∑ i, w i * h (z i) x = c ⬝ᵥ w := by
    rw [← e1]
    exact Finset.sum_congr rfl fun i _ => by rw [hh.1]
  rw [e1, e2] at h1
  linarith

/-- The sparse noise term is at least the noise. -/
theorem sparseA_ge (g : SparseGp X κ) (hk : IsPSD g.gp.cov) (hi : 0 < g.inducingNugget) (u : Fin m → X)
    (features : Fin n → X) (variance : Fin n → ℝ) {s : ℝ} (hv : ∀ i, s ≤ variance i + g.measurementNugget)
    (v : Fin n → ℝ) : s * lengthOf v ^ 2 ≤ v ⬝ᵥ (sparseA g u features variance *ᵥ v) := by
  refine le_of_forall_pos_le_add fun δ hδ => ?_
  set η := δ / (lengthOf v ^ 2 + 1) with hη
  have hηpos : 0 < η := by have := lengthOf_nonneg v; positivity
  have hpd := (C35_applies { g with measurementNugget := η } hk hk.1 hi hηpos u features
    (fun i => variance i + g.measurementNugget - s) fun i => sub_nonneg.2 (hv i)).2
  have e : sparseA g u features variance = sparseA { g with measurementNugget := η } u features
      (fun i => variance i + g.measurementNugget - s) + diagonal fun _ => s - η := by
    ext i j
    simp only [sparseA, of_apply, Matrix.add_apply, diagonal_apply]
    have : ∀ z : Fin n → X, sparseQ { g with measurementNugget := η } u z z i j = sparseQ g u z z i j := fun _ => rfl
    rw [this]
    split_ifs <;> ring
  have h0 := hpd.posSemidef.dotProduct_mulVec_nonneg v
  rw [star_trivial] at h0
  have hdiag : v ⬝ᵥ ((diagonal fun _ : Fin n => s - η) *ᵥ v) = (s - η) * lengthOf v ^ 2 := by
    rw [lengthOf_sq, Finset.mul_sum]
    refine Finset.sum_congr rfl fun i _ => ?_
    rw [mulVec_diagonal]
    ring
  rw [e, Matrix.add_mulVec, dotProduct_add, hdiag]
  have : η * lengthOf v ^ 2 ≤ δ := by
    rw [hη, div_mul_eq_mul_div, div_le_iff₀ (by have := lengthOf_nonneg v; positivity)]
    nlinarith [sq_nonneg (lengthOf v)]
  linarith

theorem form_covMat (h : X → X → ℝ) (z : Fin n → X) (v : Fin n → ℝ) :
    v ⬝ᵥ ((of fun i j => h (z i) (z j)) *ᵥ v) = ∑ i, ∑ j, v i * v j * h (z i) (z j) := by
  refine Finset.sum_congr rfl fun i _ => ?_
  rw [mulVec, dotProduct, Finset.mul_sum]
  refine Finset.sum_congr rfl fun j _ => ?_
  rw [of_apply]
  ring

/-- C128: a sparse model with noise of at least `s` in every target, whose inducing points leave at most `ε` of the
variances of the training and the prediction points unexplained, predicts what the dense model predicts, up to `ε`
times a factor: `|y| / s (√n + n √(k(x, x) / s))` for the means, `2 √n √(k(x, x) / s) + n k(x, x) / s` for the
variances. The measurement nugget counts as noise. -/
theorem C128_close {p : Type} [Fintype p] (g : SparseGp X κ) (hk : IsPSD g.gp.cov) (hmean : ∀ x, g.gp.mean x = 0)
    (hi : 0 < g.inducingNugget) (rt : SparseRoutines) (hrt : rt.Meets) (u : Fin m → X) (features : Fin n → X)
    (targets : Marginal (Fin n)) {s ε : ℝ} (hs : 0 < s) (hv : ∀ i, s ≤ targets.variance i + g.measurementNugget)
    (xs : p → X) (hmeas : ∀ j i, g.gp.cov (xs j) (g.gp.asMeas (features i)) = g.gp.cov (xs j) (features i))
    (hε : 0 ≤ ε) (hz : ∀ i, leftover g u (g.gp.asMeas (features i)) ≤ ε) (hx : ∀ j, leftover g u (xs j) ≤ ε) :
    ∃ f, g.fitWith rt u features targets = .ok f ∧ ∀ j,
      |(g.predictJoint f xs).mean j - (g.gp.predictJoint (g.gp.fit (rt.ldlt n) features
        ⟨targets.mean, fun i => targets.variance i + g.measurementNugget⟩) xs).mean j| ≤
        ε * (lengthOf targets.mean / s) * (Real.sqrt n + n * Real.sqrt (g.gp.cov (xs j) (xs j) / s)) ∧
      |(g.predictJoint f xs).covariance j j - (g.gp.predictJoint (g.gp.fit (rt.ldlt n) features
        ⟨targets.mean, fun i => targets.variance i + g.measurementNugget⟩) xs).covariance j j| ≤
        ε * (2 * Real.sqrt n * Real.sqrt (g.gp.cov (xs j) (xs j) / s) + n * (g.gp.cov (xs j) (xs j) / s)) := by
  have hsym := hk.1
  have hK := sparseK_posDef g hk hi u
  set z := fun i => g.gp.asMeas (features i) with hzdef
  set A := sparseA g u features targets.variance with hA
  set T := sparsePrior g u features targets.variance with hT
  set S := obsCovariance g.gp features fun i => targets.variance i + g.measurementNugget with hS
  have hAge := sparseA_ge g hk hi u features targets.variance hv
  -- positive definite
  have pd : ∀ M : Matrix (Fin n) (Fin n) ℝ, Mᵀ = M → (∀ v, s * lengthOf v ^ 2 ≤ v ⬝ᵥ (M *ᵥ v)) → M.PosDef := by
    intro M hM h
    refine Matrix.PosDef.of_dotProduct_mulVec_pos (by rw [Matrix.IsHermitian, conjTranspose_eq_transpose_of_trivial, hM])
      fun v hv => ?_
    rw [star_trivial]
    refine lt_of_lt_of_le (mul_pos hs ?_) (h v)
    rw [lengthOf_sq]
    obtain ⟨i, hi⟩ := Function.ne_iff.1 hv
    exact Finset.sum_pos' (fun _ _ => sq_nonneg _) ⟨i, Finset.mem_univ i, by
      have : v i ≠ 0 := hi
      positivity⟩
  have hQs : ∀ i j, sparseQ g u z z i j = sparseQ g u z z j i := fun i j => (explained_psd g hk hi u).1 _ _
  have hAt : Aᵀ = A := by
    ext i j
    simp only [hA, sparseA, transpose_apply, of_apply, ← hzdef]
    rw [hQs i j, hsym (g.gp.asMeas (features i))]
    by_cases hij : i = j
    · subst hij; rfl
    · simp only [if_neg hij, eq_comm]
  have hQt : (sparseQ g u z z)ᵀ = sparseQ g u z z := by ext i j; exact hQs j i
  have hTt : Tᵀ = T := by rw [hT, sparsePrior, transpose_add, hQt, hAt]
  have hSt : Sᵀ = S := by
    ext i j
    simp only [hS, obsCovariance, transpose_apply, of_apply]
    rw [hsym]
    by_cases hij : i = j
    · subst hij; rfl
    · simp only [if_neg hij, if_neg (Ne.symm hij)]
  have formQ : ∀ v : Fin n → ℝ, v ⬝ᵥ (sparseQ g u z z *ᵥ v) = ∑ i, ∑ j, v i * v j * explained g u (z i) (z j) :=
    fun v => form_covMat (explained g u) z v
  have hTsplit : ∀ v : Fin n → ℝ, v ⬝ᵥ (T *ᵥ v) = ∑ i, ∑ j, v i * v j * explained g u (z i) (z j) + v ⬝ᵥ (A *ᵥ v) := by
    intro v
    rw [hT, sparsePrior, Matrix.add_mulVec, dotProduct_add, formQ]
  have hSsplit : ∀ v : Fin n → ℝ, v ⬝ᵥ (S *ᵥ v) = ∑ i, ∑ j, v i * v j * g.gp.cov (z i) (z j) +
      ∑ i, (targets.variance i + g.measurementNugget) * v i ^ 2 := by
    intro v
    rw [hS, obsCovariance_eq, Matrix.add_mulVec, dotProduct_add]
    congr 1
    · exact form_covMat g.gp.cov z v
    · refine Finset.sum_congr rfl fun i _ => ?_
      rw [mulVec_diagonal]
      ring
  have hnoise : ∀ v : Fin n → ℝ, s * lengthOf v ^ 2 ≤ ∑ i, (targets.variance i + g.measurementNugget) * v i ^ 2 := by
    intro v
    rw [lengthOf_sq, Finset.mul_sum]
    exact Finset.sum_le_sum fun i _ => mul_le_mul_of_nonneg_right (hv i) (sq_nonneg _)
  have hpos : ∀ v : Fin n → ℝ, 0 ≤ s * lengthOf v ^ 2 := fun v => by positivity
  have hTge : ∀ v, s * lengthOf v ^ 2 ≤ v ⬝ᵥ (T *ᵥ v) := by
    intro v
    have := (explained_psd g hk hi u).2 n z v
    have := hAge v
    rw [hTsplit]
    linarith
  have hSge : ∀ v, s * lengthOf v ^ 2 ≤ v ⬝ᵥ (S *ᵥ v) := by
    intro v
    have := hk.2 n z v
    have := hnoise v
    rw [hSsplit]
    linarith
  have hApd := pd A hAt hAge
  have hTpd := pd T hTt hTge
  have hSpd := pd S hSt hSge
  -- what is left
  have hleft : ∀ x y, leftover g u x ≤ ε → leftover g u y ≤ ε → |g.gp.cov x y - explained g u x y| ≤ ε := by
    intro x y h1 h2
    refine abs_le_of_sq_le_sq ?_ hε
    refine ((unexplained_psd g hk hi u).sq_le x y).trans ?_
    rw [pow_two]
    exact mul_le_mul h1 h2 ((unexplained_psd g hk hi u).diag_nonneg y) hε
  have hd : ∀ i j, |S i j - T i j| ≤ ε := by
    intro i j
    by_cases hij : g.group (features i) = g.group (features j)
    · have : S i j - T i j = 0 := by
        simp only [hS, hT, obsCovariance, sparsePrior, sparseA, Matrix.add_apply, of_apply, if_pos hij, ← hzdef]
        ring
      rw [this, abs_zero]; exact hε
    · have : S i j - T i j = g.gp.cov (z i) (z j) - explained g u (z i) (z j) := by
        simp only [hS, hT, obsCovariance, sparsePrior, sparseA, Matrix.add_apply, of_apply, if_neg hij, ← hzdef,
          sparseQ_explained]
        ring
      rw [this]
      exact hleft _ _ (hz i) (hz j)
  obtain ⟨f, hf, Ws, hWs, hms, hPs⟩ := C35_prediction_is_conditional g hsym hmean rt hrt u features targets hK hApd xs
  have hdense := C27_prediction_is_conditional g.gp hsym (rt.ldlt n) features
    ⟨targets.mean, fun i => targets.variance i + g.measurementNugget⟩ (hrt.ldlt _ _ hSpd) (PosDef.isUnit_det' hSpd) xs
  have h0 : (fun j => g.gp.mean (xs j)) = 0 := by funext j; exact hmean _
  have h0' : (fun i => g.gp.mean (g.gp.asMeas (features i))) = 0 := by funext j; exact hmean _
  rw [h0, h0'] at hdense
  obtain ⟨Wd, hWd, hmd, hPd⟩ := hdense
  refine ⟨f, hf, fun j => ?_⟩
  have hWs' : Ws * T = sparseQ g u xs z := (sub_eq_zero.1 hWs).symm
  have hWd' : Wd * S = of fun j i => g.gp.cov (xs j) (features i) := (sub_eq_zero.1 hWd).symm
  have rs : Ws j ᵥ* T = fun i => explained g u (xs j) (z i) := by
    have := congrFun hWs' j
    exact this
  have rd : Wd j ᵥ* S = fun i => g.gp.cov (xs j) (z i) := by
    have := congrFun hWd' j
    funext i
    rw [hmeas]
    exact congrFun this i
  have bd := explains_le hk (S := S) z (xs j) (fun v => by
    have := hnoise v; have := hpos v
    rw [hSsplit]; linarith) rd fun i => rfl
  have bs := explains_le (explained_psd g hk hi u) (S := T) z (xs j) (fun v => by
    have := hAge v; have := hpos v
    rw [hTsplit]; linarith) rs fun i => rfl
  have bs' := bs.trans (sub_nonneg.1 ((unexplained_psd g hk hi u).diag_nonneg (xs j)))
  obtain ⟨c1, c2⟩ := predictions_close hs hSge hTge hSt (PosDef.isUnit_det' hTpd) hd rd rs
    (fun i => hleft _ _ (hx j) (hz i)) bd bs' hε targets.mean
  constructor
  · rw [hms, hmd]
    simpa [mulVec] using c1
  · rw [hPs, hPd]
    have es : Ws * T * Wsᵀ = sparseQ g u xs z * Wsᵀ := by rw [hWs']
    have ed : Wd * S * Wdᵀ = (of fun j i => g.gp.cov (xs j) (features i)) * Wdᵀ := by rw [hWd']
    rw [show sparsePrior g u features targets.variance = T from rfl, es]
    rw [show (obsCovariance g.gp features fun i => targets.variance i + g.measurementNugget) = S from rfl, ed]
    rw [sub_add_cancel, sub_add_cancel]
    have v1 : (Ws * (sparseQ g u xs z)ᵀ) j j = (fun i => explained g u (xs j) (z i)) ⬝ᵥ Ws j := dotProduct_comm _ _
    have v2 : (Wd * (of fun j i => g.gp.cov (xs j) (features i) : Matrix p (Fin n) ℝ)ᵀ) j j =
        (fun i => g.gp.cov (xs j) (z i)) ⬝ᵥ Wd j := by
      refine (dotProduct_comm _ _).trans ?_
      refine Finset.sum_congr rfl fun i _ => ?_
      simp only [transpose_apply, of_apply]
      rw [hmeas]
    rw [Matrix.sub_apply, Matrix.sub_apply, v1, v2]
    simpa using c2

/-! ## State space grids -/

/-- Every point between two inputs is near to a grid point. -/
theorem grid_close (k : ℝ) (hk : 0 < k) (b : Build) (l : ℝ) (hl : 0 < l) (xs : List ℝ)
    (hsize : ∀ x ∈ xs, ∀ y ∈ xs, k * (y - x) / l ≤ 2 ^ 53) {g : List Dbl} (hg : ssrGrid k b (.fin l) (xs.map .fin) = .ok g)
    (x lo up : ℝ) (hlo : lo ∈ xs) (hup : up ∈ xs) (h1 : lo ≤ x) (h2 : x ≤ up) :
    ∃ y, Dbl.fin y ∈ g ∧ |x - y| ≤ 3 / 4 * (l / k) := by
  have hne : xs ≠ [] := List.ne_nil_of_mem hlo
  have hsize' : ∀ a ∈ x :: xs, ∀ c ∈ x :: xs, k * (c - a) / l ≤ 2 ^ 53 := by
    have hmono : ∀ a c a' c' : ℝ, a' ≤ a → c ≤ c' → k * (c' - a') / l ≤ 2 ^ 53 → k * (c - a) / l ≤ 2 ^ 53 := by
      intro a c a' c' ha hc h
      refine le_trans ?_ h
      gcongr
    intro a ha c hc
    rcases List.mem_cons.1 ha with h | h <;> rcases List.mem_cons.1 hc with h' | h'
    · rw [h, h']; exact hmono _ _ lo up h1 h2 (hsize _ hlo _ hup)
    · rw [h]; exact hmono _ _ lo c h1 le_rfl (hsize _ hlo _ h')
    · rw [h']; exact hmono _ _ a up le_rfl h2 (hsize _ h _ hup)
    · exact hsize _ h _ h'
  obtain ⟨g', hg', hclose⟩ := C81_every_input_close k hk b l hl (x :: xs) (by simp) hsize'
  obtain ⟨mn, hmn, mx, hmx, hin, he, -⟩ := ssrGrid_eq k hk b l hl xs hne hsize
  obtain ⟨mn', hmn', mx', hmx', hin', he', -⟩ := ssrGrid_eq k hk b l hl (x :: xs) (by simp) hsize'
  have e1 : mn' = mn := by
    refine le_antisymm (hin' _ (List.mem_cons_of_mem _ hmn)).1 ?_
    rcases List.mem_cons.1 hmn' with h | h
    · rw [h]; exact ((hin lo hlo).1).trans h1
    · exact (hin _ h).1
  have e2 : mx' = mx := by
    refine le_antisymm ?_ (hin' _ (List.mem_cons_of_mem _ hmx)).2
    rcases List.mem_cons.1 hmx' with h | h
    · rw [h]; exact h2.trans (hin up hup).2
    · exact (hin _ h).2
  subst e1 e2
  have : g' = g := by
    rw [he', ← he, hg] at hg'
    exact (Except.ok.inj hg').symm
  exact this ▸ hclose x (by simp)

/-- C128: on the grid of `StateSpaceInducingPointStrategy` what is left between the inputs is at most 1.125 % of the
variance for the squared exponential and 7.5 % for the exponential, plus the nugget. -/
theorem C128_grid (g : SparseGp ℝ κ) (hi : 0 < g.inducingNugget) (b : Build) {l σ : ℝ} (hl : 0 < l)
    (k r : ℝ) (f : ℝ → ℝ → ℝ → ℝ) (hf : f = squaredExponential ∧ k = 10 ∧ r = 9 / 800 ∨
      f = exponentialCov ∧ k = 20 ∧ r = 3 / 40)
    (hcov : ∀ x y, g.gp.cov x y = f (euclideanDistance x y) l σ) (inputs : List ℝ)
    (hsize : ∀ x ∈ inputs, ∀ y ∈ inputs, k * (y - x) / l ≤ 2 ^ 53) (u : List ℝ)
    (hu : ssrGrid k b (.fin l) (inputs.map .fin) = .ok (u.map .fin))
    (x lo up : ℝ) (hlo : lo ∈ inputs) (hup : up ∈ inputs) (h1 : lo ≤ x) (h2 : x ≤ up) :
    leftover g u.get x ≤ r * σ ^ 2 + g.inducingNugget := by
  have hk0 : 0 < k := by rcases hf with ⟨-, rfl, -⟩ | ⟨-, rfl, -⟩ <;> norm_num
  have hpsd : IsPSD g.gp.cov := by
    have : g.gp.cov = fun x y => f (euclideanDistance x y) l σ := by funext x y; exact hcov x y
    rw [this]
    rcases hf with ⟨rfl, -⟩ | ⟨rfl, -⟩
    · exact C22_squared_exponential_real_psd l σ
    · exact C22_exponential_real_psd l σ
  obtain ⟨y, hy, hd⟩ := grid_close k hk0 b l hl inputs hsize hu x lo up hlo hup h1 h2
  obtain ⟨y', hy', e⟩ := List.mem_map.1 hy
  obtain rfl : y' = y := Dbl.fin.inj e
  obtain ⟨i, hi'⟩ := List.mem_iff_get.1 hy'
  refine ((C128_leftover g hpsd hi u.get x).2.2 i).trans ?_
  rw [hi']
  have hval : ∃ t, 0 ≤ t ∧ 2 * t ≤ r ∧ g.gp.cov x y' = σ ^ 2 * Real.exp (-t) ∧ (∀ x, g.gp.cov x x = σ ^ 2) := by
    have hdl : |x - y'| / l ≤ 3 / 4 / k := by
      rw [div_le_iff₀ hl]
      calc _ ≤ _ := hd
        _ = _ := by ring
    have hd0 : 0 ≤ |x - y'| / l := by positivity
    rcases hf with ⟨rfl, rfl, rfl⟩ | ⟨rfl, rfl, rfl⟩
    · refine ⟨(|x - y'| / l) ^ 2, by positivity, by nlinarith, ?_, fun x => ?_⟩
      · rw [hcov, squaredExponential, if_neg (not_le.2 hl), pow_two σ]; rfl
      · rw [hcov, squaredExponential, if_neg (not_le.2 hl)]
        simp [euclideanDistance, pow_two]
    · refine ⟨|x - y'| / l, hd0, by norm_num at hdl ⊢; linarith, ?_, fun x => ?_⟩
      · rw [hcov, exponentialCov, if_neg (not_le.2 hl), pow_two σ]
        have : |euclideanDistance x y' / l| = |x - y'| / l := abs_of_nonneg hd0
        rw [this]
      · rw [hcov, exponentialCov, if_neg (not_le.2 hl)]
        simp [euclideanDistance, pow_two]
  obtain ⟨t, ht, htr, hxy, hxx⟩ := hval
  rw [hxx, hxx, hxy]
  set ν := g.inducingNugget
  have hσ : 0 ≤ σ ^ 2 := sq_nonneg σ
  have hexp : 1 - r ≤ Real.exp (-t) ^ 2 := by
    rw [← Real.exp_nat_mul]
    have := Real.add_one_le_exp (((2 : ℕ) : ℝ) * -t)
    push_cast at this ⊢
    linarith
  have he1 : Real.exp (-t) ^ 2 ≤ 1 := pow_le_one₀ (Real.exp_pos _).le (Real.exp_le_one_iff.2 (neg_nonpos.2 ht))
  have hq : σ ^ 2 - ν ≤ (σ ^ 2) ^ 2 / (σ ^ 2 + ν) := by
    rw [le_div_iff₀ (by linarith)]
    nlinarith
  have he0 : 0 ≤ Real.exp (-t) ^ 2 := by positivity
  rw [mul_pow, mul_comm ((σ ^ 2) ^ 2), mul_div_assoc]
  nlinarith [mul_le_mul_of_nonneg_left hq he0]

/-- C128: the sparse model with a squared exponential or an exponential covariance and the state space grid as its
inducing points: between the inputs it predicts what the dense model predicts, up to the bound of `C128_close` with
`ε = r σ² + ν`, where `r` is 1.125 % or 7.5 %. -/
theorem C128_state_space {p : Type} [Fintype p] (g : SparseGp ℝ κ) (hmean : ∀ x, g.gp.mean x = 0)
    (hmeas : ∀ x, g.gp.asMeas x = x) (hi : 0 < g.inducingNugget) (b : Build) {l σ : ℝ} (hl : 0 < l)
    (k r : ℝ) (f : ℝ → ℝ → ℝ → ℝ) (hf : f = squaredExponential ∧ k = 10 ∧ r = 9 / 800 ∨
      f = exponentialCov ∧ k = 20 ∧ r = 3 / 40)
    (hcov : ∀ x y, g.gp.cov x y = f (euclideanDistance x y) l σ) (rt : SparseRoutines) (hrt : rt.Meets)
    (features : Fin n → ℝ) (targets : Marginal (Fin n))
    (hsize : ∀ i j, k * (features j - features i) / l ≤ 2 ^ 53)
    (hu : ssrGrid k b (.fin l) ((List.ofFn features).map .fin) = .ok ((g.inducing (List.ofFn features)).map .fin))
    {s : ℝ} (hs : 0 < s) (hv : ∀ i, s ≤ targets.variance i + g.measurementNugget)
    (xs : p → ℝ) (hxs : ∀ j, ∃ lo up, features lo ≤ xs j ∧ xs j ≤ features up) (hn : 0 < n) :
    ∃ fit, g.fit b rt features targets = .ok fit ∧ ∀ j,
      |(g.predictJoint fit xs).mean j - (g.gp.predictJoint (g.gp.fit (rt.ldlt n) features
        ⟨targets.mean, fun i => targets.variance i + g.measurementNugget⟩) xs).mean j| ≤
        (r * σ ^ 2 + g.inducingNugget) * (lengthOf targets.mean / s) * (Real.sqrt n + n * Real.sqrt (σ ^ 2 / s)) ∧
      |(g.predictJoint fit xs).covariance j j - (g.gp.predictJoint (g.gp.fit (rt.ldlt n) features
        ⟨targets.mean, fun i => targets.variance i + g.measurementNugget⟩) xs).covariance j j| ≤
        (r * σ ^ 2 + g.inducingNugget) * (2 * Real.sqrt n * Real.sqrt (σ ^ 2 / s) + n * (σ ^ 2 / s)) := by
  have hsize' : ∀ x ∈ List.ofFn features, ∀ y ∈ List.ofFn features, k * (y - x) / l ≤ 2 ^ 53 := by
    intro x hx y hy
    obtain ⟨i, rfl⟩ := (List.mem_ofFn' _ _).1 hx
    obtain ⟨j, rfl⟩ := (List.mem_ofFn' _ _).1 hy
    exact hsize i j
  have hmem : ∀ i, features i ∈ List.ofFn features := fun i => (List.mem_ofFn' _ _).2 ⟨i, rfl⟩
  have hpsd : IsPSD g.gp.cov := by
    have : g.gp.cov = fun x y => f (euclideanDistance x y) l σ := by funext x y; exact hcov x y
    rw [this]
    rcases hf with ⟨rfl, -⟩ | ⟨rfl, -⟩
    · exact C22_squared_exponential_real_psd l σ
    · exact C22_exponential_real_psd l σ
  have hdiag : ∀ x, g.gp.cov x x = σ ^ 2 := by
    intro x
    rw [hcov]
    rcases hf with ⟨rfl, -⟩ | ⟨rfl, -⟩
    · rw [squaredExponential, if_neg (not_le.2 hl)]; simp [euclideanDistance, pow_two]
    · rw [exponentialCov, if_neg (not_le.2 hl)]; simp [euclideanDistance, pow_two]
  have hleft := fun x lo up (h1 : features lo ≤ x) (h2 : x ≤ features up) =>
    C128_grid g hi b hl k r f hf hcov (List.ofFn features) hsize' _ hu x _ _ (hmem lo) (hmem up) h1 h2
  have hk0 : 0 < k := by rcases hf with ⟨-, rfl, -⟩ | ⟨-, rfl, -⟩ <;> norm_num
  have hr0 : 0 < r := by rcases hf with ⟨-, -, rfl⟩ | ⟨-, -, rfl⟩ <;> norm_num
  have hne : g.inducing (List.ofFn features) ≠ [] := by
    intro h
    obtain ⟨y, hy, -⟩ := grid_close k hk0 b l hl (List.ofFn features) hsize' hu (features ⟨0, hn⟩) _ _ (hmem _) (hmem _)
      le_rfl le_rfl
    rw [h] at hy
    simp at hy
  obtain ⟨fit, hfit, hclose⟩ := C128_close g hpsd hmean hi rt hrt (g.inducing (List.ofFn features)).get features targets hs
    hv xs (fun j i => by rw [hmeas]) (ε := r * σ ^ 2 + g.inducingNugget) (by positivity)
    (fun i => by rw [hmeas]; exact hleft _ i i le_rfl le_rfl)
    fun j => by obtain ⟨lo, up, h1, h2⟩ := hxs j; exact hleft _ lo up h1 h2
  refine ⟨fit, ?_, fun j => ?_⟩
  · rw [C35_fit_uses_strategy b g rt features targets hne, hfit]
  · have := hclose j
    rwa [hdiag] at this

/-! ## Instances -/

theorem grid_finite (k : ℝ) (hk : 0 < k) (b : Build) (l : ℝ) (hl : 0 < l) (xs : List ℝ) (hne : xs ≠ [])
    (hsize : ∀ x ∈ xs, ∀ y ∈ xs, k * (y - x) / l ≤ 2 ^ 53) :
    ∃ u : List ℝ, ssrGrid k b (.fin l) (xs.map .fin) = .ok (u.map .fin) := by
  obtain ⟨g, hg, ⟨hi⟩⟩ := C81_grid_partial k hk b l hl xs hne hsize
  obtain ⟨-, -, -, step, hstep⟩ := hi.regular
  refine ⟨(List.range g.length).map fun i : ℕ => hi.lower + i * step, ?_⟩
  rw [hg]
  congr 1
  refine List.ext_getElem? fun i => ?_
  by_cases h : i < g.length
  · rw [hstep i h, List.getElem?_map, List.getElem?_map, List.getElem?_range h]
    rfl
  · rw [List.getElem?_eq_none (not_lt.1 h), List.getElem?_eq_none (by simpa using h)]

/-- Three features and a prediction point between them meet the hypotheses of `C128_state_space`, with noise one and
length scale one. -/
example : ∃ (rt : SparseRoutines) (g : SparseGp ℝ ℤ) (features : Fin 3 → ℝ) (targets : Marginal (Fin 3)), rt.Meets ∧
    (∀ x, g.gp.mean x = 0) ∧ (∀ x, g.gp.asMeas x = x) ∧ 0 < g.inducingNugget ∧ targets.mean 0 ≠ 0 ∧
    (∀ x y, g.gp.cov x y = squaredExponential (euclideanDistance x y) 1 2) ∧
    (∀ i j, 10 * (features j - features i) / 1 ≤ 2 ^ 53) ∧
    ssrGrid 10 .debug (.fin 1) ((List.ofFn features).map .fin) = .ok ((g.inducing (List.ofFn features)).map .fin) ∧
    (∀ i, 1 ≤ targets.variance i + g.measurementNugget) ∧ ∃ lo up, features lo < 1 / 2 ∧ 1 / 2 < features up := by
  obtain ⟨rt, hrt⟩ := exists_routines
  have hs : ∀ i j, (10 : ℝ) * ((![0, 1, 3] : Fin 3 → ℝ) j - (![0, 1, 3] : Fin 3 → ℝ) i) / 1 ≤ 2 ^ 53 := by
    intro i j
    fin_cases i <;> fin_cases j <;> norm_num
  have hs' : ∀ x ∈ List.ofFn (![0, 1, 3] : Fin 3 → ℝ), ∀ y ∈ List.ofFn (![0, 1, 3] : Fin 3 → ℝ),
      (10 : ℝ) * (y - x) / 1 ≤ 2 ^ 53 := by
    intro x hx y hy
    obtain ⟨i, rfl⟩ := (List.mem_ofFn' _ _).1 hx
    obtain ⟨j, rfl⟩ := (List.mem_ofFn' _ _).1 hy
    exact hs i j
  obtain ⟨u, hu⟩ := grid_finite 10 (by norm_num) .debug 1 one_pos (List.ofFn (![0, 1, 3] : Fin 3 → ℝ)) (by simp) hs'
  refine ⟨rt, ⟨⟨fun x y => squaredExponential (euclideanDistance x y) 1 2, fun _ => 0, id⟩, Int.floor, fun _ => u,
    1 / 10 ^ 8, 1 / 10 ^ 8⟩, ![0, 1, 3], ⟨![3, 4, 5], fun _ => 1⟩, hrt, fun _ => rfl, fun _ => rfl, by norm_num, by norm_num,
    fun _ _ => rfl, hs, hu, fun i => by norm_num, 0, 1, by norm_num, by norm_num⟩

end Albatross
