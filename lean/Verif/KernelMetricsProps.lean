import Verif.KernelMetrics
import Verif.DistanceKernels
import Verif.KernelsProps
import Verif.DistancesProps

/-! # C127: which covariance functions go with which distances -/

namespace Albatross

open InnerProductGeometry

/-! ## Distances -/

section Distance

variable {E : Type} [NormedAddCommGroup E] [InnerProductSpace ℝ E]

/-- The exponential and both Matérn functions of the distance are positive semi-definite in every inner product
space (the squared exponential is in `C22_squared_exponential_psd`). -/
theorem C127_inner_product (l σ : ℝ) :
    (IsPSD fun x y : E => exponentialCov ‖x - y‖ l σ) ∧ (IsPSD fun x y : E => matern32 ‖x - y‖ l σ) ∧
    IsPSD fun x y : E => matern52 ‖x - y‖ l σ := by
  rcases le_or_gt l 0 with hl | hl
  · simp only [exponentialCov, matern32, matern52, if_pos hl]
    exact ⟨IsPSD.zero, IsPSD.zero, IsPSD.zero⟩
  · have hs : ∀ (a : ℝ) (x y : E), 0 < a → ‖a • x - a • y‖ = a * ‖x - y‖ := fun a x y ha => by
      rw [← smul_sub, norm_smul, Real.norm_of_nonneg ha.le]
    have h3 : 0 < Real.sqrt 3 / l := div_pos (Real.sqrt_pos.2 (by norm_num)) hl
    have h5 : 0 < Real.sqrt 5 / l := div_pos (Real.sqrt_pos.2 (by norm_num)) hl
    simp only [exponentialCov, matern32, matern52, if_neg (not_le.2 hl)]
    refine ⟨?_, ?_, ?_⟩
    · refine cast (congrArg IsPSD ?_)
        (((exp_root_psd (E := E) le_rfl).comp fun x : E => (1 / l) • x).smul (mul_self_nonneg σ))
      funext x y
      rw [hs _ _ _ (one_div_pos.2 hl), add_zero, Real.sqrt_sq (by positivity), abs_of_nonneg (by positivity)]
      congr 3
      ring
    · refine cast (congrArg IsPSD ?_)
        (((matern32_root_psd (E := E) le_rfl).comp fun x : E => (Real.sqrt 3 / l) • x).smul (mul_self_nonneg σ))
      funext x y
      rw [hs _ _ _ h3, add_zero, Real.sqrt_sq (by positivity), ← mul_assoc,
        show Real.sqrt 3 * ‖x - y‖ / l = Real.sqrt 3 / l * ‖x - y‖ by ring]
    · refine cast (congrArg IsPSD ?_)
        (((matern52_root_psd (E := E)).comp fun x : E => (Real.sqrt 5 / l) • x).smul (mul_self_nonneg σ))
      funext x y
      rw [hs _ _ _ h5, ← mul_assoc, show Real.sqrt 5 * ‖x - y‖ / l = Real.sqrt 5 / l * ‖x - y‖ by ring]

/-- The exponential of the angle is positive semi-definite in every inner product space. -/
theorem C127_angle (l σ : ℝ) : IsPSD fun x y : E => exponentialCov (angle x y) l σ := by
  rcases le_or_gt l 0 with hl | hl
  · simp only [exponentialCov, if_pos hl]
    exact IsPSD.zero
  · simp only [exponentialCov, if_neg (not_le.2 hl)]
    refine cast (congrArg IsPSD ?_) ((exp_angle_psd (E := E) (one_div_pos.2 hl).le).smul (mul_self_nonneg σ))
    funext x y
    rw [abs_of_nonneg (div_nonneg (angle_nonneg _ _) hl.le)]
    congr 3
    ring

theorem squaredExponential_deriv {l σ : ℝ} (hl : 0 < l) (d : ℝ) :
    HasDerivAt (fun d => squaredExponential d l σ) (-(σ * σ * Real.exp (-(d / l) ^ 2) * (2 * d / l ^ 2))) d := by
  simp only [squaredExponential, if_neg (not_le.2 hl)]
  refine (((((hasDerivAt_id d).div_const l).pow 2).neg.exp).const_mul (σ * σ)).congr_deriv ?_
  simp only [id, Pi.neg_apply, Pi.pow_apply]
  have := hl.ne'
  field_simp
  ring_nf
  field_simp

theorem matern32_deriv {l σ : ℝ} (hl : 0 < l) (d : ℝ) :
    HasDerivAt (fun d => matern32 d l σ) (-(σ * σ * Real.exp (-(Real.sqrt 3 * d / l)) * (3 * d / l ^ 2))) d := by
  simp only [matern32, if_neg (not_le.2 hl)]
  have h1 : HasDerivAt (fun d => Real.sqrt 3 * d / l) (Real.sqrt 3 / l) d := by
    simpa using ((hasDerivAt_id d).const_mul (Real.sqrt 3)).div_const l
  refine (((h1.const_add 1).const_mul (σ * σ)).mul h1.neg.exp).congr_deriv ?_
  simp only [Pi.neg_apply]
  generalize Real.exp _ = e
  have h3 : Real.sqrt 3 ^ 2 = 3 := Real.sq_sqrt (by norm_num)
  field_simp
  ring_nf
  rw [h3]
  ring

theorem matern52_deriv {l σ : ℝ} (hl : 0 < l) (d : ℝ) :
    HasDerivAt (fun d => matern52 d l σ)
      (-(σ * σ * Real.exp (-(Real.sqrt 5 * d / l)) * (5 * d / l ^ 2 * (1 + Real.sqrt 5 * d / l) / 3))) d := by
  simp only [matern52, if_neg (not_le.2 hl)]
  have h1 : HasDerivAt (fun d => Real.sqrt 5 * d / l) (Real.sqrt 5 / l) d := by
    simpa using ((hasDerivAt_id d).const_mul (Real.sqrt 5)).div_const l
  refine ((((h1.const_add 1).add ((h1.mul h1).div_const 3)).const_mul (σ * σ)).mul h1.neg.exp).congr_deriv ?_
  simp only [Pi.neg_apply, Pi.add_apply, Pi.mul_apply]
  generalize Real.exp _ = e
  have h3 : Real.sqrt 5 ^ 2 = 5 := Real.sq_sqrt (by norm_num)
  field_simp
  ring_nf
  rw [show Real.sqrt 5 ^ 3 = Real.sqrt 5 * Real.sqrt 5 ^ 2 by ring, h3]
  ring

/-- The smooth functions are not: whatever the length scale and `σ`, on every circle there are four points with a
negative quadratic form. This is what the `static_assert`s refuse. -/
theorem C127_angle_refused {u v : E} (hu : ‖u‖ = 1) (hv : ‖v‖ = 1) (huv : inner ℝ u v = 0) {l σ : ℝ} (hl : 0 < l)
    (hσ : σ ≠ 0) (f : ℝ → ℝ → ℝ → ℝ) (hf : f = squaredExponential ∨ f = matern32 ∨ f = matern52) :
    ∃ (x : Fin 4 → E) (w : Fin 4 → ℝ), (∀ i, x i ≠ 0) ∧ ∑ i, ∑ j, w i * w j * f (angle (x i) (x j)) l σ < 0 := by
  have hp := Real.pi_pos
  have hs : 0 < σ * σ := mul_self_pos.2 hσ
  rcases hf with rfl | rfl | rfl
  · refine flat_not_psd hu hv huv (f := fun d => squaredExponential d l σ)
      ((squaredExponential_deriv hl 0).congr_deriv (by simp)) (squaredExponential_deriv hl _) ?_
    exact neg_lt_zero.2 (by positivity)
  · refine flat_not_psd hu hv huv (f := fun d => matern32 d l σ)
      ((matern32_deriv hl 0).congr_deriv (by simp)) (matern32_deriv hl _) ?_
    exact neg_lt_zero.2 (by positivity)
  · refine flat_not_psd hu hv huv (f := fun d => matern52 d l σ)
      ((matern52_deriv hl 0).congr_deriv (by simp)) (matern52_deriv hl _) ?_
    exact neg_lt_zero.2 (by positivity)

end Distance

/-! ## The metrics of the code -/

theorem euclideanDistanceFin_norm {n : Nat} (x y : Fin n → ℝ) :
    euclideanDistanceFin x y = ‖toEuclidean x - toEuclidean y‖ := by
  unfold euclideanDistanceFin
  rw [eigenNorm_eq]
  rfl

theorem exponentialDbl_fin (b : Build) {d : ℝ} (hd : 0 ≤ d) (l σ : ℝ) :
    exponentialDbl b (.fin d) l σ = .ok (.fin (exponentialCov d l σ)) := by
  unfold exponentialDbl exponentialCov
  split_ifs with hl
  · rfl
  · have : decide (Dbl.fin 0 ≤ Dbl.fin d) = true := decide_eq_true hd
    rw [this, albatrossAssert_true, except_ok_bind, Dbl.fin_div (by intro h; exact hl h.le)]
    rfl

/-- With the Euclidean and the radial distance all four functions run in both builds, and their values are positive
semi-definite. -/
theorem C127_metrics {n : Nat} (l σ : ℝ) (metric : (Fin n → ℝ) → (Fin n → ℝ) → ℝ)
    (hm : metric = euclideanDistanceFin ∨ metric = radialDistance) :
    (∃ k, IsPSD k ∧ ∀ b x y, exponentialDbl b (.fin (metric x y)) l σ = .ok (.fin (k x y))) ∧
    ∀ checked, checked = squaredExponentialChecked ∨ checked = matern32Checked ∨ checked = matern52Checked →
      ∃ k, IsPSD k ∧ ∀ b x y, smoothRadial checked b l σ metric x y = .ok (k x y) := by
  have h0 : ∀ x y, 0 ≤ metric x y := by
    rcases hm with rfl | rfl
    · intro x y; rw [euclideanDistanceFin_norm]; exact norm_nonneg _
    · intro x y; exact abs_nonneg _
  have hpsd : (IsPSD fun x y => exponentialCov (metric x y) l σ) ∧ (IsPSD fun x y => squaredExponential (metric x y) l σ) ∧
      (IsPSD fun x y => matern32 (metric x y) l σ) ∧ IsPSD fun x y => matern52 (metric x y) l σ := by
    rcases hm with rfl | rfl
    · have h := C127_inner_product (E := EuclideanSpace ℝ (Fin n)) l σ
      have h2 := C22_squared_exponential_psd (E := EuclideanSpace ℝ (Fin n)) l σ
      simp only [euclideanDistanceFin_norm]
      exact ⟨h.1.comp toEuclidean, h2.comp toEuclidean, h.2.1.comp toEuclidean, h.2.2.comp toEuclidean⟩
    · have h := C127_inner_product (E := ℝ) l σ
      have h2 := C22_squared_exponential_psd (E := ℝ) l σ
      exact ⟨h.1.comp eigenNorm, h2.comp eigenNorm, h.2.1.comp eigenNorm, h.2.2.comp eigenNorm⟩
  have ha : ∀ b x y, albatrossAssert b (decide (0 ≤ metric x y)) = .ok () := fun b x y => by
    rw [decide_eq_true (h0 x y), albatrossAssert_true]
  refine ⟨⟨_, hpsd.1, fun b x y => exponentialDbl_fin b (h0 x y) l σ⟩, ?_⟩
  rintro _ (rfl | rfl | rfl)
  · refine ⟨_, hpsd.2.1, fun b x y => ?_⟩
    unfold smoothRadial squaredExponentialChecked
    split_ifs with hl
    · simp [squaredExponential, hl]
    · rw [ha]; rfl
  · refine ⟨_, hpsd.2.2.1, fun b x y => ?_⟩
    unfold smoothRadial matern32Checked
    split_ifs with hl
    · simp [matern32, hl]
    · rw [ha]; rfl
  · refine ⟨_, hpsd.2.2.2, fun b x y => ?_⟩
    unfold smoothRadial matern52Checked
    split_ifs with hl
    · simp [matern52, hl]
    · rw [ha]; rfl

theorem exp_neg_lipschitz {a b : ℝ} (ha : 0 ≤ a) (hb : 0 ≤ b) : |Real.exp (-a) - Real.exp (-b)| ≤ |a - b| := by
  have key : ∀ a b : ℝ, 0 ≤ a → a ≤ b → |Real.exp (-a) - Real.exp (-b)| ≤ |a - b| := by
    intro a b ha h
    have h1 := (one_sub_exp_bounds (sub_nonneg.2 h)).2.2
    have h2 : Real.exp (-b) = Real.exp (-a) * Real.exp (-(b - a)) := by rw [← Real.exp_add]; congr 1; ring
    have h3 : Real.exp (-a) ≤ 1 := Real.exp_le_one_iff.2 (neg_nonpos.2 ha)
    have h4 : Real.exp (-b) ≤ Real.exp (-a) := Real.exp_le_exp.2 (neg_le_neg h)
    rw [abs_of_nonneg (sub_nonneg.2 h4), abs_of_nonpos (sub_nonpos.2 h), h2]
    have := (one_sub_exp_bounds (sub_nonneg.2 h)).1
    nlinarith [Real.exp_pos (-a)]
  rcases le_total a b with h | h
  · exact key a b ha h
  · rw [abs_sub_comm, abs_sub_comm a]; exact key b a hb h

/-- `Exponential<AngularDistance>` as coded, with vectors that are not zero: it runs in both builds, is symmetric with
`σ²` on the diagonal, and its quadratic forms are not below `-σ² 3e-8 / l (∑ |w|)²`. When the angles of every two
vectors are zero, `π`, or not rounded, they are not negative. -/
theorem C127_angular_partial {n m : Nat} {l σ : ℝ} (hl : 0 < l) (x : Fin m → Fin n → ℝ) (hx : ∀ i, x i ≠ 0) :
    ∃ k : Fin m → Fin m → ℝ, (∀ b i j, exponentialAngular b l σ (x i) (x j) = .ok (.fin (k i j))) ∧
      (∀ i j, k i j = k j i) ∧ (∀ i, k i i = σ ^ 2) ∧ (∀ i j, 0 ≤ k i j ∧ k i j ≤ σ ^ 2) ∧
      (∀ w : Fin m → ℝ, -(σ ^ 2 * (3 / 10 ^ 8 / l) * (∑ i, |w i|) ^ 2) ≤ ∑ i, ∑ j, w i * w j * k i j) ∧
      ((∀ i j, |Real.cos (angle (toEuclidean (x i)) (toEuclidean (x j)))| ≤ 1 - 1 / 10 ^ 16 ∨
        |Real.cos (angle (toEuclidean (x i)) (toEuclidean (x j)))| = 1) →
          ∀ w : Fin m → ℝ, 0 ≤ ∑ i, ∑ j, w i * w j * k i j) := by
  choose d hd h0 hpi happ hex using fun i j => C83_angular (hx i) (hx j)
  set θ : Fin m → Fin m → ℝ := fun i j => angle (toEuclidean (x i)) (toEuclidean (x j)) with hθ
  have hk : ∀ i j, exponentialCov (d i j) l σ = σ ^ 2 * Real.exp (-(d i j / l)) := fun i j => by
    rw [exponentialCov, if_neg (not_le.2 hl), abs_of_nonneg (div_nonneg (h0 i j) hl.le), pow_two]
  have hkθ : ∀ i j, exponentialCov (θ i j) l σ = σ ^ 2 * Real.exp (-(θ i j / l)) := fun i j => by
    rw [exponentialCov, if_neg (not_le.2 hl), abs_of_nonneg (div_nonneg (angle_nonneg _ _) hl.le), pow_two]
  have hpsd : ∀ w : Fin m → ℝ, 0 ≤ ∑ i, ∑ j, w i * w j * exponentialCov (θ i j) l σ := fun w =>
    (C127_angle (E := EuclideanSpace ℝ (Fin n)) l σ).2 m (fun i => toEuclidean (x i)) w
  have hone : ∀ i j, Real.cos (θ i j) = 1 → d i j = 0 := by
    intro i j h
    have := hd i j
    rw [angularDistance_eq (hx i) (hx j), if_pos] at this
    · exact (Dbl.fin.inj this).symm
    · show 1 - distanceEpsilon < Real.cos (θ i j)
      rw [h]; unfold distanceEpsilon; norm_num
  have hself : ∀ i, d i i = 0 := by
    intro i
    refine hone i i ?_
    have : toEuclidean (x i) ≠ 0 := fun h => hx i (by
      have := congrArg (WithLp.ofLp) h
      simpa [toEuclidean] using this)
    rw [hθ]
    simp only
    rw [angle_self this, Real.cos_zero]
  refine ⟨fun i j => exponentialCov (d i j) l σ, fun b i j => ?_, fun i j => ?_, fun i => ?_, fun i j => ?_, fun w => ?_,
    fun hgood w => ?_⟩
  · unfold exponentialAngular
    rw [hd, exponentialDbl_fin b (h0 i j)]
  · have : d i j = d j i := Dbl.fin.inj (by rw [← hd, ← hd, C83_angular_symm])
    simp only [this]
  · show exponentialCov (d i i) l σ = σ ^ 2
    rw [hk, hself]; simp
  · simp only [hk]
    have : Real.exp (-(d i j / l)) ≤ 1 := Real.exp_le_one_iff.2 (neg_nonpos.2 (div_nonneg (h0 i j) hl.le))
    exact ⟨by positivity, mul_le_of_le_one_right (sq_nonneg σ) this⟩
  · have hb : ∀ i j, |exponentialCov (d i j) l σ - exponentialCov (θ i j) l σ| ≤ σ ^ 2 * (3 / 10 ^ 8 / l) := by
      intro i j
      rw [hk, hkθ, ← mul_sub, abs_mul, abs_of_nonneg (sq_nonneg σ)]
      refine mul_le_mul_of_nonneg_left ?_ (sq_nonneg σ)
      refine (exp_neg_lipschitz (div_nonneg (h0 i j) hl.le) (div_nonneg (angle_nonneg _ _) hl.le)).trans ?_
      rw [← sub_div, abs_div, abs_of_pos hl]
      exact div_le_div_of_nonneg_right (happ i j) hl.le
    have hsum : ∑ i, ∑ j, w i * w j * exponentialCov (θ i j) l σ - σ ^ 2 * (3 / 10 ^ 8 / l) * (∑ i, |w i|) ^ 2 ≤
        ∑ i, ∑ j, w i * w j * exponentialCov (d i j) l σ := by
      rw [pow_two (∑ i, |w i|), Finset.sum_mul_sum, Finset.mul_sum, ← Finset.sum_sub_distrib]
      refine Finset.sum_le_sum fun i _ => ?_
      rw [Finset.mul_sum, ← Finset.sum_sub_distrib]
      refine Finset.sum_le_sum fun j _ => ?_
      have h1 : |w i * w j * (exponentialCov (d i j) l σ - exponentialCov (θ i j) l σ)| ≤
          |w i| * |w j| * (σ ^ 2 * (3 / 10 ^ 8 / l)) := by
        rw [abs_mul, abs_mul]
        exact mul_le_mul_of_nonneg_left (hb i j) (by positivity)
      have := neg_le_of_abs_le h1
      linarith
    have := hpsd w
    linarith
  · refine (hpsd w).trans_eq (Finset.sum_congr rfl fun i _ => Finset.sum_congr rfl fun j _ => ?_)
    have : d i j = θ i j := by
      rcases hgood i j with h | h
      · exact hex i j h
      · have hr : ∀ a b : ℝ, a ∈ Set.Icc 0 Real.pi → b ∈ Set.Icc 0 Real.pi → Real.cos a = Real.cos b → a = b :=
          fun a b ha hb h => Real.injOn_cos ha hb h
        rcases eq_or_eq_neg_of_abs_eq h with h1 | h1
        · rw [hone i j h1]
          refine hr _ _ ⟨le_rfl, Real.pi_pos.le⟩ ⟨angle_nonneg _ _, angle_le_pi _ _⟩ ?_
          rw [Real.cos_zero]; exact h1.symm
        · have e := hd i j
          rw [angularDistance_eq (hx i) (hx j), h1, if_neg (by unfold distanceEpsilon; norm_num),
            if_pos (by unfold distanceEpsilon; norm_num)] at e
          rw [← Dbl.fin.inj e]
          refine hr _ _ ⟨Real.pi_pos.le, le_rfl⟩ ⟨angle_nonneg _ _, angle_le_pi _ _⟩ ?_
          rw [Real.cos_pi]; exact h1.symm
    simp only [this]

/-- It is not positive semi-definite, whatever the length scale and `σ`: three unit vectors, neighbours at an angle of
`1e-8`, have a negative quadratic form, because this angle is rounded to zero and that of the outer two is not. -/
theorem C127_angular_false {l σ : ℝ} (hl : 0 < l) (hσ : σ ≠ 0) :
    ∃ (x : Fin 3 → Fin 2 → ℝ) (k : Fin 3 → Fin 3 → ℝ) (w : Fin 3 → ℝ), (∀ i, x i ≠ 0) ∧
      (∀ b i j, exponentialAngular b l σ (x i) (x j) = .ok (.fin (k i j))) ∧ ∑ i, ∑ j, w i * w j * k i j < 0 := by
  obtain ⟨x, y, z, d, hxy, hyz, hxz, hd⟩ := C83_angular_triangle_false
  have hx : x ≠ 0 := fun h => by rw [C83_angular_zero (Or.inl h)] at hxy; exact Dbl.noConfusion hxy
  have hy : y ≠ 0 := fun h => by rw [C83_angular_zero (Or.inl h)] at hyz; exact Dbl.noConfusion hyz
  have hz : z ≠ 0 := fun h => by rw [C83_angular_zero (Or.inr h)] at hxz; exact Dbl.noConfusion hxz
  have hne : ∀ i, (![x, y, z] : Fin 3 → Fin 2 → ℝ) i ≠ 0 := by
    intro i; fin_cases i
    · exact hx
    · exact hy
    · exact hz
  obtain ⟨k, hk, hsym, hdiag, -⟩ := C127_angular_partial (σ := σ) hl ![x, y, z] hne
  have get : ∀ i j e, 0 ≤ e → angularDistance ((![x, y, z] : Fin 3 → Fin 2 → ℝ) i) ((![x, y, z] : Fin 3 → Fin 2 → ℝ) j) = .fin e →
      k i j = σ ^ 2 * Real.exp (-(e / l)) := by
    intro i j e he h
    have := hk .debug i j
    unfold exponentialAngular at this
    rw [h, exponentialDbl_fin .debug he] at this
    rw [← Dbl.fin.inj (Except.ok.inj this), exponentialCov, if_neg (not_le.2 hl), abs_of_nonneg (by positivity), pow_two]
  have k01 := get 0 1 0 le_rfl hxy
  have k12 := get 1 2 0 le_rfl hyz
  have k02 := get 0 2 d hd.le hxz
  simp only [zero_div, neg_zero, Real.exp_zero, mul_one] at k01 k12
  refine ⟨_, k, ![1, -2, 1], hne, hk, ?_⟩
  simp only [Fin.sum_univ_three, Matrix.cons_val_zero, Matrix.cons_val_one, Matrix.cons_val, hdiag, hsym 1 0, hsym 2 0, hsym 2 1,
    k01, k12, k02]
  have h1 : Real.exp (-(d / l)) < 1 := (Real.exp_lt_exp.2 (neg_lt_zero.2 (div_pos hd hl))).trans_eq Real.exp_zero
  have h2 : 0 < σ ^ 2 := by positivity
  nlinarith

/-- A zero vector stops a debug build; otherwise the covariance is NaN. -/
theorem C127_angular_zero {n : Nat} {l σ : ℝ} (hl : 0 < l) {x y : Fin n → ℝ} (h : x = 0 ∨ y = 0) :
    exponentialAngular .debug l σ x y = .error .assertFail ∧ exponentialAngular .ndebug l σ x y = .ok .nan := by
  unfold exponentialAngular exponentialDbl
  rw [C83_angular_zero h, if_neg (not_le.2 hl), if_neg (not_le.2 hl)]
  have : decide (Dbl.fin 0 ≤ Dbl.nan) = false := decide_eq_false (fun h => h)
  rw [this]
  exact ⟨rfl, rfl⟩

/-- Length scales that are not positive give no covariance, even of zero vectors. -/
theorem C127_no_length_scale (b : Build) {n : Nat} {l : ℝ} (hl : l ≤ 0) (σ : ℝ) (x y : Fin n → ℝ) :
    exponentialAngular b l σ x y = .ok (.fin 0) := by
  unfold exponentialAngular exponentialDbl
  rw [if_pos hl]

/-! ## Instances -/

/-- Two unit vectors at a right angle meet the hypotheses of `C127_angle_refused`. -/
example : ∃ u v : EuclideanSpace ℝ (Fin 2), ‖u‖ = 1 ∧ ‖v‖ = 1 ∧ inner ℝ u v = 0 :=
  ⟨EuclideanSpace.single 0 (1 : ℝ), EuclideanSpace.single 1 (1 : ℝ), by simp,
    by simp, by simp [EuclideanSpace.inner_single_left]⟩

/-- The coordinate axes are met by the exact part of `C127_angular_partial`: the covariance of the two is
`exp(-π / 2)`. -/
example : ∃ k : Fin 2 → Fin 2 → ℝ, (∀ b i j, exponentialAngular b 1 1 (![unitAt 0, unitAt (Real.pi / 2)] i)
    (![unitAt 0, unitAt (Real.pi / 2)] j) = .ok (.fin (k i j))) ∧ k 0 1 = Real.exp (-(Real.pi / 2)) := by
  have hne : ∀ t, unitAt t ≠ 0 := fun t h => by
    have := unitAt_norm t
    rw [h] at this
    simp [eigenNorm] at this
  obtain ⟨k, hk, -⟩ := C127_angular_partial (σ := 1) one_pos ![unitAt 0, unitAt (Real.pi / 2)]
    (by intro i; fin_cases i <;> exact hne _)
  refine ⟨k, hk, ?_⟩
  have h := hk .debug 0 1
  have hd : angularDistance (unitAt 0) (unitAt (Real.pi / 2)) = .fin (Real.pi / 2) := by
    unfold angularDistance
    simp only [unitAt_norm, unitAt_dot, mul_one, sub_zero, Real.cos_pi_div_two]
    rw [Dbl.fin_div one_ne_zero, div_one, if_neg, if_neg]
    · show (if _ then Dbl.fin (Real.arccos _) else _) = _
      rw [if_pos (by norm_num), Real.arccos_zero]
    · rw [Dbl.fin_lt]; unfold distanceEpsilon; norm_num
    · rw [Dbl.fin_lt]; unfold distanceEpsilon; norm_num
  have h' : exponentialAngular .debug 1 1 (unitAt 0) (unitAt (Real.pi / 2)) = .ok (.fin (k 0 1)) := h
  unfold exponentialAngular at h'
  rw [hd, exponentialDbl_fin .debug (by positivity)] at h'
  rw [← Dbl.fin.inj (Except.ok.inj h'), exponentialCov, if_neg (by norm_num), abs_of_nonneg (by positivity)]
  simp

end Albatross
