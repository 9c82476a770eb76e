import Verif.Distances
import Verif.UtilsProps
import Mathlib.Geometry.Euclidean.Angle.Unoriented.TriangleInequality
import Mathlib.Analysis.SpecialFunctions.Trigonometric.Bounds
import Mathlib.Analysis.InnerProductSpace.PiL2
import Mathlib.Analysis.Real.Pi.Bounds

/-! # C83: distance metrics -/

namespace Albatross

/-! ## Specification -/

/-- A pseudo-metric: symmetric, zero between equal arguments, never negative, with the triangle inequality. -/
structure IsPseudoMetric {X : Type} (d : X → X → ℝ) : Prop where
  self : ∀ x, d x x = 0
  symm : ∀ x y, d x y = d y x
  nonneg : ∀ x y, 0 ≤ d x y
  triangle : ∀ x y z, d x z ≤ d x y + d y z

/-- The vector of Euclidean space with the given coordinates. -/
def toEuclidean {n : Nat} (x : Fin n → ℝ) : EuclideanSpace ℝ (Fin n) := WithLp.toLp 2 x

/-! ## Euclidean and radial distance -/

theorem eigenNorm_eq {n : Nat} (x : Fin n → ℝ) : eigenNorm x = ‖toEuclidean x‖ := by
  rw [EuclideanSpace.norm_eq]
  unfold eigenNorm
  congr 1
  refine Finset.sum_congr rfl fun i _ => ?_
  simp only [toEuclidean, Real.norm_eq_abs, sq_abs]
  ring

theorem eigenDotFin_eq {n : Nat} (x y : Fin n → ℝ) : eigenDotFin x y = inner ℝ (toEuclidean x) (toEuclidean y) := by
  unfold eigenDotFin toEuclidean
  simp only [PiLp.inner_apply, RCLike.inner_apply, conj_trivial]
  exact Finset.sum_congr rfl fun i _ => mul_comm _ _

theorem euclideanDistanceFin_eq {n : Nat} (x y : Fin n → ℝ) :
    euclideanDistanceFin x y = dist (toEuclidean x) (toEuclidean y) := by
  rw [dist_eq_norm]
  exact eigenNorm_eq _

/-- The Euclidean distance of doubles and of vectors is a metric. -/
theorem C83_euclidean {n : Nat} :
    (IsPseudoMetric euclideanDistance ∧ ∀ x y, euclideanDistance x y = 0 → x = y) ∧
      (IsPseudoMetric (euclideanDistanceFin (n := n)) ∧
        ∀ x y : Fin n → ℝ, euclideanDistanceFin x y = 0 → x = y) := by
  refine ⟨⟨⟨fun x => ?_, fun x y => abs_sub_comm x y, fun x y => abs_nonneg _, fun x y z => abs_sub_le x y z⟩, ?_⟩,
    ⟨⟨?_, ?_, ?_, ?_⟩, ?_⟩⟩
  · simp [euclideanDistance]
  · intro x y h
    exact sub_eq_zero.mp (abs_eq_zero.mp h)
  · intro x; rw [euclideanDistanceFin_eq, dist_self]
  · intro x y; rw [euclideanDistanceFin_eq, euclideanDistanceFin_eq, dist_comm]
  · intro x y; rw [euclideanDistanceFin_eq]; exact dist_nonneg
  · intro x y z; simp only [euclideanDistanceFin_eq]; exact dist_triangle _ _ _
  · intro x y h
    rw [euclideanDistanceFin_eq] at h
    have := dist_eq_zero.mp h
    funext i
    exact congrArg (fun v : EuclideanSpace ℝ (Fin n) => v i) this

/-- The radial distance is a pseudo-metric, zero exactly between vectors of equal norm, and never larger than the
Euclidean distance. -/
theorem C83_radial {n : Nat} :
    IsPseudoMetric (fun x y : Fin n → ℝ => radialDistance x y) ∧
      (∀ x y : Fin n → ℝ, radialDistance x y = 0 ↔ ∑ i, x i ^ 2 = ∑ i, y i ^ 2) ∧
      ∀ x y : Fin n → ℝ, radialDistance x y ≤ euclideanDistanceFin x y := by
  refine ⟨⟨fun x => by simp [radialDistance], fun x y => abs_sub_comm _ _, fun x y => abs_nonneg _,
    fun x y z => abs_sub_le _ _ _⟩, fun x y => ?_, fun x y => ?_⟩
  · unfold radialDistance eigenNorm
    rw [abs_eq_zero, sub_eq_zero, Real.sqrt_inj (Finset.sum_nonneg fun i _ => mul_self_nonneg _)
      (Finset.sum_nonneg fun i _ => mul_self_nonneg _)]
    simp only [pow_two]
  · unfold radialDistance
    rw [eigenNorm_eq, eigenNorm_eq, euclideanDistanceFin_eq, dist_eq_norm]
    exact abs_norm_sub_norm_le _ _

/-! ## Angular distance -/

theorem eigenNorm_pos {n : Nat} {x : Fin n → ℝ} (h : x ≠ 0) : 0 < eigenNorm x := by
  rw [eigenNorm_eq, norm_pos_iff]
  intro h'
  apply h
  funext i
  exact congrArg (fun v : EuclideanSpace ℝ (Fin n) => v i) h'

theorem cos_angle_eq {n : Nat} (x y : Fin n → ℝ) :
    eigenDotFin x y / (eigenNorm x * eigenNorm y) =
      Real.cos (InnerProductGeometry.angle (toEuclidean x) (toEuclidean y)) := by
  rw [InnerProductGeometry.cos_angle, eigenDotFin_eq, eigenNorm_eq, eigenNorm_eq]

/-- What the code returns for vectors which are not zero, in terms of the angle between them. -/
theorem angularDistance_eq {n : Nat} {x y : Fin n → ℝ} (hx : x ≠ 0) (hy : y ≠ 0) :
    angularDistance x y = .fin
      (if 1 - distanceEpsilon < Real.cos (InnerProductGeometry.angle (toEuclidean x) (toEuclidean y)) then 0
      else if Real.cos (InnerProductGeometry.angle (toEuclidean x) (toEuclidean y)) < -1 + distanceEpsilon then Real.pi
      else InnerProductGeometry.angle (toEuclidean x) (toEuclidean y)) := by
  have hne : eigenNorm x * eigenNorm y ≠ 0 := (mul_pos (eigenNorm_pos hx) (eigenNorm_pos hy)).ne'
  unfold angularDistance
  simp only
  rw [Dbl.fin_div hne, cos_angle_eq]
  simp only [Dbl.fin_lt]
  split_ifs with h1 h2
  · rfl
  · rfl
  · show (if _ then Dbl.fin (Real.arccos _) else _) = _
    rw [if_pos ⟨Real.neg_one_le_cos _, Real.cos_le_one _⟩,
      Real.arccos_cos (InnerProductGeometry.angle_nonneg _ _) (InnerProductGeometry.angle_le_pi _ _)]

theorem small_angle {t : ℝ} (h0 : 0 ≤ t) (hpi : t ≤ Real.pi) (h : 1 - distanceEpsilon < Real.cos t) :
    t ≤ 3 / 10 ^ 8 := by
  have hb := Real.cos_le_one_sub_mul_cos_sq (x := t) (by rw [abs_of_nonneg h0]; exact hpi)
  by_contra hc
  have hc := lt_of_not_ge hc
  have hp : Real.pi ^ 2 ≤ 10 := by
    have := Real.pi_lt_d2; have := Real.pi_pos
    nlinarith
  have h2 : 2 / 10 ≤ 2 / Real.pi ^ 2 := by
    apply div_le_div_of_nonneg_left (by norm_num) (by positivity) hp
  have h3 : (9 / 10 ^ 16 : ℝ) ≤ t ^ 2 := by nlinarith
  have h4 : 2 / 10 * (9 / 10 ^ 16 : ℝ) ≤ 2 / Real.pi ^ 2 * t ^ 2 :=
    mul_le_mul h2 h3 (by norm_num) (by positivity)
  unfold distanceEpsilon at h
  norm_num at h h4
  linarith

/-- The angular distance of vectors which are not zero is the angle between them (in radians, from `0` to `π`) up
to `3e-8`, and exactly the angle unless its cosine is within `1e-16` of `±1`. -/
theorem C83_angular {n : Nat} {x y : Fin n → ℝ} (hx : x ≠ 0) (hy : y ≠ 0) :
    ∃ d, angularDistance x y = .fin d ∧ 0 ≤ d ∧ d ≤ Real.pi ∧
      |d - InnerProductGeometry.angle (toEuclidean x) (toEuclidean y)| ≤ 3 / 10 ^ 8 ∧
      (|Real.cos (InnerProductGeometry.angle (toEuclidean x) (toEuclidean y))| ≤ 1 - 1 / 10 ^ 16 →
        d = InnerProductGeometry.angle (toEuclidean x) (toEuclidean y)) := by
  refine ⟨_, angularDistance_eq hx hy, ?_⟩
  set t := InnerProductGeometry.angle (toEuclidean x) (toEuclidean y) with ht
  have h0 : 0 ≤ t := InnerProductGeometry.angle_nonneg _ _
  have hpi : t ≤ Real.pi := InnerProductGeometry.angle_le_pi _ _
  split_ifs with h1 h2
  · refine ⟨le_refl _, Real.pi_pos.le, ?_, fun h => ?_⟩
    · rw [zero_sub, abs_neg, abs_of_nonneg h0]
      exact small_angle h0 hpi h1
    · exact absurd (le_of_abs_le h) (not_le.mpr h1)
  · refine ⟨Real.pi_pos.le, le_refl _, ?_, fun h => ?_⟩
    · rw [abs_of_nonneg (by linarith)]
      refine small_angle (by linarith) (by linarith) ?_
      rw [Real.cos_pi_sub]; linarith
    · have := neg_le_of_abs_le h
      unfold distanceEpsilon at h2
      linarith
  · exact ⟨h0, hpi, by rw [sub_self, abs_zero]; norm_num, fun _ => rfl⟩

/-- The angular distance is symmetric (also when it is NaN). -/
theorem C83_angular_symm {n : Nat} (x y : Fin n → ℝ) : angularDistance x y = angularDistance y x := by
  unfold angularDistance
  rw [show eigenDotFin x y = eigenDotFin y x from Finset.sum_congr rfl fun i _ => mul_comm _ _,
    mul_comm (eigenNorm x)]

/-- Lengths do not matter. -/
theorem C83_angular_scale {n : Nat} {x y : Fin n → ℝ} (hx : x ≠ 0) (hy : y ≠ 0) {a b : ℝ} (ha : 0 < a) (hb : 0 < b) :
    angularDistance (a • x) (b • y) = angularDistance x y := by
  rw [angularDistance_eq (smul_ne_zero ha.ne' hx) (smul_ne_zero hb.ne' hy), angularDistance_eq hx hy]
  have : InnerProductGeometry.angle (toEuclidean (a • x)) (toEuclidean (b • y)) =
      InnerProductGeometry.angle (toEuclidean x) (toEuclidean y) := by
    show InnerProductGeometry.angle (a • toEuclidean x) (b • toEuclidean y) = _
    rw [InnerProductGeometry.angle_smul_left_of_pos _ _ ha, InnerProductGeometry.angle_smul_right_of_pos _ _ hb]
  rw [this]

/-- With a zero vector the angular distance is NaN. -/
theorem C83_angular_zero {n : Nat} {x y : Fin n → ℝ} (h : x = 0 ∨ y = 0) : angularDistance x y = .nan := by
  have h0 : eigenNorm x * eigenNorm y = 0 := by
    rcases h with rfl | rfl <;> simp [eigenNorm]
  have h1 : eigenDotFin x y = 0 := by
    rcases h with rfl | rfl <;> simp [eigenDotFin]
  have : (.fin (0 : ℝ) / .fin 0 : Dbl) = .nan := by
    show (if (0 : ℝ) = 0 then Dbl.signInf 0 else _) = _
    simp [Dbl.signInf]
  unfold angularDistance
  rw [h0, h1, this]
  simp [Dbl.acos]

/-- The triangle inequality of the angular distance holds up to `9e-8`. -/
theorem C83_angular_triangle_partial {n : Nat} {x y z : Fin n → ℝ} (hx : x ≠ 0) (hy : y ≠ 0) (hz : z ≠ 0) :
    ∃ xy yz xz, angularDistance x y = .fin xy ∧ angularDistance y z = .fin yz ∧ angularDistance x z = .fin xz ∧
      xz ≤ xy + yz + 9 / 10 ^ 8 := by
  obtain ⟨xy, e1, -, -, b1, -⟩ := C83_angular hx hy
  obtain ⟨yz, e2, -, -, b2, -⟩ := C83_angular hy hz
  obtain ⟨xz, e3, -, -, b3, -⟩ := C83_angular hx hz
  refine ⟨xy, yz, xz, e1, e2, e3, ?_⟩
  have := InnerProductGeometry.angle_le_angle_add_angle (toEuclidean x) (toEuclidean y) (toEuclidean z)
  have := abs_le.mp b1; have := abs_le.mp b2; have := abs_le.mp b3
  norm_num at *
  linarith

/-- The unit vector at angle `t`. -/
noncomputable def unitAt (t : ℝ) : Fin 2 → ℝ := ![Real.cos t, Real.sin t]

theorem unitAt_norm (t : ℝ) : eigenNorm (unitAt t) = 1 := by
  unfold eigenNorm unitAt
  rw [Fin.sum_univ_two]
  simp only [Matrix.cons_val_zero, Matrix.cons_val_one]
  rw [← pow_two, ← pow_two, Real.cos_sq_add_sin_sq, Real.sqrt_one]

theorem unitAt_dot (s t : ℝ) : eigenDotFin (unitAt s) (unitAt t) = Real.cos (t - s) := by
  unfold eigenDotFin unitAt
  rw [Fin.sum_univ_two]
  simp only [Matrix.cons_val_zero, Matrix.cons_val_one]
  rw [Real.cos_sub]
  ring

/-- The triangle inequality itself fails: angles of `1e-8` are rounded to zero, angles of `2e-8` are not. -/
theorem C83_angular_triangle_false :
    ∃ x y z : Fin 2 → ℝ, ∃ d, angularDistance x y = .fin 0 ∧ angularDistance y z = .fin 0 ∧
      angularDistance x z = .fin d ∧ 0 < d := by
  have small : ∀ s t : ℝ, t - s = 1 / 10 ^ 8 → angularDistance (unitAt s) (unitAt t) = .fin 0 := by
    intro s t h
    unfold angularDistance
    simp only [unitAt_norm, unitAt_dot, h, mul_one]
    rw [Dbl.fin_div one_ne_zero, div_one]
    rw [if_pos]
    rw [Dbl.fin_lt]
    have := Real.one_sub_sq_div_two_le_cos (x := 1 / 10 ^ 8)
    unfold distanceEpsilon
    norm_num at this ⊢
    linarith
  refine ⟨unitAt 0, unitAt (1 / 10 ^ 8), unitAt (2 / 10 ^ 8), 2 / 10 ^ 8, small _ _ (by norm_num),
    small _ _ (by norm_num), ?_, by norm_num⟩
  unfold angularDistance
  simp only [unitAt_norm, unitAt_dot, mul_one, sub_zero]
  rw [Dbl.fin_div one_ne_zero, div_one]
  have hb := Real.cos_bound (x := 2 / 10 ^ 8) (by rw [abs_of_pos (by norm_num)]; norm_num)
  have hb := abs_le.mp hb
  rw [abs_of_pos (show (0 : ℝ) < 2 / 10 ^ 8 by norm_num)] at hb
  have h1 : ¬ (1 - distanceEpsilon < Real.cos (2 / 10 ^ 8)) := by
    unfold distanceEpsilon
    have := hb.2
    norm_num at this ⊢
    linarith
  have h2 : ¬ (Real.cos (2 / 10 ^ 8) < -1 + distanceEpsilon) := by
    unfold distanceEpsilon
    have := hb.1
    norm_num at this ⊢
    linarith
  rw [if_neg (by rwa [Dbl.fin_lt]), if_neg (by rwa [Dbl.fin_lt])]
  show (if _ then Dbl.fin (Real.arccos _) else _) = _
  rw [if_pos ⟨Real.neg_one_le_cos _, Real.cos_le_one _⟩, Real.arccos_cos (by norm_num)]
  have := Real.pi_gt_three
  norm_num at this ⊢
  linarith

/-! ## The distance matrix -/

theorem mem_lowerPairs {n : Nat} {p : Nat × Nat} : p ∈ lowerPairs n ↔ p.2 ≤ p.1 ∧ p.1 < n := by
  unfold lowerPairs
  simp only [List.mem_flatMap, List.mem_range, List.mem_map]
  constructor
  · rintro ⟨i, hi, j, hj, rfl⟩; exact ⟨by omega, hi⟩
  · rintro ⟨h1, h2⟩; exact ⟨p.1, h2, p.2, by omega, rfl⟩

theorem distanceMatrix_fold {X D : Type} (metric : X → X → D) (xs : List X) :
    ∀ (ps : List (Nat × Nat)) (init : Nat → Nat → D), (∀ p ∈ ps, p.2 ≤ p.1 ∧ p.1 < xs.length) →
      ∃ m, ps.foldlM (distanceMatrixStep metric xs) init = .ok m ∧
        (∀ r c, ∀ x y, c ≤ r → xs[r]? = some x → xs[c]? = some y →
          ((r, c) ∈ ps ∨ (init r c = metric x y ∧ init c r = metric x y)) →
            m r c = metric x y ∧ m c r = metric x y) := by
  intro ps
  induction ps with
  | nil =>
    intro init _
    refine ⟨init, rfl, fun r c x y _ _ _ h => ?_⟩
    rcases h with h | h
    · simp at h
    · exact h
  | cons p ps ih =>
    intro init hp
    obtain ⟨hp1, hp2⟩ := hp p (by simp)
    have hlt : p.2 < xs.length := lt_of_le_of_lt hp1 hp2
    have hstep : distanceMatrixStep metric xs init p = .ok (fun r c =>
        if r = p.2 ∧ c = p.1 then (if p.1 = p.1 ∧ p.2 = p.2 then metric xs[p.1] xs[p.2] else init p.1 p.2)
        else if r = p.1 ∧ c = p.2 then metric xs[p.1] xs[p.2] else init r c) := by
      unfold distanceMatrixStep
      rw [vecGet_lt hp2, vecGet_lt hlt]
      rfl
    obtain ⟨m, hm, hspec⟩ := ih (fun r c =>
        if r = p.2 ∧ c = p.1 then (if p.1 = p.1 ∧ p.2 = p.2 then metric xs[p.1] xs[p.2] else init p.1 p.2)
        else if r = p.1 ∧ c = p.2 then metric xs[p.1] xs[p.2] else init r c) (fun q hq => hp q (by simp [hq]))
    refine ⟨m, ?_, fun r c x y hcr hx hy h => ?_⟩
    · rw [List.foldlM_cons, hstep]; exact hm
    · apply hspec r c x y hcr hx hy
      by_cases hmem : (r, c) ∈ ps
      · exact Or.inl hmem
      · right
        by_cases he : (r, c) = p
        · subst he
          obtain ⟨_, rfl⟩ := List.getElem?_eq_some_iff.mp hx
          obtain ⟨_, rfl⟩ := List.getElem?_eq_some_iff.mp hy
          simp
        · have h' : init r c = metric x y ∧ init c r = metric x y := by
            rcases h with h | h
            · rcases List.mem_cons.mp h with h | h
              · exact absurd h he
              · exact absurd h hmem
            · exact h
          have n1 : ¬ (r = p.1 ∧ c = p.2) := fun hh => he (by rw [hh.1, hh.2])
          have n2 : ¬ (r = p.2 ∧ c = p.1) := by
            rintro ⟨rfl, rfl⟩
            have : p.1 = p.2 := by omega
            exact he (by ext <;> simp [this])
          have n3 : ¬ (c = p.2 ∧ r = p.1) := fun hh => n1 ⟨hh.2, hh.1⟩
          have n4 : ¬ (c = p.1 ∧ r = p.2) := fun hh => n2 ⟨hh.2, hh.1⟩
          simp only [if_neg n1, if_neg n2, if_neg n3, if_neg n4]
          exact h'

/-- `distance_matrix` never fails; entry `(i, j)` is the metric of the later and the earlier of the two features,
for every metric, so the matrix is symmetric and, for a symmetric metric, holds the metric of features `i` and `j`
whatever the fresh matrix held. -/
theorem C83_distance_matrix {X D : Type} (metric : X → X → D) (xs : List X) (init : Nat → Nat → D) :
    ∃ m, distanceMatrix metric xs init = .ok m ∧
      (∀ (i j : Nat) (hi : i < xs.length) (hj : j < xs.length),
        m i j = (if j ≤ i then metric xs[i] xs[j] else metric xs[j] xs[i]) ∧ m i j = m j i) ∧
      ((∀ x y, metric x y = metric y x) →
        ∀ (i j : Nat) (hi : i < xs.length) (hj : j < xs.length), m i j = metric xs[i] xs[j]) := by
  obtain ⟨m, hm, hspec⟩ := distanceMatrix_fold metric xs (lowerPairs xs.length) init
    (fun p hp => mem_lowerPairs.mp hp)
  have key : ∀ (i j : Nat) (hi : i < xs.length) (hj : j < xs.length), j ≤ i →
      m i j = metric xs[i] xs[j] ∧ m j i = metric xs[i] xs[j] := fun i j hi hj h =>
    hspec i j _ _ h (List.getElem?_eq_getElem hi) (List.getElem?_eq_getElem hj)
      (Or.inl (mem_lowerPairs.mpr ⟨h, hi⟩))
  have key2 : ∀ (i j : Nat) (hi : i < xs.length) (hj : j < xs.length),
        m i j = (if j ≤ i then metric xs[i] xs[j] else metric xs[j] xs[i]) ∧ m i j = m j i := by
    intro i j hi hj
    by_cases h : j ≤ i
    · obtain ⟨h1, h2⟩ := key i j hi hj h
      rw [if_pos h]; exact ⟨h1, h1.trans h2.symm⟩
    · obtain ⟨h1, h2⟩ := key j i hj hi (by omega)
      rw [if_neg h]; exact ⟨h2, h2.trans h1.symm⟩
  refine ⟨m, hm, key2, fun hs i j hi hj => ?_⟩
  rw [(key2 i j hi hj).1]
  split_ifs
  · rfl
  · exact hs _ _

/-! ## Examples -/

example : angularDistance ![1, 0] ![0, 5] = .fin (Real.pi / 2) := by
  obtain ⟨d, e, -, -, -, h⟩ := C83_angular (x := ![1, 0]) (y := ![0, 5]) (by simp) (by simp)
  have ht : InnerProductGeometry.angle (toEuclidean ![1, 0]) (toEuclidean ![0, 5]) = Real.pi / 2 := by
    apply InnerProductGeometry.inner_eq_zero_iff_angle_eq_pi_div_two _ _ |>.mp
    rw [← eigenDotFin_eq]; simp [eigenDotFin]
  rw [e, h (by rw [ht]; simp; norm_num), ht]

example : ∃ m, distanceMatrix euclideanDistance ([1, 4, 2] : List ℝ) (fun _ _ => 7) = .ok m ∧ m 0 1 = 3 ∧ m 2 1 = 2 := by
  obtain ⟨m, hm, -, h⟩ := C83_distance_matrix euclideanDistance ([1, 4, 2] : List ℝ) (fun _ _ => 7)
  refine ⟨m, hm, ?_, ?_⟩
  · rw [h (C83_euclidean (n := 0)).1.1.symm 0 1 (by simp) (by simp)]; simp [euclideanDistance]; norm_num
  · rw [h (C83_euclidean (n := 0)).1.1.symm 2 1 (by simp) (by simp)]; simp [euclideanDistance]; norm_num

end Albatross
