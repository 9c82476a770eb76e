import Verif.ChiSquaredLawProps
import Verif.CrossValidationProps

/-! # Cross validated chi squared scores -/

namespace Albatross

open MeasureTheory ProbabilityTheory Matrix

/-- `ChiSquaredCdf` (evaluation/prediction_metrics.hpp lines 136-145): the metric that compares a joint prediction with the
targets of a group. -/
noncomputable def chiSquaredCdfMetric (b : Build) (llt : (d : Nat) → Llt d) (prediction : DynJoint)
    (truth : List ℝ × List ℝ) : Outcome Dbl :=
  chiSquaredJoint b llt prediction ⟨truth.1.length, fun i => truth.1.get i, fun i => truth.2.getD i.1 0⟩

/-- The same rows with other target means. -/
abbrev Dataset.withTargets {X : Type} (d : Dataset X ℝ) (y : Fin d.features.length → ℝ) : Dataset X ℝ :=
  { features := d.features, mean := List.ofFn y, variance := d.variance }

section
variable {X : Type} (d : Dataset X ℝ) (hd : d.Valid) (y : Fin d.features.length → ℝ)

include hd in
theorem withTargets_valid : (d.withTargets y).Valid := ⟨by simp, hd.2⟩

theorem withTargets_targets : datasetTargets (d.withTargets y) = ⟨y, (datasetTargets d).variance⟩ := by
  unfold datasetTargets
  congr 1
  funext i
  simp [List.getD_eq_getElem?_getD]

include hd in
theorem rowsAt_targets (idx : List (Fin d.features.length)) :
    (rowsAt d (idx.map (·.1))).map (·.2.1) = idx.map (datasetTargets d).mean ∧
    (rowsAt d (idx.map (·.1))).map (·.2.2) = idx.map (datasetTargets d).variance := by
  have hlt : ∀ i : Fin d.features.length, i.1 < d.rows.length := fun i => by rw [rows_length d hd]; exact i.2
  have e : rowsAt d (idx.map (·.1)) = idx.map fun i => d.rows[i.1]'(hlt i) := by
    unfold rowsAt
    rw [List.filterMap_map, ← List.filterMap_eq_map]
    refine List.filterMap_congr fun i _ => ?_
    simp [hlt i]
  have h2 : ∀ i : Fin d.features.length, i.1 < d.mean.length := fun i => by rw [hd.1]; exact i.2
  have h3 : ∀ i : Fin d.features.length, i.1 < d.variance.length := fun i => by rw [hd.2]; exact i.2
  rw [e, List.map_map, List.map_map]
  constructor
  · refine List.map_congr_left fun i _ => ?_
    have h := congrArg (·[i.1]?) (rows_mean d hd)
    simp only [List.getElem?_map, List.getElem?_eq_getElem (hlt i), List.getElem?_eq_getElem (h2 i), Option.map_some,
      Option.some.injEq] at h
    simpa [datasetTargets, List.getD_eq_getElem?_getD, List.getElem?_eq_getElem (h2 i)] using h
  · refine List.map_congr_left fun i _ => ?_
    have h := congrArg (·[i.1]?) (rows_variance d hd)
    simp only [List.getElem?_map, List.getElem?_eq_getElem (hlt i), List.getElem?_eq_getElem (h3 i), Option.map_some,
      Option.some.injEq] at h
    simpa [datasetTargets, List.getD_eq_getElem?_getD, List.getElem?_eq_getElem (h3 i)] using h

end

/-- The metric on a group. -/
theorem chiSquaredCdfMetric_group (b : Build) (llt : (d : Nat) → Llt d) {Y : Type} (idx : List Y)
    (pred : Joint (Fin idx.length)) (y v : Y → ℝ) :
    chiSquaredCdfMetric b llt ⟨idx.length, pred⟩ (idx.map y, idx.map v) =
      chiSquaredCdfVector b (llt idx.length) (fun k => pred.mean k - y (idx.get k))
        (pred.covariance + diagonal fun k => v (idx.get k)) := by
  unfold chiSquaredCdfMetric chiSquaredJoint
  rw [dif_pos (by simp)]
  congr 1
  · funext k
    simp
  · congr 2
    funext k
    simp [List.getD_eq_getElem?_getD]

variable {Ω : Type} [MeasurableSpace Ω] {P : Measure Ω} [IsProbabilityMeasure P]

/-- Scores of a normal deviation with covariance `T` that is scored with the covariance `S`. -/
theorem deviation_scores (b : Build) (llt : (d : Nat) → Llt d) {n : Nat} (hn : 0 < n) {S T : Matrix (Fin n) (Fin n) ℝ}
    (hS : S.PosDef) (hT : T.PosDef) {D : Ω → Fin n → ℝ} (hD : IsNormal P D 0 T) :
    ∃ V : Ω → ℝ, (∀ ω, chiSquaredCdfVector b (llt n) (D ω) S = .ok (.fin (V ω))) ∧
      (S = T → ∀ p : ℝ, 0 ≤ p → p ≤ 1 →
        |P.real {ω | V ω ≤ p} - p| ≤ 7 / 10 ^ 5 ∧ |P.real {ω | p < V ω} - (1 - p)| ≤ 7 / 10 ^ 5) ∧
      ((S - T).PosSemidef → ∀ p : ℝ, 0 ≤ p → p ≤ 1 → p - 7 / 10 ^ 5 ≤ P.real {ω | V ω ≤ p}) ∧
      ((T - S).PosSemidef → ∀ p : ℝ, 0 ≤ p → p ≤ 1 → P.real {ω | V ω ≤ p} ≤ p + 7 / 10 ^ 5) := by
  have hq : ∀ ω, 0 ≤ D ω ⬝ᵥ (S⁻¹ *ᵥ D ω) := fun ω => (inv_quadratic_nonneg hS (D ω)).1
  choose V hV _ _ using fun ω => chiSquaredCdf_near b hn (hq ω)
  have hV' : ∀ ω, chiSquaredCdfVector b (llt n) (D ω) S = .ok (.fin (V ω)) := fun ω => by
    rw [C50_vector b (llt n) _ _ hS]; exact hV ω
  have hneg : IsNormal P (fun ω i => -D ω i) 0 T := by simpa using deviation_normal hD
  have hcode : ∀ ω, chiSquaredJoint b llt ⟨n, ⟨0, S⟩⟩ ⟨n, fun i => -D ω i, 0⟩ = .ok (.fin (V ω)) := by
    intro ω
    rw [chiSquaredJoint_same, ← hV' ω]
    congr 1
    · funext i; simp
    · have : (diagonal (0 : Fin n → ℝ)) = 0 := Matrix.diagonal_zero
      simp [this]
  have e0 : S + diagonal (0 : Fin n → ℝ) = S := by
    have : (diagonal (0 : Fin n → ℝ)) = 0 := Matrix.diagonal_zero
    rw [this, add_zero]
  have hw := fun p h0 h1 => C119_wrong_covariance b llt hn (⟨0, S⟩ : Joint (Fin n)) 0 (by simpa only [e0] using hS) hT hneg
    (t := p) h0 h1
  simp only [e0, fun ω p => (candidate_iff b llt (t := p) (hcode ω)).1] at hw
  refine ⟨V, hV', ?_, fun h p h0 h1 => (hw p h0 h1).2 h, fun h p h0 h1 => (hw p h0 h1).1 h⟩
  rintro rfl p h0 h1
  obtain ⟨V', h1', h2'⟩ := chiSquaredCdfVector_uniform b hn (llt n) hS hD
  have : V' = V := by
    funext ω
    have := (h1' ω).symm.trans (hV' ω)
    exact Dbl.fin.inj (Except.ok.inj this)
  rw [← this]
  exact (h2' p h0 h1).1

/-! ## The errors of held out predictions -/

section
variable {X : Type} (ldlt : LdltRoutine)
  (hl : ∀ n (M : Matrix (Fin n) (Fin n) ℝ), M.PosDef → (ldlt n M).Factors M)
  (g : Gp X) (hsym : ∀ x y, g.cov x y = g.cov y x) (d : Dataset X ℝ) (hd : d.Valid)
  (hA : (obsCovariance g d.features.get (datasetTargets d).variance).PosDef)

include hl hsym hd hA

/-- The prediction of a group in closed form. -/
theorem refitNoisy_withTargets (y : Fin d.features.length → ℝ) (idx : List (Fin d.features.length)) (hn : idx.Nodup)
    (hcross : ∀ i ∈ idx, ∀ j ∉ idx, g.cov (g.asMeas (d.features.get i)) (g.asMeas (d.features.get j)) =
      g.cov (d.features.get i) (d.features.get j))
    (hmean : ∀ i, g.mean (g.asMeas (d.features.get i)) = g.mean (d.features.get i)) :
    let A := obsCovariance g d.features.get (datasetTargets d).variance
    refitNoisy ldlt g (d.withTargets y) idx =
      ⟨(fun k => y (idx.get k)) - (A⁻¹.submatrix idx.get idx.get)⁻¹ *ᵥ
        (fun k => (A⁻¹ *ᵥ fun i => y i - g.mean (g.asMeas (d.features.get i))) (idx.get k)),
        (A⁻¹.submatrix idx.get idx.get)⁻¹⟩ := by
  intro A
  have ht := withTargets_targets d y
  have hv : (datasetTargets (d.withTargets y)).variance = (datasetTargets d).variance := by rw [ht]
  have hm : (datasetTargets (d.withTargets y)).mean = y := by rw [ht]
  have h := heldOutValue_refit ldlt hl g hsym (d.withTargets y) (withTargets_valid d hd y) (by rw [hv]; exact hA) idx hn
    hcross hmean
  rw [← h, hv, hm]
  have hfit := fit_fitOf g hsym (ldlt _) d.features.get (datasetTargets (d.withTargets y))
    (by rw [hv]; exact hl _ _ hA) (by rw [hv]; exact (Matrix.isUnit_iff_isUnit_det _).1 hA.isUnit)
  have hi := hfit.information
  rw [hv, hm] at hi
  have hi' : (gpFitDataset ldlt g (d.withTargets y)).information =
    A⁻¹ *ᵥ fun i => y i - g.mean (g.asMeas (d.features.get i)) := hi
  rw [hi']
  rfl

/-- If the targets come from the model, the errors of the prediction of a group are normal with the covariance of the
prediction of measurements. -/
theorem heldOut_error_normal (idx : List (Fin d.features.length)) (hn : idx.Nodup)
    (hcross : ∀ i ∈ idx, ∀ j ∉ idx, g.cov (g.asMeas (d.features.get i)) (g.asMeas (d.features.get j)) =
      g.cov (d.features.get i) (d.features.get j))
    (hmean : ∀ i, g.mean (g.asMeas (d.features.get i)) = g.mean (d.features.get i))
    {Y : Ω → Fin d.features.length → ℝ}
    (hY : IsNormal P Y (fun i => g.mean (g.asMeas (d.features.get i)))
      (obsCovariance g d.features.get (datasetTargets d).variance)) :
    let T := ((obsCovariance g d.features.get (datasetTargets d).variance)⁻¹.submatrix idx.get idx.get)⁻¹
    T.PosDef ∧ (∀ ω, (refitNoisy ldlt g (d.withTargets (Y ω)) idx).covariance = T) ∧
    IsNormal P (fun ω k => (refitNoisy ldlt g (d.withTargets (Y ω)) idx).mean k - Y ω (idx.get k)) 0 T := by
  intro T
  set A := obsCovariance g d.features.get (datasetTargets d).variance with hAdef
  set B := A⁻¹.submatrix idx.get idx.get with hB
  have hBp : B.PosDef := hA.inv.submatrix hn.injective_get
  have hAu := (Matrix.isUnit_iff_isUnit_det _).1 hA.isUnit
  have hBu := (Matrix.isUnit_iff_isUnit_det _).1 hBp.isUnit
  have hval := fun ω => refitNoisy_withTargets ldlt hl g hsym d hd hA (Y ω) idx hn hcross hmean
  refine ⟨hBp.inv, fun ω => by rw [hval ω], ?_⟩
  set E := A⁻¹.submatrix idx.get id with hE
  set m : Fin d.features.length → ℝ := fun i => g.mean (g.asMeas (d.features.get i)) with hm
  have h := hY.affine (-(B⁻¹ * E)) ((B⁻¹ * E) *ᵥ m)
  have e1 : -(B⁻¹ * E) *ᵥ m + (B⁻¹ * E) *ᵥ m = 0 := by rw [neg_mulVec, neg_add_cancel]
  have hAt : (A⁻¹)ᵀ = A⁻¹ := by rw [Matrix.transpose_nonsing_inv, obsCovariance_symm g hsym]
  have hBt : (B⁻¹)ᵀ = B⁻¹ := by
    rw [Matrix.transpose_nonsing_inv, hB, Matrix.transpose_submatrix, hAt]
  have e2 : -(B⁻¹ * E) * A * (-(B⁻¹ * E))ᵀ = T := by
    have hEA : E * A = (1 : Matrix (Fin d.features.length) (Fin d.features.length) ℝ).submatrix idx.get id := by
      rw [hE, ← Matrix.nonsing_inv_mul _ hAu]
      ext i j
      simp [mul_apply]
    have hEE : E * A * Eᵀ = B := by
      rw [hEA, hE, Matrix.transpose_submatrix, hAt, hB]
      ext i j
      simp [mul_apply, Matrix.one_apply]
    rw [Matrix.transpose_neg, Matrix.neg_mul, Matrix.neg_mul, Matrix.mul_neg, neg_neg, Matrix.transpose_mul, hBt]
    calc B⁻¹ * E * A * (Eᵀ * B⁻¹) = B⁻¹ * (E * A * Eᵀ) * B⁻¹ := by simp only [Matrix.mul_assoc]
      _ = B⁻¹ := by rw [hEE, Matrix.nonsing_inv_mul _ hBu, Matrix.one_mul]
  rw [e1, e2] at h
  have e3 : (fun ω => -(B⁻¹ * E) *ᵥ Y ω + (B⁻¹ * E) *ᵥ m) =
      fun ω k => (refitNoisy ldlt g (d.withTargets (Y ω)) idx).mean k - Y ω (idx.get k) := by
    funext ω k
    rw [hval ω]
    show (-(B⁻¹ * E) *ᵥ Y ω + (B⁻¹ * E) *ᵥ m) k =
      ((fun k => Y ω (idx.get k)) - B⁻¹ *ᵥ (E *ᵥ (Y ω - m))) k - Y ω (idx.get k)
    rw [neg_mulVec, mulVec_mulVec, mulVec_sub]
    simp only [Pi.add_apply, Pi.neg_apply, Pi.sub_apply]
    ring
  rwa [e3] at h

end

end Albatross
