import Verif.CrossValidationProps
import Verif.ProperScoresProps
import Mathlib.Data.List.GetD

/-! # Scores of batches that are predicted one after the other (C124)

Specification: the log density of the targets of a dataset under the prior of the model, with the variances of the targets,
and one dataset holding all the rows. -/

namespace Albatross

open Matrix

variable {X : Type}

/-- The log density of the targets of a dataset: their mean and covariance are those of the measurements, the variances of
the targets are added. -/
noncomputable def logEvidence (g : Gp X) (d : Dataset X ℝ) : ℝ :=
  gaussianLogPdf (fun i => g.mean (g.asMeas (d.features.get i)))
    (obsCovariance g d.features.get (datasetTargets d).variance) (datasetTargets d).mean

/-- The rows of two datasets, one after the other. -/
def Dataset.followedBy (x y : Dataset X ℝ) : Dataset X ℝ :=
  { features := x.features ++ y.features, mean := x.mean ++ y.mean, variance := x.variance ++ y.variance }

/-- The dataset without rows. -/
def noData : Dataset X ℝ := { features := [], mean := [], variance := [] }

/-- The rows of all of them. -/
def together (past : Dataset X ℝ) : List (Dataset X ℝ) → Dataset X ℝ
  | [] => past
  | d :: ds => together (past.followedBy d) ds

/-- `NegativeLogLikelihood<JointDistribution>()(model.fit(past).predict_with_measurement_noise(batch.features).joint(),
batch.targets)` (core/fit_model.hpp lines 54-62, evaluation/prediction_metrics.hpp lines 112-119, 130-134). -/
noncomputable def batchScore (b : Build) (ldlt : LdltRoutine) (g : Gp X) (past batch : Dataset X ℝ) : Outcome Dbl :=
  match predictionJoint (gpPredictImpl g (gpFitDataset ldlt g past)) (withMeasurementNoise g.asMeas batch.features) with
  | some p => nllJoint b ldlt p (batch.mean, batch.variance)
  | none => .error .ub

/-- Every batch is scored by a model fitted to all that came before, then added with `concatenate_datasets`. -/
noncomputable def sequentialScores (b : Build) (ldlt : LdltRoutine) (g : Gp X) :
    Dataset X ℝ → List (Dataset X ℝ) → Outcome (List Dbl)
  | _, [] => pure []
  | past, d :: ds => do
    let s ← batchScore b ldlt g past d
    let next ← concatenateDatasets b past d
    let rest ← sequentialScores b ldlt g next ds
    pure (s :: rest)

/-- A measurement at `x` and another at `y` have no error in common. -/
def SeparateErrors (g : Gp X) (x y : X) : Prop :=
  g.cov x (g.asMeas y) = g.cov (g.asMeas x) (g.asMeas y)

/-! ## Densities do not depend on the order of the rows -/

theorem gaussianLogPdf_equiv {a c : Type} [Fintype a] [DecidableEq a] [Fintype c] [DecidableEq c] (e : a ≃ c) (μ : c → ℝ)
    (S : Matrix c c ℝ) (y : c → ℝ) :
    gaussianLogPdf (fun i => μ (e i)) (S.submatrix e e) (fun i => y (e i)) = gaussianLogPdf μ S y := by
  unfold gaussianLogPdf
  rw [inv_submatrix_equiv, det_submatrix_equiv_self, Fintype.card_congr e]
  have h1 : ((fun i => y (e i)) - fun i => μ (e i)) = (y - μ) ∘ e := rfl
  rw [h1, submatrix_mulVec_equiv]
  have h2 : ((y - μ) ∘ e) ∘ e.symm = y - μ := by
    funext i
    simp
  rw [h2, comp_equiv_dotProduct_comp_equiv]

theorem perm_equiv {α : Type} {l l' : List α} (h : l.Perm l') :
    ∃ e : Fin l.length ≃ Fin l'.length, ∀ i, l'.get (e i) = l.get i := by
  induction h with
  | nil => exact ⟨Equiv.refl _, fun i => rfl⟩
  | @cons x l l' _ ih =>
    obtain ⟨e, he⟩ := ih
    refine ⟨(finSuccEquiv _).trans ((Equiv.optionCongr e).trans (finSuccEquiv _).symm), fun i => ?_⟩
    refine Fin.cases ?_ (fun j => ?_) i
    · simp
    · simpa using he j
  | swap x y l =>
    refine ⟨Equiv.swap 0 1, fun i => ?_⟩
    refine Fin.cases ?_ (fun j => ?_) i
    · rw [Equiv.swap_apply_left]; rfl
    · refine Fin.cases ?_ (fun k => ?_) j
      · exact congrArg _ (Equiv.swap_apply_right _ _)
      · rw [Equiv.swap_apply_of_ne_of_ne (by simp [Fin.ext_iff]) (by simp [Fin.ext_iff])]
        rfl
  | trans _ _ ih1 ih2 =>
    obtain ⟨e, he⟩ := ih1
    obtain ⟨f, hf⟩ := ih2
    exact ⟨e.trans f, fun i => by rw [Equiv.trans_apply, hf, he]⟩

/-- The same from rows. -/
noncomputable def rowsEvidence (g : Gp X) (l : List (X × ℝ × ℝ)) : ℝ :=
  gaussianLogPdf (fun i => g.mean (g.asMeas (l.get i).1))
    (obsCovariance g (fun i => (l.get i).1) fun i => (l.get i).2.2) (fun i => (l.get i).2.1)

theorem rowsEvidence_perm (g : Gp X) {l l' : List (X × ℝ × ℝ)} (h : l.Perm l') :
    rowsEvidence g l = rowsEvidence g l' := by
  obtain ⟨e, he⟩ := perm_equiv h
  unfold rowsEvidence
  rw [← gaussianLogPdf_equiv e]
  congr 1
  · funext i; rw [he]
  · ext i j
    simp only [obsCovariance, submatrix_apply, of_apply, he, e.injective.eq_iff]
  · funext i; rw [he]

theorem dataset_row (d : Dataset X ℝ) (hd : d.Valid) (hlen : d.features.length = d.rows.length)
    (i : Fin d.features.length) : d.rows.get (finCongr hlen i) =
      (d.features.get i, (datasetTargets d).mean i, (datasetTargets d).variance i) := by
  have h1 : i.1 < d.mean.length := by rw [hd.1]; exact i.2
  have h2 : i.1 < d.variance.length := by rw [hd.2]; exact i.2
  simp only [Dataset.rows, datasetTargets, List.get_eq_getElem, List.getElem_zip,
    List.getD_eq_getElem?_getD, List.getElem?_eq_getElem h1, List.getElem?_eq_getElem h2, Option.getD_some]
  rfl

theorem logEvidence_rows (g : Gp X) (d : Dataset X ℝ) (hd : d.Valid) : logEvidence g d = rowsEvidence g d.rows := by
  have hlen : d.features.length = d.rows.length := (rows_length d hd).symm
  have key := dataset_row d hd hlen
  unfold rowsEvidence logEvidence
  rw [← gaussianLogPdf_equiv (finCongr hlen)]
  simp only [key]
  congr 1
  ext i j
  simp only [obsCovariance, submatrix_apply, of_apply, key, (finCongr hlen).injective.eq_iff]

/-- The log density of the targets does not depend on the order of the rows. -/
theorem C124_row_order (g : Gp X) (d d' : Dataset X ℝ) (hd : d.Valid) (hd' : d'.Valid) (h : d.rows.Perm d'.rows) :
    logEvidence g d = logEvidence g d' := by
  rw [logEvidence_rows g d hd, logEvidence_rows g d' hd', rowsEvidence_perm g h]

/-! ## One batch -/

theorem followedBy_valid {x y : Dataset X ℝ} (hx : x.Valid) (hy : y.Valid) : (x.followedBy y).Valid := by
  simp [Dataset.followedBy, Dataset.Valid, hx.1, hx.2, hy.1, hy.2]

theorem concatenateDatasets_followedBy (b : Build) {x y : Dataset X ℝ} (hx : x.Valid) (hy : y.Valid) :
    concatenateDatasets b x y = .ok (x.followedBy y) := by
  simp [concatenateDatasets, mkDataset, concatenate_eq, hx.1, hx.2, hy.1, hy.2, Dataset.followedBy]

theorem nllJoint_lists (b : Build) (ldlt : LdltRoutine) (p : DynJoint) (ys vs : List ℝ) (hy : ys.length = p.dim)
    (hv : vs.length = p.dim) (hS : (p.dist.covariance + diagonal fun i : Fin p.dim => vs.getD i 0).PosDef)
    (hl : ∀ M : Matrix (Fin p.dim) (Fin p.dim) ℝ, M.PosDef → (ldlt p.dim M).Factors M) :
    nllJoint b ldlt p (ys, vs) = .ok (.fin (-gaussianLogPdf p.dist.mean
      (p.dist.covariance + diagonal fun i : Fin p.dim => vs.getD i 0) (fun i : Fin p.dim => ys.getD i 0))) := by
  have key : ∀ l : List ℝ, l.length = p.dim → List.ofFn (fun i : Fin p.dim => l.getD i 0) = l := by
    intro l hl
    refine List.ext_getElem (by simp [hl]) fun i h1 h2 => ?_
    simp [List.getElem?_eq_getElem h2]
  have := C89_nll_joint b ldlt p.dist (fun i : Fin p.dim => ys.getD i 0) (fun i : Fin p.dim => vs.getD i 0) (hl _ hS) hS
  rwa [key ys hy, key vs hv] at this

/-- Independent errors on top of what is predicted. -/
theorem conditional_add_noise {a c : Type} [Fintype a] [Fintype c] {mf : a → ℝ} {mz : c → ℝ} {Sff : Matrix a a ℝ}
    {Sfz : Matrix a c ℝ} {Szz : Matrix c c ℝ} {y : c → ℝ} {μ : a → ℝ} {P : Matrix a a ℝ}
    (h : IsGaussianConditional mf mz Sff Sfz Szz y μ P) (D : Matrix a a ℝ) :
    IsGaussianConditional mf mz (Sff + D) Sfz Szz y μ (P + D) := by
  obtain ⟨W, h1, h2, h3⟩ := h
  exact ⟨W, h1, h2, by rw [h3]; abel⟩

theorem conditional_posDef {a c : Type} [Fintype a] [DecidableEq a] [Fintype c] [DecidableEq c] {mf : a → ℝ} {mz : c → ℝ}
    {Sff : Matrix a a ℝ} {Sfz : Matrix a c ℝ} {Szz : Matrix c c ℝ} {y : c → ℝ} {μ : a → ℝ} {P : Matrix a a ℝ}
    (hpd : (fromBlocks Szz Sfzᵀ Sfz Sff).PosDef) (h : IsGaussianConditional mf mz Sff Sfz Szz y μ P) : P.PosDef := by
  have hz : Szz.PosDef := hpd.submatrix (e := (Sum.inl : c → c ⊕ a)) Sum.inl_injective
  have hzs : Szzᵀ = Szz := by
    have := hz.isHermitian.eq; rwa [conjTranspose_eq_transpose_of_trivial] at this
  have hzu : IsUnit Szz.det := (Matrix.isUnit_iff_isUnit_det _).1 hz.isUnit
  obtain ⟨_, hP⟩ := (isGaussianConditional_iff hzs hzu).1 h
  let := Matrix.invertibleOfIsUnitDet Szz hzu
  have hdet : (fromBlocks Szz Sfzᵀ Sfz Sff).det = Szz.det * P.det := by
    rw [det_fromBlocks₁₁, invOf_eq_nonsing_inv, hP]
  have hsemi := (PosDef.fromBlocks₁₁ Sfzᵀ Sff hz).1 (by
    rw [conjTranspose_eq_transpose_of_trivial, transpose_transpose]; exact hpd.posSemidef)
  rw [conjTranspose_eq_transpose_of_trivial, transpose_transpose, ← hP] at hsemi
  refine hsemi.posDef_iff_det_ne_zero.2 fun h0 => hpd.det_pos.ne' ?_
  rw [hdet, h0, mul_zero]

section Batch

variable (g : Gp X) (past batch : Dataset X ℝ) {q : List X} (hq : q = batch.features.map g.asMeas)

include hq in
theorem batch_length : q.length = batch.features.length := by simp [hq]

/-- The rows of the past and of the batch, as rows of both. -/
def rowsOfBoth : Fin past.features.length ⊕ Fin q.length ≃ Fin (past.followedBy batch).features.length :=
  finSumFinEquiv.trans (finCongr (by simp [Dataset.followedBy, hq]))

theorem rowsOfBoth_left (i : Fin past.features.length) : (rowsOfBoth g past batch hq (.inl i)).1 = i.1 := rfl

theorem rowsOfBoth_right (j : Fin q.length) : (rowsOfBoth g past batch hq (.inr j)).1 = past.features.length + j.1 := rfl

theorem both_features_left (i : Fin past.features.length) :
    (past.followedBy batch).features.get (rowsOfBoth g past batch hq (.inl i)) = past.features.get i := by
  simp only [List.get_eq_getElem, rowsOfBoth_left]
  exact List.getElem_append_left i.2

theorem both_features_right (j : Fin q.length) :
    g.asMeas ((past.followedBy batch).features.get (rowsOfBoth g past batch hq (.inr j))) = q[j] := by
  subst hq
  simp only [List.get_eq_getElem, rowsOfBoth_right, Fin.getElem_fin, List.getElem_map]
  congr 1
  exact (List.getElem_append_right (by omega)).trans (by simp)

theorem both_getD_left {l l' : List ℝ} {k : Nat} (hl : l.length = k) (i : Fin k) : (l ++ l').getD i.1 0 = l.getD i.1 0 := by
  rw [List.getD_append _ _ _ _ (by rw [hl]; exact i.2)]

theorem both_getD_right {l l' : List ℝ} {k : Nat} (hl : l.length = k) (i : Nat) :
    (l ++ l').getD (k + i) 0 = l'.getD i 0 := by
  rw [List.getD_append_right _ _ _ _ (by omega), hl, Nat.add_sub_cancel_left]

include hq in
theorem batchScore_eq (b : Build) (ldlt : LdltRoutine) : batchScore b ldlt g past batch =
    nllJoint b ldlt ⟨q.length, g.predictJoint (gpFitDataset ldlt g past) fun j => q[j]⟩ (batch.mean, batch.variance) := by
  unfold batchScore predictionJoint PredictImpl.jointPredictor gpPredictImpl
  simp only [Option.map_some, withMeasurementNoise_eq, ← hq]
  congr 1
  by_cases h0 : q.length = 0
  · rw [if_pos h0]
    clear hq
    obtain rfl := List.length_eq_zero_iff.1 h0
    refine congrArg (DynJoint.mk 0) ?_
    congr 1
    · exact Subsingleton.elim _ _
    · exact Subsingleton.elim _ _
  · rw [if_neg h0]

/-- C124. One batch: the score of a batch under a model fitted to the past is what the log density of all the data loses
when the batch is added. -/
theorem C124_one_batch (b : Build) (ldlt : LdltRoutine) (hl : ∀ n M, M.PosDef → (ldlt n M).Factors M)
    (hsym : ∀ x y, g.cov x y = g.cov y x) (hx : past.Valid) (hy : batch.Valid)
    (hsep : ∀ x ∈ past.features, ∀ y ∈ batch.features, SeparateErrors g x y)
    (hpd : (obsCovariance g (past.followedBy batch).features.get (datasetTargets (past.followedBy batch)).variance).PosDef) :
    batchScore b ldlt g past batch = .ok (.fin (logEvidence g past - logEvidence g (past.followedBy batch))) := by
  classical
  obtain ⟨q, hq⟩ : ∃ q, q = batch.features.map g.asMeas := ⟨_, rfl⟩
  set e := rowsOfBoth g past batch hq with he
  set A := obsCovariance g past.features.get (datasetTargets past).variance with hA
  set v : Fin q.length → ℝ := fun j => batch.variance.getD j 0 with hv
  set S := obsCovariance g (past.followedBy batch).features.get (datasetTargets (past.followedBy batch)).variance with hS
  set Sfz : Matrix (Fin q.length) (Fin past.features.length) ℝ := of fun j i => g.cov q[j] (past.features.get i) with hSfz
  set Sff : Matrix (Fin q.length) (Fin q.length) ℝ := of fun j j' => g.cov q[j] q[j'] with hSff
  have hcross : ∀ (j : Fin q.length) (i : Fin past.features.length),
      g.cov (g.asMeas (past.features.get i)) q[j] = g.cov q[j] (past.features.get i) := by
    intro j i
    have hj : j.1 < batch.features.length := by simpa [hq] using j.2
    have h1 : q[j] = g.asMeas batch.features[j.1] := by simp [hq]
    rw [h1, ← hsep _ (List.get_mem _ i) _ (List.getElem_mem hj), hsym]
  have hblock : S.submatrix e e = fromBlocks A Sfzᵀ Sfz (Sff + diagonal v) := by
    ext i j
    have hinj : ∀ r s, (e r = e s) = (r = s) := fun r s => propext e.injective.eq_iff
    simp only [submatrix_apply, hS, obsCovariance, of_apply, hinj]
    rcases i with i | i <;> rcases j with j | j
    · rw [he, both_features_left, both_features_left]
      simp only [hA, obsCovariance, fromBlocks_apply₁₁, of_apply, Sum.inl.injEq]
      congr 2
      exact both_getD_left hx.2 i
    · rw [he, both_features_left, both_features_right]
      simp only [fromBlocks_apply₁₂, reduceCtorEq, if_false, add_zero, transpose_apply, hSfz, of_apply]
      exact hcross j i
    · rw [he, both_features_left, both_features_right]
      simp only [fromBlocks_apply₂₁, reduceCtorEq, if_false, add_zero, hSfz, of_apply]
      rw [hsym, hcross]
    · rw [he, both_features_right, both_features_right]
      simp only [fromBlocks_apply₂₂, Matrix.add_apply, hSff, of_apply, diagonal_apply, Sum.inr.injEq]
      congr 2
      exact both_getD_right hx.2 i.1
  have hbpd : (fromBlocks A Sfzᵀ Sfz (Sff + diagonal v)).PosDef := by
    rw [← hblock]; exact hpd.submatrix e.injective
  have hApd : A.PosDef := hbpd.submatrix (e := Sum.inl) Sum.inl_injective
  have hAu : IsUnit A.det := (Matrix.isUnit_iff_isUnit_det _).1 hApd.isUnit
  have hcond := conditional_add_noise (C27_prediction_is_conditional g hsym (ldlt past.features.length) past.features.get
    (datasetTargets past) (hl _ _ hApd) hAu fun j : Fin q.length => q[j]) (diagonal v)
  have hPpd := conditional_posDef hbpd hcond
  have hbayes := gaussian_bayes hbpd hcond fun j : Fin q.length => batch.mean.getD j 0
  have htotal : logEvidence g (past.followedBy batch) =
      gaussianLogPdf (Sum.elim (fun i => g.mean (g.asMeas (past.features.get i))) fun j : Fin q.length => g.mean q[j])
        (fromBlocks A Sfzᵀ Sfz (Sff + diagonal v))
        (Sum.elim (datasetTargets past).mean fun j : Fin q.length => batch.mean.getD j 0) := by
    unfold logEvidence
    rw [← gaussianLogPdf_equiv e, hblock]
    congr 1
    · funext r
      rcases r with i | j
      · rw [he, both_features_left]; rfl
      · rw [he, both_features_right]; rfl
    · funext r
      rcases r with i | j
      · exact both_getD_left hx.1 i
      · exact both_getD_right hx.1 j.1
  have hscore : ∀ p : DynJoint, p = ⟨q.length, g.predictJoint (gpFitDataset ldlt g past) fun j => q[j]⟩ →
      nllJoint b ldlt p (batch.mean, batch.variance) =
        .ok (.fin (logEvidence g past - logEvidence g (past.followedBy batch))) := by
    rintro p rfl
    rw [nllJoint_lists b ldlt _ _ _ (by simp [hq, hy.1]) (by simp [hq, hy.2]) hPpd (hl _), htotal, hbayes]
    congr 2
    show -gaussianLogPdf _ _ _ = gaussianLogPdf _ _ _ - _
    rw [sub_add_cancel_left]
    rfl
  rw [batchScore_eq g past batch hq]
  exact hscore _ rfl

end Batch

/-! ## Batch after batch -/

/-- The covariance of the targets of a dataset. -/
noncomputable def targetCovariance (g : Gp X) (d : Dataset X ℝ) :
    Matrix (Fin d.features.length) (Fin d.features.length) ℝ :=
  obsCovariance g d.features.get (datasetTargets d).variance

theorem targetCovariance_past (g : Gp X) {x y : Dataset X ℝ} (hx : x.Valid)
    (h : (targetCovariance g (x.followedBy y)).PosDef) : (targetCovariance g x).PosDef := by
  have hle : x.features.length ≤ (x.followedBy y).features.length := by simp [Dataset.followedBy]
  have : targetCovariance g x = (targetCovariance g (x.followedBy y)).submatrix (Fin.castLE hle) (Fin.castLE hle) := by
    ext i j
    have hf : ∀ i : Fin x.features.length,
        (x.followedBy y).features.get (Fin.castLE hle i) = x.features.get i := fun i =>
      List.getElem_append_left i.2
    simp only [targetCovariance, obsCovariance, of_apply, submatrix_apply, hf, (Fin.castLE_injective hle).eq_iff]
    congr 2
    exact (both_getD_left hx.2 i).symm
  rw [this]
  exact h.submatrix (Fin.castLE_injective hle)

theorem together_valid {past : Dataset X ℝ} {ds : List (Dataset X ℝ)} (hx : past.Valid) (hds : ∀ d ∈ ds, d.Valid) :
    (together past ds).Valid := by
  induction ds generalizing past with
  | nil => exact hx
  | cons d ds ih =>
    exact ih (followedBy_valid hx (hds d (by simp))) fun d' h => hds d' (by simp [h])

theorem targetCovariance_together (g : Gp X) {past : Dataset X ℝ} {ds : List (Dataset X ℝ)} (hx : past.Valid)
    (hds : ∀ d ∈ ds, d.Valid) (h : (targetCovariance g (together past ds)).PosDef) : (targetCovariance g past).PosDef := by
  induction ds generalizing past with
  | nil => exact h
  | cons d ds ih =>
    exact targetCovariance_past g hx
      (ih (followedBy_valid hx (hds d (by simp))) (fun d' h => hds d' (by simp [h])) h)

/-- Measurements in different batches have no errors in common. -/
def BatchesSeparate (g : Gp X) (past : Dataset X ℝ) (ds : List (Dataset X ℝ)) : Prop :=
  (past :: ds).Pairwise fun a c => ∀ x ∈ a.features, ∀ y ∈ c.features, SeparateErrors g x y

/-- C124. Scoring batch after batch, every batch under the model fitted to all that came before: nothing fails, and the
scores add up to what the log density of all the data loses. -/
theorem C124_batches (b : Build) (ldlt : LdltRoutine) (hl : ∀ n M, M.PosDef → (ldlt n M).Factors M) (g : Gp X)
    (hsym : ∀ x y, g.cov x y = g.cov y x) (past : Dataset X ℝ) (ds : List (Dataset X ℝ)) (hx : past.Valid)
    (hds : ∀ d ∈ ds, d.Valid) (hsep : BatchesSeparate g past ds)
    (hpd : (targetCovariance g (together past ds)).PosDef) :
    ∃ scores : List ℝ, sequentialScores b ldlt g past ds = .ok (scores.map Dbl.fin) ∧ scores.length = ds.length ∧
      scores.sum = logEvidence g past - logEvidence g (together past ds) := by
  induction ds generalizing past with
  | nil => exact ⟨[], rfl, rfl, by simp [together]⟩
  | cons d ds ih =>
    have hd : d.Valid := hds d (by simp)
    have hds' : ∀ d' ∈ ds, d'.Valid := fun d' h => hds d' (by simp [h])
    have hxd := followedBy_valid hx hd
    obtain ⟨hs1, hs2⟩ := List.pairwise_cons.1 hsep
    obtain ⟨hs3, hs4⟩ := List.pairwise_cons.1 hs2
    have hsep' : BatchesSeparate g (past.followedBy d) ds := by
      refine List.pairwise_cons.2 ⟨fun c hc x hxm y hym => ?_, hs4⟩
      rcases List.mem_append.1 hxm with h | h
      · exact hs1 c (by simp [hc]) x h y hym
      · exact hs3 c hc x h y hym
    obtain ⟨scores, h1, h2, h3⟩ := ih (past.followedBy d) hxd hds' hsep' hpd
    refine ⟨(logEvidence g past - logEvidence g (past.followedBy d)) :: scores, ?_, by simp [h2], ?_⟩
    · rw [sequentialScores, C124_one_batch g past d b ldlt hl hsym hx hd (hs1 d (by simp))
        (targetCovariance_together g hxd hds' hpd), except_ok_bind, concatenateDatasets_followedBy b hx hd, except_ok_bind,
        h1, except_ok_bind]
      rfl
    · rw [List.sum_cons, h3, together]
      ring

theorem logEvidence_empty (g : Gp X) : logEvidence g noData = 0 := by
  unfold logEvidence gaussianLogPdf noData
  simp [det_eq_one_of_card_eq_zero]

/-- From nothing: minus the log density of all the data. -/
theorem C124_from_nothing (b : Build) (ldlt : LdltRoutine) (hl : ∀ n M, M.PosDef → (ldlt n M).Factors M) (g : Gp X)
    (hsym : ∀ x y, g.cov x y = g.cov y x) (ds : List (Dataset X ℝ))
    (hds : ∀ d ∈ ds, d.Valid) (hsep : BatchesSeparate g noData ds)
    (hpd : (targetCovariance g (together noData ds)).PosDef) :
    ∃ scores : List ℝ, sequentialScores b ldlt g noData ds = .ok (scores.map Dbl.fin) ∧ scores.length = ds.length ∧
      scores.sum = -logEvidence g (together noData ds) := by
  obtain ⟨scores, h1, h2, h3⟩ := C124_batches b ldlt hl g hsym noData ds ⟨rfl, rfl⟩ hds hsep hpd
  exact ⟨scores, h1, h2, by rw [h3, logEvidence_empty, zero_sub]⟩

/-! ## Any order, any split -/

theorem targetCovariance_rows (g : Gp X) (d : Dataset X ℝ) (hd : d.Valid) :
    ∃ e : Fin d.features.length ≃ Fin d.rows.length, targetCovariance g d =
      (obsCovariance g (fun i => (d.rows.get i).1) fun i => (d.rows.get i).2.2).submatrix e e := by
  have hlen : d.features.length = d.rows.length := (rows_length d hd).symm
  refine ⟨finCongr hlen, ?_⟩
  have key : ∀ i : Fin d.features.length, d.rows.get (finCongr hlen i) =
      (d.features.get i, (datasetTargets d).mean i, (datasetTargets d).variance i) := dataset_row d hd hlen
  ext i j
  simp only [targetCovariance, obsCovariance, submatrix_apply, of_apply, key, (finCongr hlen).injective.eq_iff]

theorem targetCovariance_perm (g : Gp X) (d d' : Dataset X ℝ) (hd : d.Valid) (hd' : d'.Valid)
    (h : d.rows.Perm d'.rows) (hpd : (targetCovariance g d).PosDef) : (targetCovariance g d').PosDef := by
  obtain ⟨e, he⟩ := targetCovariance_rows g d hd
  obtain ⟨e', he'⟩ := targetCovariance_rows g d' hd'
  obtain ⟨f, hf⟩ := perm_equiv h
  have hmid : (obsCovariance g (fun i => (d.rows.get i).1) fun i => (d.rows.get i).2.2) =
      (obsCovariance g (fun i => (d'.rows.get i).1) fun i => (d'.rows.get i).2.2).submatrix f f := by
    ext i j
    simp only [obsCovariance, submatrix_apply, of_apply, hf, f.injective.eq_iff]
  have : targetCovariance g d' = (targetCovariance g d).submatrix (e'.trans (f.symm.trans e.symm))
      (e'.trans (f.symm.trans e.symm)) := by
    rw [he, hmid, he']
    ext i j
    simp
  rw [this]
  exact hpd.submatrix (Equiv.injective _)

/-- C124. The sum of the scores does not depend on the order of the data nor on how it is cut into batches. -/
theorem C124_any_order (b : Build) (ldlt : LdltRoutine) (hl : ∀ n M, M.PosDef → (ldlt n M).Factors M) (g : Gp X)
    (hsym : ∀ x y, g.cov x y = g.cov y x) (past : Dataset X ℝ) (ds ds' : List (Dataset X ℝ)) (hx : past.Valid)
    (hds : ∀ d ∈ ds, d.Valid) (hds' : ∀ d ∈ ds', d.Valid) (hsep : BatchesSeparate g past ds)
    (hsep' : BatchesSeparate g past ds') (hrows : (together past ds).rows.Perm (together past ds').rows)
    (hpd : (targetCovariance g (together past ds)).PosDef) :
    ∃ scores scores' : List ℝ, sequentialScores b ldlt g past ds = .ok (scores.map Dbl.fin) ∧
      sequentialScores b ldlt g past ds' = .ok (scores'.map Dbl.fin) ∧ scores.sum = scores'.sum := by
  have hv := together_valid hx hds
  have hv' := together_valid hx hds'
  obtain ⟨s, h1, -, h3⟩ := C124_batches b ldlt hl g hsym past ds hx hds hsep hpd
  obtain ⟨s', h1', -, h3'⟩ := C124_batches b ldlt hl g hsym past ds' hx hds' hsep'
    (targetCovariance_perm g _ _ hv hv' hrows hpd)
  exact ⟨s, s', h1, h1', by rw [h3, h3', C124_row_order g _ _ hv hv' hrows]⟩

theorem together_rows {past : Dataset X ℝ} {ds : List (Dataset X ℝ)} (hx : past.Valid) (hds : ∀ d ∈ ds, d.Valid) :
    (together past ds).rows = past.rows ++ (ds.map Dataset.rows).flatten := by
  induction ds generalizing past with
  | nil => simp [together]
  | cons d ds ih =>
    have hd : d.Valid := hds d (by simp)
    have h1 : (past.followedBy d).rows = past.rows ++ d.rows := by
      simp only [Dataset.rows, Dataset.followedBy]
      rw [List.zip_append (by rw [hx.1, hx.2]), List.zip_append (by simp [hx.1, hx.2])]
    rw [together, ih (followedBy_valid hx hd) fun d' h => hds d' (by simp [h]), h1]
    simp

/-- The batches in another order. -/
theorem C124_permuted_batches (b : Build) (ldlt : LdltRoutine) (hl : ∀ n M, M.PosDef → (ldlt n M).Factors M) (g : Gp X)
    (hsym : ∀ x y, g.cov x y = g.cov y x) (past : Dataset X ℝ) (ds ds' : List (Dataset X ℝ)) (hx : past.Valid)
    (hds : ∀ d ∈ ds, d.Valid) (hperm : ds.Perm ds') (hsep : BatchesSeparate g past ds)
    (hsep' : BatchesSeparate g past ds') (hpd : (targetCovariance g (together past ds)).PosDef) :
    ∃ scores scores' : List ℝ, sequentialScores b ldlt g past ds = .ok (scores.map Dbl.fin) ∧
      sequentialScores b ldlt g past ds' = .ok (scores'.map Dbl.fin) ∧ scores.sum = scores'.sum := by
  have hds' : ∀ d ∈ ds', d.Valid := fun d h => hds d (hperm.mem_iff.2 h)
  refine C124_any_order b ldlt hl g hsym past ds ds' hx hds hds' hsep hsep' ?_ hpd
  rw [together_rows hx hds, together_rows hx hds']
  exact (List.Perm.refl _).append ((hperm.map _).flatten)

/-- `log_likelihood` of all the data (models/gp.hpp): without target variances, the prior of the parameters minus the sum of
the scores. -/
theorem C124_log_likelihood (b : Build) (ldlt : LdltRoutine) (hl : ∀ n M, M.PosDef → (ldlt n M).Factors M) (g : Gp X)
    (hsym : ∀ x y, g.cov x y = g.cov y x) (priorLL : ℝ) (ds : List (Dataset X ℝ)) (hds : ∀ d ∈ ds, d.Valid)
    (hzero : ∀ d ∈ ds, ∀ v ∈ d.variance, v = 0) (hsep : BatchesSeparate g noData ds)
    (hpd : (targetCovariance g (together noData ds)).PosDef) :
    ∃ scores : List ℝ, sequentialScores b ldlt g noData ds = .ok (scores.map Dbl.fin) ∧
      g.logLikelihood (ldlt _) priorLL (together noData ds).features.get
        (datasetTargets (together noData ds)) = priorLL - scores.sum := by
  obtain ⟨scores, h1, -, h3⟩ := C124_from_nothing b ldlt hl g hsym ds hds hsep hpd
  refine ⟨scores, h1, ?_⟩
  have hvar : ∀ (past : Dataset X ℝ), (∀ v ∈ past.variance, v = 0) → ∀ v ∈ (together past ds).variance, v = 0 := by
    clear h3 h1 scores hpd hsep hds
    induction ds with
    | nil => exact fun past h => h
    | cons d ds ih =>
      intro past h
      refine ih (fun d' h' => hzero d' (by simp [h'])) _ fun v hv => ?_
      rcases List.mem_append.1 hv with h' | h'
      · exact h v h'
      · exact hzero d (by simp) v h'
  have hz : ∀ i, (datasetTargets (together noData ds)).variance i = 0 := by
    intro i
    simp only [datasetTargets, List.getD_eq_getElem?_getD]
    cases h : (together noData ds).variance[i.1]? with
    | none => rfl
    | some v => exact hvar noData (by simp [noData]) v (List.mem_of_getElem? h)
  rw [C39_log_likelihood_partial g (ldlt _) priorLL _ _ hz hpd (hl _ _ hpd), h3]
  show logEvidence g _ + priorLL = _
  ring

/-! ## Examples -/

theorem demo_targetCovariance (d : Dataset (Bool × ℝ) ℝ) (hd : d.Valid) (hn : (d.features.map Prod.snd).Nodup)
    (hv : ∀ v ∈ d.variance, 0 ≤ v) : (targetCovariance demoGp d).PosDef := by
  have h1 : targetCovariance demoGp d =
      diagonal (fun i => 1 + (datasetTargets d).variance i) + vecMulVec (fun _ => 1) (star fun _ => 1) := by
    ext i j
    have hij : (d.features.get i).2 = (d.features.get j).2 ↔ i = j := by
      constructor
      · intro h
        have := hn.getElem_inj_iff (i := i.1) (j := j.1) (hi := by simp) (hj := by simp)
        exact Fin.ext (this.1 (by simpa using h))
      · rintro rfl; rfl
    simp only [targetCovariance, obsCovariance, demoGp, of_apply, Matrix.add_apply, diagonal_apply, vecMulVec_apply,
      true_and, hij, star_trivial, mul_one]
    by_cases h : i = j
    · simp only [h, if_true]; ring
    · simp [h]
  rw [h1]
  refine (PosDef.diagonal fun i => ?_).add_posSemidef (posSemidef_vecMulVec_self_star _)
  have h2 : i.1 < d.variance.length := by rw [hd.2]; exact i.2
  have := hv d.variance[i.1] (List.getElem_mem h2)
  simp only [datasetTargets, List.getD_eq_getElem?_getD, List.getElem?_eq_getElem h2, Option.getD_some]
  linarith

/-- Three batches, with an empty one: the hypotheses of C124 hold. -/
example : ∃ (past : Dataset (Bool × ℝ) ℝ) (ds : List (Dataset (Bool × ℝ) ℝ)),
    (∀ x y, demoGp.cov x y = demoGp.cov y x) ∧ past.Valid ∧ (∀ d ∈ ds, d.Valid) ∧ BatchesSeparate demoGp past ds ∧
    BatchesSeparate demoGp past ds.reverse ∧
    (targetCovariance demoGp (together past ds)).PosDef ∧ (together past ds).features.length = 4 ∧
    demoGp.cov (false, 0) (false, 1) ≠ 0 ∧ demoGp.cov (false, 0) (true, 0) ≠ demoGp.cov (true, 0) (true, 0) := by
  refine ⟨{ features := [(false, 0)], mean := [3], variance := [1] },
    [{ features := [(false, 1), (false, 2)], mean := [4, 0], variance := [0, 1] }, noData,
      { features := [(false, 5)], mean := [-4], variance := [2] }], ?_, ?_, ?_, ?_, ?_, ?_, rfl, ?_, ?_⟩
  · intro x y
    simp only [demoGp, eq_comm (a := x.2), ← and_assoc, and_comm (a := (x.1 = true))]
  · exact ⟨rfl, rfl⟩
  · intro d hd
    simp only [List.mem_cons, List.not_mem_nil, or_false] at hd
    rcases hd with rfl | rfl | rfl <;> exact ⟨rfl, rfl⟩
  · norm_num [BatchesSeparate, SeparateErrors, demoGp, noData]
  · norm_num [BatchesSeparate, SeparateErrors, demoGp, noData]
  · refine demo_targetCovariance _ ⟨rfl, rfl⟩ ?_ ?_
    · norm_num [together, Dataset.followedBy, noData]
    · norm_num [together, Dataset.followedBy, noData]
  · norm_num [demoGp]
  · norm_num [demoGp]

/-- One measurement of the feature `0`. -/
noncomputable def demoOnce : Dataset (Bool × ℝ) ℝ := { features := [(false, 0)], mean := [0], variance := [1] }

theorem demoOnce_covariance : targetCovariance demoGp demoOnce = diagonal (fun _ : Fin 1 => (3 : ℝ)) := by
  show (obsCovariance demoGp (fun i : Fin 1 => demoOnce.features.get i) fun i : Fin 1 => (datasetTargets demoOnce).variance i)
    = diagonal (fun _ : Fin 1 => (3 : ℝ))
  ext i j
  obtain rfl : i = 0 := Subsingleton.elim _ _
  obtain rfl : j = 0 := Subsingleton.elim _ _
  simp only [obsCovariance, of_apply, diagonal_apply_eq, if_true]
  norm_num [demoGp, demoOnce, datasetTargets]

theorem demoTwice_covariance :
    targetCovariance demoGp (demoOnce.followedBy demoOnce) = (!![3, 2; 2, 3] : Matrix (Fin 2) (Fin 2) ℝ) := by
  show (obsCovariance demoGp (fun i : Fin 2 => (demoOnce.followedBy demoOnce).features.get i) fun i : Fin 2 =>
    (datasetTargets (demoOnce.followedBy demoOnce)).variance i) = (!![3, 2; 2, 3] : Matrix (Fin 2) (Fin 2) ℝ)
  have h0 : (demoOnce.followedBy demoOnce).features.get (0 : Fin 2) = (false, 0) := rfl
  have h1 : (demoOnce.followedBy demoOnce).features.get (1 : Fin 2) = (false, 0) := rfl
  have h2 : (datasetTargets (demoOnce.followedBy demoOnce)).variance (0 : Fin 2) = 1 := rfl
  have h3 : (datasetTargets (demoOnce.followedBy demoOnce)).variance (1 : Fin 2) = 1 := rfl
  ext i j
  fin_cases i <;> fin_cases j <;> simp [obsCovariance, h0, h1, h2, h3, demoGp] <;> norm_num

theorem demoTwice_posDef : (!![3, 2; 2, 3] : Matrix (Fin 2) (Fin 2) ℝ).PosDef := by
  have h1 : (!![3, 2; 2, 3] : Matrix (Fin 2) (Fin 2) ℝ) =
      diagonal (fun _ => 1) + (2 : ℝ) • vecMulVec (fun _ => (1 : ℝ)) (star fun _ => (1 : ℝ)) := by
    ext i j
    fin_cases i <;> fin_cases j <;> norm_num [vecMulVec_apply]
  rw [h1]
  exact (PosDef.diagonal fun i => one_pos).add_posSemidef
    ((posSemidef_vecMulVec_self_star (fun _ : Fin 2 => (1 : ℝ))).smul (zero_le_two (α := ℝ)))

theorem logEvidence_once : logEvidence demoGp demoOnce = -(1 / 2) * (Real.log 3 + Real.log (2 * Real.pi)) := by
  have h1 : logEvidence demoGp demoOnce =
      gaussianLogPdf (fun _ : Fin 1 => (0 : ℝ)) (targetCovariance demoGp demoOnce) fun _ : Fin 1 => (0 : ℝ) := by
    show gaussianLogPdf (a := Fin 1) _ _ _ = _
    congr 1
    · funext i
      obtain rfl : i = (0 : Fin 1) := Subsingleton.elim (α := Fin 1) _ _
      rfl
    · funext i
      obtain rfl : i = (0 : Fin 1) := Subsingleton.elim (α := Fin 1) _ _
      rfl
  rw [h1, demoOnce_covariance]
  simp [gaussianLogPdf]

theorem logEvidence_twice : logEvidence demoGp (demoOnce.followedBy demoOnce) =
    -(1 / 2) * (Real.log 5 + 2 * Real.log (2 * Real.pi)) := by
  have h1 : logEvidence demoGp (demoOnce.followedBy demoOnce) =
      gaussianLogPdf (fun _ : Fin 2 => (0 : ℝ)) (targetCovariance demoGp (demoOnce.followedBy demoOnce))
        fun _ : Fin 2 => (0 : ℝ) := by
    show gaussianLogPdf (a := Fin 2) _ _ _ = _
    congr 1
    · funext i
      fin_cases i <;> rfl
    · funext i
      fin_cases i <;> rfl
  have hz : ((fun _ => 0) - fun _ => 0 : Fin 2 → ℝ) = 0 := sub_self _
  rw [h1, demoTwice_covariance]
  unfold gaussianLogPdf
  rw [hz, mulVec_zero, dotProduct_zero, det_fin_two_of]
  norm_num

/-- Without separate errors the claim is false: the same feature measured twice. Both measurements have the same error under
`obsCovariance`, the prediction of the second knows nothing about the error of the first. -/
theorem C124_shared_errors_false : ∃ past batch : Dataset (Bool × ℝ) ℝ, past.Valid ∧ batch.Valid ∧ IsPSD demoGp.cov ∧
    (targetCovariance demoGp (past.followedBy batch)).PosDef ∧
    ∀ (b : Build) (ldlt : LdltRoutine), (∀ n M, M.PosDef → (ldlt n M).Factors M) →
      batchScore b ldlt demoGp past batch ≠
        .ok (.fin (logEvidence demoGp past - logEvidence demoGp (past.followedBy batch))) := by
  have hpd1 : (targetCovariance demoGp demoOnce).PosDef :=
    demo_targetCovariance demoOnce ⟨rfl, rfl⟩ (by simp [demoOnce]) (by simp [demoOnce])
  refine ⟨demoOnce, demoOnce, ⟨rfl, rfl⟩, ⟨rfl, rfl⟩, demoGp_psd, ?_, fun b ldlt hl h => ?_⟩
  · rw [demoTwice_covariance]; exact demoTwice_posDef
  have hsym : ∀ x y, demoGp.cov x y = demoGp.cov y x := fun x y => by
    simp only [demoGp, eq_comm (a := x.2), ← and_assoc, and_comm (a := (x.1 = true))]
  have hu : IsUnit (targetCovariance demoGp demoOnce).det := (Matrix.isUnit_iff_isUnit_det _).1 hpd1.isUnit
  have hfit := fit_fitOf demoGp hsym (ldlt 1) (fun i : Fin 1 => demoOnce.features.get i) (datasetTargets demoOnce)
    (hl _ _ hpd1) hu
  have hp := predictJoint_of_fitOf demoGp hsym hfit fun _ : Fin 1 => (true, (0 : ℝ))
  have hp' : demoGp.predictJoint (gpFitDataset ldlt demoGp demoOnce) (fun _ : Fin 1 => (true, (0 : ℝ))) =
      ⟨fun _ => 0, diagonal fun _ => 5 / 3⟩ := by
    refine hp.trans ?_
    have hA : obsCovariance demoGp (fun i : Fin 1 => demoOnce.features.get i) (datasetTargets demoOnce).variance =
        diagonal (fun _ : Fin 1 => (3 : ℝ)) := demoOnce_covariance
    have hi : (diagonal (fun _ : Fin 1 => (3 : ℝ)))⁻¹ = diagonal (fun _ : Fin 1 => (1 / 3 : ℝ)) := by
      refine inv_eq_right_inv ?_
      rw [diagonal_mul_diagonal]
      norm_num
    have hget : demoOnce.features.get (0 : Fin 1) = (false, 0) := rfl
    have hk1 : demoGp.covMat (fun _ : Fin 1 => (true, (0 : ℝ))) (fun i : Fin 1 => demoOnce.features.get i) =
        diagonal fun _ => 1 := by
      ext i j
      obtain rfl : i = 0 := Subsingleton.elim _ _
      obtain rfl : j = 0 := Subsingleton.elim _ _
      norm_num [Gp.covMat, demoGp, hget]
    have hk2 : demoGp.covMat (fun i : Fin 1 => demoOnce.features.get i) (fun _ : Fin 1 => (true, (0 : ℝ))) =
        diagonal fun _ => 1 := by
      ext i j
      obtain rfl : i = 0 := Subsingleton.elim _ _
      obtain rfl : j = 0 := Subsingleton.elim _ _
      norm_num [Gp.covMat, demoGp, hget]
    have hk3 : demoGp.covMat (fun _ : Fin 1 => (true, (0 : ℝ))) (fun _ : Fin 1 => (true, (0 : ℝ))) =
        diagonal fun _ => 2 := by
      ext i j
      obtain rfl : i = 0 := Subsingleton.elim _ _
      obtain rfl : j = 0 := Subsingleton.elim _ _
      norm_num [Gp.covMat, demoGp]
    have hz : (fun i : Fin 1 => (datasetTargets demoOnce).mean i - demoGp.mean (demoGp.asMeas (demoOnce.features.get i)))
        = 0 := by
      funext i
      obtain rfl : i = 0 := Subsingleton.elim _ _
      norm_num [demoGp, hget]
      rfl
    have hf : (demoGp.fit (ldlt 1) (fun i : Fin 1 => demoOnce.features.get i) (datasetTargets demoOnce)).features =
        fun i : Fin 1 => demoOnce.features.get i := rfl
    congr 1
    · funext j
      rw [hz, mulVec_zero]
      simp [demoGp]
    · rw [hf, hA, hi, hk1, hk2, hk3, diagonal_mul_diagonal, diagonal_mul_diagonal, diagonal_sub]
      norm_num
  have hq : [(true, (0 : ℝ))] = demoOnce.features.map demoGp.asMeas := rfl
  rw [batchScore_eq demoGp demoOnce demoOnce hq] at h
  have hfun : (fun j : Fin [(true, (0 : ℝ))].length => [(true, (0 : ℝ))][j]) = fun _ : Fin 1 => (true, (0 : ℝ)) := by
    funext j
    obtain rfl : j = (0 : Fin 1) := Subsingleton.elim (α := Fin 1) _ _
    rfl
  rw [hfun] at h
  have hD : (diagonal (fun _ : Fin 1 => (5 / 3 : ℝ)) + diagonal fun i : Fin 1 => demoOnce.variance.getD i 0) =
      diagonal fun _ => 8 / 3 := by
    rw [diagonal_add]
    congr 1
    funext i
    obtain rfl : i = 0 := Subsingleton.elim _ _
    norm_num [demoOnce]
  have hval := nllJoint_lists b ldlt ⟨1, ⟨fun _ => 0, diagonal fun _ => 5 / 3⟩⟩ demoOnce.mean demoOnce.variance rfl rfl
    (by rw [hD]; exact PosDef.diagonal fun _ => by norm_num) (hl _)
  have hne : nllJoint b ldlt ⟨1, ⟨fun _ => 0, diagonal fun _ => 5 / 3⟩⟩ (demoOnce.mean, demoOnce.variance) =
      .ok (.fin (logEvidence demoGp demoOnce - logEvidence demoGp (demoOnce.followedBy demoOnce))) := by
    rw [← hp']; exact h
  rw [hval, logEvidence_once, logEvidence_twice] at hne
  simp only [hD] at hne
  have hy : (fun i : Fin 1 => demoOnce.mean.getD i 0) = 0 := by
    funext i
    obtain rfl : i = 0 := Subsingleton.elim _ _
    norm_num [demoOnce]
  rw [hy] at hne
  have hne := Dbl.fin.inj (Except.ok.inj hne)
  have hz0 : ((0 : Fin 1 → ℝ) - fun _ => 0) = 0 := sub_self _
  unfold gaussianLogPdf at hne
  simp only [hz0, mulVec_zero, dotProduct_zero, det_diagonal, Fintype.card_fin] at hne
  norm_num at hne
  have h3 : Real.log (8 / 3) = Real.log 8 - Real.log 3 := Real.log_div (by norm_num) (by norm_num)
  have h4 : Real.log 5 < Real.log 8 := Real.log_lt_log (by norm_num) (by norm_num)
  linarith

end Albatross
