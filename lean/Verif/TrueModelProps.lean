import Verif.TrueModel
import Verif.EvidenceProps

/-! # The model the data come from has the best expected score (C125)

Specification: random targets with the means and covariances of the measurements of a process `g₀`, expected values in an
arbitrary probability space.  The law of the targets need not be normal. -/

namespace Albatross

open MeasureTheory ProbabilityTheory Matrix

variable {Ω : Type} [MeasurableSpace Ω] {P : Measure Ω} [IsProbabilityMeasure P]
variable {X K : Type} [LinearOrder K]

/-- What cross validation of a Gaussian process needs. -/
structure CvReady (g : Gp X) (d : Dataset X ℝ) (indexer : SMap K (List (Fin d.features.length))) : Prop where
  symm : ∀ x y, g.cov x y = g.cov y x
  posDef : (obsCovariance g d.features.get (datasetTargets d).variance).PosDef
  noise : NoiseWithinGroups g d indexer

/-- Two processes agree on the means and the covariances of the measurements of the dataset. -/
def SameMeasurements (g g₀ : Gp X) (d : Dataset X ℝ) : Prop :=
  (∀ i, g.mean (g.asMeas (d.features.get i)) = g₀.mean (g₀.asMeas (d.features.get i))) ∧
  obsCovariance g d.features.get (datasetTargets d).variance = obsCovariance g₀ d.features.get (datasetTargets d).variance

/-- The targets come from the process: they have the means and covariances of its measurements. -/
def TargetsOf (P : Measure Ω) (Y : Ω → Fin n → ℝ) (g : Gp X) (xs : Fin n → X) (v : Fin n → ℝ) : Prop :=
  HasMoments P Y (fun i => g.mean (g.asMeas (xs i))) (obsCovariance g xs v)

/-- Measuring adds nothing but the errors of the targets. -/
def MeasuresProcess (g : Gp X) (d : Dataset X ℝ) : Prop :=
  ∀ i j, g.cov (g.asMeas (d.features.get i)) (g.asMeas (d.features.get j)) = g.cov (d.features.get i) (d.features.get j)

/-! ## The likelihood -/

/-- What the expected `log_likelihood` is best for: a process whose measurements have, without the variances of the targets,
the covariance the targets have. -/
theorem likelihood_best {n : Nat} (ldlt : LdltRoutine)
    (hl : ∀ n (M : Matrix (Fin n) (Fin n) ℝ), M.PosDef → (ldlt n M).Factors M) {Y : Ω → Fin n → ℝ} {m₀ : Fin n → ℝ}
    {A₀ : Matrix (Fin n) (Fin n) ℝ} (hY : HasMoments P Y m₀ A₀) (hA₀ : A₀.PosDef) (g : Gp X) (xs : Fin n → X)
    (v : Fin n → ℝ) (prior : ℝ) (hA : (obsCovariance g xs 0).PosDef) :
    ∫ ω, -(gaussianLogPdf m₀ A₀ (Y ω) + prior) ∂P ≤ ∫ ω, -g.logLikelihood (ldlt n) prior xs ⟨Y ω, v⟩ ∂P ∧
    (∫ ω, -(gaussianLogPdf m₀ A₀ (Y ω) + prior) ∂P = ∫ ω, -g.logLikelihood (ldlt n) prior xs ⟨Y ω, v⟩ ∂P ↔
      (∀ i, g.mean (g.asMeas (xs i)) = m₀ i) ∧ obsCovariance g xs 0 = A₀) := by
  have hcode : ∀ ω, -g.logLikelihood (ldlt n) prior xs ⟨Y ω, v⟩ =
      -gaussianLogPdf (fun i => g.mean (g.asMeas (xs i))) (obsCovariance g xs 0) (Y ω) - prior := fun ω => by
    rw [C39_code_value g (ldlt n) prior xs ⟨Y ω, v⟩ hA (hl _ _ hA)]
    ring
  have h0 : ∀ ω, -(gaussianLogPdf m₀ A₀ (Y ω) + prior) = -gaussianLogPdf m₀ A₀ (Y ω) - prior := fun ω => by ring
  simp only [hcode, h0]
  rw [integral_sub (hY.integral_log _ _).1 (integrable_const _), integral_sub (hY.integral_log _ _).1 (integrable_const _)]
  obtain ⟨h1, h2⟩ := hY.log_score hA₀ (fun i => g.mean (g.asMeas (xs i))) hA
  refine ⟨sub_le_sub_right h1 _, fun h => ?_, fun h => ?_⟩
  · obtain ⟨h3, h4⟩ := h2 (sub_left_injective h)
    exact ⟨fun i => congrFun h3 i, h4⟩
  · rw [show (fun i => g.mean (g.asMeas (xs i))) = m₀ from funext h.1, h.2]

/-- **C125**, the likelihood.  Full claim: the expected negative log likelihood that tuning minimises is smallest for the
process the targets come from, and other processes reach it only if they agree on the measurements.  Proved for targets
without variances; the claim is false with variances, see `C125_likelihood_variance_false`. -/
theorem C125_likelihood_partial {n : Nat} (ldlt : LdltRoutine)
    (hl : ∀ n (M : Matrix (Fin n) (Fin n) ℝ), M.PosDef → (ldlt n M).Factors M) (g₀ g : Gp X) (xs : Fin n → X)
    {Y : Ω → Fin n → ℝ} (hY : TargetsOf P Y g₀ xs 0) (prior : ℝ) (hA₀ : (obsCovariance g₀ xs 0).PosDef)
    (hA : (obsCovariance g xs 0).PosDef) :
    ∫ ω, -g₀.logLikelihood (ldlt n) prior xs ⟨Y ω, 0⟩ ∂P ≤ ∫ ω, -g.logLikelihood (ldlt n) prior xs ⟨Y ω, 0⟩ ∂P ∧
    (∫ ω, -g₀.logLikelihood (ldlt n) prior xs ⟨Y ω, 0⟩ ∂P = ∫ ω, -g.logLikelihood (ldlt n) prior xs ⟨Y ω, 0⟩ ∂P ↔
      (∀ i, g.mean (g.asMeas (xs i)) = g₀.mean (g₀.asMeas (xs i))) ∧ obsCovariance g xs 0 = obsCovariance g₀ xs 0) := by
  have h0 := (likelihood_best ldlt hl hY hA₀ g₀ xs 0 prior hA₀).2.2 ⟨fun _ => rfl, rfl⟩
  rw [← h0]
  exact likelihood_best ldlt hl hY hA₀ g xs 0 prior hA

/-- **C125**, the likelihood with target variances: the variances are not known to the objective, so the best value is
reached by the processes that make up for them in their own covariance, and only by them. -/
theorem C125_likelihood_best {n : Nat} (ldlt : LdltRoutine)
    (hl : ∀ n (M : Matrix (Fin n) (Fin n) ℝ), M.PosDef → (ldlt n M).Factors M) (g₀ best g : Gp X) (xs : Fin n → X)
    (v : Fin n → ℝ) {Y : Ω → Fin n → ℝ} (hY : TargetsOf P Y g₀ xs v) (prior : ℝ) (hA₀ : (obsCovariance g₀ xs v).PosDef)
    (hm : ∀ i, best.mean (best.asMeas (xs i)) = g₀.mean (g₀.asMeas (xs i)))
    (hc : obsCovariance best xs 0 = obsCovariance g₀ xs v) (hA : (obsCovariance g xs 0).PosDef) :
    ∫ ω, -best.logLikelihood (ldlt n) prior xs ⟨Y ω, v⟩ ∂P ≤ ∫ ω, -g.logLikelihood (ldlt n) prior xs ⟨Y ω, v⟩ ∂P ∧
    (∫ ω, -best.logLikelihood (ldlt n) prior xs ⟨Y ω, v⟩ ∂P = ∫ ω, -g.logLikelihood (ldlt n) prior xs ⟨Y ω, v⟩ ∂P ↔
      (∀ i, g.mean (g.asMeas (xs i)) = g₀.mean (g₀.asMeas (xs i))) ∧ obsCovariance g xs 0 = obsCovariance g₀ xs v) := by
  have h0 := (likelihood_best ldlt hl hY hA₀ best xs v prior (by rw [hc]; exact hA₀)).2.2 ⟨hm, hc⟩
  rw [← h0]
  exact likelihood_best ldlt hl hY hA₀ g xs v prior hA

/-! ## Cross validation -/

/-- The negative log likelihood of a group, from the predictions of groups. -/
theorem nll_group_scores (b : Build) (ldlt : LdltRoutine)
    (hl : ∀ n (M : Matrix (Fin n) (Fin n) ℝ), M.PosDef → (ldlt n M).Factors M) (m : CvModel X K) (d : Dataset X ℝ)
    (hd : d.Valid) (indexer : SMap K (List (Fin d.features.length)))
    (h : IsPartition (rawIndexer indexer) d.features.length)
    (pred : (idx : List (Fin d.features.length)) → Joint (Fin idx.length))
    (hg : m.grouped b jointKind d (rawIndexer indexer) =
      some (.ok (indexer.map fun kv => (kv.1, ⟨kv.2.length, pred kv.2⟩))))
    (S : (idx : List (Fin d.features.length)) → Matrix (Fin idx.length) (Fin idx.length) ℝ)
    (hS : ∀ kv ∈ indexer,
      (pred kv.2).covariance + (diagonal fun k => (datasetTargets d).variance (kv.2.get k)) = S kv.2)
    (hp : ∀ kv ∈ indexer, (S kv.2).PosDef) :
    m.scores b jointKind (nllJoint b ldlt) d (rawIndexer indexer) =
      some (.ok (indexer.map fun kv => .fin (-gaussianLogPdf 0 (S kv.2)
        ((fun k => (datasetTargets d).mean (kv.2.get k)) - (pred kv.2).mean)))) := by
  let back : List Nat → List (Fin d.features.length) := fun l =>
    l.filterMap fun i => if h : i < d.features.length then some ⟨i, h⟩ else none
  have hback : ∀ idx : List (Fin d.features.length), back (idx.map (·.1)) = idx := by
    intro idx
    show (idx.map (·.1)).filterMap _ = _
    rw [List.filterMap_map]
    conv_rhs => rw [← List.map_id idx, ← List.filterMap_eq_map]
    refine List.filterMap_congr fun i _ => ?_
    simp
  let v : K × List Nat → DynJoint := fun kv => ⟨(back kv.2).length, pred (back kv.2)⟩
  have hv : ∀ kv : K × List (Fin d.features.length), v (kv.1, kv.2.map (·.1)) = ⟨kv.2.length, pred kv.2⟩ := by
    intro kv
    show (⟨(back (kv.2.map (·.1))).length, pred (back (kv.2.map (·.1)))⟩ : DynJoint) = _
    rw [hback]
  have hsc := C98_scores b jointKind (nllJoint b ldlt) m d hd _ h v (by
      rw [hg]
      congr 2
      unfold rawIndexer
      rw [List.map_map]
      exact List.map_congr_left fun kv _ => by
        show _ = (kv.1, v (kv.1, kv.2.map (·.1)))
        rw [hv]) (by
      intro kv hkv
      obtain ⟨kv', -, rfl⟩ := List.mem_map.1 hkv
      show (v (kv'.1, kv'.2.map (·.1))).dim = (kv'.2.map (·.1)).length
      rw [hv, List.length_map])
  rw [hsc]
  congr 1
  unfold rawIndexer
  rw [mapM_map_list]
  refine mapM_eq_map _ fun kv hkv => ?_
  show nllJoint b ldlt (v (kv.1, kv.2.map (·.1))) ((rowsAt d (kv.2.map (·.1))).map (·.2.1),
    (rowsAt d (kv.2.map (·.1))).map (·.2.2)) = _
  obtain ⟨h1, h2⟩ := rowsAt_targets d hd kv.2
  have hget : ∀ f : Fin d.features.length → ℝ, (fun k : Fin kv.2.length => (kv.2.map f).getD k 0) =
      fun k => f (kv.2.get k) := fun f => by
    funext k
    simp [List.getD_eq_getElem?_getD]
  have hc := hS kv hkv
  rw [h1, h2, hv, nllJoint_lists b ldlt _ _ _ (by simp) (by simp) (by
    simp only [hget]
    rw [hc]
    exact hp kv hkv) (hl _)]
  simp only [hget]
  rw [hc]
  unfold gaussianLogPdf
  rw [sub_zero]

/-- Every row is in some group. -/
theorem partition_mem {n : Nat} {indexer : SMap K (List (Fin n))} (h : IsPartition (rawIndexer indexer) n) (i : Fin n) :
    ∃ kv ∈ indexer, i ∈ kv.2 := by
  have : i.1 ∈ (rawIndexer indexer).values.flatten := h.perm.mem_iff.2 (List.mem_range.2 i.2)
  obtain ⟨l, hl, hi⟩ := List.mem_flatten.1 this
  obtain ⟨kv', hkv', rfl⟩ := List.mem_map.1 hl
  obtain ⟨kv, hkv, rfl⟩ := List.mem_map.1 hkv'
  obtain ⟨j, hj, hji⟩ := List.mem_map.1 hi
  exact ⟨kv, hkv, Fin.ext hji ▸ hj⟩

/-- If all held out predictions agree, the laws agree. -/
theorem laws_of_heldOut {n : Nat} {indexer : SMap K (List (Fin n))} (h : IsPartition (rawIndexer indexer) n)
    {A A₀ : Matrix (Fin n) (Fin n) ℝ} (hA : A.PosDef) (hA₀ : A₀.PosDef) {m m₀ : Fin n → ℝ}
    (he : ∀ kv ∈ indexer, (A⁻¹.submatrix kv.2.get kv.2.get)⁻¹ = (A₀⁻¹.submatrix kv.2.get kv.2.get)⁻¹ ∧
      heldOutWeights A kv.2.get = heldOutWeights A₀ kv.2.get ∧
      heldOutWeights A kv.2.get *ᵥ m = heldOutWeights A kv.2.get *ᵥ m₀) :
    m = m₀ ∧ A = A₀ := by
  have hnd : ∀ kv ∈ indexer, kv.2.Nodup := fun kv hkv => by
    have := h.nodup (kv := (kv.1, kv.2.map (·.1))) (List.mem_map_of_mem hkv)
    exact List.Nodup.of_map _ this
  have hrow : ∀ {A : Matrix (Fin n) (Fin n) ℝ}, A.PosDef → ∀ kv ∈ indexer, A⁻¹.submatrix kv.2.get id =
      A⁻¹.submatrix kv.2.get kv.2.get * heldOutWeights A kv.2.get := by
    intro A hA kv hkv
    have hB := hA.inv.submatrix (hnd kv hkv).injective_get
    rw [heldOutWeights, ← Matrix.mul_assoc, mul_nonsing_inv _ ((Matrix.isUnit_iff_isUnit_det _).1 hB.isUnit),
      Matrix.one_mul]
  have hu := (Matrix.isUnit_iff_isUnit_det _).1 hA.isUnit
  have hu₀ := (Matrix.isUnit_iff_isUnit_det _).1 hA₀.isUnit
  constructor
  · have h0 : A⁻¹ *ᵥ (m - m₀) = 0 := by
      funext i
      obtain ⟨kv, hkv, hi⟩ := partition_mem h i
      obtain ⟨k, rfl⟩ := List.mem_iff_get.1 hi
      have h1 : A⁻¹.submatrix kv.2.get id *ᵥ (m - m₀) = 0 := by
        rw [hrow hA kv hkv, ← mulVec_mulVec, mulVec_sub _ m, (he kv hkv).2.2, sub_self, mulVec_zero]
      exact congrFun h1 k
    have h2 := congrArg (A *ᵥ ·) h0
    simp only [mulVec_mulVec, mul_nonsing_inv _ hu, one_mulVec, mulVec_zero] at h2
    exact sub_eq_zero.1 h2
  · have hi : A⁻¹ = A₀⁻¹ := by
      ext i j
      obtain ⟨kv, hkv, hi⟩ := partition_mem h i
      obtain ⟨k, rfl⟩ := List.mem_iff_get.1 hi
      have e1 : A⁻¹.submatrix kv.2.get kv.2.get = A₀⁻¹.submatrix kv.2.get kv.2.get := by
        have hB := hA.inv.submatrix (hnd kv hkv).injective_get
        have hB₀ := hA₀.inv.submatrix (hnd kv hkv).injective_get
        rw [← nonsing_inv_nonsing_inv _ ((Matrix.isUnit_iff_isUnit_det _).1 hB.isUnit), (he kv hkv).1,
          nonsing_inv_nonsing_inv _ ((Matrix.isUnit_iff_isUnit_det _).1 hB₀.isUnit)]
      have h1 : A⁻¹.submatrix kv.2.get id = A₀⁻¹.submatrix kv.2.get id := by
        rw [hrow hA kv hkv, hrow hA₀ kv hkv, e1, (he kv hkv).2.1]
      exact congrFun (congrFun h1 k) j
    rw [← nonsing_inv_nonsing_inv _ hu, hi, nonsing_inv_nonsing_inv _ hu₀]

theorem integral_list_sum {α : Type} (l : List α) (f : α → Ω → ℝ) (hf : ∀ a ∈ l, Integrable (f a) P) :
    Integrable (fun ω => (l.map fun a => f a ω).sum) P ∧
    ∫ ω, (l.map fun a => f a ω).sum ∂P = (l.map fun a => ∫ ω, f a ω ∂P).sum := by
  induction l with
  | nil => simp
  | cons a l ih =>
    obtain ⟨h1, h2⟩ := ih fun a ha => hf a (List.mem_cons_of_mem _ ha)
    have h0 := hf a List.mem_cons_self
    simp only [List.map_cons, List.sum_cons]
    exact ⟨h0.add h1, by rw [integral_add h0 h1, h2]⟩

omit [MeasurableSpace Ω] in
theorem list_sum_eq {α : Type} (l : List α) {f g : α → ℝ} (hle : ∀ a ∈ l, f a ≤ g a) :
    (l.map f).sum ≤ (l.map g).sum ∧ ((l.map f).sum = (l.map g).sum → ∀ a ∈ l, f a = g a) := by
  induction l with
  | nil => simp
  | cons a l ih =>
    obtain ⟨h1, h2⟩ := ih fun a ha => hle a (List.mem_cons_of_mem _ ha)
    have h0 := hle a List.mem_cons_self
    simp only [List.map_cons, List.sum_cons]
    refine ⟨add_le_add h0 h1, fun h => ?_⟩
    intro c hc
    rcases List.mem_cons.1 hc with rfl | hc
    · linarith
    · exact h2 (by linarith) c hc

/-- The score of the held out group `idx` by the process `g` and the targets `y`. -/
noncomputable def heldOutNll (g : Gp X) (d : Dataset X ℝ) (y : Fin d.features.length → ℝ)
    (idx : List (Fin d.features.length)) : ℝ :=
  let A := obsCovariance g d.features.get (datasetTargets d).variance;
  -gaussianLogPdf 0 (A⁻¹.submatrix idx.get idx.get)⁻¹
    (heldOutWeights A idx.get *ᵥ (y - fun i => g.mean (g.asMeas (d.features.get i))))

omit [MeasurableSpace Ω] in
/-- The error of the prediction of a group. -/
theorem refitNoisy_error (ldlt : LdltRoutine)
    (hl : ∀ n (M : Matrix (Fin n) (Fin n) ℝ), M.PosDef → (ldlt n M).Factors M) (g : Gp X) (d : Dataset X ℝ) (hd : d.Valid)
    (indexer : SMap K (List (Fin d.features.length))) (h : IsPartition (rawIndexer indexer) d.features.length)
    (hr : CvReady g d indexer) (y : Fin d.features.length → ℝ) :
    ∀ kv ∈ indexer,
      (fun k => y (kv.2.get k)) - (refitNoisy ldlt g (d.withTargets y) kv.2).mean =
        heldOutWeights (obsCovariance g d.features.get (datasetTargets d).variance) kv.2.get *ᵥ
          (y - fun i => g.mean (g.asMeas (d.features.get i))) ∧
      (refitNoisy ldlt g (d.withTargets y) kv.2).covariance =
        ((obsCovariance g d.features.get (datasetTargets d).variance)⁻¹.submatrix kv.2.get kv.2.get)⁻¹ ∧
      ((obsCovariance g d.features.get (datasetTargets d).variance)⁻¹.submatrix kv.2.get kv.2.get)⁻¹.PosDef := by
  intro kv hkv
  have hnd : kv.2.Nodup := by
    have := h.nodup (kv := (kv.1, kv.2.map (·.1))) (List.mem_map_of_mem hkv)
    exact List.Nodup.of_map _ this
  have hval := refitNoisy_withTargets ldlt hl g hr.symm d hd hr.posDef y kv.2 hnd (hr.noise.cross kv hkv) hr.noise.mean
  refine ⟨?_, by rw [hval], (hr.posDef.inv.submatrix hnd.injective_get).inv⟩
  rw [hval]
  dsimp only
  rw [sub_sub_cancel, heldOutWeights, ← mulVec_mulVec]
  rfl

/-- Expected scores of all groups. -/
theorem heldOutNll_best (g₀ g : Gp X) (d : Dataset X ℝ)
    (indexer : SMap K (List (Fin d.features.length))) (h : IsPartition (rawIndexer indexer) d.features.length)
    (hA₀ : (obsCovariance g₀ d.features.get (datasetTargets d).variance).PosDef)
    (hA : (obsCovariance g d.features.get (datasetTargets d).variance).PosDef)
    {Y : Ω → Fin d.features.length → ℝ} (hY : TargetsOf P Y g₀ d.features.get (datasetTargets d).variance) :
    (∀ kv ∈ indexer, Integrable (fun ω => heldOutNll g d (Y ω) kv.2) P ∧
      ∫ ω, heldOutNll g₀ d (Y ω) kv.2 ∂P ≤ ∫ ω, heldOutNll g d (Y ω) kv.2 ∂P) ∧
    ∫ ω, (indexer.map fun kv => heldOutNll g₀ d (Y ω) kv.2).sum ∂P ≤
      ∫ ω, (indexer.map fun kv => heldOutNll g d (Y ω) kv.2).sum ∂P ∧
    (∫ ω, (indexer.map fun kv => heldOutNll g₀ d (Y ω) kv.2).sum ∂P =
      ∫ ω, (indexer.map fun kv => heldOutNll g d (Y ω) kv.2).sum ∂P ↔ SameMeasurements g g₀ d) := by
  have hnd : ∀ kv ∈ indexer, kv.2.Nodup := fun kv hkv => by
    have := h.nodup (kv := (kv.1, kv.2.map (·.1))) (List.mem_map_of_mem hkv)
    exact List.Nodup.of_map _ this
  have key : ∀ g' : Gp X, (obsCovariance g' d.features.get (datasetTargets d).variance).PosDef → ∀ kv ∈ indexer, _ :=
    fun g' hA' kv hkv => heldOut_log_score hY hA₀ (hnd kv hkv).injective_get
      (heldOutWeights_own hA' (hnd kv hkv).injective_get) (fun i => g'.mean (g'.asMeas (d.features.get i)))
      (hA'.inv.submatrix (hnd kv hkv).injective_get).inv
  have s0 := integral_list_sum (P := P) indexer (fun kv ω => heldOutNll g₀ d (Y ω) kv.2) fun kv hkv => (key g₀ hA₀ kv hkv).1
  have s1 := integral_list_sum (P := P) indexer (fun kv ω => heldOutNll g d (Y ω) kv.2) fun kv hkv => (key g hA kv hkv).1
  have hle : ∀ kv ∈ indexer, ∫ ω, heldOutNll g₀ d (Y ω) kv.2 ∂P ≤ ∫ ω, heldOutNll g d (Y ω) kv.2 ∂P :=
    fun kv hkv => (key g hA kv hkv).2.1
  have hs := list_sum_eq indexer hle
  refine ⟨fun kv hkv => ⟨(key g hA kv hkv).1, hle kv hkv⟩, by rw [s0.2, s1.2]; exact hs.1, fun he => ?_, fun hm => ?_⟩
  · rw [s0.2, s1.2] at he
    obtain ⟨h1, h2⟩ := laws_of_heldOut h hA hA₀ fun kv hkv => (key g hA kv hkv).2.2 (hs.2 he kv hkv)
    exact ⟨fun i => congrFun h1 i, h2⟩
  · unfold heldOutNll
    rw [hm.2, show (fun i => g.mean (g.asMeas (d.features.get i))) =
      fun i => g₀.mean (g₀.asMeas (d.features.get i)) from funext hm.1]

section
variable (b : Build) (uninit : Nat → ℝ) (ldlt : LdltRoutine)
  (hl : ∀ n (M : Matrix (Fin n) (Fin n) ℝ), M.PosDef → (ldlt n M).Factors M)
  (d : Dataset X ℝ) (hd : d.Valid)
  (indexer : SMap K (List (Fin d.features.length))) (h : IsPartition (rawIndexer indexer) d.features.length)

include hl hd h

omit [MeasurableSpace Ω] in
/-- The scores of refitting. -/
theorem refit_nll (g : Gp X) (hr : CvReady g d indexer) (hm : MeasuresProcess g d) (y : Fin d.features.length → ℝ) :
    (gpCvModel b uninit ldlt g).refitting.scores b jointKind (nllJoint b ldlt) (d.withTargets y) (rawIndexer indexer) =
      some (.ok (indexer.map fun kv => .fin (heldOutNll g d y kv.2))) ∧
    ∃ folds, foldsFromGroupIndexer b (d.withTargets y) (rawIndexer indexer) = .ok folds ∧
      (gpCvModel b uninit ldlt g).scoresFolds b jointKind (nllJoint b ldlt) folds =
        some (.ok (indexer.map fun kv => .fin (heldOutNll g d y kv.2))) := by
  have ht := withTargets_targets d y
  have he := refitNoisy_error ldlt hl g d hd indexer h hr y
  have hS : (gpCvModel b uninit ldlt g).refitting.scores b jointKind (nllJoint b ldlt) (d.withTargets y)
      (rawIndexer indexer) = some (.ok (indexer.map fun kv => .fin (heldOutNll g d y kv.2))) := by
    rw [nll_group_scores b ldlt hl _ (d.withTargets y) (withTargets_valid d hd y) indexer h
      (fun idx => refitLatent ldlt g (d.withTargets y) idx)
      (C98_gp_refit b uninit ldlt g (d.withTargets y) (withTargets_valid d hd y) indexer h).1
      (fun idx => ((obsCovariance g d.features.get (datasetTargets d).variance)⁻¹.submatrix idx.get idx.get)⁻¹)
      (fun kv hkv => ?_) fun kv hkv => (he kv hkv).2.2]
    · congr 2
      refine List.map_congr_left fun kv hkv => ?_
      unfold heldOutNll
      dsimp only
      rw [← (he kv hkv).1]
      congr 3
      rw [ht]
      rfl
    · have h0 : measuringNoise g (d.withTargets y) kv.2 = 0 := by
        ext k l
        exact sub_eq_zero.2 (hm _ _)
      have := refitNoisy_split ldlt g (d.withTargets y) kv.2
      rw [h0, add_zero] at this
      exact this.symm.trans (he kv hkv).2.1
  refine ⟨hS, ?_⟩
  obtain ⟨-, -, -, folds, hf1, hf2⟩ := C88_scores_partial b jointKind jointKind_truthful (nllJoint b ldlt)
    (gpCvModel (K := K) b uninit ldlt g).refitting rfl rfl (by
      intro train xs p hp
      have hp' : some (if xs.length = 0 then _ else (⟨xs.length, _⟩ : DynJoint)) = some p := hp
      rw [← Option.some.inj hp']
      by_cases h0 : xs.length = 0
      · rw [if_pos h0]; exact h0.symm
      · rw [if_neg h0]; rfl) (d.withTargets y) (withTargets_valid d hd _) (rawIndexer indexer) h
  exact ⟨folds, hf1, by rw [← hS]; exact hf2⟩

omit [MeasurableSpace Ω] in
/-- The scores of the closed form, without target variances. -/
theorem closed_form_nll (g : Gp X) (hr : CvReady g d indexer) (hv : ∀ i, (datasetTargets d).variance i = 0)
    (y : Fin d.features.length → ℝ) :
    (gpCvModel b uninit ldlt g).scores b jointKind (nllJoint b ldlt) (d.withTargets y) (rawIndexer indexer) =
      some (.ok (indexer.map fun kv => .fin (heldOutNll g d y kv.2))) := by
  have ht := withTargets_targets d y
  have hvar : (datasetTargets (d.withTargets y)).variance = (datasetTargets d).variance := by rw [ht]
  have he := refitNoisy_error ldlt hl g d hd indexer h hr y
  rw [nll_group_scores b ldlt hl _ (d.withTargets y) (withTargets_valid d hd y) indexer h
    (fun idx => refitNoisy ldlt g (d.withTargets y) idx)
    (C98_gp_closed_form b uninit ldlt hl g hr.symm (d.withTargets y) (withTargets_valid d hd _) indexer h
      (by rw [hvar]; exact hr.posDef) ⟨hr.noise.cross, hr.noise.mean⟩).1
    (fun idx => ((obsCovariance g d.features.get (datasetTargets d).variance)⁻¹.submatrix idx.get idx.get)⁻¹)
    (fun kv hkv => ?_) fun kv hkv => (he kv hkv).2.2]
  · congr 2
    refine List.map_congr_left fun kv hkv => ?_
    unfold heldOutNll
    dsimp only
    rw [← (he kv hkv).1]
    congr 3
    rw [ht]
  · rw [(he kv hkv).2.1, hvar]
    have : (diagonal fun k => (datasetTargets d).variance (kv.2.get k)) = 0 := by
      rw [← Matrix.diagonal_zero]
      congr 1
      funext k
      exact hv _
    rw [this, add_zero]

/-- The scores `V₀` of the process the targets come from and the scores `V` of another process: expected values group by
group and in total. -/
def BestExpected (P : Measure Ω) (g₀ g : Gp X) (d : Dataset X ℝ) (indexer : SMap K (List (Fin d.features.length)))
    (V₀ V : Ω → List (Fin d.features.length) → ℝ) : Prop :=
  (∀ kv ∈ indexer, Integrable (fun ω => V₀ ω kv.2) P ∧ Integrable (fun ω => V ω kv.2) P ∧
    ∫ ω, V₀ ω kv.2 ∂P ≤ ∫ ω, V ω kv.2 ∂P) ∧
  ∫ ω, (indexer.map fun kv => V₀ ω kv.2).sum ∂P ≤ ∫ ω, (indexer.map fun kv => V ω kv.2).sum ∂P ∧
  (∫ ω, (indexer.map fun kv => V₀ ω kv.2).sum ∂P = ∫ ω, (indexer.map fun kv => V ω kv.2).sum ∂P ↔ SameMeasurements g g₀ d)

omit hd hl in
theorem heldOutNll_bestExpected (g₀ g : Gp X) (hr₀ : CvReady g₀ d indexer) (hr : CvReady g d indexer)
    {Y : Ω → Fin d.features.length → ℝ} (hY : TargetsOf P Y g₀ d.features.get (datasetTargets d).variance) :
    BestExpected P g₀ g d indexer (fun ω idx => heldOutNll g₀ d (Y ω) idx) fun ω idx => heldOutNll g d (Y ω) idx := by
  have h0 := heldOutNll_best g₀ g₀ d indexer h hr₀.posDef hr₀.posDef hY
  obtain ⟨h1, h2, h3⟩ := heldOutNll_best g₀ g d indexer h hr₀.posDef hr.posDef hY
  exact ⟨fun kv hkv => ⟨(h0.1 kv hkv).1, h1 kv hkv⟩, h2, h3⟩

/-- **C125**, cross validation.  Let the targets, with any variances, have the means and covariances of the measurements of a
process.  Scored fold by fold with the negative log likelihood, this process has the smallest expected score of each group,
and the smallest expected total; another process reaches the total only if it agrees on the means and all covariances of the
measurements, also those between rows of different groups.  Measuring must add nothing to the processes but the errors of
the targets, which predictions by refitting do not know of. -/
theorem C125_cross_validation (g₀ g : Gp X) (hr₀ : CvReady g₀ d indexer) (hr : CvReady g d indexer)
    (hm₀ : MeasuresProcess g₀ d) (hm : MeasuresProcess g d)
    {Y : Ω → Fin d.features.length → ℝ} (hY : TargetsOf P Y g₀ d.features.get (datasetTargets d).variance) :
    ∃ V₀ V : Ω → List (Fin d.features.length) → ℝ,
      (∀ g' W, ((g' = g₀ ∧ W = V₀) ∨ (g' = g ∧ W = V)) → ∀ ω,
        (gpCvModel b uninit ldlt g').refitting.scores b jointKind (nllJoint b ldlt) (d.withTargets (Y ω))
          (rawIndexer indexer) = some (.ok (indexer.map fun kv => .fin (W ω kv.2))) ∧
        ∃ folds, foldsFromGroupIndexer b (d.withTargets (Y ω)) (rawIndexer indexer) = .ok folds ∧
          (gpCvModel b uninit ldlt g').scoresFolds b jointKind (nllJoint b ldlt) folds =
            some (.ok (indexer.map fun kv => .fin (W ω kv.2)))) ∧
      BestExpected P g₀ g d indexer V₀ V := by
  refine ⟨_, _, ?_, heldOutNll_bestExpected d indexer h g₀ g hr₀ hr hY⟩
  rintro g' W (⟨rfl, rfl⟩ | ⟨rfl, rfl⟩) ω
  · exact refit_nll b uninit ldlt hl d hd indexer h _ hr₀ hm₀ (Y ω)
  · exact refit_nll b uninit ldlt hl d hd indexer h _ hr hm (Y ω)

/-- **C125**, the Gaussian process's own cross validation.  Full claim: as `C125_cross_validation`, whatever measuring adds.
Proved for targets without variances; with variances the claim is false, see `C125_leave_one_out_variance_false`. -/
theorem C125_closed_form_partial (g₀ g : Gp X) (hr₀ : CvReady g₀ d indexer) (hr : CvReady g d indexer)
    (hv : ∀ i, (datasetTargets d).variance i = 0)
    {Y : Ω → Fin d.features.length → ℝ} (hY : TargetsOf P Y g₀ d.features.get (datasetTargets d).variance) :
    ∃ V₀ V : Ω → List (Fin d.features.length) → ℝ,
      (∀ g' W, ((g' = g₀ ∧ W = V₀) ∨ (g' = g ∧ W = V)) → ∀ ω,
        (gpCvModel b uninit ldlt g').scores b jointKind (nllJoint b ldlt) (d.withTargets (Y ω)) (rawIndexer indexer) =
          some (.ok (indexer.map fun kv => .fin (W ω kv.2)))) ∧
      BestExpected P g₀ g d indexer V₀ V := by
  refine ⟨_, _, ?_, heldOutNll_bestExpected d indexer h g₀ g hr₀ hr hY⟩
  rintro g' W (⟨rfl, rfl⟩ | ⟨rfl, rfl⟩) ω
  · exact closed_form_nll b uninit ldlt hl d hd indexer h _ hr₀ hv (Y ω)
  · exact closed_form_nll b uninit ldlt hl d hd indexer h _ hr hv (Y ω)

omit h in
/-- **C125**, `LeaveOneOutLikelihood`.  Full claim: the expected objective is smallest for the process the targets come from
(for equal log priors), and only processes that agree on the measurements reach it.  Proved for targets without variances;
with variances the claim is false, see `C125_leave_one_out_variance_false`. -/
theorem C125_leave_one_out_partial (g₀ g : Gp X) (hr₀ : CvReady g₀ d (looIndexer d.features.length))
    (hr : CvReady g d (looIndexer d.features.length)) (hv : ∀ i, (datasetTargets d).variance i = 0) (prior : ℝ)
    {Y : Ω → Fin d.features.length → ℝ} (hY : TargetsOf P Y g₀ d.features.get (datasetTargets d).variance) :
    ∃ L₀ L : Ω → ℝ, (∀ g' W, ((g' = g₀ ∧ W = L₀) ∨ (g' = g ∧ W = L)) → ∀ ω,
        (gpCvModel b uninit ldlt g').looLikelihood b jointKind (nllJoint b ldlt) (.fin prior) (d.withTargets (Y ω)) =
          some (.ok (.fin (W ω)))) ∧
      Integrable L₀ P ∧ Integrable L P ∧ ∫ ω, L₀ ω ∂P ≤ ∫ ω, L ω ∂P ∧
      (∫ ω, L₀ ω ∂P = ∫ ω, L ω ∂P ↔ SameMeasurements g g₀ d) := by
  have h : IsPartition (rawIndexer (looIndexer d.features.length)) d.features.length := by
    rw [looIndexer_raw]; exact leaveOneOut_partition _
  obtain ⟨h1, h2, h3⟩ := heldOutNll_bestExpected d _ h g₀ g hr₀ hr hY
  have hcode : ∀ g', CvReady g' d (looIndexer d.features.length) → ∀ ω,
      (gpCvModel b uninit ldlt g').looLikelihood b jointKind (nllJoint b ldlt) (.fin prior) (d.withTargets (Y ω)) =
        some (.ok (.fin (((looIndexer d.features.length).map fun kv => heldOutNll g' d (Y ω) kv.2).sum - prior))) := by
    intro g' hr' ω
    unfold CvModel.looLikelihood
    have := closed_form_nll b uninit ldlt hl d hd _ h g' hr' hv (Y ω)
    rw [looIndexer_raw] at this
    rw [this, Option.map_some, except_ok_bind]
    have e : ((looIndexer d.features.length).map fun kv => Dbl.fin (heldOutNll g' d (Y ω) kv.2)) =
        ((looIndexer d.features.length).map fun kv => heldOutNll g' d (Y ω) kv.2).map Dbl.fin := by
      rw [List.map_map]; rfl
    rw [e, dblSum_fin]
    rfl
  have i0 := (integral_list_sum (P := P) (looIndexer d.features.length) (fun kv ω => heldOutNll g₀ d (Y ω) kv.2)
    fun kv hkv => (h1 kv hkv).1).1
  have i1 := (integral_list_sum (P := P) (looIndexer d.features.length) (fun kv ω => heldOutNll g d (Y ω) kv.2)
    fun kv hkv => (h1 kv hkv).2.1).1
  refine ⟨fun ω => ((looIndexer d.features.length).map fun kv => heldOutNll g₀ d (Y ω) kv.2).sum - prior,
    fun ω => ((looIndexer d.features.length).map fun kv => heldOutNll g d (Y ω) kv.2).sum - prior, ?_,
    i0.sub (integrable_const _), i1.sub (integrable_const _), ?_, ?_⟩
  · rintro g' W (⟨rfl, rfl⟩ | ⟨rfl, rfl⟩) ω
    · exact hcode _ hr₀ ω
    · exact hcode _ hr ω
  · rw [integral_sub i0 (integrable_const _), integral_sub i1 (integrable_const _)]
    exact sub_le_sub_right h2 _
  · rw [integral_sub i0 (integrable_const _), integral_sub i1 (integrable_const _), sub_left_inj]
    exact h3

end

/-! ## With target variances -/

/-- Uncorrelated values of variance `s`. -/
noncomputable def whiteOf (s : ℝ) : Gp Bool where
  cov x y := if x = y then s else 0
  mean _ := 0
  asMeas x := x

theorem whiteOf_obs (s : ℝ) (v : Fin whiteData.features.length → ℝ) :
    obsCovariance (whiteOf s) whiteData.features.get v = diagonal fun i => s + v i := by
  have key : ∀ (v : Fin 2 → ℝ) (i j : Fin 2), ((if [false, true].get i = [false, true].get j then s else 0) +
      if i = j then v i else 0) = if i = j then s + v i else 0 := by
    intro v i j; fin_cases i <;> fin_cases j <;> norm_num
  ext i j
  simp only [obsCovariance, of_apply, diagonal_apply]
  exact key v i j

theorem whiteOf_ready {s : ℝ} (hs : 0 ≤ s) : CvReady (whiteOf s) whiteData (looIndexer whiteData.features.length) :=
  ⟨fun x y => by unfold whiteOf; simp [eq_comm], by
    rw [whiteOf_obs]
    exact PosDef.diagonal fun i => by rw [(whiteTargets i).2]; linarith, fun _ _ _ _ _ _ => rfl, fun _ => rfl⟩

theorem log_three_halves : (1 : ℝ) / 3 < Real.log 3 - Real.log 2 := by
  rw [← Real.log_div (by norm_num) (by norm_num), Real.lt_log_iff_exp_lt (by norm_num)]
  refine lt_of_pow_lt_pow_left₀ 3 (by norm_num) ?_
  rw [← Real.exp_nat_mul]
  norm_num
  exact Real.exp_one_lt_d9.trans (by norm_num)

/-- Two uncorrelated values of variance one, seen with target errors of variance one: the expected negative log likelihood
that tuning minimises is smaller for values of variance two. -/
theorem C125_likelihood_variance_false (ldlt : LdltRoutine)
    (hl : ∀ n (M : Matrix (Fin n) (Fin n) ℝ), M.PosDef → (ldlt n M).Factors M) :
    ∃ (g₀ g : Gp Bool) (n : Nat) (xs : Fin n → Bool) (v : Fin n → ℝ) (P : Measure (EuclideanSpace ℝ (Fin n)))
      (_ : IsProbabilityMeasure P) (Y : EuclideanSpace ℝ (Fin n) → Fin n → ℝ),
      (∀ i, 0 < v i) ∧ (∀ x y, g₀.cov x y = g₀.cov y x) ∧ (∀ x y, g.cov x y = g.cov y x) ∧
      (obsCovariance g₀ xs 0).PosDef ∧ (obsCovariance g xs 0).PosDef ∧ TargetsOf P Y g₀ xs v ∧
      ∀ prior : ℝ, ∫ ω, -g.logLikelihood (ldlt n) prior xs ⟨Y ω, v⟩ ∂P <
        ∫ ω, -g₀.logLikelihood (ldlt n) prior xs ⟨Y ω, v⟩ ∂P := by
  have hpd : ∀ s : ℝ, 0 < s → (obsCovariance (whiteOf s) whiteData.features.get 0).PosDef := fun s hs => by
    rw [whiteOf_obs]; exact PosDef.diagonal fun i => by simpa using hs
  have hA : (obsCovariance (whiteOf 1) whiteData.features.get fun _ => 1).PosDef := by
    rw [whiteOf_obs]; exact PosDef.diagonal fun i => by norm_num
  have hN := exists_isNormal (fun i => (whiteOf 1).mean ((whiteOf 1).asMeas (whiteData.features.get i))) hA.posSemidef
  refine ⟨whiteOf 1, whiteOf 2, _, whiteData.features.get, fun _ => 1, _, inferInstance, _, fun _ => one_pos,
    fun x y => by unfold whiteOf; simp [eq_comm], fun x y => by unfold whiteOf; simp [eq_comm], hpd 1 one_pos,
    hpd 2 two_pos, hN.hasMoments, fun prior => ?_⟩
  have hb := C125_likelihood_best ldlt hl (whiteOf 1) (whiteOf 2) (whiteOf 1) whiteData.features.get (fun _ => 1)
    hN.hasMoments prior hA (fun _ => rfl) (by
      rw [whiteOf_obs, whiteOf_obs]
      congr 1
      funext i
      simp only [Pi.zero_apply]
      norm_num) (hpd 1 one_pos)
  refine lt_of_le_of_ne hb.1 fun he => ?_
  have := (hb.2.1 he).2
  rw [whiteOf_obs, whiteOf_obs] at this
  have h2 := congrFun (congrFun this whiteRow) whiteRow
  simp at h2

/-- The held out prediction of a row among uncorrelated rows. -/
theorem heldOutWeights_scalar {n : Nat} {a : ℝ} (ha : 0 < a) (s : κ → Fin n) [Fintype κ] [DecidableEq κ]
    (hs : Function.Injective s) :
    ((diagonal fun _ : Fin n => a)⁻¹.submatrix s s)⁻¹ = diagonal (fun _ => a) ∧
    heldOutWeights (diagonal fun _ : Fin n => a) s = (1 : Matrix (Fin n) (Fin n) ℝ).submatrix s id := by
  have hi : (diagonal fun _ : Fin n => a)⁻¹ = diagonal fun _ => a⁻¹ := by
    refine inv_eq_left_inv ?_
    rw [diagonal_mul_diagonal]
    simp [ha.ne']
  have h1 : ((diagonal fun _ : Fin n => a)⁻¹.submatrix s s)⁻¹ = diagonal (fun _ => a) := by
    rw [hi, submatrix_diagonal _ _ hs]
    refine inv_eq_left_inv ?_
    rw [diagonal_mul_diagonal]
    simp [ha.ne']
  refine ⟨h1, ?_⟩
  rw [heldOutWeights, h1, hi]
  ext i j
  simp [diagonal_apply, one_apply, ha.ne']

/-- `LeaveOneOutLikelihood` for uncorrelated values of variance `s`, seen with target errors of variance one. -/
theorem white_leave_one_out (b : Build) (uninit : Nat → ℝ) (ldlt : LdltRoutine)
    (hl : ∀ n (M : Matrix (Fin n) (Fin n) ℝ), M.PosDef → (ldlt n M).Factors M) {s : ℝ} (hs : 0 ≤ s) (prior : ℝ)
    (y : Fin whiteData.features.length → ℝ) :
    (gpCvModel b uninit ldlt (whiteOf s)).looLikelihood b jointKind (nllJoint b ldlt) (.fin prior)
      (whiteData.withTargets y) = some (.ok (.fin (((looIndexer whiteData.features.length).map fun kv =>
        -gaussianLogPdf 0 (diagonal fun _ => s + 2) fun k => y (kv.2.get k)).sum - prior))) := by
  have h : IsPartition (rawIndexer (looIndexer whiteData.features.length)) whiteData.features.length := by
    rw [looIndexer_raw]; exact leaveOneOut_partition _
  have hr := whiteOf_ready hs
  have ht := withTargets_targets whiteData y
  have hvar : (datasetTargets (whiteData.withTargets y)).variance = (datasetTargets whiteData).variance := by rw [ht]
  have he := refitNoisy_error ldlt hl _ whiteData whiteData_valid _ h hr y
  have hobs : obsCovariance (whiteOf s) whiteData.features.get (datasetTargets whiteData).variance =
      diagonal fun _ => s + 1 := by
    rw [whiteOf_obs]
    congr 1
    funext i
    rw [(whiteTargets i).2]
  have hnd : ∀ kv ∈ looIndexer whiteData.features.length, kv.2.Nodup := fun kv hkv => by
    obtain ⟨i, -, rfl⟩ := List.mem_map.1 hkv
    exact List.nodup_singleton i
  have hsc := nll_group_scores b ldlt hl (gpCvModel b uninit ldlt (whiteOf s)) (whiteData.withTargets y)
    (withTargets_valid _ whiteData_valid y) _ h (fun idx => refitNoisy ldlt (whiteOf s) (whiteData.withTargets y) idx)
    (C98_gp_closed_form b uninit ldlt hl _ hr.symm (whiteData.withTargets y) (withTargets_valid _ whiteData_valid _) _ h
      (by rw [hvar]; exact hr.posDef) ⟨hr.noise.cross, hr.noise.mean⟩).1
    (fun idx => diagonal fun _ => s + 2) (fun kv hkv => by
      rw [(he kv hkv).2.1, hobs, (heldOutWeights_scalar (by linarith) _ (hnd kv hkv).injective_get).1, hvar,
        diagonal_add]
      congr 1
      funext k
      rw [(whiteTargets _).2]
      ring) (fun kv hkv => PosDef.diagonal fun _ => by linarith)
  unfold CvModel.looLikelihood
  rw [looIndexer_raw] at hsc
  rw [hsc, Option.map_some, except_ok_bind]
  have e : ((looIndexer whiteData.features.length).map fun kv => Dbl.fin (-gaussianLogPdf 0 (diagonal fun _ => s + 2)
      ((fun k => (datasetTargets (whiteData.withTargets y)).mean (kv.2.get k)) -
        (refitNoisy ldlt (whiteOf s) (whiteData.withTargets y) kv.2).mean))) =
      ((looIndexer whiteData.features.length).map fun kv =>
        -gaussianLogPdf 0 (diagonal fun _ => s + 2) fun k => y (kv.2.get k)).map Dbl.fin := by
    rw [List.map_map]
    refine List.map_congr_left fun kv hkv => ?_
    simp only [Function.comp_apply]
    congr 3
    rw [ht]
    refine (he kv hkv).1.trans ?_
    rw [hobs, (heldOutWeights_scalar (by linarith) _ (hnd kv hkv).injective_get).2]
    funext k
    simp [mulVec, dotProduct, one_apply, whiteOf]
  rw [e, dblSum_fin]
  rfl

/-- The expected value of `LeaveOneOutLikelihood` for uncorrelated values of variance `s`, if the targets have variance
two. -/
theorem white_expected {Y : Ω → Fin whiteData.features.length → ℝ}
    (hY : HasMoments P Y 0 (diagonal fun _ => 2)) {s : ℝ} (hs : 0 ≤ s) (prior : ℝ) :
    ∫ ω, (((looIndexer whiteData.features.length).map fun kv =>
        -gaussianLogPdf 0 (diagonal fun _ => s + 2) fun k => Y ω (kv.2.get k)).sum - prior) ∂P =
      2 / (s + 2) + Real.log (s + 2) + Real.log (2 * Real.pi) - prior := by
  have one : ∀ kv ∈ looIndexer whiteData.features.length,
      Integrable (fun ω => -gaussianLogPdf 0 (diagonal fun _ => s + 2) fun k => Y ω (kv.2.get k)) P ∧
      ∫ ω, -gaussianLogPdf 0 (diagonal fun _ => s + 2) (fun k => Y ω (kv.2.get k)) ∂P =
        1 / 2 * (2 / (s + 2) + Real.log (s + 2) + Real.log (2 * Real.pi)) := by
    intro kv hkv
    obtain ⟨i, -, rfl⟩ := List.mem_map.1 hkv
    have hm := hY.affine ((1 : Matrix (Fin whiteData.features.length) (Fin whiteData.features.length) ℝ).submatrix [i].get id) 0
    have e1 : (fun ω => (1 : Matrix (Fin whiteData.features.length) (Fin whiteData.features.length) ℝ).submatrix [i].get id *ᵥ
        Y ω + 0) = fun ω k => Y ω ([i].get k) := by
      funext ω k
      simp [mulVec, dotProduct, one_apply]
    have e2 : (1 : Matrix (Fin whiteData.features.length) (Fin whiteData.features.length) ℝ).submatrix [i].get id *
        (diagonal fun _ => (2 : ℝ)) *
          ((1 : Matrix (Fin whiteData.features.length) (Fin whiteData.features.length) ℝ).submatrix [i].get id)ᵀ = diagonal fun _ => (2 : ℝ) := by
      ext k l
      obtain rfl : k = l := Subsingleton.elim (α := Fin 1) k l
      simp [mul_apply, one_apply, diagonal_apply]
    rw [e1, e2, mulVec_zero, add_zero] at hm
    obtain ⟨h1, h2⟩ := hm.integral_log 0 (diagonal fun _ => s + 2)
    refine ⟨h1, h2.trans ?_⟩
    have hi : (diagonal fun _ : Fin [i].length => s + 2)⁻¹ = diagonal fun _ => (s + 2)⁻¹ := by
      refine inv_eq_left_inv ?_
      rw [diagonal_mul_diagonal]
      have : s + 2 ≠ 0 := by linarith
      simp [this]
    rw [hi, diagonal_mul_diagonal, sub_zero, zero_dotProduct, det_diagonal, trace_diagonal]
    simp
    ring
  have hsum := integral_list_sum (P := P) (looIndexer whiteData.features.length)
    (fun kv ω => -gaussianLogPdf 0 (diagonal fun _ => s + 2) fun k => Y ω (kv.2.get k)) fun kv hkv => (one kv hkv).1
  rw [integral_sub hsum.1 (integrable_const _), hsum.2, integral_const]
  rw [List.map_congr_left fun kv hkv => (one kv hkv).2]
  have hlen : (looIndexer whiteData.features.length).length = 2 := by simp [looIndexer, whiteData]
  rw [List.map_const', List.sum_replicate, hlen, probReal_univ]
  simp only [smul_eq_mul, nsmul_eq_mul]
  push_cast
  ring

/-- Two uncorrelated values of variance one, seen with target errors of variance one: the expected `LeaveOneOutLikelihood`,
which counts the target variances twice, is smaller for values of variance zero. -/
theorem C125_leave_one_out_variance_false (b : Build) (uninit : Nat → ℝ) (ldlt : LdltRoutine)
    (hl : ∀ n (M : Matrix (Fin n) (Fin n) ℝ), M.PosDef → (ldlt n M).Factors M) :
    ∃ (g₀ g : Gp Bool) (d : Dataset Bool ℝ) (P : Measure (EuclideanSpace ℝ (Fin d.features.length)))
      (_ : IsProbabilityMeasure P) (Y : EuclideanSpace ℝ (Fin d.features.length) → Fin d.features.length → ℝ),
      d.Valid ∧ CvReady g₀ d (looIndexer d.features.length) ∧ CvReady g d (looIndexer d.features.length) ∧
      MeasuresProcess g₀ d ∧ MeasuresProcess g d ∧ (∀ i, 0 < (datasetTargets d).variance i) ∧
      TargetsOf P Y g₀ d.features.get (datasetTargets d).variance ∧
      ∀ prior : ℝ, ∃ L₀ L : EuclideanSpace ℝ (Fin d.features.length) → ℝ,
        (∀ g' W, ((g' = g₀ ∧ W = L₀) ∨ (g' = g ∧ W = L)) → ∀ ω,
          (gpCvModel b uninit ldlt g').looLikelihood b jointKind (nllJoint b ldlt) (.fin prior) (d.withTargets (Y ω)) =
            some (.ok (.fin (W ω)))) ∧
        ∫ ω, L ω ∂P < ∫ ω, L₀ ω ∂P := by
  have hobs : obsCovariance (whiteOf 1) whiteData.features.get (datasetTargets whiteData).variance =
      diagonal fun _ => 2 := by
    rw [whiteOf_obs]
    congr 1
    funext i
    rw [(whiteTargets i).2]
    norm_num
  have hN := exists_isNormal (0 : Fin whiteData.features.length → ℝ)
    (PosSemidef.diagonal (n := Fin whiteData.features.length) (d := fun _ => (2 : ℝ)) fun _ => by norm_num)
  refine ⟨whiteOf 1, whiteOf 0, whiteData, _, inferInstance, _, whiteData_valid, whiteOf_ready zero_le_one,
    whiteOf_ready le_rfl, fun _ _ => rfl, fun _ _ => rfl, fun i => by rw [(whiteTargets i).2]; exact one_pos,
    by unfold TargetsOf; rw [hobs]; exact hN.hasMoments, fun prior => ?_⟩
  refine ⟨fun y => ((looIndexer whiteData.features.length).map fun kv =>
      -gaussianLogPdf 0 (diagonal fun _ => 1 + 2) fun k => y (kv.2.get k)).sum - prior,
    fun y => ((looIndexer whiteData.features.length).map fun kv =>
      -gaussianLogPdf 0 (diagonal fun _ => 0 + 2) fun k => y (kv.2.get k)).sum - prior, ?_, ?_⟩
  · rintro g' W (⟨rfl, rfl⟩ | ⟨rfl, rfl⟩) ω
    · exact white_leave_one_out b uninit ldlt hl zero_le_one prior _
    · exact white_leave_one_out b uninit ldlt hl le_rfl prior _
  · rw [white_expected hN.hasMoments le_rfl, white_expected hN.hasMoments zero_le_one]
    have := log_three_halves
    norm_num
    linarith

/-- The hypotheses of `C125_cross_validation` can be met: two processes that differ, groups of two rows and one. -/
example : ∃ (ldlt : LdltRoutine) (g₀ g : Gp Bool) (d : Dataset Bool ℝ)
    (indexer : SMap Nat (List (Fin d.features.length))) (P : Measure (EuclideanSpace ℝ (Fin d.features.length)))
    (_ : IsProbabilityMeasure P) (Y : EuclideanSpace ℝ (Fin d.features.length) → Fin d.features.length → ℝ),
    (∀ n (M : Matrix (Fin n) (Fin n) ℝ), M.PosDef → (ldlt n M).Factors M) ∧ d.Valid ∧
    IsPartition (rawIndexer indexer) d.features.length ∧ indexer.length = 2 ∧ CvReady g₀ d indexer ∧ CvReady g d indexer ∧
    MeasuresProcess g₀ d ∧ MeasuresProcess g d ∧ ¬SameMeasurements g g₀ d ∧
    TargetsOf P Y g₀ d.features.get (datasetTargets d).variance := by
  choose ldlt hl using fun n => exists_ldlt (Fin n)
  let d : Dataset Bool ℝ := { features := [false, true, false], mean := [0, 0, 0], variance := [1, 1, 1] }
  have hv : (datasetTargets d).variance = fun _ => (1 : ℝ) := by
    have : ∀ i : Fin 3, ([1, 1, 1] : List ℝ).getD i.1 0 = 1 := by
      intro i; fin_cases i <;> simp
    exact funext this
  have hsym : ∀ s x y, (whiteOf s).cov x y = (whiteOf s).cov y x := fun s x y => by unfold whiteOf; simp [eq_comm]
  have hpd : (obsCovariance (whiteOf 1) d.features.get (datasetTargets d).variance).PosDef := by
    have e : obsCovariance (whiteOf 1) d.features.get (datasetTargets d).variance =
        (of fun (i : Fin d.features.length) (c : Bool) => if d.features.get i = c then (1 : ℝ) else 0) *
          (of fun (i : Fin d.features.length) (c : Bool) => if d.features.get i = c then (1 : ℝ) else 0)ᵀ + 1 := by
      ext i j
      rw [hv]
      simp only [obsCovariance, whiteOf, of_apply, Matrix.add_apply, Matrix.mul_apply, Matrix.transpose_apply,
        Fintype.sum_bool, Matrix.one_apply]
      cases d.features.get i <;> cases d.features.get j <;> simp
    rw [e]
    exact Matrix.PosDef.posSemidef_add (by
      simpa using Matrix.posSemidef_self_mul_conjTranspose
        (of fun (i : Fin d.features.length) (c : Bool) => if d.features.get i = c then (1 : ℝ) else 0)) Matrix.PosDef.one
  have hpd0 : (obsCovariance (whiteOf 0) d.features.get (datasetTargets d).variance).PosDef := by
    have e : obsCovariance (whiteOf 0) d.features.get (datasetTargets d).variance = 1 := by
      ext i j
      rw [hv]
      simp [obsCovariance, whiteOf, Matrix.one_apply]
    rw [e]
    exact Matrix.PosDef.one
  refine ⟨ldlt, whiteOf 1, whiteOf 0, d, [(4, [(0 : Fin 3), (2 : Fin 3)]), (7, [(1 : Fin 3)])], _, inferInstance, _, hl,
    ⟨rfl, rfl⟩, ⟨by simp [SMap.WF, rawIndexer], by decide⟩, rfl,
    ⟨hsym 1, hpd, fun _ _ _ _ _ _ => rfl, fun _ => rfl⟩, ⟨hsym 0, hpd0, fun _ _ _ _ _ _ => rfl, fun _ => rfl⟩,
    fun _ _ => rfl, fun _ _ => rfl, fun h => ?_, (exists_isNormal _ hpd.posSemidef).hasMoments⟩
  have := congrFun (congrFun h.2 (0 : Fin 3)) (0 : Fin 3)
  rw [hv] at this
  simp [obsCovariance, whiteOf] at this

/-- The hypotheses of `C125_leave_one_out_partial`, `C125_closed_form_partial` and `C125_likelihood_partial` can be met. -/
example : ∃ (d : Dataset Bool ℝ) (P : Measure (EuclideanSpace ℝ (Fin d.features.length))) (_ : IsProbabilityMeasure P)
    (Y : EuclideanSpace ℝ (Fin d.features.length) → Fin d.features.length → ℝ),
    d.Valid ∧ (∀ i, (datasetTargets d).variance i = 0) ∧ CvReady (whiteOf 1) d (looIndexer d.features.length) ∧
    CvReady (whiteOf 2) d (looIndexer d.features.length) ∧ (obsCovariance (whiteOf 1) d.features.get 0).PosDef ∧
    TargetsOf P Y (whiteOf 1) d.features.get (datasetTargets d).variance ∧ TargetsOf P Y (whiteOf 1) d.features.get 0 := by
  let d : Dataset Bool ℝ := { features := [false, true], mean := [0, 0], variance := [0, 0] }
  have hv : (datasetTargets d).variance = 0 := by
    have : ∀ i : Fin 2, ([0, 0] : List ℝ).getD i.1 0 = 0 := by
      intro i; fin_cases i <;> simp
    exact funext this
  have hpd : ∀ s : ℝ, 0 < s → (obsCovariance (whiteOf s) d.features.get 0).PosDef := fun s hs => by
    have := whiteOf_obs s 0
    show (obsCovariance (whiteOf s) whiteData.features.get 0).PosDef
    rw [this]
    exact PosDef.diagonal fun i => by simpa using hs
  have hready : ∀ s : ℝ, 0 < s → CvReady (whiteOf s) d (looIndexer d.features.length) := fun s hs =>
    ⟨fun x y => by unfold whiteOf; simp [eq_comm], by rw [hv]; exact hpd s hs, fun _ _ _ _ _ _ => rfl, fun _ => rfl⟩
  have hN := (exists_isNormal (fun i => (whiteOf 1).mean ((whiteOf 1).asMeas (d.features.get i)))
    (hpd 1 one_pos).posSemidef).hasMoments
  exact ⟨d, _, inferInstance, _, ⟨rfl, rfl⟩, fun i => by rw [hv]; rfl, hready 1 one_pos, hready 2 two_pos, hpd 1 one_pos,
    by unfold TargetsOf; rw [hv]; exact hN, hN⟩

end Albatross
