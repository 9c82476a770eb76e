import Verif.RmseTruth
import Verif.TrueModelProps
import Verif.ScoreProps

/-! # The model the data come from has the smallest expected errors (C126)

Specification: targets with the normal law of the measurements of a process `g₀`, expected values in an arbitrary probability
space, root mean squares of errors. -/

namespace Albatross

open MeasureTheory ProbabilityTheory Matrix

variable {Ω : Type} [MeasurableSpace Ω] {P : Measure Ω} [IsProbabilityMeasure P]
variable {X K : Type} [LinearOrder K]

/-- The targets have the normal law of the measurements of the process. -/
def NormalTargetsOf (P : Measure Ω) (Y : Ω → Fin n → ℝ) (g : Gp X) (xs : Fin n → X) (v : Fin n → ℝ) : Prop :=
  IsNormal P Y (fun i => g.mean (g.asMeas (xs i))) (obsCovariance g xs v)

omit [MeasurableSpace Ω] in
/-- The root mean square error of a group, from the mean predictions of groups. -/
theorem rmse_group_scores (b : Build) (m : CvModel X K) (d : Dataset X ℝ)
    (hd : d.Valid) (indexer : SMap K (List (Fin d.features.length)))
    (h : IsPartition (rawIndexer indexer) d.features.length) (hne : ∀ kv ∈ indexer, kv.2 ≠ [])
    (pred : (idx : List (Fin d.features.length)) → Fin idx.length → ℝ)
    (hg : m.grouped b meanKind d (rawIndexer indexer) =
      some (.ok (indexer.map fun kv => (kv.1, ⟨kv.2.length, pred kv.2⟩)))) :
    m.scores b meanKind (rmseMetric b) d (rawIndexer indexer) =
      some (.ok (indexer.map fun kv => .fin (rms fun k => (datasetTargets d).mean (kv.2.get k) - pred kv.2 k))) := by
  let back : List Nat → List (Fin d.features.length) := fun l =>
    l.filterMap fun i => if h : i < d.features.length then some ⟨i, h⟩ else none
  have hback : ∀ idx : List (Fin d.features.length), back (idx.map (·.1)) = idx := by
    intro idx
    show (idx.map (·.1)).filterMap _ = _
    rw [List.filterMap_map]
    conv_rhs => rw [← List.map_id idx, ← List.filterMap_eq_map]
    refine List.filterMap_congr fun i _ => ?_
    simp
  let v : K × List Nat → DynMean := fun kv => ⟨(back kv.2).length, pred (back kv.2)⟩
  have hv : ∀ kv : K × List (Fin d.features.length), v (kv.1, kv.2.map (·.1)) = ⟨kv.2.length, pred kv.2⟩ := by
    intro kv
    show (⟨(back (kv.2.map (·.1))).length, pred (back (kv.2.map (·.1)))⟩ : DynMean) = _
    rw [hback]
  have hsc := C98_scores b meanKind (rmseMetric b) m d hd _ h v (by
      rw [hg]
      congr 2
      unfold rawIndexer
      rw [List.map_map]
      exact List.map_congr_left fun kv _ => by
        show _ = (kv.1, v (kv.1, kv.2.map (·.1)))
        rw [hv]) (by
      intro kv hkv
      obtain ⟨kv', -, rfl⟩ := List.mem_map.1 hkv
      show (v (kv'.1, kv'.2.map (·.1))).dim = (kv'.2.map (·.1)).length
      rw [hv, List.length_map])
  rw [hsc]
  congr 1
  unfold rawIndexer
  rw [mapM_map_list]
  refine mapM_eq_map _ fun kv hkv => ?_
  show rmseMetric b (v (kv.1, kv.2.map (·.1))) ((rowsAt d (kv.2.map (·.1))).map (·.2.1),
    (rowsAt d (kv.2.map (·.1))).map (·.2.2)) = _
  obtain ⟨h1, h2⟩ := rowsAt_targets d hd kv.2
  rw [h1, h2, hv]
  unfold rmseMetric
  dsimp only
  have hl : kv.2.map (datasetTargets d).mean = List.ofFn fun k => (datasetTargets d).mean (kv.2.get k) := by
    apply List.ext_getElem <;> simp
  rw [hl, C68_rmse b (List.length_pos_iff.2 (hne kv hkv))]
  unfold rms
  rw [Fintype.card_fin]
  congr 4
  exact Finset.sum_congr rfl fun k _ => by ring

/-- The size of the error of the held out group `idx` for the process `g` and the targets `y`. -/
noncomputable def heldOutRms (g : Gp X) (d : Dataset X ℝ) (y : Fin d.features.length → ℝ)
    (idx : List (Fin d.features.length)) : ℝ :=
  rms (heldOutWeights (obsCovariance g d.features.get (datasetTargets d).variance) idx.get *ᵥ
    (y - fun i => g.mean (g.asMeas (d.features.get i))))

/-- Two processes make the same mean predictions of all groups from the other rows, whatever the targets are. -/
def SameRowPredictions (b : Build) (uninit : Nat → ℝ) (ldlt : LdltRoutine) (g g₀ : Gp X) (d : Dataset X ℝ)
    (indexer : SMap K (List (Fin d.features.length))) : Prop :=
  ∀ y, (gpCvModel b uninit ldlt g).grouped b meanKind (d.withTargets y) (rawIndexer indexer) =
    (gpCvModel b uninit ldlt g₀).grouped b meanKind (d.withTargets y) (rawIndexer indexer)

section
variable (b : Build) (uninit : Nat → ℝ) (ldlt : LdltRoutine)
  (hl : ∀ n (M : Matrix (Fin n) (Fin n) ℝ), M.PosDef → (ldlt n M).Factors M)
  (d : Dataset X ℝ) (hd : d.Valid)
  (indexer : SMap K (List (Fin d.features.length))) (h : IsPartition (rawIndexer indexer) d.features.length)

include hl hd h

omit [MeasurableSpace Ω] in
/-- The mean predictions of a Gaussian process. -/
theorem gp_means (g : Gp X) (hr : CvReady g d indexer) (y : Fin d.features.length → ℝ) :
    (gpCvModel b uninit ldlt g).grouped b meanKind (d.withTargets y) (rawIndexer indexer) =
      some (.ok (indexer.map fun kv => (kv.1, ⟨kv.2.length, (refitNoisy ldlt g (d.withTargets y) kv.2).mean⟩))) ∧
    (gpCvModel b uninit ldlt g).refitting.grouped b meanKind (d.withTargets y) (rawIndexer indexer) =
      some (.ok (indexer.map fun kv => (kv.1, ⟨kv.2.length, (refitNoisy ldlt g (d.withTargets y) kv.2).mean⟩))) := by
  have ht := withTargets_targets d y
  have hvar : (datasetTargets (d.withTargets y)).variance = (datasetTargets d).variance := by rw [ht]
  have h1 := (C98_gp_closed_form b uninit ldlt hl g hr.symm (d.withTargets y) (withTargets_valid d hd _) indexer h
      (by rw [hvar]; exact hr.posDef) ⟨hr.noise.cross, hr.noise.mean⟩).2.2
  exact ⟨h1, (C98_gp_means_agree b uninit ldlt hl g hr.symm (d.withTargets y) (withTargets_valid d hd _) indexer h
      (by rw [hvar]; exact hr.posDef) ⟨hr.noise.cross, hr.noise.mean⟩).symm.trans h1⟩

omit [MeasurableSpace Ω] in
/-- The scores of a Gaussian process's own cross validation, of refitting, and of folds. -/
theorem gp_rmse (hne : ∀ kv ∈ indexer, kv.2 ≠ []) (g : Gp X) (hr : CvReady g d indexer)
    (y : Fin d.features.length → ℝ) :
    (gpCvModel b uninit ldlt g).scores b meanKind (rmseMetric b) (d.withTargets y) (rawIndexer indexer) =
      some (.ok (indexer.map fun kv => .fin (heldOutRms g d y kv.2))) ∧
    (gpCvModel b uninit ldlt g).refitting.scores b meanKind (rmseMetric b) (d.withTargets y) (rawIndexer indexer) =
      some (.ok (indexer.map fun kv => .fin (heldOutRms g d y kv.2))) ∧
    ∃ folds, foldsFromGroupIndexer b (d.withTargets y) (rawIndexer indexer) = .ok folds ∧
      (gpCvModel b uninit ldlt g).scoresFolds b meanKind (rmseMetric b) folds =
        some (.ok (indexer.map fun kv => .fin (heldOutRms g d y kv.2))) := by
  have ht := withTargets_targets d y
  have he := refitNoisy_error ldlt hl g d hd indexer h hr y
  have hval : (indexer.map fun kv => Dbl.fin (rms fun k => (datasetTargets (d.withTargets y)).mean (kv.2.get k) -
      (refitNoisy ldlt g (d.withTargets y) kv.2).mean k)) = indexer.map fun kv => .fin (heldOutRms g d y kv.2) := by
    refine List.map_congr_left fun kv hkv => ?_
    unfold heldOutRms
    rw [← (he kv hkv).1, ht]
    rfl
  obtain ⟨g1, g2⟩ := gp_means b uninit ldlt hl d hd indexer h g hr y
  have s1 := rmse_group_scores b (gpCvModel b uninit ldlt g) (d.withTargets y) (withTargets_valid d hd y) indexer h hne
    (fun idx => (refitNoisy ldlt g (d.withTargets y) idx).mean) g1
  have s2 := rmse_group_scores b (gpCvModel b uninit ldlt g).refitting (d.withTargets y) (withTargets_valid d hd y) indexer h
    hne (fun idx => (refitNoisy ldlt g (d.withTargets y) idx).mean) g2
  refine ⟨s1.trans (by rw [← hval]), s2.trans (by rw [← hval]), ?_⟩
  obtain ⟨-, -, -, folds, hf1, hf2⟩ := C88_scores_partial b meanKind meanKind_truthful (rmseMetric b)
    (gpCvModel (K := K) b uninit ldlt g).refitting rfl rfl (by
      intro train xs p hp
      have hp' : some (if xs.length = 0 then _ else (⟨xs.length, _⟩ : DynMean)) = some p := hp
      rw [← Option.some.inj hp']
      by_cases h0 : xs.length = 0
      · rw [if_pos h0]; exact h0.symm
      · rw [if_neg h0]; rfl) (d.withTargets y) (withTargets_valid d hd _) (rawIndexer indexer) h
  exact ⟨folds, hf1, (by exact hf2 : _ = _).trans (s2.trans (by rw [← hval]))⟩

omit [MeasurableSpace Ω] in
/-- The same predictions: the same weights for the other rows and the same means. -/
theorem sameRowPredictions_iff (g g₀ : Gp X) (hr : CvReady g d indexer) (hr₀ : CvReady g₀ d indexer) :
    SameRowPredictions b uninit ldlt g g₀ d indexer ↔ ∀ kv ∈ indexer,
      heldOutWeights (obsCovariance g d.features.get (datasetTargets d).variance) kv.2.get =
        heldOutWeights (obsCovariance g₀ d.features.get (datasetTargets d).variance) kv.2.get ∧
      heldOutWeights (obsCovariance g d.features.get (datasetTargets d).variance) kv.2.get *ᵥ
        (fun i => g.mean (g.asMeas (d.features.get i))) =
      heldOutWeights (obsCovariance g d.features.get (datasetTargets d).variance) kv.2.get *ᵥ
        (fun i => g₀.mean (g₀.asMeas (d.features.get i))) := by
  have hmean : ∀ (g' : Gp X), CvReady g' d indexer → ∀ y, ∀ kv ∈ indexer, (refitNoisy ldlt g' (d.withTargets y) kv.2).mean =
      (fun k => y (kv.2.get k)) - heldOutWeights (obsCovariance g' d.features.get (datasetTargets d).variance) kv.2.get *ᵥ
        (y - fun i => g'.mean (g'.asMeas (d.features.get i))) := fun g' hr' y kv hkv => by
    rw [← (refitNoisy_error ldlt hl g' d hd indexer h hr' y kv hkv).1, sub_sub_cancel]
  constructor
  · intro hs
    have hp : ∀ y, ∀ kv ∈ indexer,
        heldOutWeights (obsCovariance g d.features.get (datasetTargets d).variance) kv.2.get *ᵥ
          (y - fun i => g.mean (g.asMeas (d.features.get i))) =
        heldOutWeights (obsCovariance g₀ d.features.get (datasetTargets d).variance) kv.2.get *ᵥ
          (y - fun i => g₀.mean (g₀.asMeas (d.features.get i))) := by
      intro y kv hkv
      have hy := hs y
      rw [(gp_means b uninit ldlt hl d hd indexer h g hr y).1, (gp_means b uninit ldlt hl d hd indexer h g₀ hr₀ y).1] at hy
      have h1 := (List.map_inj_left.1 (Except.ok.inj (Option.some.inj hy))) kv hkv
      have h2 := (Prod.mk.inj h1).2
      have h3 : (refitNoisy ldlt g (d.withTargets y) kv.2).mean = (refitNoisy ldlt g₀ (d.withTargets y) kv.2).mean :=
        eq_of_heq (DynMean.mk.inj h2).2
      rw [hmean g hr y kv hkv, hmean g₀ hr₀ y kv hkv] at h3
      exact sub_right_injective h3
    intro kv hkv
    have hW : heldOutWeights (obsCovariance g d.features.get (datasetTargets d).variance) kv.2.get =
        heldOutWeights (obsCovariance g₀ d.features.get (datasetTargets d).variance) kv.2.get := by
      refine Matrix.ext_of_mulVec_single fun j => ?_
      have h1 := hp (Pi.single j 1) kv hkv
      have h0 := hp 0 kv hkv
      rw [mulVec_sub, mulVec_sub] at h1 h0
      rw [mulVec_zero, mulVec_zero, zero_sub, zero_sub, neg_inj] at h0
      rw [h0] at h1
      exact sub_left_injective h1
    refine ⟨hW, ?_⟩
    have h0 := hp 0 kv hkv
    rw [mulVec_sub, mulVec_sub, mulVec_zero, mulVec_zero, zero_sub, zero_sub, neg_inj] at h0
    rw [h0, hW]
  · intro hs y
    rw [(gp_means b uninit ldlt hl d hd indexer h g hr y).1, (gp_means b uninit ldlt hl d hd indexer h g₀ hr₀ y).1]
    congr 2
    refine List.map_congr_left fun kv hkv => ?_
    obtain ⟨h1, h2⟩ := hs kv hkv
    rw [hmean g hr y kv hkv, hmean g₀ hr₀ y kv hkv, mulVec_sub, h2, ← h1, ← mulVec_sub]

/-- Expected sizes of the errors. -/
theorem heldOutRms_best (g₀ g : Gp X) (hr₀ : CvReady g₀ d indexer) (hr : CvReady g d indexer)
    {Y : Ω → Fin d.features.length → ℝ} (hY : NormalTargetsOf P Y g₀ d.features.get (datasetTargets d).variance) :
    (∀ kv ∈ indexer, Integrable (fun ω => heldOutRms g₀ d (Y ω) kv.2) P ∧ Integrable (fun ω => heldOutRms g d (Y ω) kv.2) P ∧
      ∫ ω, heldOutRms g₀ d (Y ω) kv.2 ∂P ≤ ∫ ω, heldOutRms g d (Y ω) kv.2 ∂P) ∧
    ∫ ω, (indexer.map fun kv => heldOutRms g₀ d (Y ω) kv.2).sum ∂P ≤
      ∫ ω, (indexer.map fun kv => heldOutRms g d (Y ω) kv.2).sum ∂P ∧
    (∫ ω, (indexer.map fun kv => heldOutRms g₀ d (Y ω) kv.2).sum ∂P =
      ∫ ω, (indexer.map fun kv => heldOutRms g d (Y ω) kv.2).sum ∂P ↔ SameRowPredictions b uninit ldlt g g₀ d indexer) := by
  have hnd : ∀ kv ∈ indexer, kv.2.Nodup := fun kv hkv => by
    have := h.nodup (kv := (kv.1, kv.2.map (·.1))) (List.mem_map_of_mem hkv)
    exact List.Nodup.of_map _ this
  have key : ∀ g' : Gp X, CvReady g' d indexer → ∀ kv ∈ indexer, _ :=
    fun g' hr' kv hkv => heldOut_rms hY hr₀.posDef (hnd kv hkv).injective_get
      (heldOutWeights_own hr'.posDef (hnd kv hkv).injective_get) (fun i => g'.mean (g'.asMeas (d.features.get i)))
  have s0 := integral_list_sum (P := P) indexer (fun kv ω => heldOutRms g₀ d (Y ω) kv.2) fun kv hkv => (key g₀ hr₀ kv hkv).1
  have s1 := integral_list_sum (P := P) indexer (fun kv ω => heldOutRms g d (Y ω) kv.2) fun kv hkv => (key g hr kv hkv).1
  have hle : ∀ kv ∈ indexer, ∫ ω, heldOutRms g₀ d (Y ω) kv.2 ∂P ≤ ∫ ω, heldOutRms g d (Y ω) kv.2 ∂P :=
    fun kv hkv => (key g hr kv hkv).2.1
  have hs := list_sum_eq indexer hle
  refine ⟨fun kv hkv => ⟨(key g₀ hr₀ kv hkv).1, (key g hr kv hkv).1, hle kv hkv⟩, by rw [s0.2, s1.2]; exact hs.1, ?_⟩
  rw [s0.2, s1.2, sameRowPredictions_iff b uninit ldlt hl d hd indexer h g g₀ hr hr₀]
  constructor
  · exact fun he kv hkv => (key g hr kv hkv).2.2.1 (hs.2 he kv hkv)
  · intro he
    congr 1
    exact List.map_congr_left fun kv hkv => (key g hr kv hkv).2.2.2 (he kv hkv)

/-- **C126**, cross validation.  Let the targets, with any variances, have the normal law of the measurements of a process.
Scored with the root mean square error, by the Gaussian process's own cross validation, by refitting or fold by fold, this
process has the smallest expected score of each group, and the smallest expected total; another process reaches the total
only if it makes the same predictions, whatever the targets are. -/
theorem C126_cross_validation (hne : ∀ kv ∈ indexer, kv.2 ≠ []) (g₀ g : Gp X) (hr₀ : CvReady g₀ d indexer)
    (hr : CvReady g d indexer) {Y : Ω → Fin d.features.length → ℝ}
    (hY : NormalTargetsOf P Y g₀ d.features.get (datasetTargets d).variance) :
    ∃ V₀ V : Ω → List (Fin d.features.length) → ℝ,
      (∀ g' W, ((g' = g₀ ∧ W = V₀) ∨ (g' = g ∧ W = V)) → ∀ ω,
        (gpCvModel b uninit ldlt g').scores b meanKind (rmseMetric b) (d.withTargets (Y ω)) (rawIndexer indexer) =
          some (.ok (indexer.map fun kv => .fin (W ω kv.2))) ∧
        (gpCvModel b uninit ldlt g').refitting.scores b meanKind (rmseMetric b) (d.withTargets (Y ω))
          (rawIndexer indexer) = some (.ok (indexer.map fun kv => .fin (W ω kv.2))) ∧
        ∃ folds, foldsFromGroupIndexer b (d.withTargets (Y ω)) (rawIndexer indexer) = .ok folds ∧
          (gpCvModel b uninit ldlt g').scoresFolds b meanKind (rmseMetric b) folds =
            some (.ok (indexer.map fun kv => .fin (W ω kv.2)))) ∧
      (∀ kv ∈ indexer, Integrable (fun ω => V₀ ω kv.2) P ∧ Integrable (fun ω => V ω kv.2) P ∧
        ∫ ω, V₀ ω kv.2 ∂P ≤ ∫ ω, V ω kv.2 ∂P) ∧
      ∫ ω, (indexer.map fun kv => V₀ ω kv.2).sum ∂P ≤ ∫ ω, (indexer.map fun kv => V ω kv.2).sum ∂P ∧
      (∫ ω, (indexer.map fun kv => V₀ ω kv.2).sum ∂P = ∫ ω, (indexer.map fun kv => V ω kv.2).sum ∂P ↔
        SameRowPredictions b uninit ldlt g g₀ d indexer) := by
  refine ⟨_, _, ?_, heldOutRms_best b uninit ldlt hl d hd indexer h g₀ g hr₀ hr hY⟩
  rintro g' W (⟨rfl, rfl⟩ | ⟨rfl, rfl⟩) ω
  · exact gp_rmse b uninit ldlt hl d hd indexer h hne _ hr₀ (Y ω)
  · exact gp_rmse b uninit ldlt hl d hd indexer h hne _ hr (Y ω)

/-- **C126**: no predictor of a group at all that knows only the other rows, linear or not, has a smaller expected root mean
square error than the process the targets come from, and only the predictions of this process, almost surely, have the
same. -/
theorem C126_any_predictor (hne : ∀ kv ∈ indexer, kv.2 ≠ []) (g₀ : Gp X) (hr₀ : CvReady g₀ d indexer)
    {Y : Ω → Fin d.features.length → ℝ} (hY : NormalTargetsOf P Y g₀ d.features.get (datasetTargets d).variance) :
    ∃ p : (Fin d.features.length → ℝ) → (idx : List (Fin d.features.length)) → Fin idx.length → ℝ,
      (∀ y, (gpCvModel b uninit ldlt g₀).grouped b meanKind (d.withTargets y) (rawIndexer indexer) =
        some (.ok (indexer.map fun kv => (kv.1, ⟨kv.2.length, p y kv.2⟩)))) ∧
      (∀ y, (gpCvModel b uninit ldlt g₀).scores b meanKind (rmseMetric b) (d.withTargets y) (rawIndexer indexer) =
        some (.ok (indexer.map fun kv => .fin (rms fun k => y (kv.2.get k) - p y kv.2 k)))) ∧
      ∀ kv ∈ indexer, ∀ F : ({j // j ∉ kv.2} → ℝ) → Fin kv.2.length → ℝ, Measurable F →
        (∀ k, Integrable (fun ω => F (fun j => Y ω j.1) k) P) →
        ∫ ω, rms (fun k => Y ω (kv.2.get k) - p (Y ω) kv.2 k) ∂P ≤
          ∫ ω, rms (fun k => Y ω (kv.2.get k) - F (fun j => Y ω j.1) k) ∂P ∧
        (∫ ω, rms (fun k => Y ω (kv.2.get k) - p (Y ω) kv.2 k) ∂P =
          ∫ ω, rms (fun k => Y ω (kv.2.get k) - F (fun j => Y ω j.1) k) ∂P ↔
          ∀ᵐ ω ∂P, F (fun j => Y ω j.1) = p (Y ω) kv.2) := by
  refine ⟨fun y idx => (refitNoisy ldlt g₀ (d.withTargets y) idx).mean,
    fun y => (gp_means b uninit ldlt hl d hd indexer h g₀ hr₀ y).1, fun y => ?_, fun kv hkv F hF hF1 => ?_⟩
  · rw [(gp_rmse b uninit ldlt hl d hd indexer h hne g₀ hr₀ y).1]
    congr 2
    refine List.map_congr_left fun kv hkv => ?_
    unfold heldOutRms
    rw [← (refitNoisy_error ldlt hl g₀ d hd indexer h hr₀ y kv hkv).1]
    rfl
  · have hnd : kv.2.Nodup := by
      have := h.nodup (kv := (kv.1, kv.2.map (·.1))) (List.mem_map_of_mem hkv)
      exact List.Nodup.of_map _ this
    have he : ∀ y, (fun k => y (kv.2.get k) - (refitNoisy ldlt g₀ (d.withTargets y) kv.2).mean k) = _ :=
      fun y => (refitNoisy_error ldlt hl g₀ d hd indexer h hr₀ y kv hkv).1
    let φ : {j // j ∉ kv.2} → {j // j ∉ Set.range kv.2.get} := fun j =>
      ⟨j.1, fun ⟨k, hk⟩ => j.2 (hk ▸ List.get_mem _ _)⟩
    have key := heldOut_any hY hr₀.posDef hnd.injective_get (F := fun z => F fun j => z (φ j))
      (hF.comp (measurable_pi_lambda _ fun j => measurable_pi_apply _)) hF1
    obtain ⟨-, k1, k2⟩ := key
    simp only [he]
    refine ⟨k1, fun h0 => ?_, fun h0 => ?_⟩
    · filter_upwards [k2 h0] with ω hω
      rw [← he] at hω
      funext k
      have := congrFun hω k
      simp only at this
      have h' : F (fun j => Y ω j.1) k = _ := (sub_right_injective this)
      exact h'
    · refine integral_congr_ae ?_
      filter_upwards [h0] with ω hω
      rw [← he, hω]

end

/-! ## Leaving out one row at a time -/

omit [MeasurableSpace Ω] in
/-- The predictions of single rows from all others agree if and only if the means agree and the covariances agree up to a
factor for each row. -/
theorem loo_weights {n : Nat} {A A₀ : Matrix (Fin n) (Fin n) ℝ} (hA : A.PosDef) (hA₀ : A₀.PosDef) (m m₀ : Fin n → ℝ) :
    (∀ i : Fin n, heldOutWeights A [i].get = heldOutWeights A₀ [i].get ∧
      heldOutWeights A [i].get *ᵥ m = heldOutWeights A [i].get *ᵥ m₀) ↔
    m = m₀ ∧ ∃ c : Fin n → ℝ, A = A₀ * diagonal c := by
  have hu := (Matrix.isUnit_iff_isUnit_det _).1 hA.isUnit
  have hu₀ := (Matrix.isUnit_iff_isUnit_det _).1 hA₀.isUnit
  have hw : ∀ (B : Matrix (Fin n) (Fin n) ℝ), B.PosDef → ∀ i k j,
      heldOutWeights B [i].get k j = (B⁻¹ i i)⁻¹ * B⁻¹ i j := by
    intro B hB i k j
    have hpos : 0 < B⁻¹ i i := hB.inv.diag_pos
    have e : (B⁻¹.submatrix [i].get [i].get)⁻¹ = diagonal fun _ => (B⁻¹ i i)⁻¹ := by
      refine inv_eq_left_inv ?_
      ext k l
      obtain rfl : k = l := Subsingleton.elim (α := Fin 1) k l
      have : ∀ k : Fin 1, [i].get k = i := fun k => by simp
      rw [diagonal_mul, submatrix_apply, this, one_apply_eq, inv_mul_cancel₀ hpos.ne']
    rw [heldOutWeights, e, diagonal_mul, submatrix_apply]
    have : ∀ k : Fin 1, [i].get k = i := fun k => by simp
    rw [this]
    rfl
  constructor
  · intro hs
    have hrow : ∀ i j, A⁻¹ i j = A⁻¹ i i / A₀⁻¹ i i * A₀⁻¹ i j := by
      intro i j
      have h1 := congrFun (congrFun (hs i).1 (0 : Fin 1)) j
      rw [hw A hA, hw A₀ hA₀] at h1
      have p1 : 0 < A⁻¹ i i := hA.inv.diag_pos
      have p0 : 0 < A₀⁻¹ i i := hA₀.inv.diag_pos
      field_simp at h1 ⊢
      linarith
    constructor
    · have h0 : A⁻¹ *ᵥ (m - m₀) = 0 := by
        funext i
        have h1 := congrFun (hs i).2 (0 : Fin 1)
        have h2 : ∑ j, (A⁻¹ i i)⁻¹ * A⁻¹ i j * m j = ∑ j, (A⁻¹ i i)⁻¹ * A⁻¹ i j * m₀ j := by
          have e : ∀ v : Fin n → ℝ, (heldOutWeights A [i].get *ᵥ v) (0 : Fin 1) = ∑ j, (A⁻¹ i i)⁻¹ * A⁻¹ i j * v j := by
            intro v
            rw [mulVec, dotProduct]
            exact Finset.sum_congr rfl fun j _ => by rw [hw A hA]
          rw [e, e] at h1
          exact h1
        have p1 : 0 < A⁻¹ i i := hA.inv.diag_pos
        simp only [mul_assoc, ← Finset.mul_sum] at h2
        have h3 := mul_left_cancel₀ (inv_ne_zero p1.ne') h2
        show ∑ j, A⁻¹ i j * (m j - m₀ j) = 0
        simp only [mul_sub, Finset.sum_sub_distrib]
        rw [h3, sub_self]
      have h2 := congrArg (A *ᵥ ·) h0
      simp only [mulVec_mulVec, mul_nonsing_inv _ hu, one_mulVec, mulVec_zero] at h2
      exact sub_eq_zero.1 h2
    · refine ⟨fun i => A₀⁻¹ i i / A⁻¹ i i, ?_⟩
      have hd : A⁻¹ = diagonal (fun i => A⁻¹ i i / A₀⁻¹ i i) * A₀⁻¹ := by
        ext i j
        rw [diagonal_mul, ← hrow]
      have h1 : A₀ * diagonal (fun i => A₀⁻¹ i i / A⁻¹ i i) * A⁻¹ = 1 := by
        rw [Matrix.mul_assoc]
        conv_lhs => rw [hd]
        have e : ∀ i, (diagonal (fun i => A⁻¹ i i / A₀⁻¹ i i) * A₀⁻¹) i i = A⁻¹ i i := fun i => by rw [← hd]
        simp only [e]
        rw [← Matrix.mul_assoc (diagonal _), diagonal_mul_diagonal]
        have e2 : (fun i => A₀⁻¹ i i / A⁻¹ i i * (A⁻¹ i i / A₀⁻¹ i i)) = fun _ => 1 := by
          funext i
          have p1 : 0 < A⁻¹ i i := hA.inv.diag_pos
          have p0 : 0 < A₀⁻¹ i i := hA₀.inv.diag_pos
          field_simp
        rw [e2, diagonal_one, Matrix.one_mul, mul_nonsing_inv _ hu₀]
      have h2 := congrArg (· * A) h1
      simp only [Matrix.one_mul] at h2
      rw [Matrix.mul_assoc, nonsing_inv_mul _ hu, Matrix.mul_one] at h2
      exact h2.symm
  · rintro ⟨rfl, c, hc⟩ i
    refine ⟨?_, rfl⟩
    have hc0 : ∀ i, c i ≠ 0 := by
      intro i h0
      have h1 : 0 < A i i := hA.diag_pos
      rw [hc, mul_diagonal, h0, mul_zero] at h1
      exact lt_irrefl _ h1
    have hinv : A⁻¹ = diagonal (fun i => (c i)⁻¹) * A₀⁻¹ := by
      refine inv_eq_left_inv ?_
      rw [hc, Matrix.mul_assoc, ← Matrix.mul_assoc A₀⁻¹, nonsing_inv_mul _ hu₀, Matrix.one_mul, diagonal_mul_diagonal]
      rw [← diagonal_one]
      congr 1
      funext i
      exact inv_mul_cancel₀ (hc0 i)
    ext k j
    rw [hw A hA, hw A₀ hA₀, hinv, diagonal_mul, diagonal_mul]
    have p0 : 0 < A₀⁻¹ i i := hA₀.inv.diag_pos
    have := hc0 i
    field_simp

section
variable (b : Build) (uninit : Nat → ℝ) (ldlt : LdltRoutine)
  (hl : ∀ n (M : Matrix (Fin n) (Fin n) ℝ), M.PosDef → (ldlt n M).Factors M)
  (d : Dataset X ℝ) (hd : d.Valid) (hne : d.features ≠ [])

include hl hd hne

omit [MeasurableSpace Ω] in
/-- `LeaveOneOutRMSE` of a Gaussian process. -/
theorem gp_looRmse (g : Gp X) (hr : CvReady g d (looIndexer d.features.length)) (y : Fin d.features.length → ℝ) :
    (gpCvModel b uninit ldlt g).looRmse b (d.withTargets y) =
      some (.ok (.fin (((looIndexer d.features.length).map fun kv => heldOutRms g d y kv.2).sum / d.features.length))) := by
  have h : IsPartition (rawIndexer (looIndexer d.features.length)) d.features.length := by
    rw [looIndexer_raw]; exact leaveOneOut_partition _
  have hn : ∀ kv ∈ looIndexer d.features.length, kv.2 ≠ [] := fun kv hkv => by
    obtain ⟨i, -, rfl⟩ := List.mem_map.1 hkv
    simp
  unfold CvModel.looRmse
  have := (gp_rmse b uninit ldlt hl d hd _ h hn g hr y).1
  rw [looIndexer_raw] at this
  have this' : (gpCvModel b uninit ldlt g).scores b meanKind (rmseMetric b) (d.withTargets y)
      (buildLeaveOneOut (d.withTargets y).features) = _ := this
  rw [this', Option.map_some, except_ok_bind]
  have e : ((looIndexer d.features.length).map fun kv => Dbl.fin (heldOutRms g d y kv.2)) =
      ((looIndexer d.features.length).map fun kv => heldOutRms g d y kv.2).map Dbl.fin := by
    rw [List.map_map]; rfl
  have hlen : (d.features.length : ℝ) ≠ 0 := by
    rw [Nat.cast_ne_zero]; simpa using hne
  unfold dblMean
  rw [e, dblSum_fin, List.length_map, List.length_map, show (looIndexer d.features.length).length = d.features.length by
    simp [looIndexer], Dbl.fin_div hlen]
  rfl

/-- **C126**, `LeaveOneOutRMSE`: if the targets have the normal law of the measurements of a process, the expected objective
is smallest for this process.  The processes that reach it are those with the same means of the measurements and the same
covariances up to a factor for each row: the score does not see the scale of a process. -/
theorem C126_leave_one_out (g₀ g : Gp X) (hr₀ : CvReady g₀ d (looIndexer d.features.length))
    (hr : CvReady g d (looIndexer d.features.length)) {Y : Ω → Fin d.features.length → ℝ}
    (hY : NormalTargetsOf P Y g₀ d.features.get (datasetTargets d).variance) :
    ∃ L₀ L : Ω → ℝ, (∀ g' W, ((g' = g₀ ∧ W = L₀) ∨ (g' = g ∧ W = L)) → ∀ ω,
        (gpCvModel b uninit ldlt g').looRmse b (d.withTargets (Y ω)) = some (.ok (.fin (W ω)))) ∧
      Integrable L₀ P ∧ Integrable L P ∧ ∫ ω, L₀ ω ∂P ≤ ∫ ω, L ω ∂P ∧
      (∫ ω, L₀ ω ∂P = ∫ ω, L ω ∂P ↔
        (∀ i, g.mean (g.asMeas (d.features.get i)) = g₀.mean (g₀.asMeas (d.features.get i))) ∧
        ∃ c : Fin d.features.length → ℝ, obsCovariance g d.features.get (datasetTargets d).variance =
          obsCovariance g₀ d.features.get (datasetTargets d).variance * diagonal c) := by
  have h : IsPartition (rawIndexer (looIndexer d.features.length)) d.features.length := by
    rw [looIndexer_raw]; exact leaveOneOut_partition _
  obtain ⟨h1, h2, h3⟩ := heldOutRms_best b uninit ldlt hl d hd _ h g₀ g hr₀ hr hY
  have i0 := (integral_list_sum (P := P) (looIndexer d.features.length) (fun kv ω => heldOutRms g₀ d (Y ω) kv.2)
    fun kv hkv => (h1 kv hkv).1).1
  have i1 := (integral_list_sum (P := P) (looIndexer d.features.length) (fun kv ω => heldOutRms g d (Y ω) kv.2)
    fun kv hkv => (h1 kv hkv).2.1).1
  have hlen : (0 : ℝ) < d.features.length := by
    exact_mod_cast List.length_pos_iff.2 hne
  refine ⟨_, _, ?_, i0.div_const d.features.length, i1.div_const d.features.length, ?_, ?_⟩
  · rintro g' W (⟨rfl, rfl⟩ | ⟨rfl, rfl⟩) ω
    · exact gp_looRmse b uninit ldlt hl d hd hne _ hr₀ (Y ω)
    · exact gp_looRmse b uninit ldlt hl d hd hne _ hr (Y ω)
  · rw [integral_div, integral_div]
    exact div_le_div_of_nonneg_right h2 hlen.le
  · rw [integral_div, integral_div, div_left_inj' hlen.ne', h3, sameRowPredictions_iff b uninit ldlt hl d hd _ h g g₀ hr hr₀]
    have hw := loo_weights hr.posDef hr₀.posDef (fun i => g.mean (g.asMeas (d.features.get i)))
      (fun i => g₀.mean (g₀.asMeas (d.features.get i)))
    rw [funext_iff] at hw
    rw [← hw]
    constructor
    · exact fun hs i => hs (i.1, [i]) (List.mem_map.2 ⟨i, List.mem_finRange i, rfl⟩)
    · intro hs kv hkv
      obtain ⟨i, -, rfl⟩ := List.mem_map.1 hkv
      exact hs i

omit [MeasurableSpace Ω] in
/-- **C126**: for any targets, a process and its multiples have the same `LeaveOneOutRMSE` if all measurement errors are
scaled with the process.  No data can tell the scale by this score. -/
theorem C126_scale (g g' : Gp X) (hr : CvReady g d (looIndexer d.features.length))
    (hr' : CvReady g' d (looIndexer d.features.length)) {c : ℝ}
    (hm : ∀ i, g'.mean (g'.asMeas (d.features.get i)) = g.mean (g.asMeas (d.features.get i)))
    (hc : obsCovariance g' d.features.get (datasetTargets d).variance =
      c • obsCovariance g d.features.get (datasetTargets d).variance) (y : Fin d.features.length → ℝ) :
    (gpCvModel b uninit ldlt g').looRmse b (d.withTargets y) = (gpCvModel b uninit ldlt g).looRmse b (d.withTargets y) := by
  rw [gp_looRmse b uninit ldlt hl d hd hne g hr y, gp_looRmse b uninit ldlt hl d hd hne g' hr' y]
  have hw := (loo_weights hr'.posDef hr.posDef (fun i => g'.mean (g'.asMeas (d.features.get i)))
      (fun i => g.mean (g.asMeas (d.features.get i)))).2 ⟨funext hm, fun _ => c, by
        rw [hc]
        ext i j
        rw [mul_diagonal, Matrix.smul_apply, smul_eq_mul, mul_comm]⟩
  congr 5
  refine List.map_congr_left fun kv hkv => ?_
  obtain ⟨i, -, rfl⟩ := List.mem_map.1 hkv
  unfold heldOutRms
  rw [mulVec_sub, (hw i).2, (hw i).1, ← mulVec_sub]

end

/-! ## Targets with another law -/

/-- Uncorrelated values of variance one around `a`. -/
noncomputable def whiteAround (a : ℝ) : Gp Bool where
  cov := (whiteOf 1).cov
  mean _ := a
  asMeas x := x

theorem whiteAround_obs (a : ℝ) :
    obsCovariance (whiteAround a) whiteData.features.get (datasetTargets whiteData).variance = diagonal fun _ => 2 := by
  have h := whiteOf_obs 1 (datasetTargets whiteData).variance
  refine Eq.trans h ?_
  congr 1
  funext i
  rw [(whiteTargets i).2]
  norm_num

theorem whiteAround_ready (a : ℝ) :
    CvReady (whiteAround a) whiteData (looIndexer whiteData.features.length) :=
  ⟨(whiteOf_ready zero_le_one).symm, by rw [whiteAround_obs]; exact PosDef.diagonal fun _ => by norm_num,
    fun _ _ _ _ _ _ => rfl, fun _ => rfl⟩

/-- `LeaveOneOutRMSE` of uncorrelated values around `a`. -/
theorem whiteAround_rmse (b : Build) (uninit : Nat → ℝ) (ldlt : LdltRoutine)
    (hl : ∀ n (M : Matrix (Fin n) (Fin n) ℝ), M.PosDef → (ldlt n M).Factors M) (a : ℝ)
    (y : Fin whiteData.features.length → ℝ) :
    (gpCvModel b uninit ldlt (whiteAround a)).looRmse b (whiteData.withTargets y) =
      some (.ok (.fin ((|y (0 : Fin 2) - a| + |y (1 : Fin 2) - a|) / 2))) := by
  rw [gp_looRmse b uninit ldlt hl whiteData whiteData_valid (by simp [whiteData]) _ (whiteAround_ready a) y]
  have one : ∀ i, heldOutRms (whiteAround a) whiteData y [i] = |y i - a| := by
    intro i
    unfold heldOutRms
    rw [whiteAround_obs, (heldOutWeights_scalar two_pos [i].get (List.nodup_singleton i).injective_get).2]
    unfold rms
    have e : ∑ k : Fin [i].length, (((1 : Matrix (Fin whiteData.features.length) (Fin whiteData.features.length) ℝ).submatrix
        [i].get id *ᵥ (y - fun j => (whiteAround a).mean ((whiteAround a).asMeas (whiteData.features.get j)))) k) ^ 2 =
        (y i - a) ^ 2 := by
      rw [show (Finset.univ : Finset (Fin [i].length)) = {(0 : Fin 1)} from rfl, Finset.sum_singleton]
      simp [mulVec, dotProduct, one_apply, whiteAround]
    rw [e, Fintype.card_fin, List.length_singleton, Nat.cast_one, div_one, Real.sqrt_sq_eq_abs]
  have e : ((looIndexer whiteData.features.length).map fun kv => heldOutRms (whiteAround a) whiteData y kv.2) =
      [(|y (0 : Fin 2) - a|), |y (1 : Fin 2) - a|] := by
    show [heldOutRms (whiteAround a) whiteData y [(0 : Fin 2)], heldOutRms (whiteAround a) whiteData y [(1 : Fin 2)]] = _
    exact congrArg₂ (fun u v => [u, v]) (one (0 : Fin 2)) (one (1 : Fin 2))
  rw [e]
  have hlen : (whiteData.features.length : ℝ) = 2 := by norm_num [whiteData]
  rw [hlen]
  simp

/-- Values `-1`, `-1` and `2`, with equal probabilities. -/
def skewValue : Fin 3 → ℝ := ![-1, -1, 2]

/-- Two independent draws. -/
noncomputable def skewLaw : Measure (Fin 3 × Fin 3) := (9 : ENNReal)⁻¹ • Measure.count

instance : IsProbabilityMeasure skewLaw := ⟨by
  rw [skewLaw, Measure.smul_apply, Measure.count_univ]
  simp only [ENat.card_eq_coe_fintype_card, Fintype.card_prod, Fintype.card_fin, smul_eq_mul]
  norm_num
  exact ENNReal.inv_mul_cancel (by norm_num) (by norm_num)⟩

theorem skew_integral (f : Fin 3 × Fin 3 → ℝ) : ∫ ω, f ω ∂skewLaw = (∑ i, ∑ j, f (i, j)) / 9 := by
  rw [skewLaw, integral_smul_measure, integral_count, Fintype.sum_prod_type]
  simp
  ring

/-- The draws as targets. -/
def skewTargets (ω : Fin 3 × Fin 3) : Fin whiteData.features.length → ℝ := ![skewValue ω.1, skewValue ω.2]

theorem skew_moments : HasMoments skewLaw skewTargets 0 (diagonal fun _ => 2) := by
  refine ⟨fun i => MemLp.of_discrete, ?_, ?_⟩
  · have : ∀ i : Fin 2, ∫ ω, (![skewValue ω.1, skewValue ω.2] : Fin 2 → ℝ) i ∂skewLaw = 0 := by
      intro i
      rw [skew_integral]
      fin_cases i <;> simp [Fin.sum_univ_three, skewValue] <;> norm_num
    exact this
  · have : ∀ i j : Fin 2, ∫ ω, ((![skewValue ω.1, skewValue ω.2] : Fin 2 → ℝ) i - 0) *
        ((![skewValue ω.1, skewValue ω.2] : Fin 2 → ℝ) j - 0) ∂skewLaw =
        (diagonal fun _ => (2 : ℝ) : Matrix (Fin 2) (Fin 2) ℝ) i j := by
      intro i j
      rw [skew_integral]
      fin_cases i <;> fin_cases j <;> simp [Fin.sum_univ_three, skewValue] <;> norm_num
    exact this

/-- C126 needs the normal law: there are targets with the means and covariances of the measurements of a process, for which
another process has a smaller expected `LeaveOneOutRMSE`. -/
theorem C126_not_normal_false (b : Build) (uninit : Nat → ℝ) (ldlt : LdltRoutine)
    (hl : ∀ n (M : Matrix (Fin n) (Fin n) ℝ), M.PosDef → (ldlt n M).Factors M) :
    ∃ (g₀ g : Gp Bool) (d : Dataset Bool ℝ) (P : Measure (Fin 3 × Fin 3)) (_ : IsProbabilityMeasure P)
      (Y : Fin 3 × Fin 3 → Fin d.features.length → ℝ),
      d.Valid ∧ CvReady g₀ d (looIndexer d.features.length) ∧ CvReady g d (looIndexer d.features.length) ∧
      TargetsOf P Y g₀ d.features.get (datasetTargets d).variance ∧
      ∃ L₀ L : Fin 3 × Fin 3 → ℝ,
        (∀ g' W, ((g' = g₀ ∧ W = L₀) ∨ (g' = g ∧ W = L)) → ∀ ω,
          (gpCvModel b uninit ldlt g').looRmse b (d.withTargets (Y ω)) = some (.ok (.fin (W ω)))) ∧
        ∫ ω, L ω ∂P < ∫ ω, L₀ ω ∂P := by
  refine ⟨whiteAround 0, whiteAround (-1), whiteData, skewLaw, inferInstance, skewTargets, whiteData_valid,
    whiteAround_ready 0, whiteAround_ready (-1), ?_,
    fun ω => (|skewValue ω.1 - 0| + |skewValue ω.2 - 0|) / 2, fun ω => (|skewValue ω.1 - -1| + |skewValue ω.2 - -1|) / 2,
    ?_, ?_⟩
  · unfold TargetsOf
    rw [whiteAround_obs]
    exact skew_moments
  · rintro g' W (⟨rfl, rfl⟩ | ⟨rfl, rfl⟩) ω
    · exact whiteAround_rmse b uninit ldlt hl 0 _
    · exact whiteAround_rmse b uninit ldlt hl (-1) _
  · rw [skew_integral, skew_integral]
    simp [Fin.sum_univ_three, skewValue]
    norm_num

/-- The hypotheses of `C126_cross_validation` and `C126_leave_one_out` can be met, by processes that do not make the same
predictions. -/
example : ∃ (ldlt : LdltRoutine) (d : Dataset Bool ℝ) (P : Measure (EuclideanSpace ℝ (Fin d.features.length)))
    (_ : IsProbabilityMeasure P) (Y : EuclideanSpace ℝ (Fin d.features.length) → Fin d.features.length → ℝ) (g₀ g : Gp Bool),
    (∀ n (M : Matrix (Fin n) (Fin n) ℝ), M.PosDef → (ldlt n M).Factors M) ∧ d.Valid ∧ d.features ≠ [] ∧
    IsPartition (rawIndexer (looIndexer d.features.length)) d.features.length ∧
    (∀ kv ∈ looIndexer d.features.length, kv.2 ≠ []) ∧
    CvReady g₀ d (looIndexer d.features.length) ∧ CvReady g d (looIndexer d.features.length) ∧
    NormalTargetsOf P Y g₀ d.features.get (datasetTargets d).variance ∧
    ¬∀ i, g.mean (g.asMeas (d.features.get i)) = g₀.mean (g₀.asMeas (d.features.get i)) := by
  choose ldlt hl using fun n => exists_ldlt (Fin n)
  refine ⟨ldlt, whiteData, _, inferInstance, _, whiteAround 0, whiteAround 1, hl, whiteData_valid, by simp [whiteData],
    by rw [looIndexer_raw]; exact leaveOneOut_partition _, fun kv hkv => ?_, whiteAround_ready 0, whiteAround_ready 1,
    exists_isNormal _ (whiteAround_ready 0).posDef.posSemidef, fun h => one_ne_zero (h whiteRow)⟩
  obtain ⟨i, -, rfl⟩ := List.mem_map.1 hkv
  simp

/-- The hypotheses of `C126_scale` can be met with another scale than one. -/
example : ∃ (d : Dataset Bool ℝ) (g g' : Gp Bool) (c : ℝ), c ≠ 1 ∧ d.Valid ∧ d.features ≠ [] ∧
    CvReady g d (looIndexer d.features.length) ∧ CvReady g' d (looIndexer d.features.length) ∧
    (∀ i, g'.mean (g'.asMeas (d.features.get i)) = g.mean (g.asMeas (d.features.get i))) ∧
    obsCovariance g' d.features.get (datasetTargets d).variance =
      c • obsCovariance g d.features.get (datasetTargets d).variance := by
  refine ⟨whiteData, whiteOf 1, whiteOf 3, 2, by norm_num, whiteData_valid, by simp [whiteData], whiteOf_ready zero_le_one,
    whiteOf_ready (by norm_num), fun _ => rfl, ?_⟩
  rw [whiteOf_obs, whiteOf_obs, ← diagonal_smul]
  congr 1
  funext i
  rw [Pi.smul_apply, (whiteTargets i).2]
  norm_num

end Albatross
