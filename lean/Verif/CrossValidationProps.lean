import Verif.CrossValidation
import Verif.HeldOutProps
import Verif.ModelMetricsProps
import Verif.PredictionProps

/-! # C98: cross-validated predictions; the scores of Gaussian processes for C88 and C89 -/

namespace Albatross

open Matrix

variable {F K P S : Type}

/-- The kind of prediction is described truthfully: `has` says whether the member function exists, whatever the fit and
the features. -/
def PredictKind.Truthful (k : PredictKind F K P) : Prop :=
  ∀ (m : CvModel F K) train xs, (k.get (m.fitTo train) xs).isSome = k.has m

theorem meanKind_truthful : (meanKind : PredictKind F K DynMean).Truthful := by
  intro m train xs
  rcases m with ⟨a, b, c, _, _, _⟩
  rcases a with _ | a <;> rcases b with _ | b <;> rcases c with _ | c <;> rfl

theorem marginalKind_truthful : (marginalKind : PredictKind F K DynMarginal).Truthful := by
  intro m train xs
  rcases m with ⟨a, b, c, _, _, _⟩
  rcases b with _ | b <;> rcases c with _ | c <;> rfl

theorem jointKind_truthful : (jointKind : PredictKind F K DynJoint).Truthful := by
  intro m train xs
  rcases m with ⟨a, b, c, _, _, _⟩
  rcases c with _ | c <;> rfl

/-- C98: grouped predictions exist exactly if the model has the specialised overload or its ordinary predictions can
be of that kind; the specialised overload is used whenever there is one. -/
theorem C98_available [LinearOrder K] (b : Build) (k : PredictKind F K P) (m : CvModel F K) (d : Dataset F ℝ)
    (ix : SMap K (List Nat)) :
    ((m.grouped b k d ix).isSome ↔ (k.cv m).isSome ∨ k.has m = true) ∧
    (∀ f, k.cv m = some f → m.grouped b k d ix = some (f d ix)) := by
  unfold CvModel.grouped
  constructor
  · rcases k.cv m with _ | f
    · by_cases h : k.has m = true <;> simp [h]
    · simp
  · intro f hf
    rw [hf]

/-- C98: which ordinary predictions there are.  A mean needs any of the three overloads, a marginal distribution a
marginal or a joint one, a joint distribution a joint one. -/
theorem C98_has (m : CvModel F K) (train : Dataset F ℝ) (xs : List F) :
    ((meanKind : PredictKind F K DynMean).has m = true ↔ m.mean.isSome ∨ m.marginal.isSome ∨ m.joint.isSome) ∧
    ((marginalKind : PredictKind F K DynMarginal).has m = true ↔ m.marginal.isSome ∨ m.joint.isSome) ∧
    ((jointKind : PredictKind F K DynJoint).has m = true ↔ m.joint.isSome) ∧
    (predictionMean (m.fitTo train) xs).isSome = (meanKind : PredictKind F K DynMean).has m ∧
    (predictionMarginal (m.fitTo train) xs).isSome = (marginalKind : PredictKind F K DynMarginal).has m ∧
    (predictionJoint (m.fitTo train) xs).isSome = (jointKind : PredictKind F K DynJoint).has m := by
  refine ⟨?_, ?_, ?_, meanKind_truthful m train xs, marginalKind_truthful m train xs, jointKind_truthful m train xs⟩ <;>
    simp [meanKind, marginalKind, jointKind, or_assoc]

theorem getPredictTypes_ok [LinearOrder K] (k : PredictKind F K P) (v : PredictImpl F × List F → P) :
    ∀ (preds : SMap K (PredictImpl F × List F)), SMap.WF preds →
      (∀ kp ∈ preds, k.get kp.2.1 kp.2.2 = some (v kp.2)) →
      getPredictTypes k preds = .ok (preds.map fun kp => (kp.1, v kp.2)) := by
  intro preds hw h
  have hf : ∀ (l : SMap K (PredictImpl F × List F)) (acc : SMap K P),
      (∀ kp ∈ l, k.get kp.2.1 kp.2.2 = some (v kp.2)) →
      (l.foldlM (fun out kp => match k.get kp.2.1 kp.2.2 with
        | some v => .ok (SMap.emplace out kp.1 v)
        | none => .error .ub) acc : Outcome (SMap K P)) =
        .ok ((l.map fun kp => (kp.1, v kp.2)).foldl (fun out kv => SMap.emplace out kv.1 kv.2) acc) := by
    intro l
    induction l with
    | nil => intro acc _; rfl
    | cons x l ih =>
      intro acc hl
      rw [List.foldlM_cons, hl x (by simp)]
      exact ih _ fun y hy => hl y (List.mem_cons_of_mem _ hy)
  unfold getPredictTypes
  refine (hf preds [] h).trans ?_
  have := SMap.foldl_emplace_append (preds.map fun kp => (kp.1, v kp.2) : SMap K P) []
    (by
      rw [List.nil_append]
      unfold SMap.WF at hw ⊢
      exact List.pairwise_map.2 hw)
  rw [List.nil_append] at this
  rw [this]

theorem fold_rows (d : Dataset F ℝ) (hd : d.Valid) (is : List Nat) (hlt : ∀ i ∈ is, i < d.features.length) :
    d.pick (indicesComplement is d.features.length) = datasetOfRows (rowsWithout d is) ∧
    (d.pick is).features = (rowsAt d is).map Prod.fst := by
  have hc : ∀ i ∈ indicesComplement is d.features.length, i < d.features.length := fun i hi =>
    (((C06_indices_complement is d.features.length).2.1 i).1 hi).1
  constructor
  · rw [← pick_complement_rows d hd]
    exact (datasetOfRows_rows _ (pick_valid d hd _ hc) rfl).symm
  · rw [rowsAt, ← pick_rows d hd _ hlt, rows_features _ (pick_valid d hd _ hlt)]

theorem predictions_ok [LinearOrder K] (b : Build) (m : CvModel F K) (d : Dataset F ℝ) (hd : d.Valid)
    (ix : SMap K (List Nat)) (h : IsPartition ix d.features.length) :
    m.predictions b d ix = .ok (ix.map fun kv =>
      (kv.1, (m.fitTo (datasetOfRows (rowsWithout d kv.2)), (rowsAt d kv.2).map Prod.fst))) := by
  have hlt : ∀ kv ∈ ix, ∀ i ∈ kv.2, i < d.features.length := fun kv hkv i hi => h.mem_lt hkv hi
  unfold CvModel.predictions
  refine groupsOf_ok _ (fun is => (m.fitTo (datasetOfRows (rowsWithout d is)), (rowsAt d is).map Prod.fst)) ix h.wf
    fun kv hkv => ?_
  rw [createFold_ok b d hd kv.2 (h.nodup hkv) (hlt kv hkv), except_ok_bind]
  obtain ⟨h1, h2⟩ := fold_rows d hd kv.2 (hlt kv hkv)
  simp only [h1, h2]
  rfl

/-- C98: without the specialised overload every group's prediction is the one made, for the features of the group, by
the model fitted to exactly the other rows. -/
theorem C98_refit [LinearOrder K] (b : Build) (k : PredictKind F K P) (hk : k.Truthful) (m : CvModel F K)
    (hcv : k.cv m = none) (hhas : k.has m = true) (d : Dataset F ℝ) (hd : d.Valid) (ix : SMap K (List Nat))
    (h : IsPartition ix d.features.length) :
    ∃ v : List Nat → P,
      (∀ is, k.get (m.fitTo (datasetOfRows (rowsWithout d is))) ((rowsAt d is).map Prod.fst) = some (v is)) ∧
      m.grouped b k d ix = some (.ok (ix.map fun kv => (kv.1, v kv.2))) := by
  have hsome : ∀ is, ∃ p, k.get (m.fitTo (datasetOfRows (rowsWithout d is))) ((rowsAt d is).map Prod.fst) = some p :=
    fun is => Option.isSome_iff_exists.1 ((hk m _ _).trans hhas)
  choose v hv using hsome
  refine ⟨v, hv, ?_⟩
  unfold CvModel.grouped
  rw [hcv]
  simp only [hhas, if_true]
  rw [predictions_ok b m d hd ix h, except_ok_bind]
  congr 1
  have hwf : SMap.WF (ix.map fun kv => (kv.1, (m.fitTo (datasetOfRows (rowsWithout d kv.2)),
      (rowsAt d kv.2).map Prod.fst)) : SMap K (PredictImpl F × List F)) := by
    have := h.wf
    unfold SMap.WF at this ⊢
    exact List.pairwise_map.2 this
  refine (getPredictTypes_ok k (fun p => (k.get p.1 p.2).getD (v [])) _ hwf ?_).trans ?_
  · intro kp hkp
    obtain ⟨kv, -, rfl⟩ := List.mem_map.1 hkp
    simp only [hv, Option.getD_some]
  · rw [List.map_map]
    congr 1
    refine List.map_congr_left fun kv _ => ?_
    simp only [Function.comp_apply, hv, Option.getD_some]

/-- C98: `mean()` is in the order of the dataset, for either kind of overload: if each group has a prediction with one
value per row of the group, row `i`, the `j`-th of its group, gets the `j`-th value of the group's prediction. -/
theorem C98_mean_in_order [LinearOrder K] (b : Build) (uninit : Nat → ℝ) (m : CvModel F K) (d : Dataset F ℝ)
    (hne : d.features ≠ []) (ix : SMap K (List Nat)) (h : IsPartition ix d.features.length) (v : List Nat → DynMean)
    (hg : m.grouped b meanKind d ix = some (.ok (ix.map fun kv => (kv.1, v kv.2))))
    (hs : ∀ kv ∈ ix, (v kv.2).dim = kv.2.length) :
    ∃ out, m.meanOf b uninit d ix = some (.ok out) ∧ out.length = d.features.length ∧
      ∀ kv ∈ ix, ∀ j i : Nat, kv.2[j]? = some i → out[i]? = (List.ofFn (v kv.2).mean)[j]? := by
  have hn : 0 < d.features.length := List.length_pos_iff.2 hne
  let means : SMap K (List ℝ) := ix.map fun kv => (kv.1, List.ofFn (v kv.2).mean)
  have hfind : ∀ k is, ix.find? k = some is → means.find? k = some (List.ofFn (v is).mean) := by
    intro k is hk
    rw [SMap.find?_map_values ix fun kv => List.ofFn (v kv.2).mean, hk]; rfl
  obtain ⟨out, h1, h2, h3, -⟩ := C05_means_in_dataset_order b uninit ix _ hn h means (by simp [means]) (by
    intro k is hk
    exact ⟨_, hfind k is hk, by rw [List.length_ofFn]; exact hs _ (SMap.mem_of_find? hk)⟩)
  refine ⟨out, ?_, h2, ?_⟩
  · unfold CvModel.meanOf
    rw [hg, Option.map_some, except_ok_bind, List.map_map]
    exact congrArg some h1
  · intro kv hkv j i hi
    have hk := SMap.find?_of_mem h.wf (k := kv.1) (v := kv.2) hkv
    exact h3 kv.1 kv.2 _ hk (hfind _ _ hk) j i hi

/-- C98: `marginal()` the same. -/
theorem C98_marginal_in_order [LinearOrder K] (b : Build) (uninit : Nat → ℝ) (m : CvModel F K) (d : Dataset F ℝ)
    (hne : d.features ≠ []) (ix : SMap K (List Nat)) (h : IsPartition ix d.features.length)
    (v : List Nat → DynMarginal)
    (hg : m.grouped b marginalKind d ix = some (.ok (ix.map fun kv => (kv.1, v kv.2))))
    (hs : ∀ kv ∈ ix, (v kv.2).dim = kv.2.length) :
    ∃ mean variance, m.marginalOf b uninit d ix = some (.ok (mean, variance)) ∧
      mean.length = d.features.length ∧ variance.length = d.features.length ∧
      ∀ kv ∈ ix, ∀ j i : Nat, kv.2[j]? = some i → mean[i]? = (List.ofFn (v kv.2).dist.mean)[j]? ∧
        variance[i]? = (List.ofFn (v kv.2).dist.variance)[j]? := by
  have hn : 0 < d.features.length := List.length_pos_iff.2 hne
  let preds : SMap K (List ℝ × List ℝ) :=
    ix.map fun kv => (kv.1, (List.ofFn (v kv.2).dist.mean, List.ofFn (v kv.2).dist.variance))
  have hfind : ∀ k is, ix.find? k = some is →
      preds.find? k = some (List.ofFn (v is).dist.mean, List.ofFn (v is).dist.variance) := by
    intro k is hk
    rw [SMap.find?_map_values ix fun kv => (List.ofFn (v kv.2).dist.mean, List.ofFn (v kv.2).dist.variance), hk]; rfl
  obtain ⟨mean, variance, h1, h2, h2', h3⟩ := C05_marginals_in_dataset_order b uninit ix _ hn h preds (by simp [preds])
    (by
      intro k is hk
      refine ⟨_, hfind k is hk, ?_, ?_⟩
      · rw [List.length_ofFn]; exact hs _ (SMap.mem_of_find? hk)
      · rw [List.length_ofFn]; exact hs _ (SMap.mem_of_find? hk))
  refine ⟨mean, variance, ?_, h2, h2', ?_⟩
  · unfold CvModel.marginalOf
    rw [hg, Option.map_some, except_ok_bind, List.map_map]
    exact congrArg some h1
  · intro kv hkv j i hi
    have hk := SMap.find?_of_mem h.wf (k := kv.1) (v := kv.2) hkv
    exact h3 kv.1 kv.2 _ hk (hfind _ _ hk) j i hi

/-- C98: `get<T>` compiles for the vector, the distributions and their groups but not for the joint distribution of
everything, which cannot be formed. -/
theorem C98_get_partial (t : CvGetType) (h : t ≠ .jointMap) : t.compiles = true ↔ t ≠ .joint := by
  cases t <;> simp_all [CvGetType.compiles, CvGetType.returned, CvGetType.converts]

/-- `get` for a map of joint distributions does not compile, though it does for maps of means and marginals and joint
distributions can be had as a grouping: the two overloads are exchanged. -/
theorem C98_get_false : CvGetType.jointMap.compiles = false ∧ CvGetType.jointGrouped.compiles = true ∧
    CvGetType.meanMap.compiles = true ∧ CvGetType.marginalMap.compiles = true := by decide

/-! ## Scores -/

/-- C98: with a dataset and groups, the score of a group compares the group's own targets with what `means()`,
`marginals()` or `joints()` gives for the group; the scores are in key order. -/
theorem C98_scores [LinearOrder K] (b : Build) (k : PredictKind F K P) (metric : P → List ℝ × List ℝ → Outcome S)
    (m : CvModel F K) (d : Dataset F ℝ) (hd : d.Valid) (ix : SMap K (List Nat))
    (h : IsPartition ix d.features.length) (v : K × List Nat → P)
    (hg : m.grouped b k d ix = some (.ok (ix.map fun kv => (kv.1, v kv))))
    (hs : ∀ kv ∈ ix, k.size (v kv) = kv.2.length) :
    m.scores b k metric d ix = some (ix.mapM fun kv =>
      metric (v kv) ((rowsAt d kv.2).map (·.2.1), (rowsAt d kv.2).map (·.2.2))) := by
  have hlt : ∀ kv ∈ ix, ∀ i ∈ kv.2, i < d.features.length := fun kv hkv i hi => h.mem_lt hkv hi
  let mk : List Nat → Fold F ℝ := fun is =>
    { train := d.pick (indicesComplement is d.features.length), test := d.pick is, testIndices := is }
  have e1 : foldsFromGroupIndexer b d ix = _ := groupsOf_ok (createFold b d) mk ix h.wf
    (fun kv hkv => createFold_ok b d hd kv.2 (h.nodup hkv) (hlt kv hkv))
  unfold CvModel.scores
  rw [hg, Option.map_some, e1, except_ok_bind, except_ok_bind]
  congr 1
  unfold crossValidatedScores
  refine (mapM_map_list _ _ _).trans (mapM_congr_mem _ fun kv hkv => ?_)
  show (SMap.at? (ix.map fun kv => (kv.1, v kv) : SMap K P) kv.1 >>= _) = _
  rw [at?_map_of_mem h.wf v hkv, except_ok_bind]
  have hl : (mk kv.2).test.features.length = kv.2.length := length_filterMap_get _ _ (hlt kv hkv)
  have t2 : (mk kv.2).test = datasetOfRows (rowsAt d kv.2) := by
    rw [rowsAt, ← pick_rows d hd _ (hlt kv hkv)]
    exact (datasetOfRows_rows _ (pick_valid d hd _ (hlt kv hkv)) rfl).symm
  rw [decide_eq_true (hl.trans (hs kv hkv).symm), albatrossAssert_true, except_ok_bind]
  show metric (v kv) ((mk kv.2).test.mean, (mk kv.2).test.variance) = _
  rw [t2]
  rfl

/-- C98: with folds, the score of a fold compares its test targets with the prediction of the model fitted to its
training data, whether or not the model has a specialised overload. -/
theorem C98_scores_folds [LinearOrder K] (b : Build) (k : PredictKind F K P) (hk : k.Truthful)
    (metric : P → List ℝ × List ℝ → Outcome S) (m : CvModel F K) (hhas : k.has m = true) (folds : SMap K (Fold F ℝ))
    (hw : SMap.WF folds) :
    ∃ v : Fold F ℝ → P, (∀ f, k.get (m.fitTo f.train) f.test.features = some (v f)) ∧
      m.scoresFolds b k metric folds = some (folds.mapM fun kf => metric (v kf.2) (kf.2.test.mean, kf.2.test.variance)) := by
  have hsome : ∀ f : Fold F ℝ, ∃ p, k.get (m.fitTo f.train) f.test.features = some p :=
    fun f => Option.isSome_iff_exists.1 ((hk m _ _).trans hhas)
  choose v hv using hsome
  refine ⟨v, hv, ?_⟩
  unfold CvModel.scoresFolds
  rw [if_pos hhas, C88_fold_scores b _ _ _ _ hw]
  congr 1
  refine mapM_congr_mem _ fun kf _ => ?_
  rw [if_neg (by simp)]
  unfold metricOfPrediction
  simp only [hv]

/-- C88 for models without the specialised overload: one score per group in key order; each compares the prediction of
the group's features by the model fitted to exactly the other rows with the group's own targets; scoring the folds is
the same.  What is missing: it is not the same for Gaussian processes (`C88_gp_false`). -/
theorem C88_scores_partial [LinearOrder K] (b : Build) (k : PredictKind F K P) (hk : k.Truthful)
    (metric : P → List ℝ × List ℝ → Outcome S) (m : CvModel F K) (hcv : k.cv m = none) (hhas : k.has m = true)
    (hsize : ∀ train xs p, k.get (m.fitTo train) xs = some p → k.size p = xs.length)
    (d : Dataset F ℝ) (hd : d.Valid) (ix : SMap K (List Nat)) (h : IsPartition ix d.features.length) :
    ∃ v : List Nat → P,
      (∀ is, k.get (m.fitTo (datasetOfRows (rowsWithout d is))) ((rowsAt d is).map Prod.fst) = some (v is)) ∧
      m.scores b k metric d ix = some (ix.mapM fun kv =>
        metric (v kv.2) ((rowsAt d kv.2).map (·.2.1), (rowsAt d kv.2).map (·.2.2))) ∧
      ∃ folds, foldsFromGroupIndexer b d ix = .ok folds ∧ m.scoresFolds b k metric folds = m.scores b k metric d ix := by
  have hlt : ∀ kv ∈ ix, ∀ i ∈ kv.2, i < d.features.length := fun kv hkv i hi => h.mem_lt hkv hi
  obtain ⟨v, hv, hg⟩ := C98_refit b k hk m hcv hhas d hd ix h
  have hlen : ∀ kv ∈ ix, (rowsAt d kv.2).length = kv.2.length := fun kv hkv => by
    have := congrArg List.length (fold_rows d hd kv.2 (hlt kv hkv)).2
    rw [List.length_map] at this
    rw [← this]
    exact length_filterMap_get _ _ (hlt kv hkv)
  have hsc := C98_scores b k metric m d hd ix h (fun kv => v kv.2) hg fun kv hkv => by
    rw [hsize _ _ _ (hv kv.2), List.length_map, hlen kv hkv]
  refine ⟨v, hv, hsc, ?_⟩
  let mk : List Nat → Fold F ℝ := fun is =>
    { train := d.pick (indicesComplement is d.features.length), test := d.pick is, testIndices := is }
  have e1 : foldsFromGroupIndexer b d ix = _ := groupsOf_ok (createFold b d) mk ix h.wf
    (fun kv hkv => createFold_ok b d hd kv.2 (h.nodup hkv) (hlt kv hkv))
  have hwf : SMap.WF (ix.map fun kv => (kv.1, mk kv.2) : SMap K (Fold F ℝ)) := by
    have := h.wf
    unfold SMap.WF at this ⊢
    exact List.pairwise_map.2 this
  refine ⟨_, e1, ?_⟩
  obtain ⟨w, hw, hsf⟩ := C98_scores_folds b k hk metric m hhas _ hwf
  rw [hsf, hsc]
  congr 1
  refine (mapM_map_list _ _ _).trans (mapM_congr_mem _ fun kv hkv => ?_)
  obtain ⟨t1, t3⟩ := fold_rows d hd kv.2 (hlt kv hkv)
  have t2 : (mk kv.2).test = datasetOfRows (rowsAt d kv.2) := by
    rw [rowsAt, ← pick_rows d hd _ (hlt kv hkv)]
    exact (datasetOfRows_rows _ (pick_valid d hd _ (hlt kv hkv)) rfl).symm
  have hvw : w (mk kv.2) = v kv.2 := by
    have h1 := hw (mk kv.2)
    have h2 := hv kv.2
    rw [← t1, ← t3] at h2
    exact Option.some.inj (h1.symm.trans h2)
  show metric (w (mk kv.2)) ((mk kv.2).test.mean, (mk kv.2).test.variance) = _
  rw [hvw, t2]
  rfl

/-- Non-vacuity: a model that predicts the number of its training rows, for three rows left out one at a time. -/
example : ∃ (m : CvModel Nat Nat) (d : Dataset Nat ℝ), d.Valid ∧ d.features ≠ [] ∧
    IsPartition (buildLeaveOneOut d.features) d.features.length ∧
    (meanKind : PredictKind Nat Nat DynMean).cv m = none ∧ (meanKind : PredictKind Nat Nat DynMean).has m = true ∧
    (∀ train xs p, (meanKind : PredictKind Nat Nat DynMean).get (m.fitTo train) xs = some p → p.dim = xs.length) ∧
    (meanKind : PredictKind Nat Nat DynMean).get (m.fitTo (datasetOfRows (rowsWithout d [0]))) [7] =
      some ⟨1, fun _ => 2⟩ := by
  refine ⟨⟨some fun d xs => ⟨xs.length, fun _ => d.features.length⟩, none, none, none, none, none⟩,
    { features := [7, 8, 9], mean := [0, 0, 0], variance := [1, 1, 1] }, ⟨rfl, rfl⟩, by simp, leaveOneOut_partition _,
    rfl, rfl, ?_, ?_⟩
  · intro train xs p hp
    have hp' : some (if xs.length = 0 then _ else (⟨xs.length, _⟩ : DynMean)) = some p := hp
    rw [← Option.some.inj hp']
    by_cases h0 : xs.length = 0
    · rw [if_pos h0]; exact h0.symm
    · rw [if_neg h0]
  · simp [meanKind, CvModel.fitTo, predictionMean, PredictImpl.meanPredictor, datasetOfRows, rowsWithout, Dataset.rows]

/-! ## Gaussian processes -/

section gp
variable {X : Type}

theorem getElem?_filterMap_get {α : Type} (v : List α) : ∀ (l : List Nat), (∀ i ∈ l, i < v.length) →
    ∀ j : Nat, (l.filterMap (v[·]?))[j]? = l[j]?.bind (v[·]?)
  | [], _, j => by simp
  | i :: l, h, j => by
    have hi := h i (by simp)
    rw [List.filterMap_cons, List.getElem?_eq_getElem hi]
    cases j with
    | zero => simp [hi]
    | succ j => simpa using getElem?_filterMap_get v l (fun k hk => h k (List.mem_cons_of_mem _ hk)) j

/-- The two ways of indexing groups. -/
theorem exists_rawIndexer [LinearOrder K] {n : Nat} : ∀ (ix : SMap K (List Nat)), (∀ kv ∈ ix, ∀ i ∈ kv.2, i < n) →
    ∃ indexer : SMap K (List (Fin n)), rawIndexer indexer = ix
  | [], _ => ⟨[], rfl⟩
  | (k, is) :: ix, h => by
    obtain ⟨rest, hr⟩ := exists_rawIndexer ix fun kv hkv => h kv (List.mem_cons_of_mem _ hkv)
    have : ∃ l : List (Fin n), l.map (·.1) = is := by
      have hl := h (k, is) (by simp)
      clear h hr
      simp only at hl
      induction is with
      | nil => exact ⟨[], rfl⟩
      | cons i is ih =>
        obtain ⟨l, hl'⟩ := ih fun j hj => hl j (List.mem_cons_of_mem _ hj)
        exact ⟨⟨i, hl i (by simp)⟩ :: l, by simp [hl']⟩
    obtain ⟨l, hl⟩ := this
    refine ⟨(k, l) :: rest, ?_⟩
    show (k, l.map (·.1)) :: rawIndexer rest = _
    rw [hl, hr]

theorem partition_raw [LinearOrder K] {n : Nat} {ix : SMap K (List Nat)} (h : IsPartition ix n) :
    ∃ indexer : SMap K (List (Fin n)), rawIndexer indexer = ix ∧ GoodGroups indexer := by
  obtain ⟨indexer, rfl⟩ := exists_rawIndexer ix fun kv hkv i hi => h.mem_lt hkv hi
  refine ⟨indexer, rfl, ?_, ?_⟩
  · have := h.wf
    unfold SMap.WF rawIndexer at this
    have h2 := List.pairwise_map.1 this
    exact h2
  · intro kv hkv
    have := h.nodup (kv := (kv.1, kv.2.map (·.1))) (List.mem_map_of_mem hkv)
    exact List.Nodup.of_map _ this

theorem rowsAt_features (d : Dataset X ℝ) (hd : d.Valid) (idx : List (Fin d.features.length)) :
    (rowsAt d (idx.map (·.1))).map Prod.fst = idx.map d.features.get := by
  have hlt : ∀ i ∈ idx.map (·.1), i < d.features.length := by
    intro i hi
    obtain ⟨j, -, rfl⟩ := List.mem_map.1 hi
    exact j.2
  rw [← (fold_rows d hd _ hlt).2]
  show (idx.map (·.1)).filterMap (d.features[·]?) = _
  rw [List.filterMap_map, ← List.filterMap_eq_map]
  refine List.filterMap_congr fun i _ => ?_
  simp

/-- The prediction of refitting without a group, with the noise of the observations of the group added. -/
noncomputable def refitNoisy (ldlt : LdltRoutine) (g : Gp X) (d : Dataset X ℝ) (idx : List (Fin d.features.length)) :
    Joint (Fin idx.length) :=
  let refit := gpFitDataset ldlt g (datasetOfRows (rowsWithout d (idx.map (·.1))))
  let test := fun k => d.features.get (idx.get k)
  ⟨(g.predictJoint refit test).mean, (g.predictJoint refit test).covariance +
    (obsCovariance g test (fun k => (datasetTargets d).variance (idx.get k)) - of fun k l => g.cov (test k) (test l))⟩

theorem heldOutValue_refit (ldlt : LdltRoutine) (hl : ∀ n (M : Matrix (Fin n) (Fin n) ℝ), M.PosDef → (ldlt n M).Factors M)
    (g : Gp X) (hsym : ∀ x y, g.cov x y = g.cov y x) (d : Dataset X ℝ) (hd : d.Valid)
    (hA : (obsCovariance g d.features.get (datasetTargets d).variance).PosDef)
    (idx : List (Fin d.features.length)) (hn : idx.Nodup)
    (hcross : ∀ i ∈ idx, ∀ j ∉ idx, g.cov (g.asMeas (d.features.get i)) (g.asMeas (d.features.get j)) =
      g.cov (d.features.get i) (d.features.get j))
    (hmean : ∀ i, g.mean (g.asMeas (d.features.get i)) = g.mean (d.features.get i)) :
    heldOutValue (obsCovariance g d.features.get (datasetTargets d).variance)
      (gpFitDataset ldlt g d).information (datasetTargets d).mean idx = refitNoisy ldlt g d idx := by
  set A := obsCovariance g d.features.get (datasetTargets d).variance with hAdef
  have hF := hl _ A hA
  have hAu := (Matrix.isUnit_iff_isUnit_det _).1 hA.isUnit
  have hfit := fit_fitOf g hsym (ldlt _) d.features.get (datasetTargets d) hF hAu
  have hlt : ∀ i ∈ idx.map (·.1), i < d.features.length := by
    intro i hi
    obtain ⟨j, -, rfl⟩ := List.mem_map.1 hi
    exact j.2
  have hcs := C06_indices_complement (idx.map (·.1)) d.features.length
  have hc : ∀ i ∈ indicesComplement (idx.map (·.1)) d.features.length, i < d.features.length := fun i hi =>
    ((hcs.2.1 i).1 hi).1
  unfold refitNoisy
  rw [← (fold_rows d hd _ hlt).1]
  generalize hL : indicesComplement (idx.map (·.1)) d.features.length = L at hc hcs
  have hlen : (d.pick L).features.length = L.length := length_filterMap_get _ _ hc
  -- the other rows
  let r : Fin (d.pick L).features.length → Fin d.features.length := fun i =>
    ⟨L[i.1]'(by rw [← hlen]; exact i.2), hc _ (List.getElem_mem _)⟩
  have hrL : ∀ i : Fin (d.pick L).features.length, L[i.1]? = some (r i).1 := fun i => by
    rw [List.getElem?_eq_getElem (by rw [← hlen]; exact i.2)]
  have hrinj : Function.Injective r := by
    intro i j hij
    have hnd : L.Nodup := hcs.1.imp fun h => ne_of_lt h
    have h1 : L[i.1]'(by rw [← hlen]; exact i.2) = L[j.1]'(by rw [← hlen]; exact j.2) := congrArg Fin.val hij
    exact Fin.ext ((List.Nodup.getElem_inj_iff hnd).1 h1)
  have hb : Function.Bijective (Sum.elim idx.get r) := by
    constructor
    · rintro (i | i) (j | j) hij
      · exact congrArg Sum.inl (hn.injective_get hij)
      · exfalso
        have hij : idx.get i = r j := hij
        have hm : (r j).1 ∈ L := List.mem_of_getElem? (hrL j)
        have := ((hcs.2.1 _).1 hm).2
        rw [← hij] at this
        exact this (List.mem_map_of_mem (List.get_mem idx i))
      · exfalso
        have hij : r i = idx.get j := hij
        have hm : (r i).1 ∈ L := List.mem_of_getElem? (hrL i)
        have := ((hcs.2.1 _).1 hm).2
        rw [hij] at this
        exact this (List.mem_map_of_mem (List.get_mem idx j))
      · exact congrArg Sum.inr (hrinj hij)
    · intro i
      by_cases hi : i ∈ idx
      · obtain ⟨k, hk⟩ := List.get_of_mem hi
        exact ⟨Sum.inl k, hk⟩
      · have hm : i.1 ∈ L := (hcs.2.1 _).2 ⟨i.2, by
          intro h
          obtain ⟨j, hj, hji⟩ := List.mem_map.1 h
          exact hi (Fin.ext hji ▸ hj)⟩
        obtain ⟨k, hk, hki⟩ := List.getElem_of_mem hm
        exact ⟨Sum.inr ⟨k, by rw [hlen]; exact hk⟩, Fin.ext hki⟩
  have hfeat : ∀ i, (d.pick L).features.get i = d.features.get (r i) := by
    intro i
    have h1 : (d.pick L).features[i.1]? = L[i.1]?.bind (d.features[·]?) := getElem?_filterMap_get _ _ hc _
    rw [hrL, Option.bind_some, List.getElem?_eq_getElem i.2, List.getElem?_eq_getElem (r i).2] at h1
    exact Option.some.inj h1
  have hm' : ∀ i ∈ L, i < d.mean.length := fun i hi => by rw [hd.1]; exact hc i hi
  have hv' : ∀ i ∈ L, i < d.variance.length := fun i hi => by rw [hd.2]; exact hc i hi
  have hmeans : ∀ i, (datasetTargets (d.pick L)).mean i = (datasetTargets d).mean (r i) := by
    intro i
    have h1 : (d.pick L).mean[i.1]? = L[i.1]?.bind (d.mean[·]?) := getElem?_filterMap_get _ _ hm' _
    rw [hrL, Option.bind_some] at h1
    simp only [datasetTargets, List.getD_eq_getElem?_getD, h1]
  have hvars : ∀ i, (datasetTargets (d.pick L)).variance i = (datasetTargets d).variance (r i) := by
    intro i
    have h1 : (d.pick L).variance[i.1]? = L[i.1]?.bind (d.variance[·]?) := getElem?_filterMap_get _ _ hv' _
    rw [hrL, Option.bind_some] at h1
    simp only [datasetTargets, List.getD_eq_getElem?_getD, h1]
  obtain ⟨-, hspec⟩ := heldOut_conditional hA idx.get r hb (fun i => g.mean (g.asMeas (d.features.get i)))
    (datasetTargets d).mean
  have hO : obsCovariance g (d.pick L).features.get (datasetTargets (d.pick L)).variance = A.submatrix r r := by
    ext i j
    simp only [obsCovariance, hAdef, of_apply, submatrix_apply, hfeat, hvars, hrinj.eq_iff]
  have hOpd : (A.submatrix r r).PosDef := hA.submatrix hrinj
  have hOu := (Matrix.isUnit_iff_isUnit_det _).1 hOpd.isUnit
  have hrefit := fit_fitOf g hsym (ldlt _) (d.pick L).features.get (datasetTargets (d.pick L))
    (by rw [hO]; exact hl _ _ hOpd) (by rw [hO]; exact hOu)
  rw [hO] at hrefit
  obtain ⟨h1, h2⟩ := (isGaussianConditional_iff hrefit.symm hOu).1 hspec
  have hinf : (gpFitDataset ldlt g d).information =
      A⁻¹ *ᵥ ((datasetTargets d).mean - fun i => g.mean (g.asMeas (d.features.get i))) := hfit.information
  have hcr : A.submatrix idx.get r = g.covMat (fun k => d.features.get (idx.get k)) (d.pick L).features.get := by
    ext k l
    have hnot : r l ∉ idx := by
      intro h
      have hm : (r l).1 ∈ L := List.mem_of_getElem? (hrL l)
      exact ((hcs.2.1 _).1 hm).2 (List.mem_map_of_mem h)
    have hne : idx.get k ≠ r l := fun h => hnot (h ▸ List.get_mem idx k)
    simp only [submatrix_apply, hAdef, obsCovariance, Gp.covMat, of_apply, hfeat, if_neg hne, add_zero]
    exact hcross _ (List.get_mem idx k) _ hnot
  have hpred := predictJoint_of_fitOf g hsym hrefit (fun k => d.features.get (idx.get k))
  have hpred' : g.predictJoint (gpFitDataset ldlt g (d.pick L)) (fun k => d.features.get (idx.get k)) = _ := hpred
  simp only
  rw [hpred']
  unfold heldOutValue
  congr 1
  · rw [hinf, h1, hcr]
    funext k
    simp only [Pi.add_apply, hmean]
    congr 2
    funext i
    simp only [Pi.sub_apply, hmeans, hfeat, hmean]
  · rw [h2, hcr, covMat_transpose g hsym]
    have hgg : A.submatrix idx.get idx.get =
        obsCovariance g (fun k => d.features.get (idx.get k)) (fun k => (datasetTargets d).variance (idx.get k)) := by
      ext k l
      simp only [submatrix_apply, hAdef, obsCovariance, of_apply, hn.injective_get.eq_iff]
    rw [hgg]
    have : (of fun k l => g.cov (d.features.get (idx.get k)) (d.features.get (idx.get l))) =
      g.covMat (fun k => d.features.get (idx.get k)) (fun k => d.features.get (idx.get k)) := rfl
    rw [this]
    dsimp only [Gp.fit, gpFitFrom]
    abel

/-- The prediction of refitting without a group. -/
noncomputable def refitLatent (ldlt : LdltRoutine) (g : Gp X) (d : Dataset X ℝ) (idx : List (Fin d.features.length)) :
    Joint (Fin idx.length) :=
  g.predictJoint (gpFitDataset ldlt g (datasetOfRows (rowsWithout d (idx.map (·.1)))))
    fun k => d.features.get (idx.get k)

/-- The same model with its specialised cross validation taken away. -/
def CvModel.refitting (m : CvModel F K) : CvModel F K := { m with cvMean := none, cvMarginal := none, cvJoint := none }

/-- What the closed form assumes: measuring changes neither the covariance of a row with the rows of other groups nor
the mean. -/
structure NoiseWithinGroups (g : Gp X) (d : Dataset X ℝ) (indexer : SMap K (List (Fin d.features.length))) : Prop where
  cross : ∀ kv ∈ indexer, ∀ i ∈ kv.2, ∀ j ∉ kv.2,
    g.cov (g.asMeas (d.features.get i)) (g.asMeas (d.features.get j)) = g.cov (d.features.get i) (d.features.get j)
  mean : ∀ i, g.mean (g.asMeas (d.features.get i)) = g.mean (d.features.get i)

theorem dynJoint_list {n : Type} [Fintype n] {Y : Type} (g : Gp X) (f : GpFit X n) (idx : List Y) (t : Y → X) :
    (⟨(idx.map t).length, g.predictJoint f fun i => (idx.map t).get i⟩ : DynJoint) =
      ⟨idx.length, g.predictJoint f fun k => t (idx.get k)⟩ := by
  have key : ∀ (xs : List X) (n : Nat) (u : Fin n → X) (h : xs.length = n), (∀ i : Fin n, xs[i.1]? = some (u i)) →
      (⟨xs.length, g.predictJoint f fun i => xs.get i⟩ : DynJoint) = ⟨n, g.predictJoint f u⟩ := by
    intro xs n u h hu
    subst h
    congr 2
    funext i
    have := hu i
    rw [List.getElem?_eq_getElem i.2] at this
    exact Option.some.inj this
  refine key _ _ _ (by simp) fun i => ?_
  simp

variable [LinearOrder K]

section
variable (b : Build) (uninit : Nat → ℝ) (ldlt : LdltRoutine)
  (hl : ∀ n (M : Matrix (Fin n) (Fin n) ℝ), M.PosDef → (ldlt n M).Factors M)
  (g : Gp X) (hsym : ∀ x y, g.cov x y = g.cov y x) (d : Dataset X ℝ) (hd : d.Valid)
  (indexer : SMap K (List (Fin d.features.length))) (h : IsPartition (rawIndexer indexer) d.features.length)

omit [LinearOrder K] in
/-- Refitting predicts, for the three kinds. -/
theorem gp_refit_get [LinearOrder K] (hd : d.Valid) (idx : List (Fin d.features.length)) :
    let m : CvModel X K := (gpCvModel b uninit ldlt g)
    let fit := m.refitting.fitTo (datasetOfRows (rowsWithout d (idx.map (·.1))))
    let xs := (rowsAt d (idx.map (·.1))).map Prod.fst
    predictionJoint fit xs = some ⟨idx.length, refitLatent ldlt g d idx⟩ ∧
    predictionMean fit xs = some ⟨idx.length, (refitLatent ldlt g d idx).mean⟩ ∧
    predictionMarginal fit xs = some ⟨idx.length, (refitLatent ldlt g d idx).mean,
      fun i => (refitLatent ldlt g d idx).covariance i i⟩ := by
  intro m fit xs
  have hxs : xs = idx.map d.features.get := rowsAt_features d hd idx
  let f := gpFitDataset ldlt g (datasetOfRows (rowsWithout d (idx.map (·.1))))
  have hj : ∀ ys : List X, ys = idx.map d.features.get →
      (⟨ys.length, g.predictJoint f fun i => ys.get i⟩ : DynJoint) = ⟨idx.length, refitLatent ldlt g d idx⟩ := by
    rintro ys rfl
    exact dynJoint_list g f idx d.features.get
  have hj' := hj xs hxs
  have hJ : predictionJoint fit xs = some ⟨idx.length, refitLatent ldlt g d idx⟩ := by
    show some (if xs.length = 0 then _ else (⟨xs.length, g.predictJoint f fun i => xs.get i⟩ : DynJoint)) = _
    by_cases h0 : xs.length = 0
    · rw [if_pos h0, ← hj']
      have e : xs = [] := List.length_eq_zero_iff.1 h0
      rw [e]
      congr 2
      rcases g.predictJoint f (fun i => ([] : List X).get i) with ⟨a, c⟩
      congr 1
      · funext i; exact i.elim0
      · funext i; exact i.elim0
    · rw [if_neg h0, hj']
  have hforms := fun (n : Nat) (u : Fin n → X) => C27_forms_agree g f u
  have toMean : ∀ (ys : List X), predictionMean fit ys = (predictionJoint fit ys).map fun j => ⟨j.dim, j.dist.mean⟩ := by
    intro ys
    show some (if ys.length = 0 then _ else (⟨ys.length, g.predictMean f fun i => ys.get i⟩ : DynMean)) =
      some ((fun j : DynJoint => (⟨j.dim, j.dist.mean⟩ : DynMean))
        (if ys.length = 0 then _ else (⟨ys.length, g.predictJoint f fun i => ys.get i⟩ : DynJoint)))
    by_cases h0 : ys.length = 0
    · rw [if_pos h0, if_pos h0]
    · rw [if_neg h0, if_neg h0]
      simp only
      rw [(hforms _ _).2.1]
  have toMarg : ∀ (ys : List X), predictionMarginal fit ys = (predictionJoint fit ys).map DynJoint.marginal := by
    intro ys
    show some (if ys.length = 0 then _ else (⟨ys.length, g.predictMarginal f fun i => ys.get i⟩ : DynMarginal)) =
      some (DynJoint.marginal
        (if ys.length = 0 then _ else (⟨ys.length, g.predictJoint f fun i => ys.get i⟩ : DynJoint)))
    by_cases h0 : ys.length = 0
    · rw [if_pos h0, if_pos h0]; rfl
    · rw [if_neg h0, if_neg h0]
      obtain ⟨h1, -, h3⟩ := hforms _ fun i => ys.get i
      unfold DynJoint.marginal
      simp only
      congr 1
      rcases hm : g.predictMarginal f (fun i => ys.get i) with ⟨a, c⟩
      rw [hm] at h1 h3
      simp only at h1 h3
      rw [h1, funext h3]
  exact ⟨hJ, by rw [toMean, hJ]; rfl, by rw [toMarg, hJ]; rfl⟩

include hl hsym hd h in
/-- C98, Gaussian processes: the closed form gives each group the prediction of refitting to the other rows, with the
noise of the group's observations added to the covariance. -/
theorem C98_gp_closed_form
    (hA : (obsCovariance g d.features.get (datasetTargets d).variance).PosDef) (hn : NoiseWithinGroups g d indexer) :
    (gpCvModel b uninit ldlt g).grouped b jointKind d (rawIndexer indexer) =
      some (.ok (indexer.map fun kv => (kv.1, ⟨kv.2.length, refitNoisy ldlt g d kv.2⟩))) ∧
    (gpCvModel b uninit ldlt g).grouped b marginalKind d (rawIndexer indexer) =
      some (.ok (indexer.map fun kv => (kv.1, ⟨kv.2.length, (refitNoisy ldlt g d kv.2).mean,
        fun i => (refitNoisy ldlt g d kv.2).covariance i i⟩))) ∧
    (gpCvModel b uninit ldlt g).grouped b meanKind d (rawIndexer indexer) =
      some (.ok (indexer.map fun kv => (kv.1, ⟨kv.2.length, (refitNoisy ldlt g d kv.2).mean⟩))) := by
  have hgood : GoodGroups indexer := by
    obtain ⟨ix', h1, h2⟩ := partition_raw h
    have : ix' = indexer := by
      have hinj : Function.Injective fun kv : K × List (Fin d.features.length) => (kv.1, kv.2.map (·.1)) := by
        rintro ⟨k1, l1⟩ ⟨k2, l2⟩ he
        simp only [Prod.mk.injEq] at he
        obtain ⟨rfl, h2⟩ := he
        rw [List.map_injective_iff.2 Fin.val_injective h2]
      exact List.map_injective_iff.2 hinj h1
    exact this ▸ h2
  set A := obsCovariance g d.features.get (datasetTargets d).variance with hAdef
  have hF := hl _ A hA
  have hval : ∀ kv ∈ indexer, heldOutValue A (gpFitDataset ldlt g d).information (datasetTargets d).mean kv.2 =
      refitNoisy ldlt g d kv.2 := fun kv hkv =>
    heldOutValue_refit ldlt hl g hsym d hd hA kv.2 (hgood.2 kv hkv) (hn.cross kv hkv) hn.mean
  have hcall : ∀ {β : Type} (one : (n : Nat) → Matrix (Fin n) (Fin n) ℝ → (Fin n → ℝ) → (Fin n → ℝ) → Outcome β),
      gpCrossValidatedPredictions one ldlt g (fun i => d.features.get i) (datasetTargets d) (rawIndexer indexer) =
      heldOutPredictions one (ldlt _ A) (datasetTargets d).mean (gpFitDataset ldlt g d).information
        (rawIndexer indexer) := by
    intro β one
    have hAeq : g.covMat (fun i => g.asMeas (d.features.get i)) (fun i => g.asMeas (d.features.get i)) +
      diagonal (datasetTargets d).variance = A := (obsCovariance_eq g d.features.get _).symm
    rw [gpCrossValidatedPredictions, hAeq]
    rfl
  refine ⟨?_, ?_, ?_⟩
  · show some (gpCrossValidatedPredictions heldOutJoint ldlt g _ _ _) = _
    rw [hcall, heldOutPredictions_joint hF hA _ _ hgood]
    congr 2
    exact List.map_congr_left fun kv hkv => by rw [hval kv hkv]
  · show some (gpCrossValidatedPredictions (heldOutMarginal b uninit ldlt) ldlt g _ _ _) = _
    rw [hcall, heldOutPredictions_marginal hF hA _ _ ldlt hl b uninit hgood]
    congr 2
    exact List.map_congr_left fun kv hkv => by rw [hval kv hkv]
  · show some (gpCrossValidatedPredictions (heldOutMean ldlt) ldlt g _ _ _) = _
    rw [hcall, heldOutPredictions_mean hF hA _ _ ldlt hl hgood]
    congr 2
    exact List.map_congr_left fun kv hkv => by rw [hval kv hkv]

include hd h in
/-- C98, Gaussian processes without the closed form: the predictions of refitting to the other rows. -/
theorem C98_gp_refit :
    (gpCvModel b uninit ldlt g).refitting.grouped b jointKind d (rawIndexer indexer) =
      some (.ok (indexer.map fun kv => (kv.1, ⟨kv.2.length, refitLatent ldlt g d kv.2⟩))) ∧
    (gpCvModel b uninit ldlt g).refitting.grouped b marginalKind d (rawIndexer indexer) =
      some (.ok (indexer.map fun kv => (kv.1, ⟨kv.2.length, (refitLatent ldlt g d kv.2).mean,
        fun i => (refitLatent ldlt g d kv.2).covariance i i⟩))) ∧
    (gpCvModel b uninit ldlt g).refitting.grouped b meanKind d (rawIndexer indexer) =
      some (.ok (indexer.map fun kv => (kv.1, ⟨kv.2.length, (refitLatent ldlt g d kv.2).mean⟩))) := by
  refine ⟨?_, ?_, ?_⟩
  · obtain ⟨v, hv, hg⟩ := C98_refit b jointKind jointKind_truthful (gpCvModel b uninit ldlt g).refitting rfl rfl d hd
      (rawIndexer indexer) h
    rw [hg]
    congr 2
    unfold rawIndexer
    rw [List.map_map]
    refine List.map_congr_left fun kv _ => ?_
    have := (gp_refit_get (K := K) b uninit ldlt g d hd kv.2).1
    exact congrArg (Prod.mk kv.1) (Option.some.inj ((hv _).symm.trans this))
  · obtain ⟨v, hv, hg⟩ := C98_refit b marginalKind marginalKind_truthful (gpCvModel b uninit ldlt g).refitting rfl rfl d
      hd (rawIndexer indexer) h
    rw [hg]
    congr 2
    unfold rawIndexer
    rw [List.map_map]
    refine List.map_congr_left fun kv _ => ?_
    have := (gp_refit_get (K := K) b uninit ldlt g d hd kv.2).2.2
    exact congrArg (Prod.mk kv.1) (Option.some.inj ((hv _).symm.trans this))
  · obtain ⟨v, hv, hg⟩ := C98_refit b meanKind meanKind_truthful (gpCvModel b uninit ldlt g).refitting rfl rfl d hd
      (rawIndexer indexer) h
    rw [hg]
    congr 2
    unfold rawIndexer
    rw [List.map_map]
    refine List.map_congr_left fun kv _ => ?_
    have := (gp_refit_get (K := K) b uninit ldlt g d hd kv.2).2.1
    exact congrArg (Prod.mk kv.1) (Option.some.inj ((hv _).symm.trans this))

include hl hsym hd h in
/-- C98, Gaussian processes: for means the closed form and refitting agree. -/
theorem C98_gp_means_agree
    (hA : (obsCovariance g d.features.get (datasetTargets d).variance).PosDef) (hn : NoiseWithinGroups g d indexer) :
    (gpCvModel b uninit ldlt g).grouped b meanKind d (rawIndexer indexer) =
      (gpCvModel b uninit ldlt g).refitting.grouped b meanKind d (rawIndexer indexer) := by
  rw [(C98_gp_closed_form b uninit ldlt hl g hsym d hd indexer h hA hn).2.2,
    (C98_gp_refit b uninit ldlt g d hd indexer h).2.2]
  rfl

end

/-! ## Leaving out one row at a time -/

omit [LinearOrder K] in
theorem nllJoint_one (b : Build) (ldlt : LdltRoutine) (μ w y v : ℝ) (h : 0 < w + v) :
    nllJoint b ldlt ⟨1, ⟨fun _ => μ, of fun _ _ => w⟩⟩ ([y], [v]) =
      .ok (.fin (-Real.log (ProbabilityTheory.gaussianPDFReal μ (w + v).toNNReal y))) := by
  rw [← gaussianPDF_centred _ _ _ h]
  unfold nllJoint
  rw [decide_eq_true (by rfl), eigenAssert_true, except_ok_bind, decide_eq_true (by rfl), eigenAssert_true,
    except_ok_bind]
  unfold nllDense
  simp [except_pure]

/-- The groups of leave one out. -/
def looIndexer (n : Nat) : SMap Nat (List (Fin n)) := (List.finRange n).map fun i => (i.1, [i])

theorem looIndexer_raw {α : Type} (xs : List α) : rawIndexer (looIndexer xs.length) = buildLeaveOneOut xs := by
  rw [C03_leave_one_out]
  unfold rawIndexer looIndexer
  rw [List.map_map, ← List.map_coe_finRange_eq_range, List.map_map]
  rfl

/-- Mean and variance of the prediction of row `i` by the process fitted to the other rows, and the noise that
measuring the row adds. -/
noncomputable def looMean (ldlt : LdltRoutine) (g : Gp X) (d : Dataset X ℝ) (i : Fin d.features.length) : ℝ :=
  (refitLatent ldlt g d [i]).mean (0 : Fin 1)

@[inherit_doc looMean]
noncomputable def looVariance (ldlt : LdltRoutine) (g : Gp X) (d : Dataset X ℝ) (i : Fin d.features.length) : ℝ :=
  (refitLatent ldlt g d [i]).covariance (0 : Fin 1) (0 : Fin 1)

@[inherit_doc looMean]
noncomputable def looNoise (g : Gp X) (d : Dataset X ℝ) (i : Fin d.features.length) : ℝ :=
  g.cov (g.asMeas (d.features.get i)) (g.asMeas (d.features.get i)) - g.cov (d.features.get i) (d.features.get i)

theorem dynJoint_one (n : Nat) (h : n = 1) (j : Joint (Fin n)) :
    (⟨n, j⟩ : DynJoint) = ⟨1, ⟨fun _ => j.mean ⟨0, h ▸ one_pos⟩,
      of fun _ _ => j.covariance ⟨0, h ▸ one_pos⟩ ⟨0, h ▸ one_pos⟩⟩⟩ := by
  subst h
  congr 1
  rcases j with ⟨a, c⟩
  congr 1
  · funext i; rw [Subsingleton.elim i 0]; rfl
  · ext i j; rw [Subsingleton.elim i 0, Subsingleton.elim j 0]; rfl

theorem refitLatent_one (ldlt : LdltRoutine) (g : Gp X) (d : Dataset X ℝ) (i : Fin d.features.length) :
    (⟨[i].length, refitLatent ldlt g d [i]⟩ : DynJoint) =
      ⟨1, ⟨fun _ => looMean ldlt g d i, of fun _ _ => looVariance ldlt g d i⟩⟩ :=
  dynJoint_one [i].length rfl _

theorem refitNoisy_one (ldlt : LdltRoutine) (g : Gp X) (d : Dataset X ℝ) (i : Fin d.features.length) :
    (⟨[i].length, refitNoisy ldlt g d [i]⟩ : DynJoint) =
      ⟨1, ⟨fun _ => looMean ldlt g d i,
        of fun _ _ => looVariance ldlt g d i + looNoise g d i + (datasetTargets d).variance i⟩⟩ := by
  rw [dynJoint_one [i].length rfl]
  congr 2
  funext k l
  have : (refitNoisy ldlt g d [i]).covariance (0 : Fin 1) (0 : Fin 1) = looVariance ldlt g d i +
      ((g.cov (g.asMeas (d.features.get i)) (g.asMeas (d.features.get i)) + (datasetTargets d).variance i) -
        g.cov (d.features.get i) (d.features.get i)) := by
    unfold refitNoisy looVariance refitLatent
    simp only [Matrix.add_apply, Matrix.sub_apply, obsCovariance, of_apply, if_true]
    rfl
  refine this.trans ?_
  rw [of_apply]
  unfold looNoise
  ring

theorem rowsAt_one (d : Dataset X ℝ) (hd : d.Valid) (i : Fin d.features.length) :
    (rowsAt d [i.1]).map (·.2.1) = [(datasetTargets d).mean i] ∧
    (rowsAt d [i.1]).map (·.2.2) = [(datasetTargets d).variance i] := by
  have h1 : i.1 < d.rows.length := by rw [rows_length d hd]; exact i.2
  have h2 : i.1 < d.mean.length := by rw [hd.1]; exact i.2
  have h3 : i.1 < d.variance.length := by rw [hd.2]; exact i.2
  have e : rowsAt d [i.1] = [d.rows[i.1]] := by
    simp [rowsAt, List.getElem?_eq_getElem h1]
  have em : d.rows[i.1].2.1 = d.mean[i.1] := by
    have := rows_mean d hd
    have h := congrArg (·[i.1]?) this
    simpa [List.getElem?_map, List.getElem?_eq_getElem h1, List.getElem?_eq_getElem h2] using h
  have ev : d.rows[i.1].2.2 = d.variance[i.1] := by
    have := rows_variance d hd
    have h := congrArg (·[i.1]?) this
    simpa [List.getElem?_map, List.getElem?_eq_getElem h1, List.getElem?_eq_getElem h3] using h
  rw [e]
  simp [datasetTargets, em, ev, List.getD_eq_getElem?_getD, List.getElem?_eq_getElem h2, List.getElem?_eq_getElem h3]

/-- Leave-one-out scores from predictions with one value per row. -/
theorem loo_scores (b : Build) (ldlt : LdltRoutine) (m : CvModel X Nat) (d : Dataset X ℝ) (hd : d.Valid)
    (μ w : Fin d.features.length → ℝ)
    (hg : m.grouped b jointKind d (rawIndexer (looIndexer d.features.length)) =
      some (.ok ((looIndexer d.features.length).map fun kv => (kv.1, if h : kv.1 < d.features.length then
        ⟨1, ⟨fun _ => μ ⟨kv.1, h⟩, of fun _ _ => w ⟨kv.1, h⟩⟩⟩ else ⟨0, ⟨fun _ => 0, 0⟩⟩))))
    (hv : ∀ i, 0 < w i + (datasetTargets d).variance i) :
    m.scores b jointKind (nllJoint b ldlt) d (buildLeaveOneOut d.features) =
      some (.ok ((List.finRange d.features.length).map fun i =>
        .fin (-Real.log (ProbabilityTheory.gaussianPDFReal (μ i) (w i + (datasetTargets d).variance i).toNNReal
          ((datasetTargets d).mean i))))) := by
  have hpart : IsPartition (rawIndexer (looIndexer d.features.length)) d.features.length := by
    rw [looIndexer_raw]; exact leaveOneOut_partition _
  let v : Nat × List Nat → DynJoint := fun kv => if h : kv.1 < d.features.length then
    ⟨1, ⟨fun _ => μ ⟨kv.1, h⟩, of fun _ _ => w ⟨kv.1, h⟩⟩⟩ else ⟨0, ⟨fun _ => 0, 0⟩⟩
  have hg' : m.grouped b jointKind d (rawIndexer (looIndexer d.features.length)) =
      some (.ok ((rawIndexer (looIndexer d.features.length)).map fun kv => (kv.1, v kv))) := by
    rw [hg]
    congr 2
    unfold rawIndexer
    rw [List.map_map]
    rfl
  have hsc := C98_scores b jointKind (nllJoint b ldlt) m d hd _ hpart v hg' (by
    intro kv hkv
    obtain ⟨kv', hkv', rfl⟩ := List.mem_map.1 hkv
    obtain ⟨i, -, rfl⟩ := List.mem_map.1 hkv'
    show (v (i.1, [i.1])).dim = 1
    simp only [v, i.2, dif_pos])
  rw [← looIndexer_raw, hsc]
  congr 1
  unfold rawIndexer looIndexer
  rw [List.map_map, mapM_map_list]
  refine mapM_eq_map _ fun i _ => ?_
  obtain ⟨h1, h2⟩ := rowsAt_one d hd i
  show nllJoint b ldlt (v (i.1, [i.1])) ((rowsAt d [i.1]).map (·.2.1), (rowsAt d [i.1]).map (·.2.2)) = _
  rw [h1, h2]
  simp only [v, i.2, dif_pos]
  exact nllJoint_one b ldlt _ _ _ _ (hv i)

section
variable (b : Build) (uninit : Nat → ℝ) (ldlt : LdltRoutine)
  (hl : ∀ n (M : Matrix (Fin n) (Fin n) ℝ), M.PosDef → (ldlt n M).Factors M)
  (g : Gp X) (hsym : ∀ x y, g.cov x y = g.cov y x) (d : Dataset X ℝ) (hd : d.Valid)

include hl hsym hd in
/-- C88 and C89 for Gaussian processes: leave one out scores of the negative log likelihood.  Row `i` is scored under
the refitted prediction with the variance of its target added twice, once by the closed form and once by the metric;
the noise of measuring is added once. -/
theorem C89_gp_scores (hA : (obsCovariance g d.features.get (datasetTargets d).variance).PosDef)
    (hn : NoiseWithinGroups g d (looIndexer d.features.length)) (hv : ∀ i, 0 ≤ (datasetTargets d).variance i) :
    (gpCvModel b uninit ldlt g).scores b jointKind (nllJoint b ldlt) d (buildLeaveOneOut d.features) =
      some (.ok ((List.finRange d.features.length).map fun i =>
        .fin (-Real.log (ProbabilityTheory.gaussianPDFReal (looMean ldlt g d i)
          (looVariance ldlt g d i + looNoise g d i + 2 * (datasetTargets d).variance i).toNNReal
          ((datasetTargets d).mean i))))) := by
  have hpart : IsPartition (rawIndexer (looIndexer d.features.length)) d.features.length := by
    rw [looIndexer_raw]; exact leaveOneOut_partition _
  have hcf := (C98_gp_closed_form b uninit ldlt hl g hsym d hd _ hpart hA hn).1
  have hpos : ∀ i, 0 < looVariance ldlt g d i + looNoise g d i + (datasetTargets d).variance i := by
    intro i
    have hmem : (i.1, [i]) ∈ looIndexer d.features.length := List.mem_map.2 ⟨i, List.mem_finRange i, rfl⟩
    have hval := heldOutValue_refit ldlt hl g hsym d hd hA [i] (List.nodup_singleton i) (hn.cross _ hmem) hn.mean
    have hpd := (hA.inv.submatrix (List.nodup_singleton i).injective_get).inv
    have h0 := hpd.diag_pos (i := (0 : Fin 1))
    have e1 : (refitNoisy ldlt g d [i]).covariance (0 : Fin 1) (0 : Fin 1) =
        looVariance ldlt g d i + looNoise g d i + (datasetTargets d).variance i := by
      have := refitNoisy_one ldlt g d i
      have h2 : ∀ (a c : Joint (Fin 1)), (⟨1, a⟩ : DynJoint) = ⟨1, c⟩ → a = c := by
        intro a c h; cases h; rfl
      rw [h2 _ _ this]
      rfl
    rw [← e1, ← hval]
    exact h0
  have := loo_scores b ldlt (gpCvModel b uninit ldlt g) d hd (looMean ldlt g d)
    (fun i => looVariance ldlt g d i + looNoise g d i + (datasetTargets d).variance i) (by
      rw [hcf]
      congr 2
      refine List.map_congr_left fun kv hkv => ?_
      obtain ⟨i, -, rfl⟩ := List.mem_map.1 hkv
      simp only [i.2, dif_pos]
      rw [← refitNoisy_one]) (fun i => add_pos_of_pos_of_nonneg (hpos i) (hv i))
  rw [this]
  congr 2
  refine List.map_congr_left fun i _ => ?_
  have : looVariance ldlt g d i + looNoise g d i + 2 * (datasetTargets d).variance i =
    looVariance ldlt g d i + looNoise g d i + (datasetTargets d).variance i + (datasetTargets d).variance i := by ring
  rw [this]

include hd in
/-- C88 for Gaussian processes: scoring the folds of leave one out.  Row `i` is scored under the refitted prediction
with the variance of its target added once, and without the noise of measuring. -/
theorem C88_gp_fold_scores (hv : ∀ i, 0 < looVariance ldlt g d i + (datasetTargets d).variance i) :
    ∃ folds, foldsFromGroupIndexer b d (buildLeaveOneOut d.features) = .ok folds ∧
    (gpCvModel b uninit ldlt g).scoresFolds b jointKind (nllJoint b ldlt) folds =
      some (.ok ((List.finRange d.features.length).map fun i =>
        .fin (-Real.log (ProbabilityTheory.gaussianPDFReal (looMean ldlt g d i)
          (looVariance ldlt g d i + (datasetTargets d).variance i).toNNReal ((datasetTargets d).mean i))))) := by
  have hpart : IsPartition (rawIndexer (looIndexer d.features.length)) d.features.length := by
    rw [looIndexer_raw]; exact leaveOneOut_partition _
  obtain ⟨-, -, -, folds, hf1, hf2⟩ := C88_scores_partial b jointKind jointKind_truthful (nllJoint b ldlt)
    (gpCvModel (K := Nat) b uninit ldlt g).refitting rfl rfl (by
      intro train xs p hp
      have hp' : some (if xs.length = 0 then _ else (⟨xs.length, _⟩ : DynJoint)) = some p := hp
      rw [← Option.some.inj hp']
      by_cases h0 : xs.length = 0
      · rw [if_pos h0]; exact h0.symm
      · rw [if_neg h0]; rfl) d hd (buildLeaveOneOut d.features) (leaveOneOut_partition _)
  refine ⟨folds, hf1, ?_⟩
  have : (gpCvModel b uninit ldlt g).scoresFolds b jointKind (nllJoint b ldlt) folds =
    (gpCvModel b uninit ldlt g).refitting.scoresFolds b jointKind (nllJoint b ldlt) folds := rfl
  rw [this, hf2]
  refine loo_scores b ldlt _ d hd (looMean ldlt g d) (looVariance ldlt g d) ?_ hv
  rw [(C98_gp_refit b uninit ldlt g d hd _ hpart).1]
  congr 2
  refine List.map_congr_left fun kv hkv => ?_
  obtain ⟨i, -, rfl⟩ := List.mem_map.1 hkv
  simp only [i.2, dif_pos]
  rw [← refitLatent_one]

include hl hsym hd in
/-- C89 for Gaussian processes: `LeaveOneOutLikelihood` is minus the sum over the rows of the log density of the target
under the held out prediction with measuring noise and twice the target's variance added, minus the log prior. -/
theorem C89_gp_likelihood (hA : (obsCovariance g d.features.get (datasetTargets d).variance).PosDef)
    (hn : NoiseWithinGroups g d (looIndexer d.features.length)) (hv : ∀ i, 0 ≤ (datasetTargets d).variance i)
    (prior : ℝ) :
    (gpCvModel b uninit ldlt g).looLikelihood b jointKind (nllJoint b ldlt) (.fin prior) d =
      some (.ok (.fin ((∑ i, -Real.log (ProbabilityTheory.gaussianPDFReal (looMean ldlt g d i)
          (looVariance ldlt g d i + looNoise g d i + 2 * (datasetTargets d).variance i).toNNReal
          ((datasetTargets d).mean i))) - prior))) := by
  unfold CvModel.looLikelihood
  rw [C89_gp_scores b uninit ldlt hl g hsym d hd hA hn hv, Option.map_some, except_ok_bind]
  generalize hf : (fun i => -Real.log (ProbabilityTheory.gaussianPDFReal (looMean ldlt g d i)
          (looVariance ldlt g d i + looNoise g d i + 2 * (datasetTargets d).variance i).toNNReal
          ((datasetTargets d).mean i))) = f
  have e : ((List.finRange d.features.length).map fun i => Dbl.fin (-Real.log (ProbabilityTheory.gaussianPDFReal
      (looMean ldlt g d i) (looVariance ldlt g d i + looNoise g d i + 2 * (datasetTargets d).variance i).toNNReal
          ((datasetTargets d).mean i)))) = ((List.finRange d.features.length).map f).map Dbl.fin := by
    rw [List.map_map, ← hf]; rfl
  simp only [e, dblSum_fin]
  rw [Fin.sum_univ_def]
  rfl

end

/-! ## Witnesses -/

theorem predictJoint_uncorrelated {n p : Type} [Fintype n] (g : Gp X) (f : GpFit X n) (xs : p → X)
    (h : g.covMat f.features xs = 0) :
    (g.predictJoint f xs).mean = (fun j => g.mean (xs j)) ∧ (g.predictJoint f xs).covariance = g.covMat xs xs := by
  unfold Gp.predictJoint gpJointPrediction gpMeanPrediction Gp.addTo
  simp only [h]
  constructor
  · funext j; simp
  · simp

/-- Two uncorrelated values with unit variance, each observed once as zero with unit variance. -/
noncomputable def whiteGp : Gp Bool where
  cov x y := if x = y then 1 else 0
  mean _ := 0
  asMeas x := x

@[inherit_doc whiteGp]
noncomputable def whiteData : Dataset Bool ℝ := { features := [false, true], mean := [0, 0], variance := [1, 1] }

theorem whiteData_valid : whiteData.Valid := ⟨rfl, rfl⟩

/-- The first row. -/
def whiteRow : Fin whiteData.features.length := ⟨0, Nat.zero_lt_succ _⟩

theorem whiteGp_symm (x y : Bool) : whiteGp.cov x y = whiteGp.cov y x := by
  unfold whiteGp; simp [eq_comm]

theorem whiteTargets (i : Fin whiteData.features.length) :
    (datasetTargets whiteData).mean i = 0 ∧ (datasetTargets whiteData).variance i = 1 := by
  have : ∀ i : Fin 2, ([0, 0] : List ℝ).getD i.1 0 = 0 ∧ ([1, 1] : List ℝ).getD i.1 0 = 1 := by
    intro i; fin_cases i <;> simp
  exact this i

theorem whiteObs_posDef :
    (obsCovariance whiteGp whiteData.features.get (datasetTargets whiteData).variance).PosDef := by
  have : obsCovariance whiteGp whiteData.features.get (datasetTargets whiteData).variance =
      diagonal fun _ => (2 : ℝ) := by
    have key : ∀ i j : Fin 2, ((if [false, true].get i = [false, true].get j then (1 : ℝ) else 0) +
        if i = j then 1 else 0) = if i = j then 2 else 0 := by
      intro i j; fin_cases i <;> fin_cases j <;> norm_num
    ext i j
    simp only [obsCovariance, of_apply, diagonal_apply, (whiteTargets _).2]
    exact key i j
  rw [this]
  exact Matrix.PosDef.diagonal fun _ => by norm_num

theorem white_noise : NoiseWithinGroups whiteGp whiteData (looIndexer whiteData.features.length) :=
  ⟨fun _ _ _ _ _ _ => rfl, fun _ => rfl⟩

theorem white_loo (ldlt : LdltRoutine) (i : Fin whiteData.features.length) :
    looMean ldlt whiteGp whiteData i = 0 ∧ looVariance ldlt whiteGp whiteData i = 1 ∧
      looNoise whiteGp whiteData i = 0 := by
  have hx : ∀ x ∈ (datasetOfRows (rowsWithout whiteData [i.1])).features, x ≠ whiteData.features.get i := by
    have : ∀ i : Fin 2, ∀ x ∈ (datasetOfRows (rowsWithout whiteData [i.1])).features, x ≠ [false, true].get i := by
      intro i
      fin_cases i <;> simp [datasetOfRows, rowsWithout, whiteData, Dataset.rows]
    exact this i
  obtain ⟨h1, h2⟩ := predictJoint_uncorrelated whiteGp
    (gpFitDataset ldlt whiteGp (datasetOfRows (rowsWithout whiteData ([i].map (·.1)))))
    (fun k => whiteData.features.get ([i].get k)) (by
      ext j k
      have hk : whiteData.features.get ([i].get k) = whiteData.features.get i := by
        have : ∀ k : Fin 1, k = 0 := fun k => Subsingleton.elim _ _
        rw [show k = (0 : Fin 1) from this k]; rfl
      simp only [Gp.covMat, of_apply, whiteGp, Matrix.zero_apply, hk]
      exact if_neg (hx _ (List.get_mem _ _)))
  refine ⟨congrFun h1 (0 : Fin 1), ?_, ?_⟩
  · refine (congrFun (congrFun h2 (0 : Fin 1)) (0 : Fin 1)).trans ?_
    simp [Gp.covMat, whiteGp]
  · simp [looNoise, whiteGp]

theorem gaussian_at_mean_ne {s t : ℝ} (hs : 0 < s) (ht : 0 < t) (hne : s ≠ t) :
    -Real.log (ProbabilityTheory.gaussianPDFReal 0 s.toNNReal 0) ≠
      -Real.log (ProbabilityTheory.gaussianPDFReal 0 t.toNNReal 0) := by
  rw [← gaussianPDF_centred _ _ _ hs, ← gaussianPDF_centred _ _ _ ht, sub_zero]
  unfold nllUni gaussianLogPdfUni
  intro h
  have hl : Real.log s = Real.log t := by
    have hp : (0 : ℝ) < 2 * Real.pi := by positivity
    have e1 := Real.log_mul hp.ne' hs.ne'
    have e2 := Real.log_mul hp.ne' ht.ne'
    rw [e1, e2] at h
    norm_num at h
    linarith
  exact hne (Real.log_injOn_pos hs ht hl)

/-- The premises of the theorems on Gaussian processes hold in a case. -/
example : ∃ ldlt : LdltRoutine, (∀ n M, M.PosDef → (ldlt n M).Factors M) ∧
    (∀ x y, whiteGp.cov x y = whiteGp.cov y x) ∧ whiteData.Valid ∧
    (obsCovariance whiteGp whiteData.features.get (datasetTargets whiteData).variance).PosDef ∧
    IsPartition (rawIndexer (looIndexer whiteData.features.length)) whiteData.features.length ∧
    NoiseWithinGroups whiteGp whiteData (looIndexer whiteData.features.length) ∧
    (∀ i, 0 < looVariance ldlt whiteGp whiteData i + (datasetTargets whiteData).variance i) := by
  choose ldlt hl using fun n => exists_ldlt (Fin n)
  refine ⟨ldlt, hl, whiteGp_symm, whiteData_valid, whiteObs_posDef, ?_, white_noise, fun i => ?_⟩
  · rw [looIndexer_raw]; exact leaveOneOut_partition _
  · rw [(white_loo ldlt i).2.1, (whiteTargets i).2]; norm_num

/-- Cross validation of a Gaussian process does not give the distributions of refitting: the closed form predicts the
observations, with their noise, refitting the process. -/
theorem C98_gp_joints_false (b : Build) (uninit : Nat → ℝ) (ldlt : LdltRoutine)
    (hl : ∀ n (M : Matrix (Fin n) (Fin n) ℝ), M.PosDef → (ldlt n M).Factors M) :
    ∃ (g : Gp Bool) (d : Dataset Bool ℝ) (ix : SMap Nat (List Nat)), d.Valid ∧ IsPartition ix d.features.length ∧
      (gpCvModel b uninit ldlt g).grouped b jointKind d ix ≠
        (gpCvModel b uninit ldlt g).refitting.grouped b jointKind d ix ∧
      (gpCvModel b uninit ldlt g).grouped b marginalKind d ix ≠
        (gpCvModel b uninit ldlt g).refitting.grouped b marginalKind d ix := by
  have hpart : IsPartition (rawIndexer (looIndexer whiteData.features.length)) whiteData.features.length := by
    rw [looIndexer_raw]; exact leaveOneOut_partition _
  obtain ⟨c1, c2, -⟩ := C98_gp_closed_form b uninit ldlt hl whiteGp whiteGp_symm whiteData whiteData_valid _ hpart
    whiteObs_posDef white_noise
  obtain ⟨r1, r2, -⟩ := C98_gp_refit b uninit ldlt whiteGp whiteData whiteData_valid _ hpart
  have hmem : ((0 : Nat), [whiteRow]) ∈ looIndexer whiteData.features.length :=
    List.mem_map.2 ⟨whiteRow, List.mem_finRange _, rfl⟩
  have hne : (refitNoisy ldlt whiteGp whiteData [whiteRow]).covariance (0 : Fin 1) (0 : Fin 1) ≠
      (refitLatent ldlt whiteGp whiteData [whiteRow]).covariance (0 : Fin 1) (0 : Fin 1) := by
    have e1 : (refitNoisy ldlt whiteGp whiteData [whiteRow]).covariance (0 : Fin 1) (0 : Fin 1) =
        looVariance ldlt whiteGp whiteData whiteRow + looNoise whiteGp whiteData whiteRow + (datasetTargets whiteData).variance whiteRow := by
      have := refitNoisy_one ldlt whiteGp whiteData whiteRow
      have h2 : ∀ (a c : Joint (Fin 1)), (⟨1, a⟩ : DynJoint) = ⟨1, c⟩ → a = c := by
        intro a c h; cases h; rfl
      rw [h2 _ _ this]
      rfl
    have e2 : (refitLatent ldlt whiteGp whiteData [whiteRow]).covariance (0 : Fin 1) (0 : Fin 1) =
      looVariance ldlt whiteGp whiteData whiteRow := rfl
    rw [e1, e2, (white_loo ldlt whiteRow).2.1, (white_loo ldlt whiteRow).2.2, (whiteTargets whiteRow).2]
    norm_num
  refine ⟨whiteGp, whiteData, _, whiteData_valid, hpart, ?_, ?_⟩
  · rw [c1, r1]
    intro h
    have h' := List.map_inj_left.1 (Except.ok.inj (Option.some.inj h)) _ hmem
    have h2 : ∀ (a c : Joint (Fin 1)), (⟨1, a⟩ : DynJoint) = ⟨1, c⟩ → a = c := by
      intro a c h; cases h; rfl
    have h3 := h2 _ _ (Prod.ext_iff.1 h').2
    exact hne (congrArg (fun j : Joint (Fin 1) => j.covariance 0 0) h3)
  · rw [c2, r2]
    intro h
    have h' := List.map_inj_left.1 (Except.ok.inj (Option.some.inj h)) _ hmem
    have h2 : ∀ (a c : Marginal (Fin 1)), (⟨1, a⟩ : DynMarginal) = ⟨1, c⟩ → a = c := by
      intro a c h; cases h; rfl
    have h3 := h2 _ _ (Prod.ext_iff.1 h').2
    exact hne (congrArg (fun j : Marginal (Fin 1) => j.variance 0) h3)

/-- C88 is false for Gaussian processes: scoring a dataset and scoring its folds give different likelihoods. -/
theorem C88_gp_false (b : Build) (uninit : Nat → ℝ) (ldlt : LdltRoutine)
    (hl : ∀ n (M : Matrix (Fin n) (Fin n) ℝ), M.PosDef → (ldlt n M).Factors M) :
    ∃ (g : Gp Bool) (d : Dataset Bool ℝ) (folds : SMap Nat (Fold Bool ℝ)), d.Valid ∧
      foldsFromGroupIndexer b d (buildLeaveOneOut d.features) = .ok folds ∧
      (gpCvModel b uninit ldlt g).scores b jointKind (nllJoint b ldlt) d (buildLeaveOneOut d.features) ≠
        (gpCvModel b uninit ldlt g).scoresFolds b jointKind (nllJoint b ldlt) folds := by
  obtain ⟨folds, hf, hs⟩ := C88_gp_fold_scores b uninit ldlt whiteGp whiteData whiteData_valid (fun i => by
    rw [(white_loo ldlt i).2.1, (whiteTargets i).2]; norm_num)
  refine ⟨whiteGp, whiteData, folds, whiteData_valid, hf, ?_⟩
  rw [hs, C89_gp_scores b uninit ldlt hl whiteGp whiteGp_symm whiteData whiteData_valid whiteObs_posDef white_noise
    fun i => by rw [(whiteTargets i).2]; norm_num]
  intro h
  have h' := List.map_inj_left.1 (Except.ok.inj (Option.some.inj h)) whiteRow
    (List.mem_finRange _)
  have h'' := Dbl.fin.inj h'
  rw [(white_loo ldlt whiteRow).1, (white_loo ldlt whiteRow).2.1, (white_loo ldlt whiteRow).2.2, (whiteTargets whiteRow).1, (whiteTargets whiteRow).2] at h''
  exact gaussian_at_mean_ne (by norm_num) (by norm_num) (by norm_num) h''

/-- C89 is false for Gaussian processes: with flat priors, `LeaveOneOutLikelihood` is not minus the sum of the log
densities of the targets under the held out predictions with measuring noise and the target's variance added. -/
theorem C89_gp_likelihood_false (b : Build) (uninit : Nat → ℝ) (ldlt : LdltRoutine)
    (hl : ∀ n (M : Matrix (Fin n) (Fin n) ℝ), M.PosDef → (ldlt n M).Factors M) :
    ∃ (g : Gp Bool) (d : Dataset Bool ℝ), d.Valid ∧
      (gpCvModel b uninit ldlt g).looLikelihood b jointKind (nllJoint b ldlt) (.fin 0) d ≠
        some (.ok (.fin (∑ i, -Real.log (ProbabilityTheory.gaussianPDFReal (looMean ldlt g d i)
          (looVariance ldlt g d i + looNoise g d i + (datasetTargets d).variance i).toNNReal
          ((datasetTargets d).mean i))))) := by
  refine ⟨whiteGp, whiteData, whiteData_valid, ?_⟩
  rw [C89_gp_likelihood b uninit ldlt hl whiteGp whiteGp_symm whiteData whiteData_valid whiteObs_posDef white_noise
    (fun i => by rw [(whiteTargets i).2]; norm_num)]
  intro h
  have h' := Dbl.fin.inj (Except.ok.inj (Option.some.inj h))
  simp only [fun i => (white_loo ldlt i).1, fun i => (white_loo ldlt i).2.1, fun i => (white_loo ldlt i).2.2,
    fun i => (whiteTargets i).1, fun i => (whiteTargets i).2, Finset.sum_const, sub_zero] at h'
  have hc : (Finset.univ : Finset (Fin whiteData.features.length)).card = 2 := (Finset.card_univ).trans (Fintype.card_fin _)
  rw [hc, two_nsmul, two_nsmul] at h'
  refine gaussian_at_mean_ne (s := 1 + 0 + 2 * 1) (t := 1 + 0 + 1) (by norm_num) (by norm_num) (by norm_num) ?_
  linarith

end gp

end Albatross
