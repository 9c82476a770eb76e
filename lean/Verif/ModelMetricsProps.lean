import Verif.FoldsProps
import Verif.ModelMetrics
import Verif.RansacGpProps
import Verif.LikelihoodProps
import Verif.MetricsProps
import Verif.ScoreProps
import Mathlib.Algebra.Order.Chebyshev

/-! # Cross-validated scores and the metrics of models: C88, C89 -/

namespace Albatross

open Matrix

variable {F R K S P : Type}

/-! ## Specification: datasets as lists of rows -/

/-- The dataset with the given rows (and no metadata). -/
def datasetOfRows (l : List (F × R × R)) : Dataset F R :=
  { features := l.map Prod.fst, mean := l.map (·.2.1), variance := l.map (·.2.2) }

/-- All rows but those at the positions `is`, in order. -/
def rowsWithout (d : Dataset F R) (is : List Nat) : List (F × R × R) :=
  (d.rows.zipIdx.filter fun r => r.2 ∉ is).map Prod.fst

/-- The rows at the positions `is`, in the order of `is`. -/
def rowsAt (d : Dataset F R) (is : List Nat) : List (F × R × R) := is.filterMap (d.rows[·]?)

/-- The score of one group: the model is fitted to all other rows and compared with the rows of the group. -/
def scoreOfGroup (fitPredict : Dataset F R → List F → P) (metric : P → List R × List R → Outcome S) (d : Dataset F R)
    (is : List Nat) : Outcome S :=
  metric (fitPredict (datasetOfRows (rowsWithout d is)) ((rowsAt d is).map Prod.fst))
    ((rowsAt d is).map (·.2.1), (rowsAt d is).map (·.2.2))

/-! ## C88 -/

theorem datasetOfRows_rows (d : Dataset F R) (hd : d.Valid) (hm : d.metadata = []) : datasetOfRows d.rows = d := by
  unfold datasetOfRows
  rw [rows_features d hd, rows_mean d hd, rows_variance d hd]
  cases d; simp at hm; subst hm; rfl

theorem mapM_congr_mem {α β ε : Type} {f g : α → Except ε β} : ∀ (l : List α), (∀ x ∈ l, f x = g x) →
    l.mapM f = l.mapM g
  | [], _ => rfl
  | x :: l, h => by
    rw [List.mapM_cons, List.mapM_cons, h x (by simp), mapM_congr_mem l fun y hy => h y (List.mem_cons_of_mem _ hy)]

theorem mapM_map_list {α β γ ε : Type} (g : α → β) (f : β → Except ε γ) : ∀ (l : List α),
    (l.map g).mapM f = l.mapM fun x => f (g x)
  | [] => rfl
  | x :: l => by rw [List.map_cons, List.mapM_cons, List.mapM_cons, mapM_map_list g f l]

theorem pick_complement_rows (d : Dataset F R) (hd : d.Valid) (is : List Nat) :
    (d.pick (indicesComplement is d.features.length)).rows = rowsWithout d is := by
  have hc : ∀ i ∈ indicesComplement is d.features.length, i < d.features.length := fun i hi =>
    (((C06_indices_complement is d.features.length).2.1 i).1 hi).1
  unfold rowsWithout
  rw [pick_rows d hd _ hc]
  have hcomp : indicesComplement is d.features.length =
      (List.range d.rows.length).filter fun i => i ∉ is := by
    refine sorted_ext (C06_indices_complement is d.features.length).1 ?_ ?_
    · exact List.Pairwise.filter _ (by simpa using List.pairwise_lt_range)
    · intro i
      rw [(C06_indices_complement is d.features.length).2.1, List.mem_filter, List.mem_range, rows_length d hd]
      simp
  rw [hcomp]
  generalize d.rows = rs
  have : ∀ (rs pre : List (F × R × R)),
      ((List.range' pre.length rs.length).filter fun i => i ∉ is).filterMap
        ((pre ++ rs)[·]?) = ((rs.zipIdx pre.length).filter fun r => r.2 ∉ is).map Prod.fst := by
    intro rs
    induction rs with
    | nil => intro pre; simp
    | cons r t ih =>
      intro pre
      have hi := ih (pre ++ [r])
      simp only [List.append_assoc, List.singleton_append, List.length_append, List.length_singleton] at hi
      rw [List.length_cons, List.range'_succ, List.zipIdx_cons, List.filter_cons, List.filter_cons]
      by_cases hm : pre.length ∈ is
      · simp only [hm, not_true_eq_false, decide_false, Bool.false_eq_true, if_false]
        exact hi
      · simp only [hm, not_false_eq_true, decide_true, if_true, List.map_cons]
        rw [← hi, List.filterMap_cons]
        simp
  have h0 := this rs []
  simpa [List.range_eq_range'] using h0

theorem at?_map_of_mem [LinearOrder K] {V W : Type} {m : SMap K V} (hm : SMap.WF m) (f : K × V → W) {kv : K × V}
    (h : kv ∈ m) : SMap.at? (m.map fun x => (x.1, f x) : SMap K W) kv.1 = .ok (f kv) := by
  unfold SMap.at?
  rw [SMap.find?_map_values m f kv.1, SMap.find?_of_mem hm (k := kv.1) (v := kv.2) h]
  rfl

/-- C88, folds: the scores are those of each fold, in key order: the model is fitted to the fold's training data and its
prediction of the test features compared with the test targets.  A prediction of the wrong size is rejected. -/
theorem C88_fold_scores [LinearOrder K] (b : Build) (fitPredict : Dataset F R → List F → P) (size : P → Nat)
    (metric : P → List R × List R → Outcome S) (folds : SMap K (Fold F R)) (hw : SMap.WF folds) :
    cvScoresFolds b fitPredict size metric folds = folds.mapM fun kf =>
      if b = .debug ∧ size (fitPredict kf.2.train kf.2.test.features) ≠ kf.2.test.features.length then
        .error .assertFail
      else metric (fitPredict kf.2.train kf.2.test.features) (kf.2.test.mean, kf.2.test.variance) := by
  have e : folds.foldl (fun out kf => SMap.emplace out kf.1 (fitPredict kf.2.train kf.2.test.features)) [] =
      (folds.map fun kf => (kf.1, fitPredict kf.2.train kf.2.test.features) : SMap K P) := by
    have := SMap.foldl_emplace_append (folds.map fun kf => (kf.1, fitPredict kf.2.train kf.2.test.features) : SMap K P) []
      (by
        rw [List.nil_append]
        unfold SMap.WF at hw ⊢
        exact List.pairwise_map.2 hw)
    rw [List.nil_append, List.foldl_map] at this
    exact this
  unfold cvScoresFolds crossValidatedScores
  simp only [e]
  refine mapM_congr_mem _ fun kf hkf => ?_
  rw [at?_map_of_mem hw (fun kf => fitPredict kf.2.train kf.2.test.features) hkf, except_ok_bind]
  by_cases hs : size (fitPredict kf.2.train kf.2.test.features) = kf.2.test.features.length
  · rw [if_neg (by simp [hs]), decide_eq_true hs.symm, albatrossAssert_true, except_ok_bind]
  · rw [decide_eq_false (fun h => hs h.symm)]
    cases b
    · rw [if_pos ⟨rfl, hs⟩]; rfl
    · rw [if_neg (by simp)]; rfl

/-- C88: cross-validated scores.  For every indexer that partitions the dataset there is one score per group, in key
order; each is the metric of the prediction of the group's features by the model fitted to exactly the other rows, and
the group's own targets.  Scoring the folds made from the indexer is the same. -/
theorem C88_scores [LinearOrder K] (b : Build) (fitPredict : Dataset F R → List F → P) (size : P → Nat)
    (metric : P → List R × List R → Outcome S) (hsize : ∀ tr fs, size (fitPredict tr fs) = fs.length)
    (d : Dataset F R) (hd : d.Valid) (ix : SMap K (List Nat)) (h : IsPartition ix d.features.length) :
    cvScores b fitPredict size metric d ix = ix.mapM (fun kv => scoreOfGroup fitPredict metric d kv.2) ∧
    (foldsFromGroupIndexer b d ix >>= cvScoresFolds b fitPredict size metric) =
      ix.mapM (fun kv => scoreOfGroup fitPredict metric d kv.2) := by
  have hlt : ∀ kv ∈ ix, ∀ i ∈ kv.2, i < d.features.length := fun kv hkv i hi => h.mem_lt hkv hi
  let mk : List Nat → Fold F R := fun is =>
    { train := d.pick (indicesComplement is d.features.length), test := d.pick is, testIndices := is }
  have e1 := groupsOf_ok (createFold b d) mk ix h.wf
    (fun kv hkv => createFold_ok b d hd kv.2 (h.nodup hkv) (hlt kv hkv))
  have e2 := groupsOf_ok (fun is => do
      let f ← createFold b d is
      pure (fitPredict f.train f.test.features)) (fun is => fitPredict (mk is).train (mk is).test.features) ix h.wf
    (fun kv hkv => by
      rw [createFold_ok b d hd kv.2 (h.nodup hkv) (hlt kv hkv)]; rfl)
  have hscore : ∀ kv ∈ ix, metric (fitPredict (mk kv.2).train (mk kv.2).test.features)
      ((mk kv.2).test.mean, (mk kv.2).test.variance) = scoreOfGroup fitPredict metric d kv.2 := by
    intro kv hkv
    have hc : ∀ i ∈ indicesComplement kv.2 d.features.length, i < d.features.length := fun i hi =>
      (((C06_indices_complement kv.2 d.features.length).2.1 i).1 hi).1
    have t1 : (mk kv.2).train = datasetOfRows (rowsWithout d kv.2) := by
      rw [← pick_complement_rows d hd]
      exact (datasetOfRows_rows _ (pick_valid d hd _ hc) rfl).symm
    have t2 : (mk kv.2).test = datasetOfRows (rowsAt d kv.2) := by
      rw [rowsAt, ← pick_rows d hd _ (hlt kv hkv)]
      exact (datasetOfRows_rows _ (pick_valid d hd _ (hlt kv hkv)) rfl).symm
    rw [t1, t2]
    rfl
  have hwf : SMap.WF (ix.map fun kv => (kv.1, mk kv.2) : SMap K (Fold F R)) := by
    have := h.wf
    unfold SMap.WF at this ⊢
    exact List.pairwise_map.2 this
  constructor
  · unfold cvScores crossValidatedPredictions foldsFromGroupIndexer
    rw [e1, except_ok_bind, e2, except_ok_bind]
    unfold crossValidatedScores
    refine (mapM_map_list _ _ _).trans (mapM_congr_mem _ fun kv hkv => ?_)
    show (SMap.at? (ix.map fun kv => (kv.1, fitPredict (mk kv.2).train (mk kv.2).test.features) : SMap K P) kv.1 >>= _) = _
    rw [at?_map_of_mem h.wf (fun kv => fitPredict (mk kv.2).train (mk kv.2).test.features) hkv, except_ok_bind]
    rw [decide_eq_true (hsize _ _).symm, albatrossAssert_true, except_ok_bind]
    exact hscore kv hkv
  · unfold foldsFromGroupIndexer
    rw [e1, except_ok_bind, C88_fold_scores b fitPredict size metric _ hwf]
    refine (mapM_map_list _ _ _).trans (mapM_congr_mem _ fun kv hkv => ?_)
    rw [if_neg (by simp [hsize])]
    exact hscore kv hkv

theorem filter_ne_eraseIdx {α : Type} : ∀ (l : List α) (k i : Nat),
    ((l.zipIdx k).filter fun r => r.2 ∉ [k + i]).map Prod.fst = l.eraseIdx i
  | [], k, i => by simp
  | x :: l, k, 0 => by
    rw [List.zipIdx_cons, List.filter_cons, if_neg (by simp), List.eraseIdx_cons_zero]
    rw [List.filter_eq_self.2, List.zipIdx_map_fst]
    intro r hr
    have := List.le_snd_of_mem_zipIdx hr
    simp; omega
  | x :: l, k, i + 1 => by
    rw [List.zipIdx_cons, List.filter_cons, if_pos (by simp), List.eraseIdx_cons_succ, List.map_cons,
      ← filter_ne_eraseIdx l (k + 1) i]
    simp only [Nat.add_assoc, Nat.add_comm 1 i]

theorem leaveOneOut_partition {α : Type} (xs : List α) : IsPartition (buildLeaveOneOut xs) xs.length := by
  rw [C03_leave_one_out]
  constructor
  · unfold SMap.WF
    exact List.pairwise_map.2 List.pairwise_lt_range
  · have : (SMap.values ((List.range xs.length).map fun i => (i, [i]) : SMap Nat (List Nat))).flatten =
        List.range xs.length := by
      unfold SMap.values
      rw [List.map_map, ← List.flatMap_def]
      exact List.flatMap_singleton' _
    rw [this]

/-- C88, leave one out: there is one score per row, in the order of the dataset, and the model of row `i` is fitted to
the dataset with exactly that row removed. -/
theorem C88_leave_one_out (b : Build) (fitPredict : Dataset F R → List F → P) (size : P → Nat)
    (metric : P → List R × List R → Outcome S) (hsize : ∀ tr fs, size (fitPredict tr fs) = fs.length)
    (d : Dataset F R) (hd : d.Valid) :
    cvScores b fitPredict size metric d (buildLeaveOneOut d.features) = d.rows.zipIdx.mapM fun r =>
      metric (fitPredict (datasetOfRows (d.rows.eraseIdx r.2)) [r.1.1]) ([r.1.2.1], [r.1.2.2]) := by
  rw [(C88_scores b fitPredict size metric hsize d hd _ (leaveOneOut_partition _)).1, C03_leave_one_out,
    mapM_map_list, ← rows_length d hd]
  have e : List.range d.rows.length = d.rows.zipIdx.map Prod.snd := by
    rw [List.zipIdx_map_snd, List.range_eq_range']
  rw [e, mapM_map_list]
  refine mapM_congr_mem _ fun r hr => ?_
  have hr' : d.rows[r.2]? = some r.1 := List.mk_mem_zipIdx_iff_getElem?.1 hr
  have h1 : rowsWithout d [r.2] = d.rows.eraseIdx r.2 := by
    have := filter_ne_eraseIdx d.rows 0 r.2
    rw [Nat.zero_add] at this
    exact this
  have h2 : rowsAt d [r.2] = [r.1] := by simp [rowsAt, hr']
  unfold scoreOfGroup
  rw [h1, h2]
  rfl

/-- C88, groups: with a grouping function there is one score per distinct value of it, in increasing order, and the
group of a value is made of exactly the rows with that value, in the order of the dataset. -/
theorem C88_grouped [LinearOrder K] (b : Build) (fitPredict : Dataset F R → List F → P) (size : P → Nat)
    (metric : P → List R × List R → Outcome S) (hsize : ∀ tr fs, size (fitPredict tr fs) = fs.length)
    (d : Dataset F R) (hd : d.Valid) (g : F → K) :
    ∃ keys : List K, keys.Pairwise (· < ·) ∧ (∀ k, k ∈ keys ↔ ∃ x ∈ d.features, g x = k) ∧
      cvScores b fitPredict size metric d (buildIndexer g d.features) = keys.mapM fun k =>
        metric (fitPredict (datasetOfRows (d.rows.filter fun r => g r.1 ≠ k))
            ((d.rows.filter fun r => g r.1 = k).map Prod.fst))
          ((d.rows.filter fun r => g r.1 = k).map (·.2.1), (d.rows.filter fun r => g r.1 = k).map (·.2.2)) := by
  have hpart := (C04_grouper_is_partition b d g).1
  obtain ⟨hwf, hfind, huniq⟩ := C01_group_by_partitions g d.features
  refine ⟨(buildIndexer g d.features).keys, ?_, ?_, ?_⟩
  · unfold SMap.WF at hwf
    exact List.pairwise_map.2 hwf
  · intro k
    constructor
    · intro hk
      obtain ⟨⟨k', is⟩, hmem, rfl⟩ := List.mem_map.1 hk
      obtain ⟨hne, -, hi⟩ := hfind _ _ (SMap.find?_of_mem hwf hmem)
      obtain ⟨i, his⟩ := List.exists_mem_of_ne_nil _ hne
      obtain ⟨x, hx, hg⟩ := (hi i).1 his
      exact ⟨x, List.mem_of_getElem? hx, hg⟩
    · rintro ⟨x, hx, rfl⟩
      obtain ⟨i, hi, hix⟩ := List.getElem_of_mem hx
      obtain ⟨k, ⟨is, hk, his⟩, -⟩ := huniq i hi
      obtain ⟨y, hy, hg⟩ := ((hfind k is hk).2.2 i).1 his
      have : x = y := by
        rw [List.getElem?_eq_getElem hi, hix] at hy
        exact Option.some.inj hy
      rw [this, hg]
      exact List.mem_map_of_mem (SMap.mem_of_find? hk)
  · rw [(C88_scores b fitPredict size metric hsize d hd _ hpart).1]
    refine Eq.trans ?_ (mapM_map_list _ _ _).symm
    refine mapM_congr_mem _ fun kv hkv => ?_
    obtain ⟨-, hs, hi⟩ := hfind kv.1 kv.2 (SMap.find?_of_mem hwf hkv)
    have hmem : ∀ r ∈ d.rows.zipIdx, (r.2 ∈ kv.2 ↔ g r.1.1 = kv.1) := by
      intro r hr
      have hr' : d.rows[r.2]? = some r.1 := List.mk_mem_zipIdx_iff_getElem?.1 hr
      have hf : d.features[r.2]? = some r.1.1 := by
        rw [← rows_features d hd, List.getElem?_map, hr']; rfl
      rw [hi, hf]
      simp
    have h1 : rowsWithout d kv.2 = d.rows.filter fun r => g r.1 ≠ kv.1 := by
      unfold rowsWithout
      conv_rhs => rw [← List.zipIdx_map_fst 0 d.rows, List.filter_map]
      congr 1
      refine List.filter_congr fun r hr => ?_
      simp [hmem r hr]
    have h2 : rowsAt d kv.2 = d.rows.filter fun r => g r.1 = kv.1 := by
      have e : kv.2 = (d.rows.zipIdx.filter fun r => g r.1.1 = kv.1).map Prod.snd := by
        refine sorted_ext hs ?_ ?_
        · refine List.pairwise_map.2 (List.Pairwise.filter _ ?_)
          have : (d.rows.zipIdx.map Prod.snd).Pairwise (· < ·) := by
            rw [List.zipIdx_map_snd]; exact List.pairwise_lt_range'
          exact List.pairwise_map.1 this
        · intro i
          constructor
          · intro hik
            have hin : i < d.rows.length := by rw [rows_length d hd]; exact hpart.mem_lt hkv hik
            have hz : (d.rows[i], i) ∈ d.rows.zipIdx :=
              List.mk_mem_zipIdx_iff_getElem?.2 (List.getElem?_eq_getElem hin)
            exact List.mem_map.2 ⟨_, List.mem_filter.2 ⟨hz, by simpa using (hmem _ hz).1 hik⟩, rfl⟩
          · intro hik
            obtain ⟨r, hr, rfl⟩ := List.mem_map.1 hik
            obtain ⟨hz, hg⟩ := List.mem_filter.1 hr
            exact (hmem r hz).2 (by simpa using hg)
      unfold rowsAt
      conv_rhs => rw [← List.zipIdx_map_fst 0 d.rows, List.filter_map]
      rw [e, List.filterMap_map]
      rw [← List.filterMap_eq_map]
      refine List.filterMap_congr fun r hr => ?_
      exact List.mk_mem_zipIdx_iff_getElem?.1 (List.mem_filter.1 hr).1
    unfold scoreOfGroup
    rw [h1, h2]

/-- Non-vacuity: three rows in two groups; the model predicts the number of training rows for every feature and the
metric adds up predictions and targets. -/
example : cvScores .debug (fun tr fs => fs.map fun _ => (tr.features.length : Int)) List.length
    (fun p t => (.ok (p.sum + t.1.sum) : Outcome Int))
    ({ features := [1, 2, 3], mean := [10, 20, 30], variance := [1, 1, 1] } : Dataset Nat Int)
    (buildIndexer (fun x => x % 2) [1, 2, 3]) = .ok [22, 42] := by decide +kernel

/-! ## C89 -/

theorem mapM_eq_map {α β ε : Type} {f : α → Except ε β} {g : α → β} (l : List α) (h : ∀ x ∈ l, f x = .ok (g x)) :
    l.mapM f = .ok (l.map g) :=
  (mapM_ok_iff f l _).2 (by
    rw [List.map_map]
    exact List.map_congr_left h)

theorem gaussianPDF_centred (μ y v : ℝ) (hv : 0 < v) :
    nllUni (μ - y) v = -Real.log (ProbabilityTheory.gaussianPDFReal μ v.toNNReal y) := by
  rw [(C40_univariate (μ - y) v hv).1]
  unfold ProbabilityTheory.gaussianPDFReal
  rw [sub_zero, sub_sq_comm μ y]

theorem gaussianLogPdf_centred {m : Nat} (μ : Fin m → ℝ) (S : Matrix (Fin m) (Fin m) ℝ) (y : Fin m → ℝ) :
    gaussianLogPdf 0 S (fun i => μ i - y i) = gaussianLogPdf μ S y := by
  unfold gaussianLogPdf
  have : (fun i => μ i - y i) - 0 = -(y - μ) := by ext i; simp
  rw [this, mulVec_neg, neg_dotProduct_neg]

/-- C89, joint: the negative log likelihood of a joint prediction is minus the log density of the observed targets under
the prediction with the variances of the targets added to its covariance. -/
theorem C89_nll_joint (b : Build) (ldlt : LdltRoutine) {m : Nat} (p : Joint (Fin m)) (y v : Fin m → ℝ)
    (hF : (ldlt m (p.covariance + diagonal v)).Factors (p.covariance + diagonal v))
    (hS : (p.covariance + diagonal v).PosDef) :
    nllJoint b ldlt ⟨m, p⟩ (List.ofFn y, List.ofFn v) =
      .ok (.fin (-gaussianLogPdf p.mean (p.covariance + diagonal v) y)) := by
  have e1 : (fun i : Fin m => (List.ofFn y).getD i 0) = y := by ext i; simp
  have e2 : (fun i : Fin m => (List.ofFn v).getD i 0) = v := by ext i; simp
  have e1' : (fun i : Fin m => p.mean i - (List.ofFn y).getD i 0) = fun i => p.mean i - y i := by
    ext i; rw [congrFun e1 i]
  unfold nllJoint
  rw [decide_eq_true (by simp), eigenAssert_true, except_ok_bind, decide_eq_true (by simp), eigenAssert_true,
    except_ok_bind]
  show Except.ok (Dbl.fin (nllDense (ldlt m) (fun i : Fin m => p.mean i - (List.ofFn y).getD i 0)
    (p.covariance + diagonal fun i : Fin m => (List.ofFn v).getD i 0))) = _
  rw [e2, e1', C40_dense _ _ hF hS, gaussianLogPdf_centred]

/-- C89, marginal: the same with a diagonal covariance. -/
theorem C89_nll_marginal (b : Build) {m : Nat} (μ w y v : Fin m → ℝ) (hv : ∀ i, 0 < w i + v i) :
    nllMarginal b (List.ofFn μ, List.ofFn w) (List.ofFn y, List.ofFn v) =
        .ok (.fin (-∑ i, Real.log (ProbabilityTheory.gaussianPDFReal (μ i) (w i + v i).toNNReal (y i)))) ∧
      -∑ i, Real.log (ProbabilityTheory.gaussianPDFReal (μ i) (w i + v i).toNNReal (y i)) =
        -gaussianLogPdf μ (diagonal fun i => w i + v i) y := by
  have e : ∑ i, nllUni (μ i - y i) (w i + v i) =
      -∑ i, Real.log (ProbabilityTheory.gaussianPDFReal (μ i) (w i + v i).toNNReal (y i)) := by
    rw [← Finset.sum_neg_distrib]
    exact Finset.sum_congr rfl fun i _ => gaussianPDF_centred _ _ _ (hv i)
  obtain ⟨h1, h2⟩ := C40_diagonal b (fun i => μ i - y i) (fun i => w i + v i) hv
  constructor
  · unfold nllMarginal
    rw [vecSub_ofFn, except_ok_bind, decide_eq_true (by simp), eigenAssert_true, except_ok_bind]
    have hz : List.zipWith (· + ·) (List.ofFn w) (List.ofFn v) = List.ofFn fun i => w i + v i  := by
      apply List.ext_getElem <;> simp
    simp only [hz]
    rw [h1, e]
    rfl
  · rw [← e, h2, gaussianLogPdf_centred]

/-- C89: predictions and targets of different sizes are rejected by the assertions (undefined without them). -/
theorem C89_size_mismatch (ldlt : LdltRoutine) (p : DynJoint) (q t : List ℝ × List ℝ) :
    (t.1.length ≠ p.dim ∨ t.2.length ≠ p.dim →
      nllJoint .debug ldlt p t = .error .assertFail ∧ nllJoint .ndebug ldlt p t = .error .ub) ∧
    (q.1.length ≠ t.1.length ∨ q.2.length ≠ t.2.length →
      nllMarginal .debug q t = .error .assertFail ∧ nllMarginal .ndebug q t = .error .ub) := by
  constructor
  · intro h
    unfold nllJoint
    by_cases h1 : t.1.length = p.dim
    · have h2 : ¬ t.2.length = p.dim := by tauto
      rw [decide_eq_true h1, decide_eq_false h2]
      exact ⟨rfl, rfl⟩
    · rw [decide_eq_false h1]
      exact ⟨rfl, rfl⟩
  · intro h
    unfold nllMarginal vecSub
    by_cases h1 : q.1.length = t.1.length
    · have h2 : ¬ q.2.length = t.2.length := by tauto
      rw [decide_eq_true h1, decide_eq_false h2]
      exact ⟨rfl, rfl⟩
    · rw [decide_eq_false h1]
      exact ⟨rfl, rfl⟩

theorem leaveOneOutLikelihood_of_scores (b : Build) (fitPredict : Dataset F ℝ → List F → P) (size : P → Nat)
    (nll : P → List ℝ × List ℝ → Outcome Dbl) (hsize : ∀ tr fs, size (fitPredict tr fs) = fs.length)
    (prior : ℝ) (d : Dataset F ℝ) (hd : d.Valid) (s : (F × ℝ × ℝ) × Nat → ℝ)
    (hs : ∀ r ∈ d.rows.zipIdx, nll (fitPredict (datasetOfRows (d.rows.eraseIdx r.2)) [r.1.1])
      ([r.1.2.1], [r.1.2.2]) = .ok (.fin (s r))) :
    leaveOneOutLikelihood b fitPredict size nll (.fin prior) d = .ok (.fin ((d.rows.zipIdx.map s).sum - prior)) := by
  unfold leaveOneOutLikelihood
  rw [C88_leave_one_out b fitPredict size nll hsize d hd,
    mapM_eq_map (g := fun r => Dbl.fin (s r)) _ hs, except_ok_bind]
  have : (d.rows.zipIdx.map fun r => Dbl.fin (s r)) = (d.rows.zipIdx.map s).map Dbl.fin := by
    rw [List.map_map]; rfl
  simp only [this, dblSum_fin]
  rfl

/-- C89, leave one out likelihood from joint predictions: if the model fitted without row `i` predicts the feature of
that row with mean `μ i` and variance `w i`, the metric is minus the sum of the log densities of the targets under
`N(μ i, w i + v i)`, `v i` being the target's own variance, minus the log prior of the parameters. -/
theorem C89_loo_likelihood_joint (b : Build) (ldlt : LdltRoutine) (fitPredict : Dataset F ℝ → List F → DynJoint)
    (hsize : ∀ tr fs, (fitPredict tr fs).dim = fs.length) (prior : ℝ) (d : Dataset F ℝ) (hd : d.Valid) (μ w : Nat → ℝ)
    (hp : ∀ r ∈ d.rows.zipIdx, fitPredict (datasetOfRows (d.rows.eraseIdx r.2)) [r.1.1] =
      ⟨1, { mean := fun _ => μ r.2, covariance := Matrix.of fun _ _ => w r.2 }⟩)
    (hv : ∀ r ∈ d.rows.zipIdx, 0 < w r.2 + r.1.2.2) :
    leaveOneOutLikelihood b fitPredict DynJoint.dim (nllJoint b ldlt) (.fin prior) d =
      .ok (.fin ((d.rows.zipIdx.map fun r =>
        -Real.log (ProbabilityTheory.gaussianPDFReal (μ r.2) (w r.2 + r.1.2.2).toNNReal r.1.2.1)).sum - prior)) := by
  refine leaveOneOutLikelihood_of_scores b fitPredict _ _ hsize prior d hd _ fun r hr => ?_
  rw [hp r hr, ← gaussianPDF_centred _ _ _ (hv r hr)]
  unfold nllJoint
  rw [decide_eq_true (by rfl), eigenAssert_true, except_ok_bind, decide_eq_true (by rfl), eigenAssert_true,
    except_ok_bind]
  unfold nllDense
  simp [except_pure]

/-- C89, leave one out likelihood from marginal predictions: the same. -/
theorem C89_loo_likelihood_marginal (b : Build) (fitPredict : Dataset F ℝ → List F → List ℝ × List ℝ)
    (hsize : ∀ tr fs, (fitPredict tr fs).1.length = fs.length) (prior : ℝ) (d : Dataset F ℝ) (hd : d.Valid)
    (μ w : Nat → ℝ)
    (hp : ∀ r ∈ d.rows.zipIdx, fitPredict (datasetOfRows (d.rows.eraseIdx r.2)) [r.1.1] = ([μ r.2], [w r.2]))
    (hv : ∀ r ∈ d.rows.zipIdx, 0 < w r.2 + r.1.2.2) :
    leaveOneOutLikelihood b fitPredict (fun p => p.1.length) (nllMarginal b) (.fin prior) d =
      .ok (.fin ((d.rows.zipIdx.map fun r =>
        -Real.log (ProbabilityTheory.gaussianPDFReal (μ r.2) (w r.2 + r.1.2.2).toNNReal r.1.2.1)).sum - prior)) := by
  refine leaveOneOutLikelihood_of_scores b fitPredict _ _ hsize prior d hd _ fun r hr => ?_
  rw [hp r hr]
  have := (C89_nll_marginal b (fun _ : Fin 1 => μ r.2) (fun _ => w r.2) (fun _ => r.1.2.1) (fun _ => r.1.2.2)
    (fun _ => hv r hr)).1
  simpa using this

/-- C89, leave one group out: the sum over the groups of minus the log density of the group's targets under the joint
prediction from all other groups, minus the log prior. -/
theorem C89_group_likelihood [LinearOrder K] (b : Build) (ldlt : LdltRoutine)
    (fitPredict : Dataset F ℝ → List F → DynJoint) (hsize : ∀ tr fs, (fitPredict tr fs).dim = fs.length)
    (prior : ℝ) (d : Dataset F ℝ) (hd : d.Valid) (g : F → K) (m : K → Nat) (pred : (k : K) → Joint (Fin (m k)))
    (y v : (k : K) → Fin (m k) → ℝ)
    (hy : ∀ k, (d.rows.filter fun r => g r.1 = k).map (·.2) = List.ofFn fun i => (y k i, v k i))
    (hp : ∀ k ∈ d.features.map g, fitPredict (datasetOfRows (d.rows.filter fun r => g r.1 ≠ k))
      ((d.rows.filter fun r => g r.1 = k).map Prod.fst) = ⟨m k, pred k⟩)
    (hS : ∀ k ∈ d.features.map g, ((pred k).covariance + diagonal (v k)).PosDef)
    (hF : ∀ k ∈ d.features.map g, (ldlt (m k) ((pred k).covariance + diagonal (v k))).Factors
      ((pred k).covariance + diagonal (v k))) :
    leaveOneGroupOutLikelihood b fitPredict DynJoint.dim (nllJoint b ldlt) (.fin prior) g d =
      .ok (.fin ((∑ k ∈ (d.features.map g).toFinset,
        -gaussianLogPdf (pred k).mean ((pred k).covariance + diagonal (v k)) (y k)) - prior)) := by
  obtain ⟨keys, hk1, hk2, hk3⟩ := C88_grouped b fitPredict DynJoint.dim (nllJoint b ldlt) hsize d hd g
  have hmem : ∀ k, k ∈ keys ↔ k ∈ d.features.map g := fun k => by rw [hk2, List.mem_map]
  unfold leaveOneGroupOutLikelihood
  rw [hk3, mapM_eq_map (g := fun k =>
    Dbl.fin (-gaussianLogPdf (pred k).mean ((pred k).covariance + diagonal (v k)) (y k))) keys ?_, except_ok_bind]
  · have e : (keys.map fun k =>
        Dbl.fin (-gaussianLogPdf (pred k).mean ((pred k).covariance + diagonal (v k)) (y k))) =
        (keys.map fun k => -gaussianLogPdf (pred k).mean ((pred k).covariance + diagonal (v k)) (y k)).map Dbl.fin := by
      rw [List.map_map]; rfl
    have e2 : (d.features.map g).toFinset = keys.toFinset := by
      ext k; rw [List.mem_toFinset, List.mem_toFinset, hmem]
    have hnd : keys.Nodup := hk1.imp fun h => ne_of_lt h
    simp only [e, dblSum_fin]
    rw [e2, List.sum_toFinset _ hnd]
    rfl
  · intro k hk
    rw [hp k ((hmem k).1 hk)]
    have h1 : (d.rows.filter fun r => g r.1 = k).map (·.2.1) = List.ofFn (y k) := by
      have := congrArg (List.map Prod.fst) (hy k)
      rw [List.map_map, List.map_ofFn] at this
      exact this
    have h2 : (d.rows.filter fun r => g r.1 = k).map (·.2.2) = List.ofFn (v k) := by
      have := congrArg (List.map Prod.snd) (hy k)
      rw [List.map_map, List.map_ofFn] at this
      exact this
    rw [h1, h2]
    exact C89_nll_joint b ldlt (pred k) (y k) (v k) (hF k ((hmem k).1 hk)) (hS k ((hmem k).1 hk))

/-- The root mean square of the leave one out errors. -/
noncomputable def rootMeanSquare (errors : List ℝ) : ℝ := Real.sqrt ((errors.map (· ^ 2)).sum / errors.length)

theorem mean_abs_le_rootMeanSquare (l : List ℝ) : (l.map fun e => |e|).sum / l.length ≤ rootMeanSquare l := by
  unfold rootMeanSquare
  refine Real.le_sqrt_of_sq_le ?_
  have h := sq_sum_le_card_mul_sum_sq (s := Finset.univ) (f := fun i : Fin l.length => |l[i]|)
  have e1 : ∑ i : Fin l.length, |l[i]| = (l.map fun e => |e|).sum := by
    rw [← List.sum_ofFn]; congr 1; apply List.ext_getElem <;> simp
  have e2 : ∑ i : Fin l.length, |l[i]| ^ 2 = (l.map (· ^ 2)).sum := by
    rw [← List.sum_ofFn]; congr 1; apply List.ext_getElem <;> simp
  rw [e1, e2, Finset.card_univ, Fintype.card_fin] at h
  rcases Nat.eq_zero_or_pos l.length with h0 | h0
  · rw [h0]; simp
  · have hn : (0 : ℝ) < l.length := by exact_mod_cast h0
    rw [div_pow, div_le_div_iff₀ (by positivity) hn]
    nlinarith

theorem mean_abs_eq_rootMeanSquare (l : List ℝ) (hne : l ≠ []) (c : ℝ) (h : ∀ e ∈ l, |e| = c) :
    (l.map fun e => |e|).sum / l.length = rootMeanSquare l := by
  have hn : (l.length : ℝ) ≠ 0 := by rw [Nat.cast_ne_zero]; simpa using hne
  have hc : 0 ≤ c := by
    obtain ⟨e, he⟩ := List.exists_mem_of_ne_nil _ hne
    rw [← h e he]; exact abs_nonneg e
  unfold rootMeanSquare
  have e1 : (l.map fun e => |e|).sum = l.length * c := by
    rw [List.map_congr_left h]; simp
  have e2 : (l.map (· ^ 2)).sum = l.length * c ^ 2 := by
    rw [List.map_congr_left (g := fun _ => c ^ 2) fun e he => by rw [← h e he, sq_abs]]; simp
  rw [e1, e2, mul_div_cancel_left₀ _ hn, mul_div_cancel_left₀ _ hn, Real.sqrt_sq hc]

theorem leaveOneOutRmse_eq (b : Build) (fitPredict : Dataset F ℝ → List F → List ℝ)
    (hsize : ∀ tr fs, (fitPredict tr fs).length = fs.length) (d : Dataset F ℝ) (hd : d.Valid)
    (hne : d.features ≠ []) (p : Nat → ℝ)
    (hp : ∀ r ∈ d.rows.zipIdx, fitPredict (datasetOfRows (d.rows.eraseIdx r.2)) [r.1.1] = [p r.2]) :
    leaveOneOutRmse b fitPredict d =
      .ok (.fin ((d.rows.zipIdx.map fun r => |p r.2 - r.1.2.1|).sum / d.features.length)) := by
  unfold leaveOneOutRmse
  rw [C88_leave_one_out b fitPredict List.length _ hsize d hd,
    mapM_eq_map (g := fun r => Dbl.fin |p r.2 - r.1.2.1|) _ ?_, except_ok_bind]
  · have e : (d.rows.zipIdx.map fun r => Dbl.fin |p r.2 - r.1.2.1|) =
        (d.rows.zipIdx.map fun r => |p r.2 - r.1.2.1|).map Dbl.fin := by
      rw [List.map_map]; rfl
    have hn : (d.features.length : ℝ) ≠ 0 := by
      rw [Nat.cast_ne_zero]; simpa using hne
    unfold dblMean
    rw [e, dblSum_fin, List.length_map, List.length_map, List.length_zipIdx, rows_length d hd, Dbl.fin_div hn]
    rfl
  · intro r hr
    rw [hp r hr]
    have := C68_rmse b Nat.one_pos (fun _ : Fin 1 => p r.2) (fun _ => r.1.2.1)
    have e : Real.sqrt ((∑ _i : Fin 1, (p r.2 - r.1.2.1) ^ 2) / (1 : Nat)) = |p r.2 - r.1.2.1| := by
      rw [Fin.sum_univ_one, Nat.cast_one, div_one, Real.sqrt_sq_eq_abs]
    rw [e] at this
    simpa using this

/-- C89, what `LeaveOneOutRMSE` returns: the mean absolute error of the leave one out predictions.  It is at most the
root mean square error, and equal to it when all errors have the same size. -/
theorem C89_rmse_partial (b : Build) (fitPredict : Dataset F ℝ → List F → List ℝ)
    (hsize : ∀ tr fs, (fitPredict tr fs).length = fs.length) (d : Dataset F ℝ) (hd : d.Valid)
    (hne : d.features ≠ []) (p : Nat → ℝ)
    (hp : ∀ r ∈ d.rows.zipIdx, fitPredict (datasetOfRows (d.rows.eraseIdx r.2)) [r.1.1] = [p r.2]) :
    ∃ x, leaveOneOutRmse b fitPredict d = .ok (.fin x) ∧
      x = (d.rows.zipIdx.map fun r => |p r.2 - r.1.2.1|).sum / d.features.length ∧
      x ≤ rootMeanSquare (d.rows.zipIdx.map fun r => p r.2 - r.1.2.1) ∧
      ((∀ r ∈ d.rows.zipIdx, ∀ s ∈ d.rows.zipIdx, |p r.2 - r.1.2.1| = |p s.2 - s.1.2.1|) →
        x = rootMeanSquare (d.rows.zipIdx.map fun r => p r.2 - r.1.2.1)) := by
  refine ⟨_, leaveOneOutRmse_eq b fitPredict hsize d hd hne p hp, rfl, ?_, ?_⟩
  · have h := mean_abs_le_rootMeanSquare (d.rows.zipIdx.map fun r => p r.2 - r.1.2.1)
    rw [List.map_map, List.length_map, List.length_zipIdx, rows_length d hd] at h
    exact h
  · intro hall
    have hz : d.rows.zipIdx ≠ [] := by
      intro h0
      have := congrArg List.length h0
      rw [List.length_zipIdx, rows_length d hd] at this
      exact hne (by simpa using this)
    obtain ⟨r, hr⟩ := List.exists_mem_of_ne_nil _ hz
    have h := mean_abs_eq_rootMeanSquare (d.rows.zipIdx.map fun r => p r.2 - r.1.2.1) (by simpa using hz)
      |p r.2 - r.1.2.1| (by
        intro e he
        obtain ⟨s, hs, rfl⟩ := List.mem_map.1 he
        exact hall s hs r hr)
    rw [List.map_map, List.length_map, List.length_zipIdx, rows_length d hd] at h
    exact h

/-- C89, the name promises a root mean square error: the claim that the metric is the root mean square of the leave one
out errors is false.  With targets 1 and 3 and a model that always predicts 0 the metric is 2, the root mean square
error is the root of 5. -/
theorem C89_rmse_false : ∃ (fitPredict : Dataset Nat ℝ → List Nat → List ℝ) (d : Dataset Nat ℝ) (p : Nat → ℝ),
    (∀ tr fs, (fitPredict tr fs).length = fs.length) ∧ d.Valid ∧ d.features ≠ [] ∧
    (∀ r ∈ d.rows.zipIdx, fitPredict (datasetOfRows (d.rows.eraseIdx r.2)) [r.1.1] = [p r.2]) ∧
    ∀ b, leaveOneOutRmse b fitPredict d = .ok (.fin 2) ∧
      rootMeanSquare (d.rows.zipIdx.map fun r => p r.2 - r.1.2.1) = Real.sqrt 5 ∧ (2 : ℝ) ≠ Real.sqrt 5 := by
  refine ⟨fun _ fs => fs.map fun _ => 0, { features := [0, 1], mean := [1, 3], variance := [0, 0] }, fun _ => 0,
    by simp, by simp [Dataset.Valid], by simp, by simp, fun b => ⟨?_, ?_, ?_⟩⟩
  · rw [leaveOneOutRmse_eq b _ (by simp) _ (by simp [Dataset.Valid]) (by simp) (fun _ => 0) (by simp)]
    congr 2
    norm_num [Dataset.rows, List.zipIdx]
  · unfold rootMeanSquare
    congr 1
    norm_num [Dataset.rows, List.zipIdx]
  · intro h
    have := congrArg (· ^ 2) h
    norm_num at this

/-- The hypotheses of the likelihood theorems are met: two rows, a model that always predicts mean 0 and variance 1. -/
example : ∃ (fitPredict : Dataset Nat ℝ → List Nat → List ℝ × List ℝ) (d : Dataset Nat ℝ) (μ w : Nat → ℝ),
    d.features.length = 2 ∧ d.Valid ∧ (∀ tr fs, (fitPredict tr fs).1.length = fs.length) ∧
    (∀ r ∈ d.rows.zipIdx, fitPredict (datasetOfRows (d.rows.eraseIdx r.2)) [r.1.1] = ([μ r.2], [w r.2])) ∧
    (∀ r ∈ d.rows.zipIdx, 0 < w r.2 + r.1.2.2) :=
  ⟨fun _ fs => (fs.map fun _ => 0, fs.map fun _ => 1), { features := [0, 1], mean := [1, 3], variance := [1, 2] },
    fun _ => 0, fun _ => 1, rfl, by simp [Dataset.Valid], by simp, by simp, by
      norm_num [Dataset.rows, List.zipIdx]⟩

end Albatross
