import Verif.RansacGp
import Verif.RansacProps
import Verif.ConditionalProps
import Verif.StatsProps
import Verif.UtilsProps

/-! # C87: the functions RANSAC uses for Gaussian processes and for generic models -/

namespace Albatross

open Matrix

variable {m : Nat} {K : Type}

/-- The observations of a group: `indexer.at(k)` returns the positions `obs k`. -/
def GroupsAre [DecidableEq K] (indexer : SMap K (List Nat)) (keys : List K) (obs : K → List (Fin m)) : Prop :=
  ∀ k ∈ keys, indexer.at? k = .ok ((obs k).map (·.1))

theorem indicesFromGroups_obs [DecidableEq K] {indexer : SMap K (List Nat)} {keys groups : List K}
    {obs : K → List (Fin m)} (h : GroupsAre indexer keys obs) (hg : ∀ k ∈ groups, k ∈ keys) :
    indicesFromGroups indexer groups = .ok ((groups.flatMap obs).map (·.1)) := by
  rw [indicesFromGroups_ok indexer (fun k => (obs k).map (·.1)) groups fun k hk => h k (hg k hk), List.map_flatMap]

theorem getPrior_ok (c : ConditionalGaussian m) (idx : List (Fin m)) :
    c.getPrior (idx.map (·.1)) = .ok ⟨idx.length, c.prior.select idx.get⟩ := by
  rw [ConditionalGaussian.getPrior, columnIndices_ok]; rfl

theorem getTruth_ok (c : ConditionalGaussian m) (idx : List (Fin m)) :
    c.getTruth (idx.map (·.1)) = .ok ⟨idx.length, c.truth.select idx.get⟩ := by
  rw [ConditionalGaussian.getTruth, columnIndices_ok]; rfl

/-- C87: a group is judged by comparing its observed values with the Gaussian conditional distribution of its
variables given the noisy observations of all candidate groups. -/
theorem C87_inlier_metric_conditional [DecidableEq K] (c : ConditionalGaussian m)
    (hs : ∀ i j, c.prior.covariance i j = c.prior.covariance j i) (ldlt : LdltRoutine)
    (indexer : SMap K (List Nat)) (keys : List K) (obs : K → List (Fin m)) (h : GroupsAre indexer keys obs)
    (inlier consensus : DynJoint → DynMarginal → Outcome Dbl) (isValid : DynJoint → DynMarginal → Outcome Bool)
    (candidates : List K) (hc : ∀ k ∈ candidates, k ∈ keys) (group : K) (hg : group ∈ keys)
    (hF : (ldlt (candidates.flatMap obs).length (truthCovariance c (candidates.flatMap obs))).Factors
      (truthCovariance c (candidates.flatMap obs)))
    (hA : IsUnit (truthCovariance c (candidates.flatMap obs)).det) :
    ∃ (fit : ConditionalFit m) (dist : Joint (Fin (obs group).length)),
      (gpRansacCalls ldlt c indexer inlier consensus isValid).fitter candidates = .ok fit ∧
      (gpRansacCalls ldlt c indexer inlier consensus isValid).inlierMetric group fit =
        inlier ⟨_, dist⟩ ⟨_, ⟨fun i => c.truth.mean ((obs group).get i),
          fun i => c.truth.variance ((obs group).get i)⟩⟩ ∧
      IsGaussianConditional (fun k => c.prior.mean ((obs group).get k))
        (fun k => c.prior.mean ((candidates.flatMap obs).get k))
        (of fun k l => c.prior.covariance ((obs group).get k) ((obs group).get l))
        (of fun k l => c.prior.covariance ((obs group).get k) ((candidates.flatMap obs).get l))
        (truthCovariance c (candidates.flatMap obs)) (fun k => c.truth.mean ((candidates.flatMap obs).get k))
        dist.mean dist.covariance := by
  obtain ⟨fit, dist, h1, h2, h3⟩ := C34_conditional c hs ldlt (candidates.flatMap obs) (obs group) hF hA
  refine ⟨fit, dist, ?_, ?_, h3⟩
  · show gpRansacFitter c ldlt indexer candidates = _
    rw [gpRansacFitter, indicesFromGroups_obs h hc, except_ok_bind, h1]
  · show gpRansacInlierMetric c indexer inlier group fit = _
    rw [gpRansacInlierMetric, h group hg, except_ok_bind, h2, except_ok_bind, getTruth_ok, except_ok_bind]
    rfl

/-- C87: a consensus is scored, and a candidate accepted, by the prior and the observed values of exactly the
observations of its groups. -/
theorem C87_consensus_on_members [DecidableEq K] (c : ConditionalGaussian m) (ldlt : LdltRoutine)
    (indexer : SMap K (List Nat)) (keys : List K) (obs : K → List (Fin m)) (h : GroupsAre indexer keys obs)
    (inlier consensus : DynJoint → DynMarginal → Outcome Dbl) (isValid : DynJoint → DynMarginal → Outcome Bool)
    (groups : List K) (hg : ∀ k ∈ groups, k ∈ keys) :
    let at' := (groups.flatMap obs).get
    let prior : Joint (Fin (groups.flatMap obs).length) :=
      ⟨fun i => c.prior.mean (at' i), of fun i j => c.prior.covariance (at' i) (at' j)⟩
    let truth : Marginal (Fin (groups.flatMap obs).length) :=
      ⟨fun i => c.truth.mean (at' i), fun i => c.truth.variance (at' i)⟩
    (gpRansacCalls ldlt c indexer inlier consensus isValid).consensusMetric groups = consensus ⟨_, prior⟩ ⟨_, truth⟩ ∧
    (gpRansacCalls ldlt c indexer inlier consensus isValid).isValidCandidate groups = isValid ⟨_, prior⟩ ⟨_, truth⟩ := by
  constructor
  · show gpRansacConsensusMetric c indexer consensus groups = _
    rw [gpRansacConsensusMetric, indicesFromGroups_obs h hg, except_ok_bind, getPrior_ok, except_ok_bind, getTruth_ok,
      except_ok_bind]
    rfl
  · show gpRansacIsValidCandidate c indexer isValid groups = _
    rw [gpRansacIsValidCandidate, indicesFromGroups_obs h hg, except_ok_bind, getPrior_ok, except_ok_bind, getTruth_ok,
      except_ok_bind]
    rfl

/-- C87: with the feature count the score of a consensus is minus its number of observations. -/
theorem C87_feature_count [DecidableEq K] (c : ConditionalGaussian m) (ldlt : LdltRoutine)
    (indexer : SMap K (List Nat)) (keys : List K) (obs : K → List (Fin m)) (h : GroupsAre indexer keys obs)
    (inlier : DynJoint → DynMarginal → Outcome Dbl) (isValid : DynJoint → DynMarginal → Outcome Bool)
    (groups : List K) (hg : ∀ k ∈ groups, k ∈ keys) :
    (gpRansacCalls ldlt c indexer inlier featureCountMetric isValid).consensusMetric groups =
      .ok (.fin (-((groups.map fun k => (obs k).length).sum : ℕ))) := by
  have := (C87_consensus_on_members c ldlt indexer keys obs h inlier featureCountMetric isValid groups hg).1
  rw [this, featureCountMetric]
  simp [List.length_flatMap, except_pure]

/-- C87: the chi squared acceptance compares the cumulative probability of the squared Mahalanobis distance of the
observations from their prior, noise included, with the threshold. -/
theorem C87_chi_squared_accepts [DecidableEq K] (b : Build) (llt : (d : Nat) → Llt d) (threshold : Dbl)
    (c : ConditionalGaussian m) (ldlt : LdltRoutine)
    (indexer : SMap K (List Nat)) (keys : List K) (obs : K → List (Fin m)) (h : GroupsAre indexer keys obs)
    (inlier consensus : DynJoint → DynMarginal → Outcome Dbl)
    (groups : List K) (hg : ∀ k ∈ groups, k ∈ keys) (hp : (truthCovariance c (groups.flatMap obs)).PosDef)
    (p : Dbl) (hcdf : chiSquaredCdf b (.fin
        ((fun i => c.prior.mean ((groups.flatMap obs).get i) - c.truth.mean ((groups.flatMap obs).get i)) ⬝ᵥ
          (truthCovariance c (groups.flatMap obs))⁻¹ *ᵥ
          fun i => c.prior.mean ((groups.flatMap obs).get i) - c.truth.mean ((groups.flatMap obs).get i)))
      (.fin (groups.flatMap obs).length) = .ok p) :
    (gpRansacCalls ldlt c indexer inlier consensus (chiSquaredIsValidCandidate b llt threshold)).isValidCandidate groups =
      .ok (decide (p ≤ threshold)) := by
  have := (C87_consensus_on_members c ldlt indexer keys obs h inlier consensus
    (chiSquaredIsValidCandidate b llt threshold) groups hg).2
  rw [this, chiSquaredIsValidCandidate, chiSquaredJoint, dif_pos rfl]
  have hcov : (of fun i j => c.prior.covariance ((groups.flatMap obs).get i) ((groups.flatMap obs).get j)) +
      diagonal (fun i => c.truth.variance ((groups.flatMap obs).get i)) = truthCovariance c (groups.flatMap obs) :=
    truthCovariance_eq c _
  have hv := C50_vector b (llt (groups.flatMap obs).length)
    (fun i => c.prior.mean ((groups.flatMap obs).get i) - c.truth.mean ((groups.flatMap obs).get i)) _ hp
  rw [hcdf] at hv
  simp only [Fin.cast_eq_self]
  rw [hcov, hv]
  rfl

/-- C87: every candidate is accepted by the default strategy. -/
theorem C87_always_accept [DecidableEq K] (c : ConditionalGaussian m) (ldlt : LdltRoutine)
    (indexer : SMap K (List Nat)) (keys : List K) (obs : K → List (Fin m)) (h : GroupsAre indexer keys obs)
    (inlier consensus : DynJoint → DynMarginal → Outcome Dbl) (groups : List K) (hg : ∀ k ∈ groups, k ∈ keys) :
    (gpRansacCalls ldlt c indexer inlier consensus alwaysAcceptCandidate).isValidCandidate groups = .ok true :=
  (C87_consensus_on_members c ldlt indexer keys obs h inlier consensus alwaysAcceptCandidate groups hg).2

/-- C87: a group the indexer does not have is reported, whichever function is asked. -/
theorem C87_unknown_group [LinearOrder K] (c : ConditionalGaussian m) (ldlt : LdltRoutine)
    (indexer : SMap K (List Nat)) (inlier consensus : DynJoint → DynMarginal → Outcome Dbl)
    (isValid : DynJoint → DynMarginal → Outcome Bool) (known : List K) (k : K) (rest : List K)
    (hk : ∀ k' ∈ known, ∃ is, indexer.at? k' = .ok is) (hu : k ∉ indexer.keys) (fit : ConditionalFit m) :
    let f := gpRansacCalls ldlt c indexer inlier consensus isValid
    f.fitter (known ++ k :: rest) = .error .thrown ∧ f.inlierMetric k fit = .error .thrown ∧
    f.consensusMetric (known ++ k :: rest) = .error .thrown ∧
    f.isValidCandidate (known ++ k :: rest) = .error .thrown := by
  have hat : indexer.at? k = .error .thrown := by
    unfold SMap.at?
    rw [SMap.find?_eq_none.2 fun x hx e => hu (List.mem_map.2 ⟨x, hx, e⟩)]
  have hi : indicesFromGroups indexer (known ++ k :: rest) = .error .thrown := by
    unfold indicesFromGroups
    generalize ([] : List Nat) = o
    induction known generalizing o with
    | nil =>
      rw [List.nil_append, List.foldlM_cons, hat]; rfl
    | cons a t ih =>
      obtain ⟨is, his⟩ := hk a (by simp)
      rw [List.cons_append, List.foldlM_cons, his]
      exact ih (fun k' hk' => hk k' (by simp [hk'])) _
  refine ⟨?_, ?_, ?_, ?_⟩
  · show gpRansacFitter _ _ _ _ = _; rw [gpRansacFitter, hi]; rfl
  · show gpRansacInlierMetric _ _ _ _ _ = _; rw [gpRansacInlierMetric, hat]; rfl
  · show gpRansacConsensusMetric _ _ _ _ = _; rw [gpRansacConsensusMetric, hi]; rfl
  · show gpRansacIsValidCandidate _ _ _ _ = _; rw [gpRansacIsValidCandidate, hi]; rfl

/-- C87: a truth of another size than the prior is rejected; otherwise the functions are those of the conditional
Gaussian. -/
theorem C87_sizes [DecidableEq K] (ldlt : LdltRoutine) (prior : DynJoint)
    (truth : DynMarginal) (indexer : SMap K (List Nat)) (inlier consensus : DynJoint → DynMarginal → Outcome Dbl)
    (isValid : DynJoint → DynMarginal → Outcome Bool) :
    (truth.dim ≠ prior.dim →
      (∃ e, getGpRansacFunctions .debug ldlt prior truth indexer inlier consensus isValid = .error e ∧ e = .assertFail)) ∧
    ∀ (b : Build) (t : Marginal (Fin prior.dim)),
      getGpRansacFunctions b ldlt prior ⟨prior.dim, t⟩ indexer inlier consensus isValid =
        .ok (gpRansacCalls ldlt ⟨prior.dist, t⟩ indexer inlier consensus isValid) := by
  constructor
  · intro h
    refine ⟨_, ?_, rfl⟩
    rw [getGpRansacFunctions]
    have : (prior.dim == truth.dim) = false := by simpa using Ne.symm h
    rw [this, assert_debug_false]
    rfl
  · intro b t
    rw [getGpRansacFunctions]
    have : (prior.dim == prior.dim) = true := by simp
    rw [this, albatrossAssert_true, except_ok_bind, dif_pos rfl]
    rfl

/-! ## The specialised strategy and the model it stands for -/

/-- The model's fit to the observations at `idx`. -/
noncomputable def modelFitAt {X : Type} (g : Gp X) (ldlt : LdltRoutine) (xs : Fin m → X) (targets : Marginal (Fin m))
    (idx : List (Fin m)) : GpFit X (Fin idx.length) :=
  g.fit (ldlt idx.length) (fun i => xs (idx.get i))
    ⟨fun i => targets.mean (idx.get i), fun i => targets.variance (idx.get i)⟩

/-- C87: fitting to the observations at `idx` is fitting the model itself to those observations: same information
vector and same decomposition. -/
theorem C87_fit_is_model_fit {X : Type} (g : Gp X) (xs : Fin m → X) (targets : Marginal (Fin m)) (ldlt : LdltRoutine)
    (idx : List (Fin m)) :
    ∃ F : Ldlt (Fin idx.length),
      (ConditionalGaussian.mk (g.prior xs) targets).fit ldlt (idx.map (·.1)) =
        .ok ⟨idx, (modelFitAt g ldlt xs targets idx).information, F⟩ ∧
      F.solver = (modelFitAt g ldlt xs targets idx).trainCovariance := by
  refine ⟨ldlt idx.length (truthCovariance (ConditionalGaussian.mk (g.prior xs) targets) idx), ?_, ?_⟩
  · rw [fit_ok, ← truthCovariance_eq]
    rfl
  · rw [← truthCovariance_eq]
    rfl

/-- C87: what a group is compared with is the model's own prediction with measurement noise, when no noise is shared
between the observations of the candidates and the ones judged. -/
theorem C87_matches_model_partial {X : Type} (g : Gp X) (xs : Fin m → X) (targets : Marginal (Fin m)) (ldlt : LdltRoutine)
    (idx pred : List (Fin m))
    (hn : ∀ i ∈ idx, ∀ j ∈ pred, g.cov (g.asMeas (xs i)) (g.asMeas (xs j)) = g.cov (xs i) (g.asMeas (xs j))) :
    ∃ fit, (ConditionalGaussian.mk (g.prior xs) targets).fit ldlt (idx.map (·.1)) = .ok fit ∧
      (ConditionalGaussian.mk (g.prior xs) targets).predictJoint (pred.map (·.1)) fit =
        .ok ⟨pred.length, g.predictJoint (modelFitAt g ldlt xs targets idx) fun j => g.asMeas (xs (pred.get j))⟩ := by
  have hcross : (g.prior xs).covariance.submatrix idx.get pred.get =
      g.covMat (fun i => xs (idx.get i)) fun j => g.asMeas (xs (pred.get j)) := by
    ext i j
    exact hn _ (List.get_mem idx i) _ (List.get_mem pred j)
  obtain ⟨F, h1, h2⟩ := C87_fit_is_model_fit g xs targets ldlt idx
  refine ⟨_, h1, ?_⟩
  rw [predictJoint_ok]
  simp only [hcross, h2]
  rfl

/-- A constant signal observed with one independent noise term per feature: the noise is the same for two observations
of the same feature. -/
def noisyConstant : Gp (Bool × Nat) where
  cov a b := if a.1 = true ∧ b.1 = true ∧ a.2 = b.2 then 2 else 1
  mean _ := 0
  asMeas x := (true, x.2)

/-- C87: for two observations of the same feature the strategy does not use the model's prediction with measurement
noise: it explains the second observation's noise with the first's. -/
theorem C87_matches_model_false : ∃ (ldlt : LdltRoutine), (∀ d M, M.PosDef → (ldlt d M).Factors M) ∧
    ∃ fit dist, (ConditionalGaussian.mk (noisyConstant.prior fun _ : Fin 2 => (false, 7)) ⟨fun _ => 6, fun _ => 1⟩).fit
        ldlt [0] = .ok fit ∧
      (ConditionalGaussian.mk (noisyConstant.prior fun _ : Fin 2 => (false, 7)) ⟨fun _ => 6, fun _ => 1⟩).predictJoint
        [1] fit = .ok ⟨1, dist⟩ ∧ dist.mean 0 = 4 ∧
      (noisyConstant.predictJoint (modelFitAt noisyConstant ldlt (fun _ : Fin 2 => (false, 7)) ⟨fun _ => 6, fun _ => 1⟩ [0])
        fun _ : Fin 1 => noisyConstant.asMeas (false, 7)).mean 0 = 2 := by
  have hex : ∀ d, ∃ l : Matrix (Fin d) (Fin d) ℝ → Ldlt (Fin d), ∀ M, M.PosDef → (l M).Factors M :=
    fun d => exists_ldlt (Fin d)
  choose ldlt hl using hex
  set c := ConditionalGaussian.mk (noisyConstant.prior fun _ : Fin 2 => (false, 7)) ⟨fun _ => 6, fun _ => 1⟩ with hc
  have ht : truthCovariance c [0] = diagonal fun _ => 3 := by
    ext i j
    have hi := Subsingleton.elim (α := Fin 1) i j
    subst hi
    simp [truthCovariance, hc, Gp.prior, Gp.covMat, noisyConstant]
    norm_num
  have hpd : (truthCovariance c [0]).PosDef := by
    rw [ht]
    exact Matrix.PosDef.diagonal fun _ => by norm_num
  have hr := (hl _ _ hpd).represents ((Matrix.isUnit_iff_isUnit_det _).1 hpd.isUnit)
  have hinv : (truthCovariance c [0])⁻¹ = diagonal fun _ => 1 / 3 := by
    rw [ht]
    refine inv_eq_right_inv ?_
    rw [diagonal_mul_diagonal]
    simp
  have hinfo : (modelFitAt noisyConstant ldlt (fun _ : Fin 2 => (false, 7)) ⟨fun _ => 6, fun _ => 1⟩ [0]).information =
      fun _ => 2 := by
    have : (modelFitAt noisyConstant ldlt (fun _ : Fin 2 => (false, 7)) ⟨fun _ => 6, fun _ => 1⟩ [0]).information =
      (ldlt [(0 : Fin 2)].length (truthCovariance c [0])).solver.solveVec fun _ => 6 - 0 := by
      rw [← truthCovariance_eq]; rfl
    rw [this, hr.solveVec, hinv]
    funext i
    rw [mulVec_diagonal]
    norm_num
  obtain ⟨F, h1, h2⟩ := C87_fit_is_model_fit noisyConstant (fun _ : Fin 2 => (false, 7)) ⟨fun _ => 6, fun _ => 1⟩ ldlt [0]
  refine ⟨ldlt, hl, _, ⟨_, _⟩, h1, predictJoint_ok c _ [1], ?_, ?_⟩
  · rw [hinfo]
    simp [mulVec, dotProduct, hc, Gp.prior, Gp.covMat, noisyConstant]
    norm_num
  · simp only [Gp.predictJoint, gpJointPrediction, gpMeanPrediction, Gp.addTo]
    rw [hinfo]
    simp [mulVec, dotProduct, Gp.covMat, noisyConstant, modelFitAt, Gp.fit, gpFitFrom]

/-! ## Grouping the dataset -/

/-- The observations whose feature has key `k`, in order. -/
def ransacObservationsOf {X : Type} [DecidableEq K] (grouper : X → K) (features : List X) (k : K) :
    List (Fin features.length) :=
  (List.finRange features.length).filter fun i => decide (grouper (features.get i) = k)

theorem positions_eq_filter {X : Type} [DecidableEq K] (grouper : X → K) (features : List X) (k : K) (o : Nat) :
    positions o (features.map grouper) k = (ransacObservationsOf grouper features k).map fun i => o + i.1 := by
  induction features generalizing o with
  | nil => simp [positions, ransacObservationsOf]
  | cons a t ih =>
    rw [List.map_cons, positions, ih]
    have e : ransacObservationsOf grouper (a :: t) k =
        (if grouper a = k then [⟨0, by simp⟩] else []) ++ (ransacObservationsOf grouper t k).map Fin.succ := by
      unfold ransacObservationsOf
      show ((List.finRange (t.length + 1)).filter fun i => decide (grouper ((a :: t).get i) = k)) = _
      rw [List.finRange_succ, List.filter_cons, List.filter_map]
      have e : (List.finRange t.length).filter
          ((fun i : Fin (a :: t).length => decide (grouper ((a :: t).get i) = k)) ∘ Fin.succ) =
        (List.finRange t.length).filter fun i => decide (grouper (t.get i) = k) := rfl
      by_cases h : grouper a = k
      · rw [if_pos (decide_eq_true (show grouper ((a :: t).get 0) = k from h)), if_pos h]
        exact congrArg (fun l => (0 : Fin (t.length + 1)) :: l.map Fin.succ) e
      · rw [if_neg (fun e => h (show grouper ((a :: t).get 0) = k from of_decide_eq_true e)), if_neg h]
        exact congrArg (fun l => l.map Fin.succ) e
    have e2 : (ransacObservationsOf grouper t k).map (fun i => o + 1 + i.1) =
        (ransacObservationsOf grouper t k).map ((fun i : Fin (t.length + 1) => o + i.1) ∘ Fin.succ) := by
      refine List.map_congr_left fun i _ => ?_
      simp; omega
    rw [e, List.map_append, List.map_map, e2]
    split <;> rfl

theorem groupsAre_buildIndexer {X : Type} [LinearOrder K] (grouper : X → K) (features : List X) :
    GroupsAre (buildIndexer grouper features) (buildIndexer grouper features).keys (ransacObservationsOf grouper features) := by
  intro k hk
  have hw : SMap.WF (buildIndexer grouper features) := (C01_group_by_partitions grouper features).1
  obtain ⟨⟨k', is⟩, hm, rfl⟩ := List.mem_map.1 hk
  have hi := SMap.find?_of_mem hw hm
  unfold SMap.at?
  simp only at hi ⊢
  rw [hi]
  rw [buildIndexer_eq, find?_buildKeys _ _ _ SMap.wf_nil] at hi
  split at hi
  · simp [SMap.find?] at hi
  · have e : SMap.find? ([] : SMap K (List Nat)) k' = none := rfl
    simp only [e, Option.getD_none, List.nil_append, Option.some.injEq] at hi
    rw [← hi, positions_eq_filter]
    simp

theorem ransacObservationsOf_nodup {X : Type} [DecidableEq K] (grouper : X → K) (features : List X) (ks : List K)
    (h : ks.Nodup) : (ks.flatMap (ransacObservationsOf grouper features)).Nodup := by
  rw [List.nodup_flatMap]
  refine ⟨fun k _ => (List.nodup_finRange _).filter _, h.imp fun {k k'} hne => ?_⟩
  intro i hi hi'
  simp only [ransacObservationsOf, List.mem_filter, decide_eq_true_eq] at hi hi'
  exact hne (hi.2.symm.trans hi'.2)

/-- C87: on groups of the dataset the strategy's functions always return, so they are functions RANSAC can use. -/
theorem C87_functions_return {X : Type} [LinearOrder K] (ldlt : LdltRoutine) (g : Gp X)
    (features : List X) (targets : Marginal (Fin features.length)) (grouper : X → K)
    (inlier consensus : DynJoint → DynMarginal → Outcome Dbl) (isValid : DynJoint → DynMarginal → Outcome Bool)
    (hi : ∀ p t, ∃ v, inlier p t = .ok v) (hc : ∀ p t, ∃ v, consensus p t = .ok v) (hv : ∀ p t, ∃ v, isValid p t = .ok v) :
    ∃ f : RansacFns K (ConditionalFit features.length),
      let s := gpRansacStrategy ldlt g features targets grouper inlier consensus isValid
      ∀ groups : List K, (∀ k ∈ groups, k ∈ (buildIndexer grouper features).keys) →
        s.fitter groups = .ok (f.fitter groups) ∧ s.consensusMetric groups = .ok (f.consensusMetric groups) ∧
        s.isValidCandidate groups = .ok (f.isValidCandidate groups) ∧
        ∀ k ∈ (buildIndexer grouper features).keys,
          s.inlierMetric k (f.fitter groups) = .ok (f.inlierMetric k (f.fitter groups)) := by
  classical
  let s := gpRansacStrategy ldlt g features targets grouper inlier consensus isValid
  have hG := groupsAre_buildIndexer grouper features
  have h1 : ∀ groups : List K, ∃ fit, (∀ k ∈ groups, k ∈ (buildIndexer grouper features).keys) →
      s.fitter groups = .ok fit := by
    intro groups
    by_cases h : ∀ k ∈ groups, k ∈ (buildIndexer grouper features).keys
    · refine ⟨_, fun _ => Eq.trans ?_ (fit_ok ⟨g.prior features.get, targets⟩ ldlt
        (groups.flatMap (ransacObservationsOf grouper features)))⟩
      show gpRansacFitter _ _ _ _ = _
      rw [gpRansacFitter, indicesFromGroups_obs hG h, except_ok_bind]
    · exact ⟨⟨[], 0, ldlt 0 0⟩, fun h' => absurd h' h⟩
  have h2 : ∀ groups : List K, ∃ v, (∀ k ∈ groups, k ∈ (buildIndexer grouper features).keys) →
      s.consensusMetric groups = .ok v := by
    intro groups
    by_cases h : ∀ k ∈ groups, k ∈ (buildIndexer grouper features).keys
    · obtain ⟨v, hv⟩ := hc _ _
      exact ⟨v, fun _ => (C87_consensus_on_members _ ldlt _ _ _ hG inlier consensus isValid groups h).1.trans hv⟩
    · exact ⟨.nan, fun h' => absurd h' h⟩
  have h3 : ∀ groups : List K, ∃ v, (∀ k ∈ groups, k ∈ (buildIndexer grouper features).keys) →
      s.isValidCandidate groups = .ok v := by
    intro groups
    by_cases h : ∀ k ∈ groups, k ∈ (buildIndexer grouper features).keys
    · obtain ⟨v, hv⟩ := hv _ _
      exact ⟨v, fun _ => (C87_consensus_on_members _ ldlt _ _ _ hG inlier consensus isValid groups h).2.trans hv⟩
    · exact ⟨true, fun h' => absurd h' h⟩
  have h4 : ∀ (k : K) (fit : ConditionalFit features.length), ∃ v, k ∈ (buildIndexer grouper features).keys →
      s.inlierMetric k fit = .ok v := by
    intro k fit
    by_cases h : k ∈ (buildIndexer grouper features).keys
    · obtain ⟨v, hv⟩ := hi _ _
      refine ⟨v, fun _ => ?_⟩
      show gpRansacInlierMetric _ _ _ _ _ = _
      rw [gpRansacInlierMetric, hG k h, except_ok_bind, predictJoint_ok, except_ok_bind, getTruth_ok, except_ok_bind]
      exact hv
    · exact ⟨.nan, fun h' => absurd h' h⟩
  choose f1 hf1 using h1
  choose f2 hf2 using h2
  choose f3 hf3 using h3
  choose f4 hf4 using h4
  exact ⟨⟨f1, f4, f2, f3⟩, fun groups hg => ⟨hf1 groups hg, hf2 groups hg, hf3 groups hg,
    fun k hk => hf4 k _ hk⟩⟩

/-- C87: RANSAC with the Gaussian process strategy and the feature count.  `f` are the values of the strategy's functions
on groups of the dataset.  After success, with `obs` the observations of the best candidate groups:
every inlier group's metric, evaluated on the Gaussian conditional given exactly those observations, is within the
threshold, every outlier's is not, and no recorded iteration of sufficient size had more observations in its consensus. -/
theorem C87_gp_ransac {X : Type} [LinearOrder K] (M : Nat) (b : Build) (u : UniformInt) (ldlt : LdltRoutine) (g : Gp X)
    (features : List X) (targets : Marginal (Fin features.length)) (grouper : X → K)
    (hs : ∀ x y, g.cov x y = g.cov y x)
    (hF : ∀ idx : List (Fin features.length), idx.Nodup → (ldlt idx.length (truthCovariance ⟨g.prior features.get, targets⟩ idx)).Factors
      (truthCovariance ⟨g.prior features.get, targets⟩ idx))
    (hA : ∀ idx : List (Fin features.length), idx.Nodup →
      IsUnit (truthCovariance ⟨g.prior features.get, targets⟩ idx).det)
    (inlier : DynJoint → DynMarginal → Outcome Dbl) (isValid : DynJoint → DynMarginal → Outcome Bool)
    (f : RansacFns K (ConditionalFit features.length))
    (hf : let s := gpRansacStrategy ldlt g features targets grouper inlier featureCountMetric isValid
      ∀ groups : List K, (∀ k ∈ groups, k ∈ (buildIndexer grouper features).keys) →
        s.fitter groups = .ok (f.fitter groups) ∧ s.consensusMetric groups = .ok (f.consensusMetric groups) ∧
        s.isValidCandidate groups = .ok (f.isValidCandidate groups) ∧
        ∀ k ∈ (buildIndexer grouper features).keys,
          s.inlierMetric k (f.fitter groups) = .ok (f.inlierMetric k (f.fitter groups)))
    (raw : List Nat) (threshold : Dbl) (sampleSize minSize maxIterations maxFailed : Nat)
    (hM : features.length < M) (out : RansacOutput K)
    (h : ransacIndexer M b u f (buildIndexer grouper features) raw threshold sampleSize minSize
      maxIterations maxFailed = .ok out) (hc : out.returnCode = .success) :
    let obs := out.best.candidates.flatMap (ransacObservationsOf grouper features)
    let judged (k : K) (v : Dbl) : Prop := ∃ dist : Joint (Fin (ransacObservationsOf grouper features k).length),
      let at' := (ransacObservationsOf grouper features k).get
      IsGaussianConditional (fun i => g.mean (g.asMeas (features.get (at' i))))
        (fun i => g.mean (g.asMeas (features.get (obs.get i))))
        (of fun i j => g.cov (g.asMeas (features.get (at' i))) (g.asMeas (features.get (at' j))))
        (of fun i j => g.cov (g.asMeas (features.get (at' i))) (g.asMeas (features.get (obs.get j))))
        (truthCovariance ⟨g.prior features.get, targets⟩ obs) (fun i => targets.mean (obs.get i))
        dist.mean dist.covariance ∧
      inlier ⟨_, dist⟩ ⟨_, ⟨fun i => targets.mean (at' i), fun i => targets.variance (at' i)⟩⟩ = .ok v
    (∀ k v, (k, v) ∈ out.best.inliers → judged k v ∧ v ≤ threshold) ∧
    (∀ k v, (k, v) ∈ out.best.outliers → judged k v ∧ ¬ v ≤ threshold) ∧
    ∀ it ∈ out.iterations, minSize ≤ it.consensus.length → f.isValidCandidate it.candidates = true →
      (it.consensus.flatMap (ransacObservationsOf grouper features)).length ≤
        (out.best.consensus.flatMap (ransacObservationsOf grouper features)).length := by
  have hw : SMap.WF (buildIndexer grouper features) := (C01_group_by_partitions grouper features).1
  have hl : (buildIndexer grouper features).keys.length ≤ features.length := by
    have hsub : (buildIndexer grouper features).keys ⊆ features.map grouper := by
      intro k hk
      obtain ⟨⟨k', is⟩, hm, rfl⟩ := List.mem_map.1 hk
      obtain ⟨hne, -, hiff⟩ := (C01_group_by_partitions grouper features).2.1 k' is (SMap.find?_of_mem hw hm)
      obtain ⟨i, hi⟩ := List.exists_mem_of_ne_nil _ hne
      obtain ⟨x, hx, e⟩ := (hiff i).1 hi
      exact List.mem_map.2 ⟨x, List.mem_of_getElem? hx, e⟩
    simpa using (hw.keys_nodup.subperm hsub).length_le
  have hsucc := C44_success M b u f _ raw threshold sampleSize minSize maxIterations maxFailed hw.keys_nodup
    (by omega) out h hc
  obtain ⟨hperm, hcons, -, hmin, hin, hout, hbest, -, hmet, hopt⟩ := hsucc
  have hmem : ∀ k, k ∈ out.best.candidates ++ out.best.inliers.keys ++ out.best.outliers.keys →
      k ∈ (buildIndexer grouper features).keys := fun k hk => hperm.mem_iff.1 hk
  have hcn : out.best.candidates.Nodup := by
    have := hperm.nodup_iff.2 hw.keys_nodup
    rw [List.append_assoc] at this
    exact (List.nodup_append.1 this).1
  have hcand : ∀ k ∈ out.best.candidates, k ∈ (buildIndexer grouper features).keys := fun k hk =>
    hmem k (by simp [hk])
  have hobs := ransacObservationsOf_nodup grouper features _ hcn
  have hjudge : ∀ k ∈ (buildIndexer grouper features).keys, ∃ dist : Joint (Fin (ransacObservationsOf grouper features k).length),
      IsGaussianConditional (fun i => g.mean (g.asMeas (features.get ((ransacObservationsOf grouper features k).get i))))
        (fun i => g.mean (g.asMeas (features.get
          ((out.best.candidates.flatMap (ransacObservationsOf grouper features)).get i))))
        (of fun i j => g.cov (g.asMeas (features.get ((ransacObservationsOf grouper features k).get i)))
          (g.asMeas (features.get ((ransacObservationsOf grouper features k).get j))))
        (of fun i j => g.cov (g.asMeas (features.get ((ransacObservationsOf grouper features k).get i)))
          (g.asMeas (features.get ((out.best.candidates.flatMap (ransacObservationsOf grouper features)).get j))))
        (truthCovariance ⟨g.prior features.get, targets⟩ (out.best.candidates.flatMap (ransacObservationsOf grouper features)))
        (fun i => targets.mean ((out.best.candidates.flatMap (ransacObservationsOf grouper features)).get i))
        dist.mean dist.covariance ∧
      inlier ⟨_, dist⟩ ⟨_, ⟨fun i => targets.mean ((ransacObservationsOf grouper features k).get i),
        fun i => targets.variance ((ransacObservationsOf grouper features k).get i)⟩⟩ =
          .ok (f.inlierMetric k (f.fitter out.best.candidates)) := by
    intro k hk
    obtain ⟨fit, dist, h1, h2, h3⟩ := C87_inlier_metric_conditional ⟨g.prior features.get, targets⟩
      (fun i j => hs _ _) ldlt (buildIndexer grouper features) _ _ (groupsAre_buildIndexer grouper features) inlier
      featureCountMetric isValid out.best.candidates hcand k hk (hF _ hobs) (hA _ hobs)
    have hf1 := hf out.best.candidates hcand
    have e : fit = f.fitter out.best.candidates := Except.ok.inj (h1.symm.trans hf1.1)
    subst e
    exact ⟨dist, h3, h2.symm.trans (hf1.2.2.2 k hk)⟩
  refine ⟨fun k v hkv => ?_, fun k v hkv => ?_, fun it hit hsize hvalid => ?_⟩
  · obtain ⟨e, hle⟩ := hin k v hkv
    obtain ⟨dist, h1, h2⟩ := hjudge k (hmem k (by simp [SMap.keys]; exact .inr (.inl ⟨v, hkv⟩)))
    exact ⟨⟨dist, h1, by rw [e]; exact h2⟩, hle⟩
  · obtain ⟨e, hle⟩ := hout k v hkv
    obtain ⟨dist, h1, h2⟩ := hjudge k (hmem k (by simp [SMap.keys]; exact .inr (.inr ⟨v, hkv⟩)))
    exact ⟨⟨dist, h1, by rw [e]; exact h2⟩, hle⟩
  · have hct : it.Completed f (buildIndexer grouper features).keys threshold sampleSize minSize := by
      rcases C44_contract_indexer M b u f (buildIndexer grouper features) raw threshold sampleSize minSize maxIterations
        maxFailed hw (by simpa [SMap.keys] using lt_of_le_of_lt hl hM) out h with ⟨-, e⟩ | ⟨-, hct⟩
      · rw [hc] at e; cases e
      · rcases hct.1 it hit with hcpl | hrej
        · exact hcpl
        · rw [hrej.1] at hvalid; cases hvalid
    have hcount : ∀ its : RansacIteration K, (∀ k ∈ its.consensus, k ∈ (buildIndexer grouper features).keys) →
        f.consensusMetric its.consensus =
          .fin (-((its.consensus.flatMap (ransacObservationsOf grouper features)).length : ℝ)) := by
      intro its hk
      have h1 := (hf its.consensus hk).2.1
      have h2 := C87_feature_count ⟨g.prior features.get, targets⟩ ldlt (buildIndexer grouper features) _ _
        (groupsAre_buildIndexer grouper features) inlier isValid its.consensus hk
      have := Except.ok.inj (h1.symm.trans h2)
      rw [this, List.length_flatMap]
    have hk1 : ∀ k ∈ it.consensus, k ∈ (buildIndexer grouper features).keys := by
      intro k hk
      rw [consensus_eq] at hk
      exact hct.parts.mem_iff.1 (List.mem_append_left _ hk)
    have hk2 : ∀ k ∈ out.best.consensus, k ∈ (buildIndexer grouper features).keys := by
      intro k hk
      rw [hcons] at hk
      exact hmem k (List.mem_append_left _ hk)
    have hlen : it.consensus.length = it.candidates.length + it.inliers.length := by
      rw [consensus_eq]; simp [SMap.keys]
    have := hopt it hit hsize
    rw [hmet, hcount _ hk2, hct.metric, if_pos (by omega), ← consensus_eq, hcount _ hk1, Dbl.fin_lt] at this
    by_contra hlt
    apply this
    rw [not_le] at hlt
    have : ((out.best.consensus.flatMap (ransacObservationsOf grouper features)).length : ℝ) <
      (it.consensus.flatMap (ransacObservationsOf grouper features)).length := by exact_mod_cast hlt
    linarith

/-! ## Generic models -/

theorem rows_mean {F R : Type} (d : Dataset F R) (hd : d.Valid) : d.rows.map (·.2.1) = d.mean := by
  have : d.rows.map (·.2.1) = (d.rows.map Prod.snd).map Prod.fst := by simp
  rw [this]
  unfold Dataset.rows
  rw [List.map_snd_zip (by simp [hd.1, hd.2]), List.map_fst_zip (by simp [hd.1, hd.2])]

theorem rows_variance {F R : Type} (d : Dataset F R) (hd : d.Valid) : d.rows.map (·.2.2) = d.variance := by
  have : d.rows.map (·.2.2) = (d.rows.map Prod.snd).map Prod.snd := by simp
  rw [this]
  unfold Dataset.rows
  rw [List.map_snd_zip (by simp [hd.1, hd.2]), List.map_snd_zip (by simp [hd.1, hd.2])]

/-- C87, generic models: the model is fitted to, and a consensus scored on, exactly the rows of the given groups; a group
is judged by the prediction of its own features against its own targets; every candidate is accepted. -/
theorem C87_generic {F R Fit P : Type} [LinearOrder K] (b : Build) (fit : Dataset F R → Fit)
    (predict : Fit → List F → P) (d : Dataset F R) (hd : d.Valid) (grouper : F → K)
    (inlier : P → List R → List R → Outcome Dbl) (consensus : Dataset F R → Outcome Dbl)
    (groups : List K) (hg : ∀ k ∈ groups, k ∈ (buildIndexer grouper d.features).keys) :
    let f := genericRansacCalls b fit predict d (buildIndexer grouper d.features) inlier consensus
    (∃ set : Dataset F R, f.fitter groups = .ok (fit set) ∧ f.consensusMetric groups = consensus set ∧ set.Valid ∧
      set.rows = groups.flatMap fun k => d.rows.filter fun r => decide (grouper r.1 = k)) ∧
    (∀ k ∈ groups, ∀ model : Fit, let rows := d.rows.filter fun r => decide (grouper r.1 = k)
      f.inlierMetric k model =
        inlier (predict model (rows.map (·.1))) (rows.map (·.2.1)) (rows.map (·.2.2))) ∧
    f.isValidCandidate groups = .ok true := by
  have hat : ∀ k ∈ groups, (buildIndexer grouper d.features).at? k = .ok (positions 0 (d.features.map grouper) k) := by
    intro k hk
    rw [groupsAre_buildIndexer grouper d.features k (hg k hk), positions_eq_filter]
    simp
  have hlt1 : ∀ k, ∀ i ∈ positions 0 (d.features.map grouper) k, i < d.features.length := by
    intro k i hi
    obtain ⟨m, rfl, hm⟩ := (mem_positions _ _ _ _).1 hi
    simpa using (List.getElem?_eq_some_iff.1 hm).1
  have hlt : ∀ i ∈ groups.flatMap (positions 0 (d.features.map grouper)), i < d.features.length := by
    intro i hi
    obtain ⟨k, -, hk⟩ := List.mem_flatMap.1 hi
    exact hlt1 k i hk
  have hrow : ∀ k, (positions 0 (d.features.map grouper) k).filterMap (d.rows[·]?) =
      d.rows.filter fun r => decide (grouper r.1 = k) := by
    intro k
    have := filterMap_positions (fun r : F × R × R => grouper r.1) [] d.rows k
    have e2 : d.rows.map (fun r => grouper r.1) = d.features.map grouper := by
      rw [← rows_features d hd, List.map_map]; rfl
    rw [e2] at this
    simpa using this
  refine ⟨⟨d.pick (groups.flatMap (positions 0 (d.features.map grouper))), ?_, ?_, pick_valid d hd _ hlt, ?_⟩, ?_, rfl⟩
  · show (do let inds ← indicesFromGroups _ groups; let d ← subsetDataset b d inds; pure (fit d)) = _
    rw [indicesFromGroups_ok _ _ _ hat, except_ok_bind, subsetDataset_ok b d hd _ hlt]
    rfl
  · show (do let inds ← indicesFromGroups _ groups; let d ← subsetDataset b d inds; consensus d) = _
    rw [indicesFromGroups_ok _ _ _ hat, except_ok_bind, subsetDataset_ok b d hd _ hlt]
    rfl
  · rw [pick_rows d hd _ hlt, List.filterMap_flatMap]
    congr 1
    funext k
    exact hrow k
  · intro k hk model
    have hv := pick_valid d hd _ (hlt1 k)
    have hr := pick_rows d hd _ (hlt1 k)
    rw [hrow] at hr
    have h1 : ∀ i ∈ positions 0 (d.features.map grouper) k, i < d.mean.length := fun i hi => by
      rw [hd.1]; exact hlt1 k i hi
    have h2 : ∀ i ∈ positions 0 (d.features.map grouper) k, i < d.variance.length := fun i hi => by
      rw [hd.2]; exact hlt1 k i hi
    show (do
      let inds ← (buildIndexer grouper d.features).at? k
      let features ← subset b d.features inds
      let targetMean ← subset b d.mean inds
      let targetVariance ← subset b d.variance inds
      inlier (predict model features) targetMean targetVariance) = _
    rw [hat k hk, except_ok_bind, subset_ok b _ _ (hlt1 k), except_ok_bind, subset_ok b _ _ h1, except_ok_bind,
      subset_ok b _ _ h2, except_ok_bind]
    have e1 := rows_features _ hv
    have e2 := rows_mean _ hv
    have e3 := rows_variance _ hv
    rw [hr] at e1 e2 e3
    show inlier (predict model (d.pick _).features) (d.pick _).mean (d.pick _).variance = _
    rw [← e1, ← e2, ← e3]

/-- The hypotheses of C87 are met: two groups of two observations, one of them observed twice at the same feature. -/
example : ∃ (ldlt : LdltRoutine) (indexer : SMap Nat (List Nat)) (obs : Nat → List (Fin 4)),
    GroupsAre indexer [3, 5] obs ∧ (obs 3).length = 2 ∧
    (∀ i j, (noisyConstant.prior fun i : Fin 4 => (false, i.1 / 2)).covariance i j =
      (noisyConstant.prior fun i : Fin 4 => (false, i.1 / 2)).covariance j i) ∧
    ∃ (M : Matrix (Fin 1) (Fin 1) ℝ), M.PosDef ∧ (ldlt 1 M).Factors M := by
  have hex : ∀ d, ∃ l : Matrix (Fin d) (Fin d) ℝ → Ldlt (Fin d), ∀ M, M.PosDef → (l M).Factors M :=
    fun d => exists_ldlt (Fin d)
  choose ldlt hl using hex
  refine ⟨ldlt, [(3, [0, 2]), (5, [1, 3])], fun k => if k = 3 then [0, 2] else [1, 3], ?_, rfl, ?_, 1, PosDef.one,
    hl _ _ PosDef.one⟩
  · intro k hk
    simp at hk
    rcases hk with rfl | rfl <;> rfl
  · intro i j
    simp only [Gp.prior, Gp.covMat, noisyConstant, of_apply]
    split_ifs <;> simp_all

end Albatross
