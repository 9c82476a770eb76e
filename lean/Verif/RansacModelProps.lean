import Verif.RansacModel
import Verif.RansacProps

/-! # C95: entry points of RANSAC and the RANSAC model -/

namespace Albatross

variable {Sub F R K Fit SubFit P : Type}

/-- C95: every return code has a name of its own; any other value of the enumeration is refused, or named
"unknown return code" when assertions are off. -/
theorem C95_code_names (b : Build) :
    (∀ c : RansacCode, ∃ s, ransacCodeName b c.value = .ok s) ∧
    (∀ c c' : RansacCode, ransacCodeName b c.value = ransacCodeName b c'.value → c = c') ∧
    (∀ n, 5 < n → ransacCodeName .debug n = .error .assertFail ∧
      ransacCodeName .ndebug n = .ok "unknown return code" ∧
      ∀ c : RansacCode, ransacCodeName .ndebug n ≠ ransacCodeName .ndebug c.value) := by
  refine ⟨?_, ?_, ?_⟩
  · rintro (_ | _ | _ | _ | _ | _) <;> exact ⟨_, rfl⟩
  · intro c c' h
    have h : ∀ c : RansacCode, ransacCodeName b c.value = .ok (match c with
      | .invalid => "invalid" | .success => "success" | .noConsensus => "no_consensus"
      | .invalidArguments => "invalid_arguments"
      | .exceededMaxFailedCandidates => "exceeded_max_failed_candidates" | .failure => "failure") := by
      rintro (_ | _ | _ | _ | _ | _) <;> rfl
    rename_i h0
    rw [h c, h c'] at h0
    cases c <;> cases c' <;> first | rfl | (exact absurd (Except.ok.inj h0) (by decide))
  · intro n hn
    have e : ∀ b, ransacCodeName b n = (do albatrossAssert b false; pure "unknown return code") := by
      intro b
      match n, hn with
      | k + 6, _ => rfl
    rw [e, e]
    refine ⟨rfl, rfl, ?_⟩
    rintro (_ | _ | _ | _ | _ | _) h <;> exact absurd (Except.ok.inj h) (by decide)

/-- C95: a default constructed `Ransac` refuses every dataset: the search reports invalid arguments and nothing is
fitted. -/
theorem C95_default_refuses [LinearOrder K] (M : Nat) (b : Build) (u : UniformInt) (subFit : Sub → Dataset F R → SubFit)
    (sub : Sub) (strategy : RansacStrategy Sub F R K Fit) (d : Dataset F R) (raw : List Nat) :
    (RansacModel.mk sub strategy {}).fit M b u subFit d raw = .ok ⟨none, ⟨.invalidArguments, {}, []⟩⟩ := by
  have : (RansacModel.mk sub strategy {}).search M b u d raw = .ok ⟨.invalidArguments, {}, []⟩ := by
    unfold RansacModel.search ransacIndexer ransac ransacWith
    rw [if_pos (by simp)]
  unfold RansacModel.fit
  rw [this]
  rfl

/-- C95: fitting a RANSAC model whose strategy groups by `key`.  There is a fitted model exactly after success; then
it is the wrapped model fitted to the rows of the best consensus, and predictions are its predictions.  Otherwise
asking for a prediction is refused. -/
theorem C95_fit_and_predict [LinearOrder K] (M : Nat) (b : Build) (u : UniformInt) (subFit : Sub → Dataset F R → SubFit)
    (subPredict : SubFit → List F → P) (m : RansacModel Sub F R K Fit) (d : Dataset F R) (hd : d.Valid) (key : F → K)
    (hkey : m.strategy.getIndexer d = buildIndexer key d.features) (raw : List Nat) (hM : d.features.length < M)
    (out : RansacOutput K) (h : m.search M b u d raw = .ok out) :
    ∃ r : RansacFit K SubFit, m.fit M b u subFit d raw = .ok r ∧ r.output = out ∧
      (r.hasFitModel = true ↔ out.returnCode = .success) ∧
      (out.returnCode = .success → ∃ set : Dataset F R, set.Valid ∧
        set.rows.Perm (d.rows.filter fun row =>
          decide (key row.1 ∈ out.best.candidates ∨ key row.1 ∈ out.best.inliers.keys)) ∧
        ∀ features, r.predict b subPredict features = .ok (subPredict (subFit m.subModel set) features)) ∧
      (out.returnCode ≠ .success → ∀ features,
        r.predict .debug subPredict features = .error .assertFail ∧
        r.predict .ndebug subPredict features = .error .thrown) := by
  have h' := h
  unfold RansacModel.search at h'
  rw [hkey] at h'
  obtain ⟨hs, hn⟩ := C78_ransac_fit M b u (m.strategy.functions m.subModel d) (subFit m.subModel) d hd key raw
    m.config.inlierThreshold m.config.randomSampleSize m.config.minConsensusSize m.config.maxIterations
    m.config.maxFailedCandidates hM out h'
  have hfit : m.fit M b u subFit d raw =
      ransacFitFrom b (subFit m.subModel) d (buildIndexer key d.features) out := by
    unfold RansacModel.fit
    rw [h, hkey]
    rfl
  by_cases hc : out.returnCode = .success
  · obtain ⟨set, h1, h2, h3⟩ := hs hc
    refine ⟨⟨some (subFit m.subModel set), out⟩, hfit.trans h1, rfl, by simp [RansacFit.hasFitModel, hc],
      fun _ => ⟨set, h2, h3, fun features => ?_⟩, fun hx => absurd hc hx⟩
    cases b <;> rfl
  · refine ⟨⟨none, out⟩, hfit.trans (hn hc), rfl, by simp [RansacFit.hasFitModel, hc], fun hx => absurd hx hc,
      fun _ features => ⟨rfl, rfl⟩⟩

/-- C95: the constructor which leaves out the number of failed candidates sets it to zero, so the search ends at the
first sample the strategy rejects: either no sample was rejected at all, or exactly one was and the return code
says too many failed. -/
theorem C95_sizes_constructor_stops_at_first_rejection [LinearOrder K] (M : Nat) (b : Build) (u : UniformInt) (sub : Sub)
    (strategy : RansacStrategy Sub F R K Fit) (threshold : Dbl) (sampleSize minSize maxIterations : Nat)
    (d : Dataset F R) (raw : List Nat) (hw : SMap.WF (strategy.getIndexer d)) (hM : (strategy.getIndexer d).length < M)
    (out : RansacOutput K)
    (h : (RansacModel.ofSizes sub strategy threshold sampleSize minSize maxIterations).search M b u d raw = .ok out) :
    let rejected := out.iterations.countP fun it => !(strategy.functions sub d).isValidCandidate it.candidates
    (out.returnCode = .exceededMaxFailedCandidates ∧ rejected = 1) ∨
    (out.returnCode ≠ .exceededMaxFailedCandidates ∧ rejected = 0) := by
  rcases C44_contract M b u (strategy.functions sub d) (strategy.getIndexer d).keys raw threshold sampleSize minSize
      maxIterations 0 hw.keys_nodup (by simpa [SMap.keys] using hM) out h with
    ⟨-, e, h0, -⟩ | ⟨-, -, hcase⟩
  · right
    rw [e, h0]
    exact ⟨by decide, rfl⟩
  · rcases hcase with ⟨e, -, hr, -⟩ | ⟨e, -, hr, -⟩ | ⟨e, -, hr⟩
    · right
      rw [e]
      exact ⟨by decide, by simpa [rejectedCount] using hr⟩
    · right
      rw [e]
      exact ⟨by decide, by simpa [rejectedCount] using hr⟩
    · left
      exact ⟨e, by simpa [rejectedCount] using hr⟩

/-! ## The two short forms -/

/-- C95 as one would read the two forms without a number of failed candidates: the free function and the model run
the same search. -/
def ShortFormsAgree (K : Type) [LinearOrder K] : Prop :=
  ∀ (M : Nat) (b : Build) (u : UniformInt) (strategy : RansacStrategy Unit Unit Unit K Unit) (threshold : Dbl)
    (sampleSize minSize maxIterations : Nat) (d : Dataset Unit Unit) (raw : List Nat),
    SMap.WF (strategy.getIndexer d) → (strategy.getIndexer d).length < M →
    (RansacModel.ofSizes () strategy threshold sampleSize minSize maxIterations).search M b u d raw =
      ransacFree M b u (strategy.functions () d) (strategy.getIndexer d) raw threshold sampleSize minSize maxIterations

theorem ransacLoop_no_rejection {G : Type} [LinearOrder K] (f : RansacFns K Fit) (hv : ∀ c, f.isValidCandidate c = true)
    (groups : List K) (sample : G → Outcome (List K × G)) (threshold : Dbl) (minSize maxIterations mf mf' failed : Nat) :
    ∀ (n i : Nat), maxIterations - i = n → ∀ (gen : G) (best : RansacIteration K) (its : List (RansacIteration K)),
      ransacLoop f groups sample threshold minSize maxIterations mf i failed gen best its =
        ransacLoop f groups sample threshold minSize maxIterations mf' i failed gen best its := by
  intro n
  induction n with
  | zero =>
    intro i hi gen best its
    have hn : ¬ i < maxIterations := by omega
    rw [ransacLoop, ransacLoop]
    simp only [if_neg hn]
  | succ n ih =>
    intro i hi gen best its
    rw [ransacLoop, ransacLoop]
    by_cases hlt : i < maxIterations
    · rw [if_pos hlt, if_pos hlt]
      cases sample gen with
      | error e => rfl
      | ok r =>
        obtain ⟨c, gen'⟩ := r
        simp only [hv, Bool.not_true, Bool.false_eq_true, if_false]
        split
        · exact ih (i + 1) (by omega) _ _ _
        · exact ih (i + 1) (by omega) _ _ _
    · rw [if_neg hlt, if_neg hlt]

/-- C95.  Full claim: `ShortFormsAgree`.  Proved when the functions accept every candidate, as the generic strategy's
do; false in general, see `C95_short_forms_false`. -/
theorem C95_short_forms_agree_partial [LinearOrder K] (M : Nat) (b : Build) (u : UniformInt) (sub : Sub)
    (strategy : RansacStrategy Sub F R K Fit) (threshold : Dbl) (sampleSize minSize maxIterations : Nat)
    (d : Dataset F R) (raw : List Nat) (hv : ∀ c, (strategy.functions sub d).isValidCandidate c = true) :
    (RansacModel.ofSizes sub strategy threshold sampleSize minSize maxIterations).search M b u d raw =
      ransacFree M b u (strategy.functions sub d) (strategy.getIndexer d) raw threshold sampleSize minSize
        maxIterations := by
  unfold RansacModel.search ransacFree ransacIndexer ransac ransacWith RansacModel.ofSizes
  simp only
  split
  · rfl
  · exact ransacLoop_no_rejection _ hv _ _ _ _ _ _ _ _ _ _ rfl _ _ _

/-- Functions that reject the sample `[3]` and accept every group into the consensus. -/
noncomputable def pickyFns : RansacFns Nat Unit :=
  ⟨fun _ => (), fun _ _ => .fin 0, fun c => .fin c.length, fun c => decide (c ≠ [3])⟩

noncomputable def pickyStrategy : RansacStrategy Unit Unit Unit Nat Unit :=
  ⟨fun _ => [(0, [0]), (1, [1]), (2, [2]), (3, [3])], fun _ _ => pickyFns⟩

/-- `ShortFormsAgree` is false: after one rejected sample the model gives up, while the free function carries on and
succeeds. -/
theorem C95_short_forms_false : ¬ ShortFormsAgree Nat := by
  intro h
  have h := h (2 ^ 64) .debug modUniform pickyStrategy (.fin 1) 1 2 2 ⟨[], [], [], []⟩ [3, 0, 0]
    (by rw [SMap.wf_iff_keys]; show [0, 1, 2, 3].Pairwise (· < ·); decide) (by decide)
  have hs3 : randomWithoutReplacementRest (2 ^ 64) .debug modUniform [0, 1, 2, 3] 1 [3, 0, 0] = .ok ([3], [0, 0]) := by
    decide +kernel
  have hs1 : randomWithoutReplacementRest (2 ^ 64) .debug modUniform [0, 1, 2, 3] 1 [0, 0] = .ok ([0], [0]) := by
    decide +kernel
  have hs0 : randomWithoutReplacementRest 18446744073709551616 .debug modUniform [0, 1, 2, 3] 1 [0] = .ok ([0], []) := by
    decide +kernel
  have hl : (RansacModel.ofSizes () pickyStrategy (.fin 1) 1 2 2).search (2 ^ 64) .debug modUniform ⟨[], [], [], []⟩
      [3, 0, 0] = .ok ⟨.exceededMaxFailedCandidates, {}, [{ candidates := [3] }]⟩ := by
    show ransacWith pickyFns [0, 1, 2, 3] (randomWithoutReplacementRest (2 ^ 64) .debug modUniform [0, 1, 2, 3] 1)
      [3, 0, 0] (.fin 1) 1 2 2 0 = _
    unfold ransacWith
    rw [if_neg (by simp), ransacLoop, if_pos (by omega), hs3]
    simp [pickyFns]
  have hr : ∃ out, ransacFree (2 ^ 64) .debug modUniform (pickyStrategy.functions () ⟨[], [], [], []⟩)
      (pickyStrategy.getIndexer ⟨[], [], [], []⟩) [3, 0, 0] (.fin 1) 1 2 2 = .ok out ∧ out.returnCode = .success := by
    show ∃ out, ransacWith pickyFns [0, 1, 2, 3]
      (randomWithoutReplacementRest (2 ^ 64) .debug modUniform [0, 1, 2, 3] 1) [3, 0, 0] (.fin 1) 1 2 2 2 = .ok out ∧ _
    unfold ransacWith
    rw [if_neg (by simp), ransacLoop, if_pos (by omega), hs3]
    simp only [pickyFns, ne_eq, not_true_eq_false, decide_false, Bool.not_false, if_true]
    rw [if_neg (by omega), ransacLoop, if_pos (by omega), hs1]
    simp [classifyGroup, containsGroup, SMap.emplace, SMap.alter, RansacIteration.consensus, Dbl.isNan]
    rw [ransacLoop, if_pos (by omega), hs0]
    simp [classifyGroup, containsGroup, SMap.emplace, SMap.alter, RansacIteration.consensus, Dbl.isNan]
    rw [ransacLoop]
    simp [RansacIteration.consensus]
  obtain ⟨out, hr, hc⟩ := hr
  rw [hl, hr] at h
  rw [← Except.ok.inj h] at hc
  exact absurd hc (by decide)

/-- The hypotheses of the theorems above, met by a strategy and dataset of four rows. -/
example : (⟨[0, 1, 2, 3], [5, 6, 7, 8], [1, 1, 1, 1], []⟩ : Dataset Nat Nat).Valid ∧
    (RansacStrategy.mk (Sub := Unit) (R := Nat) (Fit := Unit) (fun d => buildIndexer (fun x : Nat => x % 2) d.features)
      fun _ _ => pickyFns).getIndexer ⟨[0, 1, 2, 3], [5, 6, 7, 8], [1, 1, 1, 1], []⟩ = [(0, [0, 2]), (1, [1, 3])] ∧
    SMap.WF (pickyStrategy.getIndexer ⟨[], [], [], []⟩) := by
  refine ⟨⟨rfl, rfl⟩, by decide +kernel, ?_⟩
  rw [SMap.wf_iff_keys]; show [0, 1, 2, 3].Pairwise (· < ·); decide

example : ∀ c, (RansacFns.mk (K := Nat) (fun _ => ()) (fun _ _ => .fin 0) (fun c => .fin c.length)
    fun _ => true).isValidCandidate c = true := fun _ => rfl

/-- C95: the name shows the name of the model inside; models with different names stay apart. -/
theorem C95_name {Sub F R K Fit : Type} (m m' : RansacModel Sub F R K Fit) (subName : Sub → String) :
    (m.name subName).toList = ['r', 'a', 'n', 's', 'a', 'c', '['] ++ (subName m.subModel).toList ++ [']'] ∧
    (m.name subName = m'.name subName → subName m.subModel = subName m'.subModel) := by
  have key : ∀ m : RansacModel Sub F R K Fit,
      (m.name subName).toList = ['r', 'a', 'n', 's', 'a', 'c', '['] ++ (subName m.subModel).toList ++ [']'] := by
    intro m
    simp [RansacModel.name, String.toList_append]
  refine ⟨key m, fun h => ?_⟩
  have h1 := key m
  rw [h, key m'] at h1
  have h2 := List.append_cancel_left (List.append_cancel_right h1)
  exact (String.toList_inj.1 h2).symm

end Albatross
