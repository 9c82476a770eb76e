import Verif.Ransac
import Verif.RandomProps
import Verif.IndexingProps

/-! # C44, C45: the RANSAC loop and comparison of its outputs -/

namespace Albatross

variable {K Fit G : Type}

/-! ## Specification -/

/-- The contract of one completed iteration, in terms of the supplied functions only: `candidates` is a
valid sample, the three parts make up all groups, inliers are those within the threshold, and the
recorded consensus metric is that of candidates and inliers together when there are enough of them. -/
structure RansacIteration.Completed (f : RansacFns K Fit) (groups : List K) (threshold : Dbl)
    (sampleSize minSize : Nat) (it : RansacIteration K) : Prop where
  valid : f.isValidCandidate it.candidates = true
  size : it.candidates.length = sampleSize
  parts : (it.candidates ++ it.inliers.keys ++ it.outliers.keys).Perm groups
  inlier : ∀ k v, (k, v) ∈ it.inliers → v = f.inlierMetric k (f.fitter it.candidates) ∧ v ≤ threshold
  outlier : ∀ k v, (k, v) ∈ it.outliers → v = f.inlierMetric k (f.fitter it.candidates) ∧ ¬ v ≤ threshold
  metric : it.consensusMetricValue =
    if minSize ≤ it.candidates.length + it.inliers.length then
      f.consensusMetric (it.candidates ++ it.inliers.keys) else .nan

/-- A rejected sample is recorded with nothing else. -/
def RansacIteration.Rejected (f : RansacFns K Fit) (sampleSize : Nat) (it : RansacIteration K) : Prop :=
  f.isValidCandidate it.candidates = false ∧ it.candidates.length = sampleSize ∧
    it = { candidates := it.candidates }

/-! ## Helpers -/

theorem consensus_eq (it : RansacIteration K) : it.consensus = it.candidates ++ it.inliers.keys := by
  have : ∀ (l : SMap K Dbl) (o : List K), l.foldl (fun output pair => output ++ [pair.1]) o = o ++ l.keys := by
    intro l
    induction l with
    | nil => intro o; simp [SMap.keys]
    | cons a t ih => intro o; simp [ih, SMap.keys]
  exact this _ _

theorem containsGroup_iff [DecidableEq K] {v : List K} {g : K} : containsGroup v g = true ↔ g ∈ v := by
  simp [containsGroup]

theorem keys_emplace_perm [LinearOrder K] {m : SMap K Dbl} {k : K} {v : Dbl} (h : k ∉ m.keys) :
    (m.emplace k v).Perm ((k, v) :: m) := by
  induction m with
  | nil => exact List.Perm.refl _
  | cons a t ih =>
    obtain ⟨k', v'⟩ := a
    simp only [SMap.keys, List.map_cons, List.mem_cons, not_or] at h
    simp only [SMap.emplace, SMap.alter, h.1, if_false]
    split
    · exact List.Perm.refl _
    · exact ((ih h.2).cons _).trans (List.Perm.swap _ _ _)

/-- Invariant of the classification loop over groups. -/
structure ClassifyInv [LinearOrder K] (f : RansacFns K Fit) (threshold : Dbl) (cands seen : List K)
    (it : RansacIteration K) : Prop where
  cand : it.candidates = cands
  parts : (it.inliers.keys ++ it.outliers.keys).Perm (seen.filter fun g => decide (g ∉ cands))
  inlier : ∀ k v, (k, v) ∈ it.inliers → v = f.inlierMetric k (f.fitter cands) ∧ v ≤ threshold
  outlier : ∀ k v, (k, v) ∈ it.outliers → v = f.inlierMetric k (f.fitter cands) ∧ ¬ v ≤ threshold
  wfI : SMap.WF it.inliers
  wfO : SMap.WF it.outliers
  metric : it.consensusMetricValue = .nan

theorem classify_step [LinearOrder K] {f : RansacFns K Fit} {threshold : Dbl} {cands seen : List K}
    {it : RansacIteration K} (h : ClassifyInv f threshold cands seen it) {g : K} (hg : g ∉ seen) :
    ClassifyInv f threshold cands (seen ++ [g])
      (classifyGroup f threshold (f.fitter cands) it g) := by
  have hk : g ∉ it.inliers.keys ++ it.outliers.keys := fun hm =>
    hg (List.mem_filter.1 (h.parts.mem_iff.1 hm)).1
  rw [List.mem_append, not_or] at hk
  unfold classifyGroup
  by_cases hc : g ∈ cands
  · have e : containsGroup it.candidates g = true := containsGroup_iff.2 (h.cand ▸ hc)
    simp only [e, Bool.not_true, Bool.false_eq_true, if_false]
    exact { h with parts := by simpa [List.filter_append, hc] using h.parts }
  · have e : containsGroup it.candidates g = false := by
      rw [← Bool.not_eq_true, containsGroup_iff, h.cand]; exact hc
    simp only [e, Bool.not_false, if_true]
    have hf : (seen ++ [g]).filter (fun g => decide (g ∉ cands)) =
        seen.filter (fun g => decide (g ∉ cands)) ++ [g] := by simp [List.filter_append, hc]
    by_cases ht : f.inlierMetric g (f.fitter cands) ≤ threshold
    · rw [if_pos ht]
      have hp : (it.inliers.emplace g (f.inlierMetric g (f.fitter cands))).Perm _ := keys_emplace_perm hk.1
      refine { h with parts := ?_, inlier := ?_, wfI := SMap.wf_emplace h.wfI _ _ }
      · rw [hf]
        have h1 := (hp.map Prod.fst).append_right it.outliers.keys
        refine h1.trans ?_
        rw [List.map_cons, List.cons_append]
        refine (List.perm_append_singleton g _).symm.trans ?_
        exact h.parts.append_right [g]
      · intro k v hkv
        rcases List.mem_cons.1 (hp.mem_iff.1 hkv) with e | hkv
        · cases e; exact ⟨rfl, ht⟩
        · exact h.inlier k v hkv
    · rw [if_neg ht]
      have hp : (it.outliers.emplace g (f.inlierMetric g (f.fitter cands))).Perm _ := keys_emplace_perm hk.2
      refine { h with parts := ?_, outlier := ?_, wfO := SMap.wf_emplace h.wfO _ _ }
      · rw [hf]
        have h1 := (hp.map Prod.fst).append_left it.inliers.keys
        refine h1.trans ?_
        rw [List.map_cons]
        refine List.perm_middle.trans ?_
        refine (List.perm_append_singleton g _).symm.trans ?_
        exact h.parts.append_right [g]
      · intro k v hkv
        rcases List.mem_cons.1 (hp.mem_iff.1 hkv) with e | hkv
        · cases e; exact ⟨rfl, ht⟩
        · exact h.outlier k v hkv

theorem classify_all [LinearOrder K] {f : RansacFns K Fit} {threshold : Dbl} {cands : List K} :
    ∀ (l seen : List K) (it : RansacIteration K), ClassifyInv f threshold cands seen it →
      (seen ++ l).Nodup → ClassifyInv f threshold cands (seen ++ l)
        (l.foldl (classifyGroup f threshold (f.fitter cands)) it)
  | [], seen, it, h, _ => by simpa using h
  | g :: t, seen, it, h, hn => by
    have hg : g ∉ seen := fun hm => (List.nodup_append.1 hn).2.2 g hm g (by simp) rfl
    have := classify_all t (seen ++ [g]) _ (classify_step h hg) (by simpa using hn)
    simpa using this

/-- What a call of the sampler has to deliver. -/
def SampleOf (groups : List K) (sampleSize : Nat) (c : List K) : Prop :=
  c.length = sampleSize ∧ c.Nodup ∧ ∀ x ∈ c, x ∈ groups

theorem parts_perm [LinearOrder K] {groups cands : List K} (hg : groups.Nodup) (hc : cands.Nodup)
    (hs : ∀ x ∈ cands, x ∈ groups) :
    (cands ++ groups.filter fun g => decide (g ∉ cands)).Perm groups := by
  rw [List.perm_ext_iff_of_nodup _ hg]
  · intro x
    simp only [List.mem_append, List.mem_filter, decide_eq_true_eq]
    constructor
    · rintro (h | h)
      · exact hs x h
      · exact h.1
    · intro h
      by_cases hx : x ∈ cands
      · exact .inl hx
      · exact .inr ⟨h, hx⟩
  · rw [List.nodup_append]
    refine ⟨hc, hg.filter _, ?_⟩
    rintro a ha b hb rfl
    simp only [List.mem_filter, decide_eq_true_eq] at hb
    exact hb.2 ha

/-- `best` is a completed iteration with enough consensus whose metric no other beats. -/
def IsBest (f : RansacFns K Fit) (groups : List K) (threshold : Dbl) (sampleSize minSize : Nat)
    (best : RansacIteration K) (its : List (RansacIteration K)) : Prop :=
  best ∈ its ∧ best.Completed f groups threshold sampleSize minSize ∧
    minSize ≤ best.candidates.length + best.inliers.length ∧
    ∀ it ∈ its, it.consensusMetricValue ≠ .nan → best.consensusMetricValue ≤ it.consensusMetricValue

/-- No accepted sample reached the minimal consensus. -/
def NoneLargeEnough (f : RansacFns K Fit) (minSize : Nat) (its : List (RansacIteration K)) : Prop :=
  ∀ it ∈ its, f.isValidCandidate it.candidates = true →
    it.candidates.length + it.inliers.length < minSize

/-- How many samples were accepted and rejected. -/
def acceptedCount (f : RansacFns K Fit) (its : List (RansacIteration K)) : Nat :=
  its.countP fun it => f.isValidCandidate it.candidates
def rejectedCount (f : RansacFns K Fit) (its : List (RansacIteration K)) : Nat :=
  its.countP fun it => !f.isValidCandidate it.candidates

/-- The contract of `ransac` with valid arguments. -/
def RansacOutput.Contract (f : RansacFns K Fit) (groups : List K) (threshold : Dbl)
    (sampleSize minSize maxIterations maxFailed : Nat) (out : RansacOutput K) : Prop :=
  (∀ it ∈ out.iterations, it.Completed f groups threshold sampleSize minSize ∨
    it.Rejected f sampleSize) ∧
  ((out.returnCode = .success ∧ acceptedCount f out.iterations = maxIterations ∧
      rejectedCount f out.iterations < max 1 maxFailed ∧
      IsBest f groups threshold sampleSize minSize out.best out.iterations) ∨
   (out.returnCode = .noConsensus ∧ acceptedCount f out.iterations = maxIterations ∧
      rejectedCount f out.iterations < max 1 maxFailed ∧
      NoneLargeEnough f minSize out.iterations) ∨
   (out.returnCode = .exceededMaxFailedCandidates ∧ acceptedCount f out.iterations < maxIterations ∧
      rejectedCount f out.iterations = max 1 maxFailed))

structure LoopInv (f : RansacFns K Fit) (groups : List K) (threshold : Dbl)
    (sampleSize minSize maxFailed i failed : Nat) (best : RansacIteration K)
    (its : List (RansacIteration K)) : Prop where
  each : ∀ it ∈ its, it.Completed f groups threshold sampleSize minSize ∨ it.Rejected f sampleSize
  accepted : acceptedCount f its = i
  rejected : rejectedCount f its = failed
  budget : failed < max 1 maxFailed
  best : (best = {} ∧ NoneLargeEnough f minSize its) ∨
    IsBest f groups threshold sampleSize minSize best its

theorem Dbl.isNan_iff {a : Dbl} : a.isNan = true ↔ a = .nan := by cases a <;> simp [Dbl.isNan]

theorem ransacLoop_contract [LinearOrder K] {f : RansacFns K Fit} {groups : List K}
    {sample : G → Outcome (List K × G)} {threshold : Dbl} {sampleSize minSize maxIterations maxFailed : Nat}
    (hg : groups.Nodup) (hpos : 0 < sampleSize)
    (hs : ∀ g c g', sample g = .ok (c, g') → SampleOf groups sampleSize c) :
    ∀ (n i failed : Nat) (gen : G) (best : RansacIteration K) (its : List (RansacIteration K)),
      (maxIterations - i) + (maxFailed - failed) = n → i ≤ maxIterations →
      LoopInv f groups threshold sampleSize minSize maxFailed i failed best its →
      ∀ out, ransacLoop f groups sample threshold minSize maxIterations maxFailed i failed gen best its
          = .ok out →
        out.Contract f groups threshold sampleSize minSize maxIterations maxFailed := by
  intro n
  induction n using Nat.strong_induction_on with
  | _ n ih =>
  intro i failed gen best its hn hi h out ho
  rw [ransacLoop] at ho
  by_cases hlt : i < maxIterations
  · rw [if_pos hlt] at ho
    cases hsm : sample gen with
    | error e => rw [hsm] at ho; cases ho
    | ok r =>
      obtain ⟨cands, gen'⟩ := r
      have hsc := hs _ _ _ hsm
      rw [hsm] at ho
      simp only at ho
      cases hv : f.isValidCandidate cands with
      | false =>
        simp only [hv, Bool.not_false, if_true] at ho
        have hrej : ({ candidates := cands } : RansacIteration K).Rejected f sampleSize :=
          ⟨hv, hsc.1, rfl⟩
        have heach : ∀ it ∈ its ++ [({ candidates := cands } : RansacIteration K)],
            it.Completed f groups threshold sampleSize minSize ∨ it.Rejected f sampleSize := by
          intro it hit
          rcases List.mem_append.1 hit with hit | hit
          · exact h.each it hit
          · rw [List.mem_singleton.1 hit]; exact .inr hrej
        have hacc : acceptedCount f (its ++ [({ candidates := cands } : RansacIteration K)]) = i := by
          have := h.accepted
          simp only [acceptedCount] at this ⊢
          rw [List.countP_append, this]; simp [hv]
        have hrejc : rejectedCount f (its ++ [({ candidates := cands } : RansacIteration K)]) =
            failed + 1 := by
          have := h.rejected
          simp only [rejectedCount] at this ⊢
          rw [List.countP_append, this]; simp [hv]
        by_cases hm : failed + 1 ≥ maxFailed
        · rw [if_pos hm] at ho
          cases ho
          refine ⟨heach, .inr (.inr ⟨rfl, ?_, ?_⟩)⟩
          · show acceptedCount f (its ++ _) < _
            rw [hacc]; exact hlt
          · show rejectedCount f (its ++ _) = _
            rw [hrejc]
            have := h.budget
            omega
        · rw [if_neg hm] at ho
          refine ih _ ?_ i (failed + 1) gen' best _ rfl hi ?_ out ho
          · omega
          · refine ⟨heach, hacc, hrejc, by omega, ?_⟩
            rcases h.best with ⟨hb, hnone⟩ | ⟨hb1, hb2, hb3, hb4⟩
            · refine .inl ⟨hb, fun it hit hval => ?_⟩
              rcases List.mem_append.1 hit with hit | hit
              · exact hnone it hit hval
              · rw [List.mem_singleton.1 hit] at hval
                simp [hv] at hval
            · refine .inr ⟨List.mem_append_left _ hb1, hb2, hb3, fun it hit hnn => ?_⟩
              rcases List.mem_append.1 hit with hit | hit
              · exact hb4 it hit hnn
              · rw [List.mem_singleton.1 hit] at hnn
                exact absurd rfl hnn
      | true =>
        simp only [hv, Bool.not_true, Bool.false_eq_true, if_false] at ho
        have hcl := classify_all (f := f) (threshold := threshold) (cands := cands) groups []
          ({ candidates := cands } : RansacIteration K)
          ⟨rfl, by simp [SMap.keys], by simp, by simp, SMap.wf_nil, SMap.wf_nil, rfl⟩ (by simpa using hg)
        simp only [List.nil_append] at hcl
        set it := groups.foldl (classifyGroup f threshold (f.fitter cands))
          ({ candidates := cands } : RansacIteration K) with hit
        have hparts : (it.candidates ++ it.inliers.keys ++ it.outliers.keys).Perm groups := by
          rw [hcl.cand, List.append_assoc]
          exact (hcl.parts.append_left _).trans (parts_perm hg hsc.2.1 hsc.2.2)
        have hlen : it.consensus.length = it.candidates.length + it.inliers.length := by
          rw [consensus_eq]; simp [SMap.keys]
        by_cases hm : it.consensus.length ≥ minSize
        · rw [if_pos hm] at ho
          set it' : RansacIteration K := { it with consensusMetricValue := f.consensusMetric it.consensus }
            with hit'
          have hcomp : it'.Completed f groups threshold sampleSize minSize := by
            refine ⟨?_, ?_, hparts, ?_, ?_, ?_⟩
            · show f.isValidCandidate it.candidates = true
              rw [hcl.cand]; exact hv
            · show it.candidates.length = _
              rw [hcl.cand]; exact hsc.1
            · show ∀ k v, (k, v) ∈ it.inliers → v = f.inlierMetric k (f.fitter it.candidates) ∧ _
              rw [hcl.cand]; exact hcl.inlier
            · show ∀ k v, (k, v) ∈ it.outliers → v = f.inlierMetric k (f.fitter it.candidates) ∧ _
              rw [hcl.cand]; exact hcl.outlier
            · show f.consensusMetric it.consensus = if minSize ≤ it.candidates.length + it.inliers.length
                then f.consensusMetric (it.candidates ++ it.inliers.keys) else .nan
              rw [if_pos (hlen ▸ hm), consensus_eq]
          have hval : f.isValidCandidate it.candidates = true := hcomp.valid
          refine ih _ ?_ (i + 1) failed gen' _ _ rfl hlt ?_ out ho
          · omega
          · refine ⟨?_, ?_, ?_, h.budget, ?_⟩
            · intro x hx
              rcases List.mem_append.1 hx with hx | hx
              · exact h.each x hx
              · rw [List.mem_singleton.1 hx]; exact .inl hcomp
            · have := h.accepted
              simp only [acceptedCount] at this ⊢
              rw [List.countP_append, this]; simp [hval]
            · have := h.rejected
              simp only [rejectedCount] at this ⊢
              rw [List.countP_append, this]; simp [hval]
            · right
              have hlarge : minSize ≤ it'.candidates.length + it'.inliers.length := hlen ▸ hm
              have hmem : it' ∈ its ++ [it'] := by simp
              by_cases hb : (best.consensusMetricValue.isNan ||
                  decide (it'.consensusMetricValue < best.consensusMetricValue)) = true
              · rw [if_pos hb]
                refine ⟨hmem, hcomp, hlarge, fun x hx hnn => ?_⟩
                rcases List.mem_append.1 hx with hx | hx
                · rcases h.best with ⟨hb0, hnone⟩ | ⟨hb1, hb2, hb3, hb4⟩
                  · -- nothing was large enough before, so nothing has a metric
                    exfalso
                    rcases h.each x hx with hc | hr
                    · have := hnone x hx hc.valid
                      have hmx := hc.metric
                      rw [if_neg (by omega)] at hmx
                      exact hnn hmx
                    · rw [hr.2.2] at hnn; exact hnn rfl
                  · rw [Bool.or_eq_true, Dbl.isNan_iff, decide_eq_true_eq] at hb
                    have h4 := hb4 x hx hnn
                    rcases hb with hb | hb
                    · rw [hb] at h4; exact absurd h4 Dbl.not_nan_le
                    · exact Dbl.le_trans (Dbl.le_of_lt hb) h4
                · rw [List.mem_singleton.1 hx] at hnn ⊢
                  exact Dbl.le_refl hnn
              · rw [if_neg hb]
                rw [Bool.or_eq_true, Dbl.isNan_iff, decide_eq_true_eq, not_or] at hb
                rcases h.best with ⟨hb0, hnone⟩ | ⟨hb1, hb2, hb3, hb4⟩
                · rw [hb0] at hb; exact absurd rfl hb.1
                · refine ⟨List.mem_append_left _ hb1, hb2, hb3, fun x hx hnn => ?_⟩
                  rcases List.mem_append.1 hx with hx | hx
                  · exact hb4 x hx hnn
                  · rw [List.mem_singleton.1 hx] at hnn ⊢
                    exact (Dbl.not_lt hnn hb.1).1 hb.2
        · rw [if_neg hm] at ho
          have hcomp : it.Completed f groups threshold sampleSize minSize := by
            refine ⟨?_, ?_, hparts, ?_, ?_, ?_⟩
            · rw [hcl.cand]; exact hv
            · rw [hcl.cand]; exact hsc.1
            · rw [hcl.cand]; exact hcl.inlier
            · rw [hcl.cand]; exact hcl.outlier
            · rw [if_neg (hlen ▸ hm)]; exact hcl.metric
          refine ih _ ?_ (i + 1) failed gen' _ _ rfl hlt ?_ out ho
          · omega
          · refine ⟨?_, ?_, ?_, h.budget, ?_⟩
            · intro x hx
              rcases List.mem_append.1 hx with hx | hx
              · exact h.each x hx
              · rw [List.mem_singleton.1 hx]; exact .inl hcomp
            · have := h.accepted
              simp only [acceptedCount] at this ⊢
              rw [List.countP_append, this]; simp [hcomp.valid]
            · have := h.rejected
              simp only [rejectedCount] at this ⊢
              rw [List.countP_append, this]; simp [hcomp.valid]
            · rcases h.best with ⟨hb0, hnone⟩ | ⟨hb1, hb2, hb3, hb4⟩
              · refine .inl ⟨hb0, fun x hx hval => ?_⟩
                rcases List.mem_append.1 hx with hx | hx
                · exact hnone x hx hval
                · rw [List.mem_singleton.1 hx]; omega
              · refine .inr ⟨List.mem_append_left _ hb1, hb2, hb3, fun x hx hnn => ?_⟩
                rcases List.mem_append.1 hx with hx | hx
                · exact hb4 x hx hnn
                · rw [List.mem_singleton.1 hx] at hnn
                  exact absurd hcl.metric hnn
  · rw [if_neg hlt] at ho
    have hiE : i = maxIterations := by omega
    have hbl : best.consensus.length = best.candidates.length + best.inliers.length := by
      rw [consensus_eq]; simp [SMap.keys]
    by_cases hb : best.consensus.length ≠ 0
    · rw [if_pos hb] at ho
      cases ho
      refine ⟨h.each, .inl ⟨rfl, h.accepted.trans hiE, h.rejected ▸ h.budget, ?_⟩⟩
      rcases h.best with ⟨hb0, -⟩ | hb'
      · rw [hb0] at hb; exact absurd rfl hb
      · exact hb'
    · rw [if_neg hb] at ho
      cases ho
      refine ⟨h.each, .inr (.inl ⟨rfl, h.accepted.trans hiE, h.rejected ▸ h.budget, ?_⟩)⟩
      rcases h.best with ⟨-, hnone⟩ | ⟨-, hb2, -, -⟩
      · exact hnone
      · have := hb2.size
        omega

/-! ## The sampler -/

theorem randomWithoutReplacementRest_sample {M : Nat} {b : Build} {u : UniformInt} {groups : List K}
    {n : Nat} {raw rest : List Nat} {c : List K} (hg : groups.Nodup) (hM : groups.length < M)
    (hn : n ≤ groups.length) (h : randomWithoutReplacementRest M b u groups n raw = .ok (c, rest)) :
    SampleOf groups n c := by
  have h' : randomWithoutReplacement M b u groups n raw = .ok c := by
    unfold randomWithoutReplacementRest at h
    unfold randomWithoutReplacement
    rw [except_bind_eq_ok] at h ⊢
    obtain ⟨r, hr, h⟩ := h
    rw [except_bind_eq_ok] at h
    obtain ⟨o, ho, h⟩ := h
    cases h
    exact ⟨r, hr, ho⟩
  obtain ⟨pos, hl, hp, hm⟩ := C16_random_without_replacement M b u groups n raw hM hn c h'
  have hlen : c.length = pos.length := by simpa using congrArg List.length hm
  have hget : ∀ i (hi : i < c.length), ∃ hj : pos[i] < groups.length, c[i] = groups[pos[i]] := by
    intro i hi
    have e : (c.map some)[i]'(by simpa using hi) = (pos.map (groups[·]?))[i]'(by simpa using hlen ▸ hi) := by
      simp only [hm]
    rw [List.getElem_map, List.getElem_map] at e
    obtain ⟨hj, e'⟩ := List.getElem?_eq_some_iff.1 e.symm
    exact ⟨hj, e'.symm⟩
  refine ⟨hlen.trans hl, ?_, ?_⟩
  · rw [List.nodup_iff_injective_get]
    intro i j hij
    obtain ⟨hi', ei⟩ := hget i.1 i.2
    obtain ⟨hj', ej⟩ := hget j.1 j.2
    have e : groups[pos[i.1]] = groups[pos[j.1]] := by
      rw [← ei, ← ej]; exact hij
    have e2 := (List.Nodup.getElem_inj_iff hg).1 e
    exact Fin.ext ((List.Nodup.getElem_inj_iff (hp.imp fun h => ne_of_lt h)).1 e2)
  · intro x hx
    obtain ⟨i, hi, rfl⟩ := List.getElem_of_mem hx
    obtain ⟨hj, e⟩ := hget i hi
    rw [e]
    exact List.getElem_mem _

/-! ## C44 -/

/-- The arguments `ransac` rejects. -/
def RansacInvalidArguments (numGroups sampleSize minSize maxIterations : Nat) : Prop :=
  numGroups ≤ minSize ∨ minSize < sampleSize ∨ numGroups ≤ sampleSize ∨ sampleSize = 0 ∨ maxIterations = 0

theorem ransacWith_contract [LinearOrder K] {f : RansacFns K Fit} {groups : List K}
    {sample : G → Outcome (List K × G)} {gen : G} {threshold : Dbl}
    {sampleSize minSize maxIterations maxFailed : Nat} (hg : groups.Nodup)
    (hs : sampleSize ≤ groups.length → ∀ g c g', sample g = .ok (c, g') → SampleOf groups sampleSize c)
    {out : RansacOutput K} (h : ransacWith f groups sample gen threshold sampleSize minSize maxIterations
      maxFailed = .ok out) :
    (RansacInvalidArguments groups.length sampleSize minSize maxIterations ∧
      out.returnCode = .invalidArguments ∧ out.iterations = [] ∧ out.best.consensus = []) ∨
    (¬ RansacInvalidArguments groups.length sampleSize minSize maxIterations ∧
      out.Contract f groups threshold sampleSize minSize maxIterations maxFailed) := by
  unfold ransacWith at h
  by_cases hi : minSize ≥ groups.length ∨ minSize < sampleSize ∨ sampleSize ≥ groups.length ∨
      sampleSize ≤ 0 ∨ maxIterations ≤ 0
  · rw [if_pos hi] at h
    cases h
    refine .inl ⟨?_, rfl, rfl, rfl⟩
    unfold RansacInvalidArguments; omega
  · rw [if_neg hi] at h
    refine .inr ⟨by unfold RansacInvalidArguments; omega, ?_⟩
    refine ransacLoop_contract hg (by omega) (hs (by omega)) _ 0 0 gen {} [] rfl (by omega) ?_ out h
    exact ⟨by simp, rfl, rfl, by omega, .inl ⟨rfl, by simp [NoneLargeEnough]⟩⟩

/-- C44: whatever the engine delivers, if `ransac` returns then it either rejected the arguments, or
fulfils the contract: success with a best iteration that partitions the groups, classifies them
correctly, has a consensus of at least `minSize` and a metric no recorded iteration beats; or no
accepted sample had a large enough consensus; or `max 1 maxFailed` samples were rejected. -/
theorem C44_contract [LinearOrder K] (M : Nat) (b : Build) (u : UniformInt) (f : RansacFns K Fit)
    (groups : List K) (raw : List Nat) (threshold : Dbl)
    (sampleSize minSize maxIterations maxFailed : Nat) (hg : groups.Nodup) (hM : groups.length < M)
    (out : RansacOutput K)
    (h : ransac M b u f groups raw threshold sampleSize minSize maxIterations maxFailed = .ok out) :
    (RansacInvalidArguments groups.length sampleSize minSize maxIterations ∧
      out.returnCode = .invalidArguments ∧ out.iterations = [] ∧ out.best.consensus = []) ∨
    (¬ RansacInvalidArguments groups.length sampleSize minSize maxIterations ∧
      out.Contract f groups threshold sampleSize minSize maxIterations maxFailed) :=
  ransacWith_contract hg
    (fun hn _ _ _ hs => randomWithoutReplacementRest_sample hg hM hn hs) h

/-- C44 for groups given by an indexer. -/
theorem C44_contract_indexer [LinearOrder K] (M : Nat) (b : Build) (u : UniformInt) (f : RansacFns K Fit)
    (indexer : SMap K (List Nat)) (raw : List Nat) (threshold : Dbl)
    (sampleSize minSize maxIterations maxFailed : Nat) (hw : SMap.WF indexer) (hM : indexer.length < M)
    (out : RansacOutput K)
    (h : ransacIndexer M b u f indexer raw threshold sampleSize minSize maxIterations maxFailed = .ok out) :
    (RansacInvalidArguments indexer.length sampleSize minSize maxIterations ∧
      out.returnCode = .invalidArguments) ∨
    (¬ RansacInvalidArguments indexer.length sampleSize minSize maxIterations ∧
      out.Contract f indexer.keys threshold sampleSize minSize maxIterations maxFailed) := by
  have hl : indexer.keys.length = indexer.length := by simp [SMap.keys]
  have := C44_contract M b u f indexer.keys raw threshold sampleSize minSize maxIterations maxFailed
    hw.keys_nodup (by omega) out h
  rw [hl] at this
  rcases this with h | h
  · exact .inl ⟨h.1, h.2.1⟩
  · exact .inr h

/-- C44, in the words of the property: what success means. -/
theorem C44_success [LinearOrder K] (M : Nat) (b : Build) (u : UniformInt) (f : RansacFns K Fit)
    (groups : List K) (raw : List Nat) (threshold : Dbl)
    (sampleSize minSize maxIterations maxFailed : Nat) (hg : groups.Nodup) (hM : groups.length < M)
    (out : RansacOutput K)
    (h : ransac M b u f groups raw threshold sampleSize minSize maxIterations maxFailed = .ok out)
    (hc : out.returnCode = .success) :
    (out.best.candidates ++ out.best.inliers.keys ++ out.best.outliers.keys).Perm groups ∧
    out.best.consensus = out.best.candidates ++ out.best.inliers.keys ∧
    out.best.candidates.length = sampleSize ∧ minSize ≤ out.best.consensus.length ∧
    (∀ k v, (k, v) ∈ out.best.inliers → v = f.inlierMetric k (f.fitter out.best.candidates) ∧
      v ≤ threshold) ∧
    (∀ k v, (k, v) ∈ out.best.outliers → v = f.inlierMetric k (f.fitter out.best.candidates) ∧
      ¬ v ≤ threshold) ∧
    out.best ∈ out.iterations ∧ f.isValidCandidate out.best.candidates = true ∧
    out.best.consensusMetricValue = f.consensusMetric out.best.consensus ∧
    ∀ it ∈ out.iterations, minSize ≤ it.consensus.length →
      ¬ it.consensusMetricValue < out.best.consensusMetricValue := by
  rcases C44_contract M b u f groups raw threshold sampleSize minSize maxIterations maxFailed hg hM out h with
    ⟨-, e, -⟩ | ⟨-, hct⟩
  · rw [hc] at e; cases e
  · rcases hct.2 with ⟨-, -, -, hbest⟩ | ⟨e, -⟩ | ⟨e, -⟩
    · obtain ⟨h1, h2, h3, h4⟩ := hbest
      have hl : out.best.consensus.length = out.best.candidates.length + out.best.inliers.length := by
        rw [consensus_eq]; simp [SMap.keys]
      refine ⟨h2.parts, consensus_eq _, h2.size, by omega, h2.inlier, h2.outlier, h1, h2.valid, ?_, ?_⟩
      · rw [consensus_eq, h2.metric, if_pos h3]
      · intro it hit _ hlt
        have hnn : it.consensusMetricValue ≠ .nan := by
          intro e; rw [e] at hlt; exact Dbl.not_nan_lt hlt
        exact Dbl.not_lt_of_le (h4 it hit hnn) hlt
    · rw [hc] at e; cases e
    · rw [hc] at e; cases e

/-! ### Termination -/

theorem ransacLoop_returns [LinearOrder K] {f : RansacFns K Fit} {groups : List K}
    {sample : G → Outcome (List K × G)} {threshold : Dbl} {minSize maxIterations maxFailed : Nat}
    (hs : ∀ g, ∃ r, sample g = .ok r) :
    ∀ (n i failed : Nat) (gen : G) (best : RansacIteration K) (its : List (RansacIteration K)),
      (maxIterations - i) + (maxFailed - failed) = n →
      ∃ out, ransacLoop f groups sample threshold minSize maxIterations maxFailed i failed gen best its
          = .ok out := by
  intro n
  induction n using Nat.strong_induction_on with
  | _ n ih =>
  intro i failed gen best its hn
  rw [ransacLoop]
  split
  · obtain ⟨⟨c, g'⟩, hr⟩ := hs gen
    rw [hr]
    simp only
    split
    · split
      · exact ⟨_, rfl⟩
      · exact ih _ (by omega) _ _ _ _ _ rfl
    · split
      · exact ih _ (by omega) _ _ _ _ _ rfl
      · exact ih _ (by omega) _ _ _ _ _ rfl
  · split <;> exact ⟨_, rfl⟩

/-- The first `N` outputs of an infinite stream from position `pos`. -/
def streamPrefix (s : Nat → Nat) (pos N : Nat) : List Nat := (List.range N).map fun k => s (pos + k)

open Classical in
/-- A function of finitely many engine outputs, run on an infinite stream from a position: it returns
when some prefix is enough, and then the position moves by the number of outputs consumed. -/
noncomputable def onStream {α : Type} (f : List Nat → Outcome (α × List Nat)) (s : Nat → Nat)
    (pos : Nat) : Outcome (α × Nat) :=
  if h : ∃ N r, f (streamPrefix s pos N) = .ok r then
    .ok (h.choose_spec.choose.1, pos + (h.choose - h.choose_spec.choose.2.length))
  else .error .diverges

/-- `ransac` run on an infinite stream of engine outputs. -/
noncomputable def ransacOnStream [LinearOrder K] (M : Nat) (b : Build) (u : UniformInt)
    (f : RansacFns K Fit) (groups : List K) (s : Nat → Nat) (threshold : Dbl)
    (sampleSize minSize maxIterations maxFailed : Nat) : Outcome (RansacOutput K) :=
  ransacWith f groups (onStream (randomWithoutReplacementRest M b u groups sampleSize) s) 0 threshold
    sampleSize minSize maxIterations maxFailed

/-- C44, termination, missing: streams that are not fair (see `C44_terminates_false`).  On every
stream in which each index of a group keeps being drawn, `ransac` returns; the number of recorded
iterations never exceeds `maxIterations + max 1 maxFailed`. -/
theorem C44_terminates_partial [LinearOrder K] (M : Nat) (b : Build) (u : UniformInt)
    (f : RansacFns K Fit) (groups : List K) (s : Nat → Nat) (threshold : Dbl)
    (sampleSize minSize maxIterations maxFailed : Nat) (hg : groups.Nodup) (hM : groups.length < M)
    (hfair : ∀ v, v < groups.length → ∀ N, ∃ k, N ≤ k ∧ u.draw 0 (groups.length - 1) (s k) = v) :
    ∃ out, ransacOnStream M b u f groups s threshold sampleSize minSize maxIterations maxFailed
      = .ok out ∧ out.iterations.length ≤ maxIterations + max 1 maxFailed := by
  by_cases hi : RansacInvalidArguments groups.length sampleSize minSize maxIterations
  · refine ⟨⟨.invalidArguments, {}, []⟩, ?_, by simp⟩
    unfold ransacOnStream ransacWith
    rw [if_pos (by unfold RansacInvalidArguments at hi; omega)]
  · have hi' : sampleSize < groups.length := by unfold RansacInvalidArguments at hi; omega
    have hsz : sizeSub M groups.length 1 = groups.length - 1 := by
      unfold sizeSub
      have : groups.length + M - 1 = (groups.length - 1) + M := by omega
      rw [this, Nat.add_mod_right, Nat.mod_eq_of_lt (by omega)]
    have hret : ∀ pos, ∃ N r, randomWithoutReplacementRest M b u groups sampleSize
        (streamPrefix s pos N) = .ok r := by
      intro pos
      -- a prefix that contains every index
      have hN : ∃ N, ∀ v, v < groups.length → ∃ k, k < N ∧ u.draw 0 (groups.length - 1) (s (pos + k)) = v := by
        have : ∀ m, ∃ N, ∀ v, v < m → v < groups.length →
            ∃ k, k < N ∧ u.draw 0 (groups.length - 1) (s (pos + k)) = v := by
          intro m
          induction m with
          | zero => exact ⟨0, fun v hv => by omega⟩
          | succ m ihm =>
            obtain ⟨N, hN⟩ := ihm
            by_cases hm : m < groups.length
            · obtain ⟨k, hk, hkv⟩ := hfair m hm pos
              refine ⟨max N (k - pos + 1), fun v hv hvl => ?_⟩
              by_cases e : v = m
              · refine ⟨k - pos, by omega, ?_⟩
                rw [show pos + (k - pos) = k by omega, hkv, e]
              · obtain ⟨k', hk', e'⟩ := hN v (by omega) hvl
                exact ⟨k', by omega, e'⟩
            · refine ⟨N, fun v hv hvl => hN v (by omega) hvl⟩
        obtain ⟨N, hN⟩ := this groups.length
        exact ⟨N, fun v hv => hN v hv hv⟩
      obtain ⟨N, hN⟩ := hN
      refine ⟨N, ?_⟩
      obtain ⟨⟨o, rest⟩, hr⟩ := C16_randint_returns M b u sampleSize 0 (groups.length - 1) (streamPrefix s pos N)
        (by omega) (by omega) (by omega) (by omega) (by
          intro lo hi hlh v hlo hhi
          obtain ⟨rfl, rfl⟩ : lo = 0 ∧ hi = groups.length - 1 := by omega
          obtain ⟨k, hk, e⟩ := hN v (by omega)
          exact ⟨s (pos + k), List.mem_map.2 ⟨k, List.mem_range.2 hk, rfl⟩, e⟩)
      have hb := (C16_randint M b u sampleSize 0 (groups.length - 1) (streamPrefix s pos N)
        (by omega) (by omega) (by omega) (by omega) o rest hr).2.2
      unfold randomWithoutReplacementRest
      rw [hsz, hr]
      have hmap : ∀ l : List Nat, (∀ x ∈ l, x < groups.length) →
          ∃ o', l.mapM (fun i => vecGet groups i) = .ok o' := by
        intro l
        induction l with
        | nil => intro _; exact ⟨[], rfl⟩
        | cons a t iht =>
          intro hl
          obtain ⟨o', ho'⟩ := iht fun x hx => hl x (by simp [hx])
          exact ⟨groups[a]'(hl a (by simp)) :: o', by
            rw [List.mapM_cons, vecGet_lt (hl a (by simp)), ho']; rfl⟩
      obtain ⟨o', ho'⟩ := hmap o fun x hx => by have := hb x hx; omega
      refine ⟨(o', rest), ?_⟩
      show (do let out ← o.mapM fun i => vecGet groups i; pure (out, rest)) = _
      rw [ho']; rfl
    have hall : ∀ pos, ∃ r, onStream (randomWithoutReplacementRest M b u groups sampleSize) s pos = .ok r := by
      intro pos
      unfold onStream
      rw [dif_pos (hret pos)]
      exact ⟨_, rfl⟩
    have hout : ∃ out, ransacOnStream M b u f groups s threshold sampleSize minSize maxIterations
        maxFailed = .ok out := by
      unfold ransacOnStream ransacWith
      rw [if_neg (by unfold RansacInvalidArguments at hi; omega)]
      exact ransacLoop_returns hall _ 0 0 0 {} [] rfl
    obtain ⟨out, ho⟩ := hout
    refine ⟨out, ho, ?_⟩
    have hcon := ransacWith_contract (f := f) hg (fun hn pos c pos' hs => ?_) ho
    · rcases hcon with ⟨h1, -⟩ | ⟨-, -, h2⟩
      · exact absurd h1 hi
      · have hl : out.iterations.length = acceptedCount f out.iterations + rejectedCount f out.iterations := by
          unfold acceptedCount rejectedCount
          rw [List.length_eq_countP_add_countP (fun it : RansacIteration K => f.isValidCandidate it.candidates)]
          congr 1
          apply List.countP_congr
          intro x _
          simp
        rcases h2 with h2 | h2 | h2 <;> omega
    · unfold onStream at hs
      rw [dif_pos (hret pos)] at hs
      cases hs
      exact randomWithoutReplacementRest_sample hg hM hn (hret pos).choose_spec.choose_spec

theorem sampleLoop_constant (u : UniformInt) (low high c : Nat) : ∀ N,
    sampleLoop u low high 2 (List.replicate N c) [u.draw low high c] = .error .diverges
  | 0 => by rw [sampleLoop.eq_def]; simp
  | N + 1 => by
    rw [sampleLoop.eq_def]
    simp only [List.length_singleton, List.replicate_succ]
    rw [if_pos (by omega)]
    have : setInsert (u.draw low high c) [u.draw low high c] = [u.draw low high c] := by simp [setInsert]
    simp only [this]
    exact sampleLoop_constant u low high c N

/-- The termination claim fails for a stream that keeps delivering the same value: drawing two of five
groups never ends, whatever number of outputs is provided. -/
theorem C44_terminates_false (u : UniformInt) (f : RansacFns Nat Unit) (threshold : Dbl) (c N : Nat) :
    ransac (2 ^ 64) .debug u f [0, 1, 2, 3, 4] (List.replicate N c) threshold 2 3 1 1 =
      .error .diverges := by
  unfold ransac ransacWith
  rw [if_neg (by simp), ransacLoop, if_pos (by omega)]
  have hr : randintWithoutReplacement (2 ^ 64) .debug u 2 0 4 (List.replicate N c) = .error .diverges := by
    rw [randint_core _ _ _ _ _ _ _ (by omega) (by omega) (by omega) (by omega) (by omega),
      if_neg (by omega), sampleLoop.eq_def]
    cases N with
    | zero => simp
    | succ N =>
      simp only [List.length_nil, List.replicate_succ]
      rw [if_pos (by omega)]
      exact sampleLoop_constant u 0 4 c N
  have hsz : sizeSub (2 ^ 64) [0, 1, 2, 3, 4].length 1 = 4 := by decide
  have : randomWithoutReplacementRest (2 ^ 64) .debug u [0, 1, 2, 3, 4] 2 (List.replicate N c) =
      .error .diverges := by
    unfold randomWithoutReplacementRest
    rw [hsz, hr]; rfl
  rw [this]

/-! ## The model fitted to the consensus -/

theorem indicesFromGroups_ok [DecidableEq K] (indexer : SMap K (List Nat)) (f : K → List Nat) (ks : List K)
    (h : ∀ k ∈ ks, indexer.at? k = .ok (f k)) : indicesFromGroups indexer ks = .ok (ks.flatMap f) := by
  unfold indicesFromGroups
  have : ∀ o, ks.foldlM (fun out k => do let is ← indexer.at? k; pure (out ++ is)) o =
      (.ok (o ++ ks.flatMap f) : Outcome (List Nat)) := by
    induction ks with
    | nil => intro o; simp
    | cons k t ih =>
      intro o
      rw [List.foldlM_cons, h k (by simp)]
      have := ih (fun k hk => h k (by simp [hk])) (o ++ f k)
      rw [List.flatMap_cons, ← List.append_assoc, ← this]
      rfl
  exact this []

theorem flatMap_filter_perm [DecidableEq K] {α : Type} (key : α → K) (xs : List α) :
    ∀ ks : List K, ks.Nodup →
      (ks.flatMap fun k => xs.filter fun x => decide (key x = k)).Perm
        (xs.filter fun x => decide (key x ∈ ks))
  | [], _ => by simp
  | k :: t, hk => by
    have ih := flatMap_filter_perm key xs t (List.nodup_cons.1 hk).2
    rw [List.flatMap_cons]
    refine (ih.append_left _).trans ?_
    clear ih
    induction xs with
    | nil => simp
    | cons x xs ih =>
      by_cases h1 : key x = k
      · have h2 : key x ∉ t := h1 ▸ (List.nodup_cons.1 hk).1
        simpa [List.filter_cons, h1, h1 ▸ h2] using ih
      · by_cases h2 : key x ∈ t
        · simp only [List.filter_cons, h1, h2, decide_false, decide_true, if_true, List.mem_cons, or_true,
            Bool.false_eq_true, if_false] at ih ⊢
          exact List.perm_middle.trans (ih.cons x)
        · simpa [List.filter_cons, h1, h2] using ih

theorem ransacFitFrom_ok [LinearOrder K] {F R SubFit : Type} (b : Build)
    (subFit : Dataset F R → SubFit) (d : Dataset F R) (hd : d.Valid) (key : F → K)
    (out : RansacOutput K) (hc : out.returnCode = .success)
    (hsub : ∀ k ∈ out.best.consensus, k ∈ (buildIndexer key d.features).keys) :
    ∃ set : Dataset F R, ransacFitFrom b subFit d (buildIndexer key d.features) out =
        .ok ⟨some (subFit set), out⟩ ∧ set.Valid ∧
      set.rows = out.best.consensus.flatMap fun k => d.rows.filter fun r => decide (key r.1 = k) := by
  have hw : SMap.WF (buildIndexer key d.features) := (C01_group_by_partitions key d.features).1
  have hat : ∀ k ∈ out.best.consensus, (buildIndexer key d.features).at? k =
      .ok (positions 0 (d.features.map key) k) := by
    intro k hk
    obtain ⟨⟨k', is⟩, hm, rfl⟩ := List.mem_map.1 (hsub k hk)
    have hi := SMap.find?_of_mem hw hm
    unfold SMap.at?
    simp only at hi ⊢
    rw [hi]
    rw [buildIndexer_eq, find?_buildKeys _ _ _ SMap.wf_nil] at hi
    split at hi
    · simp [SMap.find?] at hi
    · simp [SMap.find?] at hi
      rw [hi]
  have hlt : ∀ i ∈ out.best.consensus.flatMap (positions 0 (d.features.map key)), i < d.features.length := by
    intro i hi
    obtain ⟨k, -, hk⟩ := List.mem_flatMap.1 hi
    obtain ⟨m, rfl, hm⟩ := (mem_positions _ _ _ _).1 hk
    have := (List.getElem?_eq_some_iff.1 hm).1
    simpa using this
  have hrow : ∀ k, (positions 0 (d.features.map key) k).filterMap (d.rows[·]?) =
      d.rows.filter fun r => decide (key r.1 = k) := by
    intro k
    have := filterMap_positions (fun r : F × R × R => key r.1) [] d.rows k
    have e2 : d.rows.map (fun r => key r.1) = d.features.map key := by
      rw [← rows_features d hd, List.map_map]; rfl
    rw [e2] at this
    simpa using this
  refine ⟨d.pick (out.best.consensus.flatMap (positions 0 (d.features.map key))), ?_,
    pick_valid d hd _ hlt, ?_⟩
  · unfold ransacFitFrom
    rw [if_pos hc, indicesFromGroups_ok _ _ _ hat]
    simp only [except_ok_bind]
    rw [subsetDataset_ok b d hd _ hlt]
    rfl
  · rw [pick_rows d hd _ hlt, List.filterMap_flatMap]
    congr 1
    funext k
    exact hrow k

/-- C78. Fitting a RANSAC model: after a successful search the wrapped model is fitted to exactly the
rows whose group is a candidate or inlier of the best iteration, each row once and with its own target;
after any other outcome nothing is fitted.  The recorded output is the search's. -/
theorem C78_ransac_fit [LinearOrder K] {F R SubFit : Type} (M : Nat) (b : Build) (u : UniformInt)
    (f : RansacFns K Fit) (subFit : Dataset F R → SubFit) (d : Dataset F R) (hd : d.Valid) (key : F → K)
    (raw : List Nat) (threshold : Dbl) (sampleSize minSize maxIterations maxFailed : Nat)
    (hM : d.features.length < M) (out : RansacOutput K)
    (h : ransacIndexer M b u f (buildIndexer key d.features) raw threshold sampleSize minSize
      maxIterations maxFailed = .ok out) :
    (out.returnCode = .success → ∃ set : Dataset F R,
      ransacFitFrom b subFit d (buildIndexer key d.features) out = .ok ⟨some (subFit set), out⟩ ∧
      set.Valid ∧ set.rows.Perm (d.rows.filter fun r =>
        decide (key r.1 ∈ out.best.candidates ∨ key r.1 ∈ out.best.inliers.keys))) ∧
    (out.returnCode ≠ .success →
      ransacFitFrom b subFit d (buildIndexer key d.features) out = .ok ⟨none, out⟩) := by
  constructor
  · intro hc
    have hw : SMap.WF (buildIndexer key d.features) := (C01_group_by_partitions key d.features).1
    have hlen : (buildIndexer key d.features).keys.length ≤ d.features.length := by
      have hsub : (buildIndexer key d.features).keys ⊆ d.features.map key := by
        intro k hk
        obtain ⟨⟨k', is⟩, hm, rfl⟩ := List.mem_map.1 hk
        obtain ⟨hne, -, hiff⟩ := (C01_group_by_partitions key d.features).2.1 k' is (SMap.find?_of_mem hw hm)
        obtain ⟨i, hi⟩ := List.exists_mem_of_ne_nil _ hne
        obtain ⟨x, hx, e⟩ := (hiff i).1 hi
        exact List.mem_map.2 ⟨x, List.mem_of_getElem? hx, e⟩
      simpa using (hw.keys_nodup.subperm hsub).length_le
    obtain ⟨hperm, hcons, -⟩ := C44_success M b u f (buildIndexer key d.features).keys raw threshold
      sampleSize minSize maxIterations maxFailed hw.keys_nodup (by omega) out h hc
    have hsub : ∀ k ∈ out.best.consensus, k ∈ (buildIndexer key d.features).keys := by
      intro k hk
      rw [hcons] at hk
      exact hperm.mem_iff.1 (List.mem_append_left _ hk)
    have hnd : out.best.consensus.Nodup := by
      rw [hcons]
      exact ((hperm.nodup_iff.2 hw.keys_nodup).of_append_left)
    obtain ⟨set, h1, h2, h3⟩ := ransacFitFrom_ok b subFit d hd key out hc hsub
    refine ⟨set, h1, h2, ?_⟩
    rw [h3]
    refine (flatMap_filter_perm (fun r : F × R × R => key r.1) d.rows _ hnd).trans ?_
    apply List.Perm.of_eq
    apply List.filter_congr
    intro r _
    rw [hcons]
    simp
  · intro hc
    unfold ransacFitFrom
    rw [if_neg hc]

/-! ## C45: comparing outputs -/

/-- C45 as stated: a comparison that holds only between outputs with equal best iterations. -/
def RansacEqComparesBest (K : Type) : Prop :=
  ∀ a b : RansacOutput K, RansacOutput.eq a b ↔
    a.returnCode = b.returnCode ∧ RansacIteration.eq a.best b.best ∧
      List.Forall₂ RansacIteration.eq a.iterations b.iterations

/-- Two outputs that differ in their best iteration compare equal. -/
theorem C45_false : ¬ RansacEqComparesBest Nat := by
  intro h
  have := (h ⟨.success, ⟨[0], [], [], .fin 1⟩, []⟩ ⟨.success, ⟨[1], [], [], .fin 1⟩, []⟩).1
    ⟨rfl, by simp [RansacIteration.eq, mapIeeeEq, Dbl.ieeeEq], List.Forall₂.nil⟩
  simp [RansacIteration.eq] at this

theorem mapIeeeEq_iff {a b : SMap K Dbl} : mapIeeeEq a b ↔ a = b ∧ ∀ x ∈ a, x.2 ≠ .nan := by
  unfold mapIeeeEq
  induction a generalizing b with
  | nil => cases b <;> simp
  | cons x t ih =>
    cases b with
    | nil => simp
    | cons y t' =>
      rw [List.forall₂_cons, ih]
      simp only [List.mem_cons, forall_eq_or_imp, List.cons.injEq, Dbl.ieeeEq]
      constructor
      · rintro ⟨⟨h1, h2, h3⟩, h4, h5⟩
        exact ⟨⟨Prod.ext h1 h2, h4⟩, h3, h5⟩
      · rintro ⟨⟨h1, h4⟩, h3, h5⟩
        subst h1
        exact ⟨⟨rfl, rfl, h3⟩, h4, h5⟩

/-- No metric of a single group is NaN. -/
def RansacIteration.NanFree (it : RansacIteration K) : Prop :=
  (∀ x ∈ it.inliers, x.2 ≠ .nan) ∧ ∀ x ∈ it.outliers, x.2 ≠ .nan

/-- Iterations compare equal exactly when they are equal and hold no NaN metric of a group. -/
theorem C45_iteration (a b : RansacIteration K) : RansacIteration.eq a b ↔ a = b ∧ a.NanFree := by
  unfold RansacIteration.eq RansacIteration.NanFree
  rw [mapIeeeEq_iff, mapIeeeEq_iff]
  cases a with
  | mk c i o m =>
  cases b with
  | mk c' i' o' m' =>
  simp only [RansacIteration.mk.injEq, Dbl.isNan_iff, Dbl.ieeeEq]
  constructor
  · rintro ⟨⟨h1, ⟨h2, h3⟩, h4, h5⟩, h6⟩
    refine ⟨⟨h1, h2, h4, ?_⟩, h3, h5⟩
    rcases h6 with ⟨h6, h7⟩ | h6
    · rw [h6, h7]
    · exact h6.1
  · rintro ⟨⟨h1, h2, h3, rfl⟩, h4, h5⟩
    refine ⟨⟨h1, ⟨h2, h4⟩, h3, h5⟩, ?_⟩
    by_cases hm : m = .nan
    · exact .inl ⟨hm, hm⟩
    · exact .inr ⟨rfl, hm⟩

theorem forall₂_iteration_iff {a b : List (RansacIteration K)} :
    List.Forall₂ RansacIteration.eq a b ↔ a = b ∧ ∀ it ∈ a, it.NanFree := by
  induction a generalizing b with
  | nil => cases b <;> simp
  | cons x t ih =>
    cases b with
    | nil => simp
    | cons y t' =>
      rw [List.forall₂_cons, ih, C45_iteration]
      simp only [List.mem_cons, forall_eq_or_imp, List.cons.injEq]
      tauto

/-- C45, missing: the best iteration of the second output (`C45_false`).  The comparison holds exactly
for equal return codes and equal iterations, all free of NaN group metrics. -/
theorem C45_partial (a b : RansacOutput K) : RansacOutput.eq a b ↔
    a.returnCode = b.returnCode ∧ a.best.NanFree ∧ a.iterations = b.iterations ∧
      ∀ it ∈ a.iterations, it.NanFree := by
  unfold RansacOutput.eq
  rw [C45_iteration, forall₂_iteration_iff]
  tauto

/-- How the loop picks its best iteration out of those recorded. -/
noncomputable def pickBest (f : RansacFns K Fit) (minSize : Nat) (best it : RansacIteration K) :
    RansacIteration K :=
  if f.isValidCandidate it.candidates = true ∧ minSize ≤ it.consensus.length ∧
      (best.consensusMetricValue.isNan || decide (it.consensusMetricValue < best.consensusMetricValue)) = true
  then it else best

theorem classify_candidates [LinearOrder K] (f : RansacFns K Fit) (threshold : Dbl) (fit : Fit) :
    ∀ (groups : List K) (it : RansacIteration K),
      (groups.foldl (classifyGroup f threshold fit) it).candidates = it.candidates
  | [], _ => rfl
  | g :: t, it => by
    rw [List.foldl_cons, classify_candidates f threshold fit t]
    unfold classifyGroup
    split
    · simp only; split <;> rfl
    · rfl

theorem ransacLoop_best [LinearOrder K] {f : RansacFns K Fit} {groups : List K}
    {sample : G → Outcome (List K × G)} {threshold : Dbl} {minSize maxIterations maxFailed : Nat} :
    ∀ (n i failed : Nat) (gen : G) (best : RansacIteration K) (its : List (RansacIteration K)),
      (maxIterations - i) + (maxFailed - failed) = n → best = its.foldl (pickBest f minSize) {} →
      ∀ out, ransacLoop f groups sample threshold minSize maxIterations maxFailed i failed gen best its
          = .ok out → out.best = out.iterations.foldl (pickBest f minSize) {} := by
  intro n
  induction n using Nat.strong_induction_on with
  | _ n ih =>
  intro i failed gen best its hn hb out ho
  rw [ransacLoop] at ho
  by_cases hlt : i < maxIterations
  · rw [if_pos hlt] at ho
    cases hsm : sample gen with
    | error e => rw [hsm] at ho; cases ho
    | ok r =>
      obtain ⟨cands, gen'⟩ := r
      rw [hsm] at ho
      simp only at ho
      cases hv : f.isValidCandidate cands with
      | false =>
        simp only [hv, Bool.not_false, if_true] at ho
        have hb' : best = (its ++ [({ candidates := cands } : RansacIteration K)]).foldl
            (pickBest f minSize) {} := by
          rw [List.foldl_append, ← hb, List.foldl_cons, List.foldl_nil, pickBest, if_neg]
          simp [hv]
        by_cases hm : failed + 1 ≥ maxFailed
        · rw [if_pos hm] at ho
          cases ho
          exact hb'
        · rw [if_neg hm] at ho
          exact ih _ (by omega) i (failed + 1) gen' best _ rfl hb' out ho
      | true =>
        simp only [hv, Bool.not_true, Bool.false_eq_true, if_false] at ho
        have hcand := classify_candidates f threshold (f.fitter cands) groups ({ candidates := cands })
        set it := groups.foldl (classifyGroup f threshold (f.fitter cands))
          ({ candidates := cands } : RansacIteration K) with hit
        simp only at hcand
        by_cases hm : it.consensus.length ≥ minSize
        · rw [if_pos hm] at ho
          refine ih _ (by omega) (i + 1) failed gen' _ _ rfl ?_ out ho
          rw [List.foldl_append, ← hb, List.foldl_cons, List.foldl_nil, pickBest]
          congr 1
          have h1 : f.isValidCandidate it.candidates = true := by rw [hcand]; exact hv
          have h2 : minSize ≤ (RansacIteration.consensus
              { it with consensusMetricValue := f.consensusMetric it.consensus }).length := hm
          simp only [h1, h2, true_and]
        · rw [if_neg hm] at ho
          refine ih _ (by omega) (i + 1) failed gen' _ _ rfl ?_ out ho
          rw [List.foldl_append, ← hb, List.foldl_cons, List.foldl_nil, pickBest, if_neg]
          exact fun h => hm h.2.1
  · rw [if_neg hlt] at ho
    split at ho <;> cases ho <;> exact hb

/-- C45 for outputs of `ransac` itself: when both come from runs with the same functions and minimal
consensus (any groups, thresholds, streams and limits) the recorded iterations determine the best one,
so the comparison agrees with memberwise comparison. -/
theorem C45_of_runs_partial [LinearOrder K] {G' : Type} (f : RansacFns K Fit) (minSize : Nat)
    (groups₁ groups₂ : List K) (sample₁ : G → Outcome (List K × G)) (sample₂ : G' → Outcome (List K × G'))
    (gen₁ : G) (gen₂ : G') (threshold₁ threshold₂ : Dbl) (size₁ size₂ iter₁ iter₂ failed₁ failed₂ : Nat)
    (a b : RansacOutput K)
    (ha : ransacWith f groups₁ sample₁ gen₁ threshold₁ size₁ minSize iter₁ failed₁ = .ok a)
    (hb : ransacWith f groups₂ sample₂ gen₂ threshold₂ size₂ minSize iter₂ failed₂ = .ok b) :
    RansacOutput.eq a b ↔ a.returnCode = b.returnCode ∧ RansacIteration.eq a.best b.best ∧
      List.Forall₂ RansacIteration.eq a.iterations b.iterations := by
  have key : ∀ {G : Type} (groups : List K) (sample : G → Outcome (List K × G)) (gen : G) (threshold : Dbl)
      (size iter failed : Nat) (o : RansacOutput K),
      ransacWith f groups sample gen threshold size minSize iter failed = .ok o →
      o.best = o.iterations.foldl (pickBest f minSize) {} := by
    intro G groups sample gen threshold size iter failed o ho
    unfold ransacWith at ho
    split at ho
    · cases ho; rfl
    · exact ransacLoop_best _ 0 0 gen {} [] rfl rfl o ho
  have ka := key _ _ _ _ _ _ _ _ ha
  have kb := key _ _ _ _ _ _ _ _ hb
  unfold RansacOutput.eq
  constructor
  · rintro ⟨h1, h2, h3⟩
    refine ⟨h1, ?_, h3⟩
    rw [kb, ← (forall₂_iteration_iff.1 h3).1, ← ka]
    exact h2
  · rintro ⟨h1, h2, h3⟩
    refine ⟨h1, ?_, h3⟩
    rw [C45_iteration] at h2 ⊢
    exact ⟨rfl, h2.2⟩

/-! ## Non-vacuity -/

section Examples

/-- The metric of a group is 1 for groups 0 and 1, and 2 for the others. -/
noncomputable def exampleFns : RansacFns Nat Unit where
  fitter _ := ()
  inlierMetric g _ := .fin (if g < 2 then 1 else 2)
  consensusMetric c := .fin c.length
  isValidCandidate c := !c.contains 3

/-- A run that succeeds: one iteration drawing group 0, threshold 1: groups 0 and 1 against 2 and 3. -/
example : ransac (2 ^ 64) .debug modUniform exampleFns [0, 1, 2, 3] [0] (.fin 1) 1 2 1 1 =
    .ok ⟨.success, ⟨[0], [(1, .fin 1)], [(2, .fin 2), (3, .fin 2)], .fin 2⟩,
      [⟨[0], [(1, .fin 1)], [(2, .fin 2), (3, .fin 2)], .fin 2⟩]⟩ := by
  have hs : randomWithoutReplacementRest (2 ^ 64) .debug modUniform [0, 1, 2, 3] 1 [0] = .ok ([0], []) := by
    decide +kernel
  unfold ransac ransacWith
  rw [if_neg (by simp), ransacLoop, if_pos (by omega), hs]
  simp only
  simp [exampleFns, classifyGroup, containsGroup, SMap.emplace, SMap.alter, RansacIteration.consensus,
    Dbl.isNan]
  rw [ransacLoop]
  simp [RansacIteration.consensus]

/-- A run whose only sample is rejected. -/
example : ransac (2 ^ 64) .debug modUniform exampleFns [0, 1, 2, 3] [3] (.fin 1) 1 2 1 1 =
    .ok ⟨.exceededMaxFailedCandidates, {}, [{ candidates := [3] }]⟩ := by
  have hs : randomWithoutReplacementRest (2 ^ 64) .debug modUniform [0, 1, 2, 3] 1 [3] = .ok ([3], []) := by
    decide +kernel
  unfold ransac ransacWith
  rw [if_neg (by simp), ransacLoop, if_pos (by omega), hs]
  simp [exampleFns]

/-- A fair stream. -/
example : ∀ v, v < 4 → ∀ N, ∃ k, N ≤ k ∧ modUniform.draw 0 (4 - 1) ((fun k => k) k) = v := by
  intro v hv N
  refine ⟨4 * N + v, by omega, ?_⟩
  show 0 + (4 * N + v) % (4 - 1 - 0 + 1) = v
  omega

end Examples

end Albatross
