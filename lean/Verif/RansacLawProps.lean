import Verif.RansacLaw
import Mathlib.Analysis.SpecialFunctions.Log.Basic

/-! # C122: RANSAC finds the good groups with the textbook probability -/

namespace Albatross

open Finset

open Filter (Tendsto atTop)

open scoped Topology

variable {K Fit : Type}

/-! ## Specification -/

/-- The supplied functions can tell good groups from others when they are given good groups: a sample of good groups is
accepted, its fit puts exactly the good groups within the threshold, there are enough of them, and the consensus metric of
all good groups is a number that is smaller than the metric of any consensus with another group in it. -/
structure Separates (f : RansacFns K Fit) (groups : List K) (threshold : Dbl) (n minSize : ℕ) (good : K → Bool) :
    Prop where
  valid : ∀ c, SampleOf groups n c → (∀ x ∈ c, good x = true) → f.isValidCandidate c = true
  inlier : ∀ c, SampleOf groups n c → (∀ x ∈ c, good x = true) → ∀ g ∈ groups, g ∉ c →
    (f.inlierMetric g (f.fitter c) ≤ threshold ↔ good g = true)
  enough : minSize ≤ groups.countP good
  number : ∀ l, l.Perm (groups.filter good) → f.consensusMetric l ≠ .nan
  less : ∀ l l', l.Perm (groups.filter good) → (∀ x ∈ l', x ∈ groups) → (∃ x ∈ l', good x = false) →
    f.consensusMetric l' = .nan ∨ f.consensusMetric l < f.consensusMetric l'

/-- The call succeeds and the consensus consists of exactly the good groups. -/
def FoundGood (groups : List K) (good : K → Bool) (r : Outcome (RansacOutput K)) : Prop :=
  ∃ out, r = .ok out ∧ out.returnCode = .success ∧ out.best.consensus.Perm (groups.filter good)

/-! ## The probability -/

/-- The probability that, of independent trials, `n` are accepted before `f` are rejected, where a trial is accepted with
probability `x` and rejected with probability `r`. -/
noncomputable def acceptedFirst (x r : ℝ) (n f : ℕ) : ℝ :=
  x ^ n * ∑ e ∈ range (max 1 f), ((n + e - 1).choose e : ℝ) * r ^ e

theorem acceptedFirst_zero (x r : ℝ) (f : ℕ) : acceptedFirst x r 0 f = 1 := by
  have hm : 0 < max 1 f := by omega
  rw [acceptedFirst, pow_zero, one_mul, sum_eq_single_of_mem 0 (Finset.mem_range.2 hm)]
  · simp
  · intro e _ he
    rw [Nat.choose_eq_zero_of_lt (by omega)]
    simp

theorem acceptedFirst_small (x r : ℝ) (n f : ℕ) (hf : f ≤ 1) : acceptedFirst x r n f = x ^ n := by
  rw [acceptedFirst, show max 1 f = 1 by omega]
  simp

theorem acceptedFirst_step (x r : ℝ) (n f : ℕ) (hf : 1 ≤ f) :
    acceptedFirst x r (n + 1) (f + 1) = x * acceptedFirst x r n (f + 1) + r * acceptedFirst x r (n + 1) f := by
  simp only [acceptedFirst]
  rw [show max 1 (f + 1) = f + 1 by omega, show max 1 f = f by omega, sum_range_succ' _ f, sum_range_succ' _ f]
  have h : ∑ k ∈ range f, ((n + 1 + (k + 1) - 1).choose (k + 1) : ℝ) * r ^ (k + 1) =
      (∑ k ∈ range f, ((n + (k + 1) - 1).choose (k + 1) : ℝ) * r ^ (k + 1)) +
        r * ∑ k ∈ range f, ((n + 1 + k - 1).choose k : ℝ) * r ^ k := by
    rw [mul_sum, ← sum_add_distrib]
    refine sum_congr rfl fun k _ => ?_
    rw [show n + 1 + (k + 1) - 1 = (n + k) + 1 by omega, show n + (k + 1) - 1 = n + k by omega,
      show n + 1 + k - 1 = n + k by omega, Nat.choose_succ_succ]
    push_cast
    ring
  rw [h]
  simp only [Nat.add_zero, Nat.choose_zero_right, pow_zero, Nat.cast_one, mul_one]
  ring

/-- The probability of success from a state of the loop: `n` accepted samples are missing, `f` rejected ones are left,
and a sample of good groups has been seen or not. -/
noncomputable def winProb (q s r : ℝ) (n f : ℕ) (clean : Bool) : ℝ :=
  acceptedFirst (q + s) r n f - if clean then 0 else acceptedFirst s r n f

theorem winProb_zero (q s r : ℝ) (f : ℕ) (c : Bool) : winProb q s r 0 f c = if c then 1 else 0 := by
  rw [winProb, acceptedFirst_zero, acceptedFirst_zero]
  cases c <;> simp

theorem winProb_step (q s r : ℝ) (n f : ℕ) (c : Bool) :
    winProb q s r (n + 1) f c = q * winProb q s r n f true + s * winProb q s r n f c +
      r * (if f ≤ 1 then 0 else winProb q s r (n + 1) (f - 1) c) := by
  by_cases hf : f ≤ 1
  · simp only [winProb, acceptedFirst_small _ _ _ _ hf, hf, if_true]
    cases c <;> simp <;> ring
  · obtain ⟨g, rfl⟩ : ∃ g, f = g + 1 := ⟨f - 1, by omega⟩
    simp only [winProb, if_neg hf, Nat.add_sub_cancel, acceptedFirst_step _ _ n g (by omega)]
    cases c <;> simp <;> ring

/-! ## Samples -/

theorem sampleOf_elementsAt {groups : List K} (hg : groups.Nodup) {n : ℕ} {S : Finset ℕ}
    (hS : S ∈ (range groups.length).powersetCard n) : SampleOf groups n (elementsAt groups S) := by
  obtain ⟨h1, h2⟩ := mem_powersetCard.1 hS
  have hm := elementsAt_map_some groups S
  refine ⟨?_, ?_, ?_⟩
  · have := congrArg List.length hm
    rw [List.length_map, List.length_map] at this
    rw [this, ← h2, ← List.toFinset_card_of_nodup (List.Nodup.filter _ List.nodup_range)]
    congr 1
    ext i
    simp only [List.mem_toFinset, List.mem_filter, List.mem_range, decide_eq_true_eq]
    exact ⟨fun h => h.2, fun h => ⟨Finset.mem_range.1 (h1 h), h⟩⟩
  · apply List.Nodup.of_map some
    rw [hm]
    refine List.Nodup.map_on ?_ (List.Nodup.filter _ List.nodup_range)
    intro i hi k hk h
    rw [List.mem_filter, List.mem_range] at hi hk
    rw [List.getElem?_eq_getElem hi.1, List.getElem?_eq_getElem hk.1, Option.some.injEq] at h
    exact (hg.getElem_inj_iff).1 h
  · intro x hx
    have : some x ∈ (elementsAt groups S).map some := List.mem_map.2 ⟨x, hx, rfl⟩
    rw [hm, List.mem_map] at this
    obtain ⟨i, -, hi⟩ := this
    exact List.mem_of_getElem? hi

/-! ## One iteration -/

variable [LinearOrder K]

/-- The iteration of an accepted sample before its metric is known. -/
noncomputable def classified (f : RansacFns K Fit) (groups : List K) (threshold : Dbl) (c : List K) : RansacIteration K :=
  groups.foldl (classifyGroup f threshold (f.fitter c)) ({ candidates := c } : RansacIteration K)

/-- The iteration of an accepted sample. -/
noncomputable def completed (f : RansacFns K Fit) (groups : List K) (threshold : Dbl) (minSize : ℕ) (c : List K) :
    RansacIteration K :=
  if (classified f groups threshold c).consensus.length ≥ minSize then
    { classified f groups threshold c with
      consensusMetricValue := f.consensusMetric (classified f groups threshold c).consensus }
  else classified f groups threshold c

/-- The best iteration after an accepted sample. -/
noncomputable def nextBest (f : RansacFns K Fit) (groups : List K) (threshold : Dbl) (minSize : ℕ)
    (best : RansacIteration K) (c : List K) : RansacIteration K :=
  if (classified f groups threshold c).consensus.length ≥ minSize then
    if best.consensusMetricValue.isNan ||
        decide (f.consensusMetric (classified f groups threshold c).consensus < best.consensusMetricValue) then
      completed f groups threshold minSize c
    else best
  else best

theorem classified_inv (f : RansacFns K Fit) {groups : List K} (hg : groups.Nodup) (threshold : Dbl) (c : List K) :
    ClassifyInv f threshold c groups (classified f groups threshold c) := by
  have h := classify_all (f := f) (threshold := threshold) (cands := c) groups [] ({ candidates := c } : RansacIteration K)
    ⟨rfl, by simp [SMap.keys], by simp, by simp, List.Pairwise.nil, List.Pairwise.nil, rfl⟩ (by simpa using hg)
  rw [List.nil_append] at h
  exact h

theorem mem_classified_consensus {f : RansacFns K Fit} {groups : List K} (hg : groups.Nodup) {threshold : Dbl} {n : ℕ}
    {c : List K} (hc : SampleOf groups n c) :
    (∀ x ∈ c, x ∈ (classified f groups threshold c).consensus) ∧
      ∀ x ∈ (classified f groups threshold c).consensus, x ∈ groups := by
  have h := classified_inv f hg threshold c
  rw [consensus_eq, h.cand]
  refine ⟨fun x hx => List.mem_append_left _ hx, fun x hx => ?_⟩
  rcases List.mem_append.1 hx with hx | hx
  · exact hc.2.2 x hx
  · exact (List.mem_filter.1 (h.parts.mem_iff.1 (List.mem_append_left _ hx))).1

/-- A sample of good groups has all good groups as its consensus. -/
theorem clean_consensus {f : RansacFns K Fit} {groups : List K} (hg : groups.Nodup) {threshold : Dbl} {n minSize : ℕ}
    {good : K → Bool} (hsep : Separates f groups threshold n minSize good) {c : List K} (hc : SampleOf groups n c)
    (hclean : ∀ x ∈ c, good x = true) :
    (classified f groups threshold c).consensus.Perm (groups.filter good) := by
  have h := classified_inv f hg threshold c
  have hnd : ((classified f groups threshold c).inliers.keys ++ (classified f groups threshold c).outliers.keys).Nodup :=
    h.parts.nodup_iff.2 (List.Nodup.filter _ hg)
  rw [consensus_eq, h.cand]
  have hmemI : ∀ x, x ∈ (classified f groups threshold c).inliers.keys ↔ x ∈ groups ∧ x ∉ c ∧ good x = true := by
    intro x
    constructor
    · intro hx
      have hx' := List.mem_filter.1 (h.parts.mem_iff.1 (List.mem_append_left _ hx))
      have hxc : x ∉ c := by simpa using hx'.2
      refine ⟨hx'.1, hxc, ?_⟩
      obtain ⟨⟨k, v⟩, hkv, rfl⟩ := List.mem_map.1 hx
      obtain ⟨hv, hle⟩ := h.inlier k v hkv
      rw [hv] at hle
      exact (hsep.inlier c hc hclean k hx'.1 hxc).1 hle
    · rintro ⟨hxg, hxc, hgx⟩
      have hx : x ∈ (classified f groups threshold c).inliers.keys ++ (classified f groups threshold c).outliers.keys :=
        h.parts.mem_iff.2 (List.mem_filter.2 ⟨hxg, by simpa using hxc⟩)
      rcases List.mem_append.1 hx with hx | hx
      · exact hx
      · obtain ⟨⟨k, v⟩, hkv, rfl⟩ := List.mem_map.1 hx
        obtain ⟨hv, hle⟩ := h.outlier k v hkv
        rw [hv] at hle
        exact absurd ((hsep.inlier c hc hclean k hxg hxc).2 hgx) hle
  rw [List.perm_ext_iff_of_nodup _ (List.Nodup.filter _ hg)]
  · intro x
    rw [List.mem_append, hmemI, List.mem_filter]
    constructor
    · rintro (hx | hx)
      · exact ⟨hc.2.2 x hx, hclean x hx⟩
      · exact ⟨hx.1, hx.2.2⟩
    · rintro ⟨h1, h2⟩
      by_cases hx : x ∈ c
      · exact .inl hx
      · exact .inr ⟨h1, hx, h2⟩
  · rw [List.nodup_append]
    refine ⟨hc.2.1, (List.nodup_append.1 hnd).1, ?_⟩
    rintro a ha b hb rfl
    exact ((hmemI a).1 hb).2.1 ha

/-- What is known of the best iteration: all good groups, or something else that any sample of good groups beats. -/
def BestState (f : RansacFns K Fit) (groups : List K) (good : K → Bool) (clean : Bool) (best : RansacIteration K) : Prop :=
  if clean then best.consensus.Perm (groups.filter good) ∧ best.consensusMetricValue = f.consensusMetric best.consensus
  else ¬ best.consensus.Perm (groups.filter good) ∧ (best.consensusMetricValue = .nan ∨
    ((∀ x ∈ best.consensus, x ∈ groups) ∧ (∃ x ∈ best.consensus, good x = false) ∧
      best.consensusMetricValue = f.consensusMetric best.consensus))

omit [LinearOrder K] in
theorem consensus_update (it : RansacIteration K) (v : Dbl) :
    ({ it with consensusMetricValue := v } : RansacIteration K).consensus = it.consensus := rfl

theorem bestState_clean {f : RansacFns K Fit} {groups : List K} (hg : groups.Nodup) {threshold : Dbl} {n minSize : ℕ}
    {good : K → Bool} (hsep : Separates f groups threshold n minSize good) {c : List K} (hc : SampleOf groups n c)
    (hclean : ∀ x ∈ c, good x = true) {b : Bool} {best : RansacIteration K} (hb : BestState f groups good b best) :
    BestState f groups good true (nextBest f groups threshold minSize best c) := by
  have hp := clean_consensus hg hsep hc hclean
  have hlen : (classified f groups threshold c).consensus.length ≥ minSize := by
    rw [hp.length_eq, ← List.countP_eq_length_filter]
    exact hsep.enough
  have hnew : BestState f groups good true (completed f groups threshold minSize c) := by
    rw [completed, if_pos hlen, BestState, if_pos rfl, consensus_update]
    exact ⟨hp, rfl⟩
  rw [nextBest, if_pos hlen]
  split
  · exact hnew
  · next hno =>
    cases b with
    | true => exact hb
    | false =>
      exfalso
      rw [BestState, if_neg (by simp)] at hb
      simp only [Bool.or_eq_true, Dbl.isNan_iff, decide_eq_true_eq, not_or] at hno
      rcases hb.2 with h | ⟨h1, h2, h3⟩
      · exact hno.1 h
      · rcases hsep.less _ _ hp h1 h2 with h | h
        · exact hno.1 (h3.trans h)
        · exact hno.2 (h3 ▸ h)

theorem Dbl.lt_asymm' {a b : Dbl} (h : a < b) : ¬ b < a := by
  cases a with
  | fin x =>
    cases b with
    | fin y => exact fun h' => absurd (Dbl.fin_lt.1 h') (_root_.not_lt.2 (Dbl.fin_lt.1 h).le)
    | pinf => exact fun h' => h'
    | ninf => exact absurd h (fun h' => h')
    | nan => exact absurd h (fun h' => h')
  | pinf => cases b <;> exact absurd h (fun h' => h')
  | ninf => cases b <;> exact fun h' => h'
  | nan => cases b <;> exact absurd h (fun h' => h')

theorem bestState_tainted {f : RansacFns K Fit} {groups : List K} (hg : groups.Nodup) {threshold : Dbl} {n minSize : ℕ}
    {good : K → Bool} (hsep : Separates f groups threshold n minSize good) {c : List K} (hc : SampleOf groups n c)
    (hbad : ∃ x ∈ c, good x = false) {b : Bool} {best : RansacIteration K} (hb : BestState f groups good b best) :
    BestState f groups good b (nextBest f groups threshold minSize best c) := by
  obtain ⟨hsub, hall⟩ := mem_classified_consensus (f := f) hg (threshold := threshold) hc
  obtain ⟨x, hx, hgx⟩ := hbad
  have hxc := hsub x hx
  rw [nextBest]
  split
  · next hlen =>
    split
    · next hyes =>
      simp only [Bool.or_eq_true, Dbl.isNan_iff, decide_eq_true_eq] at hyes
      cases b with
      | true =>
        exfalso
        rw [BestState, if_pos rfl] at hb
        rcases hyes with h | h
        · exact hsep.number _ hb.1 (hb.2 ▸ h)
        · rw [hb.2] at h
          rcases hsep.less _ _ hb.1 hall ⟨x, hxc, hgx⟩ with h' | h'
          · rw [h'] at h
            cases h2 : f.consensusMetric best.consensus <;> rw [h2] at h <;> exact h
          · exact Dbl.lt_asymm' h h'
      | false =>
        rw [completed, if_pos hlen, BestState, if_neg (by simp), consensus_update]
        refine ⟨fun hp => ?_, .inr ⟨hall, ⟨x, hxc, hgx⟩, rfl⟩⟩
        have := (List.mem_filter.1 (hp.mem_iff.1 hxc)).2
        rw [hgx] at this
        cases this
    · exact hb
  · exact hb

/-! ## The loop -/

/-- One step of the loop, as far as success is concerned. -/
theorem loop_step (f : RansacFns K Fit) (groups : List K) (sample : List ℕ → Outcome (List K × List ℕ)) (threshold : Dbl)
    (minSize maxIterations maxFailed i failed : ℕ) (hi : i < maxIterations) (best : RansacIteration K)
    (its : List (RansacIteration K)) (good : K → Bool) (raw : List ℕ) :
    FoundGood groups good (ransacLoop f groups sample threshold minSize maxIterations maxFailed i failed raw best its) ↔
      ∃ c rest, sample raw = .ok (c, rest) ∧
        if f.isValidCandidate c then
          FoundGood groups good (ransacLoop f groups sample threshold minSize maxIterations maxFailed (i + 1) failed rest
            (nextBest f groups threshold minSize best c) (its ++ [completed f groups threshold minSize c]))
        else if failed + 1 ≥ maxFailed then False
        else
          FoundGood groups good (ransacLoop f groups sample threshold minSize maxIterations maxFailed i (failed + 1) rest
            best (its ++ [{ candidates := c }])) := by
  rw [ransacLoop, if_pos hi]
  cases hs : sample raw with
  | error e =>
    simp only
    constructor
    · rintro ⟨out, h, -⟩; cases h
    · rintro ⟨c, rest, h, -⟩; cases h
  | ok r =>
    obtain ⟨c, rest⟩ := r
    simp only
    have hex : ∀ P : List K → List ℕ → Prop, (∃ c' rest', (Except.ok (c, rest) : Outcome (List K × List ℕ)) =
        .ok (c', rest') ∧ P c' rest') ↔ P c rest := by
      intro P
      constructor
      · rintro ⟨c', rest', h, hP⟩; cases h; exact hP
      · intro h; exact ⟨c, rest, rfl, h⟩
    rw [hex]
    cases hv : f.isValidCandidate c with
    | false =>
      simp only [Bool.not_false, if_true, Bool.false_eq_true, if_false]
      split
      · constructor
        · rintro ⟨out, h, h2, -⟩; cases h; cases h2
        · exact False.elim
      · exact Iff.rfl
    | true =>
      simp only [Bool.not_true, Bool.false_eq_true, if_false, if_true]
      change FoundGood groups good (if (classified f groups threshold c).consensus.length ≥ minSize then _ else _) ↔ _
      rw [nextBest, completed]
      by_cases hlen : (classified f groups threshold c).consensus.length ≥ minSize
      · simp only [if_pos hlen]
        exact Iff.rfl
      · simp only [if_neg hlen]
        exact Iff.rfl

theorem loop_end (f : RansacFns K Fit) (groups : List K) (sample : List ℕ → Outcome (List K × List ℕ)) (threshold : Dbl)
    (minSize maxIterations maxFailed i failed : ℕ) (hi : maxIterations ≤ i) (best : RansacIteration K)
    (its : List (RansacIteration K)) (good : K → Bool) (hgood : groups.filter good ≠ []) (clean : Bool)
    (hb : BestState f groups good clean best) (raw : List ℕ) :
    FoundGood groups good (ransacLoop f groups sample threshold minSize maxIterations maxFailed i failed raw best its) ↔
      clean = true := by
  rw [ransacLoop, if_neg (by omega)]
  cases clean with
  | true =>
    rw [BestState, if_pos rfl] at hb
    have hne : best.consensus.length ≠ 0 := by
      rw [hb.1.length_eq]
      exact fun h => hgood (List.length_eq_zero_iff.1 h)
    rw [if_pos hne]
    exact ⟨fun _ => rfl, fun _ => ⟨_, rfl, rfl, hb.1⟩⟩
  | false =>
    rw [BestState, if_neg (by simp)] at hb
    simp only [Bool.false_eq_true, iff_false]
    rintro ⟨out, h1, -, h3⟩
    split at h1 <;> cases h1 <;> exact hb.1 h3

/-- The sum over all samples, by kind. -/
theorem sum_kinds {α : Type} (xs : List α) {n : ℕ} (hn : n ≤ xs.length) (good : α → Bool) (valid : List α → Bool)
    (hv : ∀ S ∈ (range xs.length).powersetCard n, (∀ x ∈ elementsAt xs S, good x = true) → valid (elementsAt xs S) = true)
    (p a d e : ℝ) (lim : Finset ℕ → ℝ)
    (hlim : ∀ S ∈ (range xs.length).powersetCard n, lim S = p * (xs.length.choose n : ℝ)⁻¹ *
      if valid (elementsAt xs S) = false then e else
        open Classical in if ∀ x ∈ elementsAt xs S, good x = true then a else d) :
    ∑ S ∈ (range xs.length).powersetCard n, lim S =
      p * (sampleFraction xs n (fun c => ∀ x ∈ c, good x = true) * a +
        sampleFraction xs n (fun c => valid c = true ∧ ∃ x ∈ c, good x = false) * d +
        sampleFraction xs n (fun c => valid c = false) * e) := by
  classical
  have hpos : (0 : ℝ) < xs.length.choose n := by exact_mod_cast Nat.choose_pos hn
  have hsplit : ∀ S ∈ (range xs.length).powersetCard n, lim S = p * (xs.length.choose n : ℝ)⁻¹ *
      (((if ∀ x ∈ elementsAt xs S, good x = true then 1 else 0) * a +
        (if valid (elementsAt xs S) = true ∧ ∃ x ∈ elementsAt xs S, good x = false then 1 else 0) * d) +
        (if valid (elementsAt xs S) = false then 1 else 0) * e) := by
    intro S hS
    rw [hlim S hS]
    congr 1
    by_cases hc : ∀ x ∈ elementsAt xs S, good x = true
    · have h1 := hv S hS hc
      have h2 : ¬ ∃ x ∈ elementsAt xs S, good x = false := by
        rintro ⟨x, hx, h⟩
        rw [hc x hx] at h
        cases h
      rw [if_neg (by rw [h1]; simp), if_pos hc, if_pos hc, if_neg (fun h => h2 h.2), if_neg (by rw [h1]; simp)]
      ring
    · have h2 : ∃ x ∈ elementsAt xs S, good x = false := by
        by_contra h
        exact hc fun x hx => by
          by_contra h'
          exact h ⟨x, hx, by simpa using h'⟩
      rw [if_neg hc, if_neg hc]
      cases h1 : valid (elementsAt xs S) with
      | false =>
        rw [if_pos rfl, if_neg (by simp), if_pos rfl]
        ring
      | true =>
        rw [if_neg (by simp), if_pos ⟨rfl, h2⟩, if_neg (by simp)]
        ring
  rw [sum_congr rfl hsplit, ← mul_sum, sum_add_distrib, sum_add_distrib, ← sum_mul, ← sum_mul, ← sum_mul]
  simp only [sampleFraction, Finset.sum_boole]
  field_simp

/-- What has to happen after a sample. -/
def NextFound (M : ℕ) (b : Build) (u : UniformInt) (f : RansacFns K Fit) (groups : List K) (threshold : Dbl)
    (n minSize maxIterations maxFailed i failed : ℕ) (best : RansacIteration K) (its : List (RansacIteration K))
    (good : K → Bool) (S : Finset ℕ) (rest : List ℕ) : Prop :=
  if f.isValidCandidate (elementsAt groups S) then
    FoundGood groups good (ransacLoop f groups (randomWithoutReplacementRest M b u groups n) threshold minSize
      maxIterations maxFailed (i + 1) failed rest (nextBest f groups threshold minSize best (elementsAt groups S))
      (its ++ [completed f groups threshold minSize (elementsAt groups S)]))
  else if failed + 1 ≥ maxFailed then False
  else
    FoundGood groups good (ransacLoop f groups (randomWithoutReplacementRest M b u groups n) threshold minSize
      maxIterations maxFailed i (failed + 1) rest best (its ++ [{ candidates := elementsAt groups S }]))

theorem tendsto_loop {M : ℕ} {b : Build} {u : UniformInt} {Kr : ℕ} {f : RansacFns K Fit} {groups : List K}
    (hg : groups.Nodup) {threshold : Dbl} {n minSize maxIterations maxFailed : ℕ} {good : K → Bool}
    (hsep : Separates f groups threshold n minSize good) (hgood : groups.filter good ≠ []) (h0 : 0 < groups.length)
    (hM : groups.length < M) (hn : n ≤ groups.length) (hK : 0 < Kr) (hfair : IsFair u Kr 0 (groups.length - 1)) :
    ∀ (m i failed : ℕ) (best : RansacIteration K) (its : List (RansacIteration K)) (clean : Bool) (Ss : List (Finset ℕ)),
      (maxIterations - i) + (maxFailed - failed) = m → i ≤ maxIterations → BestState f groups good clean best →
      (∀ S ∈ Ss, S ∈ (range groups.length).powersetCard n) →
      Tendsto (fun L => probability Kr L (after (randintWithoutReplacement M b u n 0 (groups.length - 1)) Ss fun raw =>
        FoundGood groups good (ransacLoop f groups (randomWithoutReplacementRest M b u groups n) threshold minSize
          maxIterations maxFailed i failed raw best its))) atTop
        (𝓝 (((groups.length.choose n : ℝ)⁻¹) ^ Ss.length *
          winProb (sampleFraction groups n fun c => ∀ x ∈ c, good x = true)
            (sampleFraction groups n fun c => f.isValidCandidate c = true ∧ ∃ x ∈ c, good x = false)
            (sampleFraction groups n fun c => f.isValidCandidate c = false) (maxIterations - i) (maxFailed - failed)
            clean)) := by
  intro m
  induction m using Nat.strong_induction_on with
  | _ m ih =>
  intro i failed best its clean Ss hm hi hb hSs
  rcases Nat.lt_or_ge i maxIterations with hlt | hge
  · set q := sampleFraction groups n fun c => ∀ x ∈ c, good x = true with hq
    set s := sampleFraction groups n fun c => f.isValidCandidate c = true ∧ ∃ x ∈ c, good x = false with hs
    set r := sampleFraction groups n fun c => f.isValidCandidate c = false with hr
    set Cn : ℝ := (groups.length.choose n : ℝ)⁻¹ with hCn
    obtain ⟨t, ht⟩ : ∃ t, maxIterations - i = t + 1 := ⟨maxIterations - i - 1, by omega⟩
    have hstep : ∀ raw, FoundGood groups good (ransacLoop f groups (randomWithoutReplacementRest M b u groups n) threshold
        minSize maxIterations maxFailed i failed raw best its) ↔
        ∃ p rest, randintWithoutReplacement M b u n 0 (groups.length - 1) raw = .ok (p, rest) ∧
          NextFound M b u f groups threshold n minSize maxIterations maxFailed i failed best its good
          p.toFinset rest := by
      intro raw
      rw [loop_step f groups _ threshold minSize maxIterations maxFailed i failed hlt best its good raw]
      constructor
      · rintro ⟨c, rest, h1, h2⟩
        obtain ⟨p, h3, rfl⟩ := (randomRest_iff M b u groups n h0 hM hn raw c rest).1 h1
        exact ⟨p, rest, h3, h2⟩
      · rintro ⟨p, rest, h1, h2⟩
        exact ⟨_, rest, (randomRest_iff M b u groups n h0 hM hn raw _ rest).2 ⟨p, h1, rfl⟩, h2⟩
    have key := tendsto_after_step (K := Kr) (b := b) (u := u) h0 hM hn
      (R := NextFound M b u f groups threshold n minSize maxIterations maxFailed i failed best its good) hstep Ss (fun S => Cn ^ Ss.length * Cn *
      if f.isValidCandidate (elementsAt groups S) = false then
        (if maxFailed - failed ≤ 1 then 0 else winProb q s r (t + 1) (maxFailed - failed - 1) clean) else
        open Classical in if ∀ x ∈ elementsAt groups S, good x = true then winProb q s r t (maxFailed - failed) true
          else winProb q s r t (maxFailed - failed) clean) ?_
    · rw [sum_kinds groups hn good f.isValidCandidate
        (fun S hS hc => hsep.valid _ (sampleOf_elementsAt hg hS) hc) (Cn ^ Ss.length)
        (winProb q s r t (maxFailed - failed) true) (winProb q s r t (maxFailed - failed) clean)
        (if maxFailed - failed ≤ 1 then 0 else winProb q s r (t + 1) (maxFailed - failed - 1) clean) _
        (fun S hS => rfl)] at key
      rw [ht, winProb_step]
      exact key
    · intro S hS
      have hSs' : ∀ T ∈ Ss ++ [S], T ∈ (range groups.length).powersetCard n := by
        intro T hT
        rcases List.mem_append.1 hT with h | h
        · exact hSs T h
        · rw [List.mem_singleton.1 h]; exact hS
      have hlen : (Ss ++ [S]).length = Ss.length + 1 := by simp
      have hsm := sampleOf_elementsAt hg hS
      cases hv : f.isValidCandidate (elementsAt groups S) with
      | false =>
        simp only [if_true]
        by_cases hF : failed + 1 ≥ maxFailed
        · have hnext : NextFound M b u f groups threshold n minSize maxIterations maxFailed i failed best its good S =
              fun _ => False := by
            funext rest
            rw [NextFound, hv, if_neg (by simp), if_pos hF]
          simp only [hnext, if_pos (show maxFailed - failed ≤ 1 by omega), mul_zero]
          refine tendsto_const_nhds.congr fun L => ?_
          rw [probability_eq, countRaw_congr (Q := fun _ => False) fun raw _ _ =>
            ⟨fun h => after_false _ _ raw h, False.elim⟩, countRaw_false]
          simp
        · have hnext : NextFound M b u f groups threshold n minSize maxIterations maxFailed i failed best its good S =
              fun rest => FoundGood groups good (ransacLoop f groups (randomWithoutReplacementRest M b u groups n) threshold
                minSize maxIterations maxFailed i (failed + 1) rest best (its ++ [{ candidates := elementsAt groups S }])) := by
            funext rest
            rw [NextFound, hv, if_neg (by simp), if_neg hF]
          simp only [hnext, if_neg (show ¬ maxFailed - failed ≤ 1 by omega)]
          have := ih _ (by omega) i (failed + 1) best (its ++ [{ candidates := elementsAt groups S }]) clean (Ss ++ [S]) rfl
            hi hb hSs'
          rw [hlen, pow_succ, ht, ← Nat.sub_sub] at this
          exact this
      | true =>
        have hnext : NextFound M b u f groups threshold n minSize maxIterations maxFailed i failed best its good S =
            fun rest => FoundGood groups good (ransacLoop f groups (randomWithoutReplacementRest M b u groups n) threshold
              minSize maxIterations maxFailed (i + 1) failed rest
              (nextBest f groups threshold minSize best (elementsAt groups S))
              (its ++ [completed f groups threshold minSize (elementsAt groups S)])) := by
          funext rest
          rw [NextFound, hv, if_pos rfl]
        simp only [hnext, Bool.true_eq_false, if_false]
        by_cases hc : ∀ x ∈ elementsAt groups S, good x = true
        · simp only [if_pos hc]
          have := ih _ (by omega) (i + 1) failed (nextBest f groups threshold minSize best (elementsAt groups S))
            (its ++ [completed f groups threshold minSize (elementsAt groups S)]) true (Ss ++ [S]) rfl hlt
            (bestState_clean hg hsep hsm hc hb) hSs'
          rw [hlen, pow_succ, show maxIterations - (i + 1) = t by omega] at this
          exact this
        · simp only [if_neg hc]
          have hbad : ∃ x ∈ elementsAt groups S, good x = false := by
            by_contra h
            exact hc fun x hx => by
              by_contra h'
              exact h ⟨x, hx, by simpa using h'⟩
          have := ih _ (by omega) (i + 1) failed (nextBest f groups threshold minSize best (elementsAt groups S))
            (its ++ [completed f groups threshold minSize (elementsAt groups S)]) clean (Ss ++ [S]) rfl hlt
            (bestState_tainted hg hsep hsm hbad hb) hSs'
          rw [hlen, pow_succ, show maxIterations - (i + 1) = t by omega] at this
          exact this
  · rw [show maxIterations - i = 0 by omega, winProb_zero]
    cases clean with
    | true =>
      rw [if_pos rfl, mul_one]
      refine (tendsto_after_true (b := b) h0 hM hn hK hfair Ss hSs).congr fun L => ?_
      rw [probability_eq, probability_eq]
      congr 2
      refine countRaw_congr fun raw _ _ => after_congr (fun raw => ?_) Ss raw
      rw [loop_end f groups _ threshold minSize maxIterations maxFailed i failed hge best its good hgood true hb raw]
      simp
    | false =>
      rw [if_neg (by simp), mul_zero]
      refine tendsto_const_nhds.congr fun L => ?_
      rw [probability_eq, countRaw_congr (Q := fun _ => False) fun raw _ _ => ?_, countRaw_false]
      · simp
      · refine ⟨fun h => after_false _ Ss raw ((after_congr (fun raw => ?_) Ss raw).1 h), False.elim⟩
        rw [loop_end f groups _ threshold minSize maxIterations maxFailed i failed hge best its good hgood false hb raw]
        simp

theorem sampleFraction_good {α : Type} (xs : List α) (n : ℕ) (good : α → Bool) :
    sampleFraction xs n (fun c => ∀ x ∈ c, good x = true) =
      ((xs.countP good).choose n : ℝ) / (xs.length.choose n : ℝ) := by
  classical
  unfold sampleFraction
  rw [← card_goodPositions, ← card_powersetCard]
  congr 3
  ext S
  simp only [mem_filter, mem_powersetCard, elementsAt, List.mem_filterMap, List.mem_range]
  constructor
  · rintro ⟨⟨h1, h2⟩, h3⟩
    refine ⟨fun i hi => ?_, h2⟩
    have hi' := Finset.mem_range.1 (h1 hi)
    rw [goodPositions, mem_filter]
    refine ⟨h1 hi, ?_⟩
    rw [List.getElem?_eq_getElem hi', Option.any_some]
    exact h3 _ ⟨i, hi', by rw [if_pos hi, List.getElem?_eq_getElem hi']⟩
  · rintro ⟨h1, h2⟩
    refine ⟨⟨fun i hi => (mem_filter.1 (h1 hi)).1, h2⟩, ?_⟩
    rintro x ⟨i, hi, hx⟩
    by_cases hS : i ∈ S
    · rw [if_pos hS] at hx
      have := (mem_filter.1 (h1 hS)).2
      rw [hx, Option.any_some] at this
      exact this
    · rw [if_neg hS] at hx
      cases hx

/-! ## C122 -/

/-- **C122.**  The probability that `ransac` succeeds with exactly the good groups as its consensus.  A sample consists of
good groups with probability `q = C(g, n) / C(N, n)`, it is accepted but has another group in it with probability `s` and
rejected with probability `r`; the loop has to see the accepted samples it was asked for before too many are rejected,
and one of them has to be a sample of good groups. -/
theorem C122_probability (M : ℕ) (b : Build) (u : UniformInt) (Kr : ℕ) (f : RansacFns K Fit) (groups : List K)
    (hg : groups.Nodup) (threshold : Dbl) (n minSize maxIterations maxFailed : ℕ) (good : K → Bool)
    (hargs : ¬ RansacInvalidArguments groups.length n minSize maxIterations)
    (hsep : Separates f groups threshold n minSize good) (hM : groups.length < M) (hK : 0 < Kr)
    (hfair : IsFair u Kr 0 (groups.length - 1)) :
    Tendsto (fun L => probability Kr L fun raw =>
        FoundGood groups good (ransac M b u f groups raw threshold n minSize maxIterations maxFailed)) atTop
      (𝓝 (((((groups.countP good).choose n : ℝ) / (groups.length.choose n : ℝ) +
            sampleFraction groups n fun c => f.isValidCandidate c = true ∧ ∃ x ∈ c, good x = false) ^ maxIterations -
          (sampleFraction groups n fun c => f.isValidCandidate c = true ∧ ∃ x ∈ c, good x = false) ^ maxIterations) *
        ∑ e ∈ range (max 1 maxFailed), ((maxIterations + e - 1).choose e : ℝ) *
          (sampleFraction groups n fun c => f.isValidCandidate c = false) ^ e)) := by
  have hargs' : ¬ (minSize ≥ groups.length ∨ minSize < n ∨ n ≥ groups.length ∨ n ≤ 0 ∨ maxIterations ≤ 0) := by
    unfold RansacInvalidArguments at hargs
    omega
  have hgood : groups.filter good ≠ [] := by
    intro h
    have := hsep.enough
    rw [List.countP_eq_length_filter, h, List.length_nil] at this
    omega
  have hbest : BestState f groups good false ({} : RansacIteration K) := by
    rw [BestState, if_neg (by simp)]
    refine ⟨fun h => hgood ?_, .inl rfl⟩
    exact (List.nil_perm.1 h)
  have h := tendsto_loop (b := b) hg hsep hgood (maxIterations := maxIterations) (maxFailed := maxFailed) (by omega) hM
    (by omega) hK hfair _ 0 0 {} [] false [] rfl (by omega) hbest (by simp)
  rw [List.length_nil, pow_zero, one_mul, winProb, if_neg (by simp), acceptedFirst, acceptedFirst, ← sub_mul,
    sampleFraction_good, Nat.sub_zero, Nat.sub_zero] at h
  refine h.congr fun L => ?_
  rw [probability_eq, probability_eq]
  congr 2
  refine countRaw_congr fun raw _ _ => ?_
  rw [ransac, ransacWith, if_neg hargs']
  exact Iff.rfl

theorem sampleFraction_false {α : Type} (xs : List α) (n : ℕ) {P : List α → Prop} (h : ∀ c, ¬ P c) :
    sampleFraction xs n P = 0 := by
  classical
  unfold sampleFraction
  rw [filter_false_of_mem (p := fun S => P (elementsAt xs S)) fun S _ => h _]
  simp

theorem sampleFraction_not {α : Type} (xs : List α) {n : ℕ} (hn : n ≤ xs.length) (P : List α → Prop) :
    sampleFraction xs n (fun c => ¬ P c) = 1 - sampleFraction xs n P := by
  classical
  have hpos : (0 : ℝ) < xs.length.choose n := by exact_mod_cast Nat.choose_pos hn
  have h := card_filter_add_card_filter_not (s := (range xs.length).powersetCard n) (fun S => P (elementsAt xs S))
  rw [card_powersetCard, card_range] at h
  unfold sampleFraction
  rw [eq_sub_iff_add_eq, ← add_div, div_eq_one_iff_eq hpos.ne', add_comm, ← Nat.cast_add]
  rw [← h]
  congr 3
  ext S
  simp only [mem_filter]

/-- **C122.**  When every sample is accepted, which is the default, `ransac` finds the good groups with probability
`1 - (1 - C(g, n) / C(N, n)) ^ maxIterations`. -/
theorem C122_textbook (M : ℕ) (b : Build) (u : UniformInt) (Kr : ℕ) (f : RansacFns K Fit) (groups : List K)
    (hg : groups.Nodup) (threshold : Dbl) (n minSize maxIterations maxFailed : ℕ) (good : K → Bool)
    (hargs : ¬ RansacInvalidArguments groups.length n minSize maxIterations)
    (hsep : Separates f groups threshold n minSize good) (haccept : ∀ c, f.isValidCandidate c = true)
    (hM : groups.length < M) (hK : 0 < Kr) (hfair : IsFair u Kr 0 (groups.length - 1)) :
    Tendsto (fun L => probability Kr L fun raw =>
        FoundGood groups good (ransac M b u f groups raw threshold n minSize maxIterations maxFailed)) atTop
      (𝓝 (1 - (1 - ((groups.countP good).choose n : ℝ) / (groups.length.choose n : ℝ)) ^ maxIterations)) := by
  have h := C122_probability M b u Kr f groups hg threshold n minSize maxIterations maxFailed good hargs hsep hM hK hfair
  have hn : n ≤ groups.length := by
    unfold RansacInvalidArguments at hargs
    omega
  have h1 : sampleFraction groups n (fun c => f.isValidCandidate c = true ∧ ∃ x ∈ c, good x = false) =
      1 - ((groups.countP good).choose n : ℝ) / (groups.length.choose n : ℝ) := by
    rw [← sampleFraction_good, ← sampleFraction_not groups hn]
    congr 1
    funext c
    simp [haccept c]
  have h2 : sampleFraction groups n (fun c => f.isValidCandidate c = false) = 0 :=
    sampleFraction_false _ _ fun c => by simp [haccept c]
  have h3 : ∑ e ∈ range (max 1 maxFailed), ((maxIterations + e - 1).choose e : ℝ) * (0 : ℝ) ^ e = 1 := by
    rw [sum_eq_single_of_mem 0 (Finset.mem_range.2 (by omega))]
    · simp
    · intro e _ he
      rw [zero_pow he, mul_zero]
  rw [h1, h2, h3, mul_one, add_sub_cancel, one_pow] at h
  exact h

/-- **C122.**  The usual number of iterations is enough: with at least `log (1 - p) / log (1 - q)` of them the good groups
are found with probability `p` or more. -/
theorem C122_iterations (M : ℕ) (b : Build) (u : UniformInt) (Kr : ℕ) (f : RansacFns K Fit) (groups : List K)
    (hg : groups.Nodup) (threshold : Dbl) (n minSize maxIterations maxFailed : ℕ) (good : K → Bool)
    (hargs : ¬ RansacInvalidArguments groups.length n minSize maxIterations)
    (hsep : Separates f groups threshold n minSize good) (haccept : ∀ c, f.isValidCandidate c = true)
    (hM : groups.length < M) (hK : 0 < Kr) (hfair : IsFair u Kr 0 (groups.length - 1)) (p q : ℝ) (hp : p < 1)
    (hq : q = ((groups.countP good).choose n : ℝ) / (groups.length.choose n : ℝ)) (hq1 : q < 1)
    (hN : Real.log (1 - p) / Real.log (1 - q) ≤ maxIterations) :
    ∃ l, p ≤ l ∧ Tendsto (fun L => probability Kr L fun raw =>
        FoundGood groups good (ransac M b u f groups raw threshold n minSize maxIterations maxFailed)) atTop (𝓝 l) := by
  refine ⟨_, ?_, C122_textbook M b u Kr f groups hg threshold n minSize maxIterations maxFailed good hargs hsep haccept
    hM hK hfair⟩
  rw [← hq]
  have hargs' : n ≤ groups.countP good ∧ n ≤ groups.length := by
    have := hsep.enough
    unfold RansacInvalidArguments at hargs
    omega
  have hq0 : 0 < q := by
    rw [hq]
    have h1 := Nat.choose_pos hargs'.1
    have h2 := Nat.choose_pos hargs'.2
    positivity
  have hlog : Real.log (1 - q) < 0 := Real.log_neg (by linarith) (by linarith)
  rw [div_le_iff_of_neg hlog] at hN
  have h1 : Real.log ((1 - q) ^ maxIterations) ≤ Real.log (1 - p) := by
    rw [Real.log_pow]
    exact hN
  have h2 : (1 - q) ^ maxIterations ≤ 1 - p :=
    (Real.log_le_log_iff (pow_pos (by linarith) _) (by linarith)).1 h1
  linarith

/-! ## Example -/

/-- Groups are numbers; the fit is the excess over six of the first candidate, an inlier has the same excess, and the metric is
the sum of the excesses. -/
noncomputable def excessFns (valid : List ℕ → Bool) : RansacFns ℕ ℕ where
  fitter c := (c.map fun x => x - 6).sum
  inlierMetric g fit := if g - 6 = fit then .fin 0 else .fin 1
  consensusMetric l := .fin ((l.map fun x => x - 6).sum : ℕ)
  isValidCandidate := valid

theorem excess_zero (l : List ℕ) : (l.map fun x => x - 6).sum = 0 ↔ ∀ x ∈ l, decide (x < 7) = true := by
  rw [List.sum_eq_zero_iff]
  simp only [List.mem_map, forall_exists_index, and_imp, forall_apply_eq_imp_iff₂, decide_eq_true_eq]
  exact forall₂_congr fun x _ => by omega

theorem excess_separates (valid : List ℕ → Bool) (hv : ∀ c, (∀ x ∈ c, x < 7) → valid c = true) :
    Separates (excessFns valid) [0, 1, 2, 3, 4, 5, 6, 7, 8, 9] (.fin 0) 2 4 (fun x => decide (x < 7)) where
  valid c _ h := hv c fun x hx => by simpa using h x hx
  inlier c _ h g _ _ := by
    have h0 := (excess_zero c).2 h
    simp only [excessFns, h0, decide_eq_true_eq]
    split
    · next h1 => simp only [Dbl.fin_le, le_refl, true_iff]; omega
    · next h1 => simp only [Dbl.fin_le]; constructor <;> intro h2 <;> first | (exfalso; linarith) | omega
  enough := by decide
  number l _ := by simp [excessFns]
  less l l' hl _ hbad := by
    right
    have h0 : (l.map fun x => x - 6).sum = 0 := by
      rw [excess_zero]
      intro x hx
      exact (List.mem_filter.1 (hl.mem_iff.1 hx)).2
    have h1 : (l'.map fun x => x - 6).sum ≠ 0 := by
      rw [Ne, excess_zero]
      obtain ⟨x, hx, hb⟩ := hbad
      intro h
      rw [h x hx] at hb
      cases hb
    simp only [excessFns, h0, Nat.cast_zero, Dbl.fin_lt]
    exact_mod_cast Nat.pos_of_ne_zero h1

/-- Ten groups, seven of them good, samples of two: three iterations find the good ones with probability tending to
`1 - (8 / 15) ^ 3`. -/
example : Tendsto (fun L => probability 10 L fun raw => FoundGood [0, 1, 2, 3, 4, 5, 6, 7, 8, 9] (fun x => decide (x < 7))
      (ransac (2 ^ 64) .debug modUniform (excessFns fun _ => true) [0, 1, 2, 3, 4, 5, 6, 7, 8, 9] raw (.fin 0) 2 4 3 3)) atTop
    (𝓝 (1 - (8 / 15) ^ 3)) := by
  have h := C122_textbook (2 ^ 64) .debug modUniform 10 (excessFns fun _ => true) [0, 1, 2, 3, 4, 5, 6, 7, 8, 9]
    (by decide) (.fin 0) 2 4 3 3 (fun x => decide (x < 7)) (by unfold RansacInvalidArguments; decide)
    (excess_separates _ fun _ _ => rfl) (fun _ => rfl) (by norm_num) (by norm_num) (modUniform_fair 0 9 1 (by norm_num))
  convert h using 2
  rw [show List.countP (fun x => decide (x < 7)) [0, 1, 2, 3, 4, 5, 6, 7, 8, 9] = 7 by decide]
  norm_num [Nat.choose]

/-- The hypotheses of the general form are met when samples with the group 9 are rejected. -/
example : Separates (excessFns fun c => !c.contains 9) [0, 1, 2, 3, 4, 5, 6, 7, 8, 9] (.fin 0) 2 4
    (fun x => decide (x < 7)) :=
  excess_separates _ fun c hc => by
    simp only [Bool.not_eq_true', List.contains_eq_mem, decide_eq_false_iff_not]
    intro h
    have := hc 9 h
    omega

end Albatross
