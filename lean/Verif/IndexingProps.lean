import Verif.IndexingLemmas
import Mathlib.Data.List.ProdSigma
import Mathlib.Tactic.Ring
import Mathlib.Tactic.Linarith

/-! # Properties C01, C02, C03, C06, C07, C08: grouping and subsetting -/

namespace Albatross

variable {α β F R K : Type}

/-! ## C01 -/

/-- C01. The indexer built by `group_by` is an ordered map; the indices stored under a key are
exactly the positions with that key, in increasing order; and every position is stored under exactly
one key. -/
theorem C01_group_by_partitions [LinearOrder K] (g : α → K) (xs : List α) :
    SMap.WF (buildIndexer g xs) ∧
    (∀ k is, (buildIndexer g xs).find? k = some is →
      is ≠ [] ∧ is.Pairwise (· < ·) ∧ ∀ i, i ∈ is ↔ ∃ x, xs[i]? = some x ∧ g x = k) ∧
    (∀ i, i < xs.length → ∃! k, ∃ is, (buildIndexer g xs).find? k = some is ∧ i ∈ is) := by
  have hf : ∀ k, (buildIndexer g xs).find? k =
      if positions 0 (xs.map g) k = [] then none else some (positions 0 (xs.map g) k) := by
    intro k
    rw [buildIndexer_eq, find?_buildKeys _ _ _ SMap.wf_nil]
    simp [SMap.find?]
  have hm : ∀ k i, i ∈ positions 0 (xs.map g) k ↔ ∃ x, xs[i]? = some x ∧ g x = k := by
    intro k i
    rw [mem_positions]
    simp
  refine ⟨by rw [buildIndexer_eq]; exact wf_buildKeys _ _ _ SMap.wf_nil, ?_, ?_⟩
  · intro k is h
    rw [hf] at h
    split at h
    · simp at h
    · next hne =>
      simp only [Option.some.injEq] at h
      subst h
      exact ⟨hne, positions_sorted _ _ _, fun i => hm k i⟩
  · intro i hi
    have hx : xs[i]? = some xs[i] := by simp [hi]
    have hmem : i ∈ positions 0 (xs.map g) (g xs[i]) := (hm _ _).2 ⟨_, hx, rfl⟩
    refine ⟨g xs[i], ⟨_, ?_, hmem⟩, ?_⟩
    · rw [hf, if_neg (List.ne_nil_of_mem hmem)]
    · rintro k ⟨is, h1, h2⟩
      rw [hf] at h1
      split at h1
      · simp at h1
      · simp only [Option.some.injEq] at h1
        subst h1
        obtain ⟨x, h3, h4⟩ := (hm _ _).1 h2
        rw [hx] at h3
        cases h3
        exact h4.symm

example : buildIndexer (fun s : Nat => s % 3) [7, 3, 4, 5, 9] = [(0, [1, 4]), (1, [0, 2]), (2, [3])] := by
  decide

/-! ## C02 -/

/-- C02 (vectors). `groups()` succeeds and holds, for each key, exactly the elements with that key
in input order. -/
theorem C02_groups [LinearOrder K] (b : Build) (g : α → K) (xs : List α) :
    ∃ m, groups b g xs = .ok m ∧ SMap.WF m ∧
      ∀ k, m.find? k =
        if (∃ x ∈ xs, g x = k) then some (xs.filter fun x => decide (g x = k)) else none := by
  have hw : SMap.WF (buildIndexer g xs) := (C01_group_by_partitions g xs).1
  refine ⟨_, groupsOf_ok (subset b xs) (fun is => is.filterMap (xs[·]?)) _ hw
    (fun kv hkv => subset_ok b xs kv.2 (buildIndexer_index_lt g xs hkv)),
    SMap.wf_map_values (fun kv : K × List Nat => kv.2.filterMap (xs[·]?)) hw, fun k => ?_⟩
  rw [SMap.find?_map_values _ fun kv : K × List Nat => kv.2.filterMap (xs[·]?)]
  have hp : (positions 0 (xs.map g) k).filterMap (xs[·]?) = xs.filter fun x => decide (g x = k) := by
    simpa using filterMap_positions g [] xs k
  rw [buildIndexer_eq, find?_buildKeys _ _ _ SMap.wf_nil]
  have hiff : positions 0 (xs.map g) k = [] ↔ ¬ ∃ x ∈ xs, g x = k := by
    rw [List.eq_nil_iff_forall_not_mem]
    simp only [mem_positions]
    constructor
    · rintro h ⟨x, hx, e⟩
      obtain ⟨i, hi⟩ := List.mem_iff_getElem?.1 hx
      exact h i ⟨i, by simp, by simp [hi, e]⟩
    · rintro h i ⟨m, -, hm⟩
      simp only [List.getElem?_map, Option.map_eq_some_iff] at hm
      obtain ⟨x, hx, e⟩ := hm
      exact h ⟨x, List.mem_of_getElem? hx, e⟩
  by_cases h : ∃ x ∈ xs, g x = k
  · have : positions 0 (xs.map g) k ≠ [] := fun e => hiff.1 e h
    rw [if_pos h, if_neg this]
    simp [SMap.find?, hp]
  · rw [if_neg h, if_pos (hiff.2 h)]
    simp [SMap.find?]

/-- C02. `get_group(k)` returns the elements with key `k`, or throws when there are none. -/
theorem C02_get_group [LinearOrder K] (b : Build) (g : α → K) (xs : List α) (k : K) :
    getGroup b g xs k =
      if (∃ x ∈ xs, g x = k) then .ok (xs.filter fun x => decide (g x = k))
      else .error .thrown := by
  obtain ⟨m, hm, hw, hf⟩ := C02_groups b g xs
  have hwi : SMap.WF (buildIndexer g xs) := (C01_group_by_partitions g xs).1
  have e := groupsOf_ok (subset b xs) (fun is => is.filterMap (xs[·]?)) _ hwi
    (fun kv hkv => subset_ok b xs kv.2 (buildIndexer_index_lt g xs hkv))
  unfold groups at hm
  rw [e] at hm
  cases hm
  have := hf k
  rw [SMap.find?_map_values _ fun kv : K × List Nat => kv.2.filterMap (xs[·]?)] at this
  unfold getGroup SMap.at?
  cases hi : (buildIndexer g xs).find? k with
  | none =>
    rw [hi] at this
    split at this
    · simp at this
    · next h => simp [h]
  | some is =>
    rw [hi] at this
    split at this
    · next h =>
      simp only [Option.map_some, Option.some.injEq] at this
      simp only [h, except_ok_bind, if_true]
      rw [subset_ok b xs is (buildIndexer_index_lt g xs (SMap.mem_of_find? hi)), this]
    · simp at this

/-- C02. `counts()` gives the group sizes, and they add up to the number of elements. -/
theorem C02_counts [LinearOrder K] (g : α → K) (xs : List α) :
    SMap.WF (counts g xs) ∧ (∀ k, (counts g xs).find? k =
      if (∃ x ∈ xs, g x = k) then some (xs.countP fun x => decide (g x = k)) else none) ∧
    (counts g xs).values.sum = xs.length := by
  have hw : SMap.WF (buildIndexer g xs) := (C01_group_by_partitions g xs).1
  have hc : counts g xs = (buildIndexer g xs).map fun kv => (kv.1, kv.2.length) := by
    have h1 := SMap.ofList_of_wf (SMap.wf_map_values (fun kv : K × List Nat => kv.2.length) hw)
    unfold counts
    rw [SMap.ofList, List.foldl_map] at h1
    exact h1
  refine ⟨by rw [hc]; exact SMap.wf_map_values (fun kv => kv.2.length) hw, fun k => ?_, ?_⟩
  · have e := groupsOf_ok (subset .debug xs) (fun is => is.filterMap (xs[·]?)) _ hw
      (fun kv hkv => subset_ok .debug xs kv.2 (buildIndexer_index_lt g xs hkv))
    obtain ⟨m, hm, -, hf⟩ := C02_groups .debug g xs
    unfold groups at hm
    rw [e] at hm
    cases hm
    have h2 := hf k
    rw [SMap.find?_map_values _ fun kv : K × List Nat => kv.2.filterMap (xs[·]?)] at h2
    rw [hc, SMap.find?_map_values _ fun kv : K × List Nat => kv.2.length]
    cases hi : (buildIndexer g xs).find? k with
    | none =>
      rw [hi] at h2
      split at h2
      · simp at h2
      · next h => simp [h]
    | some is =>
      rw [hi] at h2
      split at h2
      · next h =>
        simp only [Option.map_some, Option.some.injEq] at h2
        simp only [h, if_true, Option.map_some, Option.some.injEq]
        rw [List.countP_eq_length_filter, ← h2,
          length_filterMap_get xs is (buildIndexer_index_lt g xs (SMap.mem_of_find? hi))]
      · simp at h2
  · have hp := (values_buildKeys_perm 0 (xs.map g) []).length_eq
    rw [← buildIndexer_eq] at hp
    simp only [SMap.values, List.map_nil, List.flatten_nil, List.append_nil, List.length_range',
      List.length_map, List.length_flatten, List.map_map] at hp
    rw [hc]
    simpa [SMap.values, List.map_map, Function.comp_def] using hp

theorem filterMap_range_self (xs : List α) : (List.range xs.length).filterMap (xs[·]?) = xs := by
  induction xs using List.reverseRecOn with
  | nil => rfl
  | append_singleton xs x ih =>
    rw [List.length_append, List.length_singleton, List.range_succ, List.filterMap_append]
    have : (List.range xs.length).filterMap ((xs ++ [x])[·]?) =
        (List.range xs.length).filterMap (xs[·]?) := by
      apply List.filterMap_congr
      intro i hi
      rw [List.mem_range] at hi
      rw [List.getElem?_append_left hi]
    rw [this, ih]
    simp

/-- C02. `combine` of the groups is a permutation of the input. -/
theorem C02_combine_perm [LinearOrder K] (b : Build) (g : α → K) (xs : List α) :
    ∃ m, groups b g xs = .ok m ∧ (combine m).Perm xs := by
  have hw : SMap.WF (buildIndexer g xs) := (C01_group_by_partitions g xs).1
  refine ⟨_, groupsOf_ok (subset b xs) (fun is => is.filterMap (xs[·]?)) _ hw
    (fun kv hkv => subset_ok b xs kv.2 (buildIndexer_index_lt g xs hkv)), ?_⟩
  have hp := values_buildKeys_perm 0 (xs.map g) []
  rw [← buildIndexer_eq] at hp
  simp only [SMap.values, List.map_nil, List.flatten_nil, List.append_nil, List.length_map] at hp
  have hp2 := hp.filterMap (xs[·]?)
  rw [← List.range_eq_range', filterMap_range_self] at hp2
  have e : combine ((buildIndexer g xs).map fun kv => (kv.1, kv.2.filterMap (xs[·]?))) =
      ((buildIndexer g xs).map Prod.snd).flatten.filterMap (xs[·]?) := by
    unfold combine
    rw [concatenateAll_eq]
    simp [SMap.values, List.filterMap_flatten, List.map_map, Function.comp_def]
  rw [e]
  exact hp2

example : combine [(0, [3, 9]), (1, [7, 4]), (2, [5])] = [3, 9, 7, 4, 5] := by decide

/-! ### Datasets -/

theorem subsetDataset_ok (b : Build) (d : Dataset F R) (hd : d.Valid) (idx : List Nat)
    (h : ∀ i ∈ idx, i < d.features.length) :
    subsetDataset b d idx = .ok
      { features := idx.filterMap (d.features[·]?), mean := idx.filterMap (d.mean[·]?),
        variance := idx.filterMap (d.variance[·]?) } := by
  have h1 : ∀ i ∈ idx, i < d.mean.length := fun i hi => by rw [hd.1]; exact h i hi
  have h2 : ∀ i ∈ idx, i < d.variance.length := fun i hi => by rw [hd.2]; exact h i hi
  unfold subsetDataset
  rw [subset_ok b _ _ h, subset_ok b _ _ h1, subset_ok b _ _ h2]
  simp [mkDataset, length_filterMap_get _ _ h, length_filterMap_get _ _ h1,
    length_filterMap_get _ _ h2]

/-- The dataset that `subset` returns for in-range indices. -/
def Dataset.pick (d : Dataset F R) (idx : List Nat) : Dataset F R :=
  { features := idx.filterMap (d.features[·]?), mean := idx.filterMap (d.mean[·]?),
    variance := idx.filterMap (d.variance[·]?) }

theorem pick_valid (d : Dataset F R) (hd : d.Valid) (idx : List Nat)
    (h : ∀ i ∈ idx, i < d.features.length) : (d.pick idx).Valid := by
  have h1 : ∀ i ∈ idx, i < d.mean.length := fun i hi => by rw [hd.1]; exact h i hi
  have h2 : ∀ i ∈ idx, i < d.variance.length := fun i hi => by rw [hd.2]; exact h i hi
  simp [Dataset.pick, Dataset.Valid, length_filterMap_get _ _ h, length_filterMap_get _ _ h1,
    length_filterMap_get _ _ h2]

theorem pick_rows (d : Dataset F R) (hd : d.Valid) (idx : List Nat)
    (h : ∀ i ∈ idx, i < d.features.length) :
    (d.pick idx).rows = idx.filterMap (d.rows[·]?) := by
  have h1 : ∀ i ∈ idx, i < d.mean.length := fun i hi => by rw [hd.1]; exact h i hi
  have h2 : ∀ i ∈ idx, i < d.variance.length := fun i hi => by rw [hd.2]; exact h i hi
  simp only [Dataset.pick, Dataset.rows]
  rw [zip_filterMap_get _ _ _ h1 h2, zip_filterMap_get _ _ _ h]
  intro i hi
  simp [h1 i hi, h2 i hi]

theorem concatenateMarginals_ok (b : Build) (l : List (Dataset F R)) (hl : ∀ d ∈ l, d.Valid) :
    concatenateMarginals b (l.map fun d => (d.mean, d.variance)) =
      .ok ((l.map Dataset.mean).flatten, (l.map Dataset.variance).flatten) := by
  unfold concatenateMarginals
  suffices h : ∀ (f : List R × List R → List R × List R → Outcome (List R × List R)),
      (∀ out d, d.2.length = d.1.length → f out d = .ok (out.1 ++ d.1, out.2 ++ d.2)) →
      ∀ a c, (l.map fun d => (d.mean, d.variance)).foldlM f (a, c) =
        .ok (a ++ (l.map Dataset.mean).flatten, c ++ (l.map Dataset.variance).flatten) by
    simpa using h _ (fun out d h => by simp [h]) [] []
  intro f hf
  induction l with
  | nil => intro a c; simp
  | cons x t ih =>
    intro a c
    have hx := hl x (by simp)
    rw [List.map_cons, List.foldlM_cons, hf _ _ (by simp [hx.1, hx.2])]
    simp only [except_ok_bind]
    rw [ih fun dd hdd => hl dd (List.mem_cons_of_mem _ hdd)]
    simp

theorem rows_features (d : Dataset F R) (hd : d.Valid) : d.rows.map Prod.fst = d.features := by
  unfold Dataset.rows
  rw [List.map_fst_zip]
  simp [hd.1, hd.2]

theorem rows_length (d : Dataset F R) (hd : d.Valid) : d.rows.length = d.features.length := by
  simp [Dataset.rows, hd.1, hd.2]

/-- C02 (datasets). Grouping a valid dataset keeps features and targets paired: the rows of the
group of key `k` are the rows of the dataset whose feature has key `k`, in order. -/
theorem C02_groups_dataset [LinearOrder K] (b : Build) (g : F → K) (d : Dataset F R)
    (hd : d.Valid) :
    ∃ m, groupsDataset b g d = .ok m ∧ SMap.WF m ∧
      (∀ k dk, m.find? k = some dk → dk.Valid ∧ dk.rows = d.rows.filter fun r => decide (g r.1 = k)) ∧
      (∀ k, (m.find? k).isSome ↔ ∃ f ∈ d.features, g f = k) ∧
      ∃ c, combineDatasets b m = .ok c ∧ c.Valid ∧ c.rows.Perm d.rows := by
  have hw : SMap.WF (buildIndexer g d.features) := (C01_group_by_partitions g d.features).1
  have hlt := fun kv hkv => buildIndexer_index_lt g d.features (kv := kv) hkv
  have e := groupsOf_ok (subsetDataset b d) d.pick _ hw
    (fun kv hkv => subsetDataset_ok b d hd kv.2 (hlt kv hkv))
  have hrow : ∀ k, (positions 0 (d.features.map g) k).filterMap (d.rows[·]?) =
      d.rows.filter fun r => decide (g r.1 = k) := by
    intro k
    have := filterMap_positions (fun r : F × R × R => g r.1) [] d.rows k
    have e2 : d.rows.map (fun r => g r.1) = d.features.map g := by
      rw [← rows_features d hd, List.map_map]; rfl
    rw [e2] at this
    simpa using this
  refine ⟨_, e, SMap.wf_map_values (fun kv => d.pick kv.2) hw, ?_, ?_, ?_⟩
  · intro k dk h
    rw [SMap.find?_map_values _ fun kv => d.pick kv.2] at h
    cases hi : (buildIndexer g d.features).find? k with
    | none => rw [hi] at h; simp at h
    | some is =>
      rw [hi] at h
      simp only [Option.map_some, Option.some.injEq] at h
      subst h
      have hlt' := hlt _ (SMap.mem_of_find? hi)
      refine ⟨pick_valid d hd is hlt', ?_⟩
      rw [pick_rows d hd is hlt', ← hrow]
      rw [buildIndexer_eq, find?_buildKeys _ _ _ SMap.wf_nil] at hi
      split at hi
      · simp [SMap.find?] at hi
      · simp [SMap.find?] at hi
        rw [hi]
  · intro k
    rw [SMap.find?_map_values _ fun kv => d.pick kv.2]
    obtain ⟨m', hm', -, hf⟩ := C02_groups .debug g d.features
    have e' := groupsOf_ok (subset .debug d.features) (fun is => is.filterMap (d.features[·]?)) _ hw
      (fun kv hkv => subset_ok .debug d.features kv.2 (hlt kv hkv))
    unfold groups at hm'
    rw [e'] at hm'
    cases hm'
    have h2 := hf k
    rw [SMap.find?_map_values _ fun kv : K × List Nat => kv.2.filterMap (d.features[·]?)] at h2
    have : ((buildIndexer g d.features).find? k).isSome ↔ ∃ f ∈ d.features, g f = k := by
      cases hi : (buildIndexer g d.features).find? k with
      | none => rw [hi] at h2; simp only [Option.map_none] at h2; split at h2 <;> simp_all
      | some is => rw [hi] at h2; simp only [Option.map_some] at h2; split at h2 <;> simp_all
    simpa using this
  · -- combine
    have hv : ∀ dd ∈ SMap.values ((buildIndexer g d.features).map fun kv => (kv.1, d.pick kv.2)),
        dd.Valid := by
      intro dd hdd
      simp only [SMap.values, List.map_map, List.mem_map, Function.comp] at hdd
      obtain ⟨kv, hkv, rfl⟩ := hdd
      exact pick_valid d hd _ (hlt kv hkv)
    generalize hds : SMap.values ((buildIndexer g d.features).map fun kv => (kv.1, d.pick kv.2)) = ds
      at hv
    have hrows : (ds.map Dataset.rows).flatten.Perm d.rows := by
      have hp := values_buildKeys_perm 0 (d.features.map g) []
      rw [← buildIndexer_eq] at hp
      simp only [SMap.values, List.map_nil, List.flatten_nil, List.append_nil, List.length_map] at hp
      have hp2 := hp.filterMap (d.rows[·]?)
      rw [← List.range_eq_range', ← rows_length d hd, filterMap_range_self] at hp2
      have : (ds.map Dataset.rows).flatten =
          ((buildIndexer g d.features).map Prod.snd).flatten.filterMap (d.rows[·]?) := by
        rw [← hds, List.filterMap_flatten]
        congr 1
        simp only [SMap.values, List.map_map]
        apply List.map_congr_left
        intro kv hkv
        exact pick_rows d hd _ (hlt kv hkv)
      rw [this]; exact hp2
    have hlen : ∀ l : List (Dataset F R), (∀ dd ∈ l, dd.Valid) →
        ((l.map Dataset.mean).flatten.length = (l.map Dataset.features).flatten.length ∧
        (l.map Dataset.variance).flatten.length = (l.map Dataset.features).flatten.length) ∧
        (l.map Dataset.features).flatten.zip
          ((l.map Dataset.mean).flatten.zip (l.map Dataset.variance).flatten) =
        (l.map Dataset.rows).flatten := by
      intro l
      induction l with
      | nil => simp
      | cons x t ih =>
        intro hl
        have hx := hl x (by simp)
        have ⟨⟨i1, i2⟩, i3⟩ := ih fun dd hdd => hl dd (List.mem_cons_of_mem _ hdd)
        refine ⟨⟨?_, ?_⟩, ?_⟩
        · simp only [List.map_cons, List.flatten_cons, List.length_append, i1, hx.1]
        · simp only [List.map_cons, List.flatten_cons, List.length_append, i2, hx.2]
        · simp only [List.map_cons, List.flatten_cons]
          rw [List.zip_append (by rw [hx.1, hx.2]), List.zip_append (by simp [hx.1, hx.2]), i3]
          rfl
    have ⟨⟨l1, l2⟩, l3⟩ := hlen ds hv
    refine ⟨{ features := (ds.map Dataset.features).flatten, mean := (ds.map Dataset.mean).flatten,
              variance := (ds.map Dataset.variance).flatten }, ?_, ⟨l1, l2⟩, ?_⟩
    · unfold combineDatasets concatenateDatasetsAll
      rw [hds, concatenateMarginals_ok b ds hv, concatenateAll_eq]
      simp only [except_ok_bind, mkDataset, l1, l2, decide_true,
        albatrossAssert_true, except_pure]
    · show List.Perm (Dataset.rows _) _
      unfold Dataset.rows at l3 hrows ⊢
      simp only
      rw [l3]
      exact hrows

example : Dataset.Valid (F := Nat) (R := Int)
    { features := [1, 2, 3], mean := [4, 5, 6], variance := [0, 1, 0] } := by
  simp [Dataset.Valid]

example : groupsDataset .debug (fun f : Nat => f % 2)
      ({ features := [1, 2, 3], mean := [4, 5, 6], variance := [0, 1, 2] } : Dataset Nat Int) =
    .ok [(0, { features := [2], mean := [5], variance := [1] }),
         (1, { features := [1, 3], mean := [4, 6], variance := [0, 2] })] := by decide

/-! ## C03 -/

/-- C03. Leave one out: `n` singleton groups keyed by position. -/
theorem C03_leave_one_out (xs : List α) :
    buildLeaveOneOut xs = (List.range xs.length).map fun i => (i, [i]) := by
  have : ∀ (ys : List α) (i : Nat) (out : SMap Nat (List Nat)), (∀ x ∈ out, x.1 < i) →
      buildLeaveOneOutLoop i ys out = out ++ (List.range' i ys.length).map fun i => (i, [i]) := by
    intro ys
    induction ys with
    | nil => intro i out _; simp [buildLeaveOneOutLoop]
    | cons y ys ih =>
      intro i out h
      simp only [buildLeaveOneOutLoop]
      have e : out.put i [i] = out ++ [(i, [i])] := SMap.alter_of_gt _ h
      rw [e, ih]
      · simp [List.range'_succ]
      · intro x hx
        rcases List.mem_append.1 hx with hx | hx
        · exact Nat.lt_succ_of_lt (h x hx)
        · simp at hx; subst hx; simp
  simpa [buildLeaveOneOut, List.range_eq_range'] using this xs 0 [] (by simp)

theorem buildKFoldLoop_eq {k : Nat} (hk : 0 < k) (xs : List α) (i : Nat)
    (out : SMap Nat (List Nat)) :
    buildKFoldLoop k i xs out = .ok (buildKeys i ((List.range' i xs.length).map (· % k)) out) := by
  induction xs generalizing i out with
  | nil => rfl
  | cons x xs ih =>
    simp only [buildKFoldLoop, hk.ne', if_false, List.length_cons, List.range'_succ, List.map_cons,
      buildKeys]
    exact ih _ _

/-- C03. K-fold with `k > 0`: group `j` holds exactly the positions congruent to `j`, in order; the
non-empty groups are those with `j < min n k`, and their sizes are `n / k` or `n / k + 1`. With
`k = 0` and data the behaviour is undefined. -/
theorem C03_k_fold (k : Nat) (xs : List α) :
    (0 < k → ∃ m, buildKFold k xs = .ok m ∧ SMap.WF m ∧
      m.keys = List.range (min xs.length k) ∧
      ∀ j is, m.find? j = some is →
        is.Pairwise (· < ·) ∧ (∀ i, i ∈ is ↔ i < xs.length ∧ i % k = j) ∧
        (is.length = xs.length / k ∨ is.length = xs.length / k + 1)) ∧
    (k = 0 → xs ≠ [] → buildKFold k xs = .error .ub) := by
  constructor
  · intro hk
    set n := xs.length with hn
    have hw : SMap.WF (buildKeys 0 ((List.range' 0 n).map (· % k)) []) :=
      wf_buildKeys _ _ _ SMap.wf_nil
    have hmem : ∀ j i, i ∈ positions 0 ((List.range' 0 n).map (· % k)) j ↔ i < n ∧ i % k = j := by
      intro j i
      rw [mem_positions, ← List.range_eq_range']
      constructor
      · rintro ⟨m, hm, h⟩
        have hm' : m = i := by omega
        subst hm'
        simp only [List.getElem?_map, Option.map_eq_some_iff] at h
        obtain ⟨a, ha, e⟩ := h
        by_cases hlt : m < n
        · simp [hlt] at ha; subst ha; exact ⟨hlt, e⟩
        · simp [hlt] at ha
      · rintro ⟨h1, h2⟩
        exact ⟨i, by simp, by simp [h1, h2]⟩
    have hf : ∀ j, (buildKeys 0 ((List.range' 0 n).map (· % k)) []).find? j =
        if positions 0 ((List.range' 0 n).map (· % k)) j = [] then none
        else some (positions 0 ((List.range' 0 n).map (· % k)) j) := by
      intro j
      rw [find?_buildKeys _ _ _ SMap.wf_nil]
      simp [SMap.find?]
    refine ⟨_, buildKFoldLoop_eq hk xs 0 [], hw, ?_, ?_⟩
    · refine sorted_ext (SMap.wf_iff_keys.1 hw) List.pairwise_lt_range fun j => ?_
      rw [SMap.mem_keys, hf]
      by_cases hp : positions 0 ((List.range' 0 n).map (· % k)) j = []
      · rw [if_pos hp]
        simp only [Option.isSome_none, Bool.false_eq_true, List.mem_range, false_iff, not_lt]
        by_contra hcon
        push Not at hcon
        have : j ∈ positions 0 ((List.range' 0 n).map (· % k)) j :=
          (hmem j j).2 ⟨by omega, Nat.mod_eq_of_lt (by omega)⟩
        rw [hp] at this
        simp at this
      · rw [if_neg hp]
        simp only [Option.isSome_some, List.mem_range, true_iff]
        obtain ⟨i, hi⟩ := List.exists_mem_of_ne_nil _ hp
        obtain ⟨h1, h2⟩ := (hmem j i).1 hi
        have := Nat.mod_lt i hk
        have := Nat.mod_le i k
        omega
    · intro j is h
      rw [hf] at h
      split at h
      · simp at h
      · next hne =>
        simp only [Option.some.injEq] at h
        subst h
        refine ⟨positions_sorted _ _ _, hmem j, ?_⟩
        have hjk : j < k := by
          obtain ⟨i, hi⟩ := List.exists_mem_of_ne_nil _ hne
          obtain ⟨h1, h2⟩ := (hmem j i).1 hi
          have := Nat.mod_lt i hk
          omega
        have e : positions 0 ((List.range' 0 n).map (· % k)) j =
            (List.range n).filter fun i => decide (i ≡ j [MOD k]) := by
          refine sorted_ext (positions_sorted _ _ _) (List.pairwise_lt_range.filter _) fun i => ?_
          rw [hmem, List.mem_filter, List.mem_range]
          simp [Nat.ModEq, Nat.mod_eq_of_lt hjk]
        rw [e]
        have hc := Nat.count_modEq_card n hk j
        rw [Nat.count_eq_card_filter_range] at hc
        have e2 : ((List.range n).filter fun i => decide (i ≡ j [MOD k])).length =
            ((Finset.range n).filter fun i => i ≡ j [MOD k]).card := by
          rfl
        rw [e2, hc]
        split <;> simp
  · intro hk hx
    cases xs with
    | nil => exact absurd rfl hx
    | cons x xs => simp [buildKFold, buildKFoldLoop, hk]

example : buildKFold 3 [(), (), (), ()] = .ok [(0, [0, 3]), (1, [1]), (2, [2])] := by decide
example : buildKFold 0 [(), ()] = .error .ub := by decide

/-! ## C06 -/

/-- C06. `indices_complement(indices, n)`: sorted, duplicate free, exactly the numbers below `n`
missing from `indices`; together with the in-range part of `indices` it covers `0..n-1`; taking the
complement twice gives back the sorted distinct in-range part. -/
theorem C06_indices_complement (indices : List Nat) (n : Nat) :
    (indicesComplement indices n).Pairwise (· < ·) ∧
    (∀ i, i ∈ indicesComplement indices n ↔ i < n ∧ i ∉ indices) ∧
    (∀ i, i < n ↔ i ∈ indicesComplement indices n ∨ (i ∈ indices ∧ i < n)) ∧
    (∀ i, i ∈ indicesComplement (indicesComplement indices n) n ↔ i ∈ indices ∧ i < n) ∧
    (indices.Pairwise (· < ·) → (∀ i ∈ indices, i < n) →
      indicesComplement (indicesComplement indices n) n = indices) := by
  have h := fun is => vectorSetDifference_spec (List.range n) is
  have hm : ∀ is i, i ∈ indicesComplement is n ↔ i < n ∧ i ∉ is := by
    intro is i
    unfold indicesComplement
    rw [(h is).2, List.mem_range]
  have h2 : ∀ i, i ∈ indicesComplement (indicesComplement indices n) n ↔ i ∈ indices ∧ i < n := by
    intro i
    rw [hm, hm]
    by_cases h1 : i < n <;> by_cases h2 : i ∈ indices <;> simp [h1, h2]
  refine ⟨(h indices).1, hm indices, ?_, h2, ?_⟩
  · intro i
    rw [hm]
    by_cases h1 : i < n <;> by_cases h2 : i ∈ indices <;> simp [h1, h2]
  · intro hs hlt
    refine sorted_ext (h _).1 hs fun i => ?_
    rw [h2]
    exact ⟨fun h => h.1, fun h => ⟨h, hlt i h⟩⟩

example : indicesComplement [4, 1, 1, 9] 6 = [0, 2, 3, 5] := by
  decide +kernel

/-! ## C07 -/

/-- C07. `subset(v, idx)` returns `out` iff every entry of `out` is the element of `v` at the
corresponding index; otherwise some index is out of range, which is an assertion failure in debug
builds and undefined behaviour in release builds. -/
theorem C07_subset (b : Build) (v : List α) (idx : List Nat) :
    (∀ out, subset b v idx = .ok out ↔
      out.length = idx.length ∧ ∀ k i : Nat, idx[k]? = some i → v[i]? = out[k]? ∧ i < v.length) ∧
    ((∃ i ∈ idx, v.length ≤ i) →
      subset b v idx = .error (match b with | .debug => .assertFail | .ndebug => .ub)) := by
  constructor
  · intro out
    rw [subset_eq_ok_iff]
    constructor
    · intro h
      have hl : out.length = idx.length := by simpa using (congrArg List.length h).symm
      refine ⟨hl, fun k i hk => ?_⟩
      have hkl : k < idx.length := (List.getElem?_eq_some_iff.1 hk).1
      have := congrArg (fun l => l[k]?) h
      simp only [List.getElem?_map, hk, Option.map_some] at this
      have hk2 : k < out.length := by omega
      simp only [List.getElem?_eq_getElem hk2, Option.map_some, Option.some.injEq] at this ⊢
      refine ⟨this, (List.getElem?_eq_some_iff.1 this).1⟩
    · rintro ⟨hl, h⟩
      apply List.ext_getElem?
      intro k
      simp only [List.getElem?_map]
      by_cases hk : k < idx.length
      · have hk2 : k < out.length := by omega
        have := (h k idx[k] (by simp [hk])).1
        simp [hk, hk2, this]
      · have hk2 : ¬ k < out.length := by omega
        simp [hk, hk2]
  · rintro ⟨i, hi, hge⟩
    induction idx with
    | nil => simp at hi
    | cons j js ih =>
      by_cases hj : j < v.length
      · rw [subset_cons_of_lt b v js hj]
        rcases List.mem_cons.1 hi with e | hi
        · omega
        · rw [ih hi]; rfl
      · push Not at hj
        cases b
        · exact subset_cons_of_ge_debug v js hj
        · exact subset_cons_of_ge_ndebug v js hj

/-- C07. Subsetting twice composes the index lists. -/
theorem C07_subset_compose (b : Build) (v w u : List α) (i₁ i₂ : List Nat)
    (h₁ : subset b v i₁ = .ok w) (h₂ : subset b w i₂ = .ok u) :
    ∃ i₃, subset b i₁ i₂ = .ok i₃ ∧ subset b v i₃ = .ok u := by
  rw [subset_eq_ok_iff] at h₁ h₂
  have hl : w.length = i₁.length := by simpa using (congrArg List.length h₁).symm
  have hlt : ∀ j ∈ i₂, j < i₁.length := by
    intro j hj
    have : w[j]? ∈ i₂.map (w[·]?) := List.mem_map_of_mem hj
    rw [h₂] at this
    obtain ⟨x, -, hx⟩ := List.mem_map.1 this
    rw [← hl]
    exact (List.getElem?_eq_some_iff.1 hx.symm).1
  refine ⟨_, subset_ok b i₁ i₂ hlt, ?_⟩
  rw [subset_eq_ok_iff, ← h₂]
  clear h₂
  induction i₂ with
  | nil => rfl
  | cons j js ih =>
    have hj := hlt j (by simp)
    have hjw : j < w.length := by omega
    have := congrArg (fun l => l[j]?) h₁
    simp only [List.getElem?_map, List.getElem?_eq_getElem hj, List.getElem?_eq_getElem hjw,
      Option.map_some, Option.some.injEq] at this
    rw [List.filterMap_cons_some (b := i₁[j]) (by simp [hj])]
    simp [this, hjw]
    simpa using ih fun k hk => hlt k (List.mem_cons_of_mem _ hk)

/-- C07. Matrix `subset`: entry `(a, b)` of the result is entry `(row_indices[a], col_indices[b])`. -/
theorem C07_subset_matrix (b : Build) (m : DenseMat α) (rowIdx colIdx : List Nat)
    (hr : ∀ i ∈ rowIdx, i < m.rows) (hc : ∀ j ∈ colIdx, j < m.cols) :
    subsetMatrix b m rowIdx colIdx =
      .ok (rowIdx.map fun i => colIdx.map fun j => m.entry i j) := by
  have inner : ∀ i, i < m.rows → (colIdx.mapM fun j => do
      albatrossAssert b (decide (i < m.rows))
      albatrossAssert b (decide (j < m.cols))
      m.get i j : Outcome (List α)) = .ok (colIdx.map fun j => m.entry i j) := by
    intro i hi
    induction colIdx with
    | nil => rfl
    | cons j js ih =>
      have hj := hc j (by simp)
      rw [List.mapM_cons, ih fun k hk => hc k (List.mem_cons_of_mem _ hk)]
      simp [hi, hj, DenseMat.get]
  unfold subsetMatrix
  induction rowIdx with
  | nil => rfl
  | cons i is ih =>
    rw [List.mapM_cons, inner i (hr i (by simp)), ih fun k hk => hr k (List.mem_cons_of_mem _ hk)]
    rfl

/-- C07. `set_subset` with distinct in-range indices: succeeds, writes `from[k]` at `indices[k]`
(so reading the subset back gives `from`), and leaves every other entry alone. -/
theorem C07_set_subset (b : Build) (src dst : List α) (idx : List Nat)
    (hlen : idx.length = src.length) (hlt : ∀ i ∈ idx, i < dst.length) :
    ∃ out, setSubset b src idx dst = .ok out ∧ out.length = dst.length ∧
      (∀ j, j ∉ idx → out[j]? = dst[j]?) ∧
      (idx.Nodup → subset b out idx = .ok src) := by
  obtain ⟨out, h1, h2, h3, h4⟩ := setSubsetLoop_ok b dst.length src 0 idx dst hlt le_rfl (by omega)
  refine ⟨out, by simp [setSubset, hlen, h1], h2, h3, fun hnd => ?_⟩
  rw [(C07_subset b out idx).1]
  refine ⟨hlen.symm, fun k i hk => ?_⟩
  have hi : i ∈ idx := List.mem_of_getElem? hk
  refine ⟨?_, by rw [h2]; exact hlt i hi⟩
  rw [h4 hnd k i hk, Nat.zero_add]

/-- C07. `set_subset` never writes out of range in a debug build: a size mismatch or an out of range
index is an assertion failure. -/
theorem C07_set_subset_rejects (src dst : List α) (idx : List Nat)
    (h : idx.length ≠ src.length ∨ ∃ i ∈ idx, dst.length ≤ i) :
    setSubset .debug src idx dst = .error .assertFail := by
  by_cases hlen : idx.length = src.length
  · have hex := h.resolve_left (fun hn => hn hlen)
    have : ∀ (idx : List Nat) (k : Nat) (d : List α), d.length = dst.length →
        k + idx.length ≤ src.length → (∃ i ∈ idx, dst.length ≤ i) →
        setSubsetLoop .debug dst.length src k idx d = .error .assertFail := by
      intro idx
      induction idx with
      | nil => rintro k d - - ⟨i, hi, -⟩; simp at hi
      | cons j js ih =>
        rintro k d hd hk ⟨i, hi, hge⟩
        by_cases hj : j < dst.length
        · have hks : k < src.length := by simp at hk; omega
          have hjd : j < d.length := by omega
          have hi' : ∃ i ∈ js, dst.length ≤ i := by
            rcases List.mem_cons.1 hi with e | hi
            · omega
            · exact ⟨i, hi, hge⟩
          simp only [setSubsetLoop, hj, decide_true, albatrossAssert_true, except_ok_bind,
            vecGet_lt hks, vecSet, hjd, if_true]
          exact ih (k + 1) _ (by simpa using hd) (by simp at hk; omega) hi'
        · simp [setSubsetLoop, hj, albatrossAssert]
    unfold setSubset
    simp only [hlen, decide_true, albatrossAssert_true, except_ok_bind]
    exact this idx 0 dst rfl (by omega) hex
  · simp [setSubset, hlen, albatrossAssert]

example : setSubset .debug [10, 20] [2, 0] [1, 2, 3] = .ok [20, 2, 10] := by decide
example : setSubset .debug [10, 20] [2, 3] [1, 2, 3] = .error .assertFail := by decide

/-! ## C08 -/

/-- What C08 claims: an index that is not below the number of diagonal entries is rejected by an
assertion in debug builds. -/
def DiagonalSetSubsetChecksBounds : Prop :=
  ∀ (src dst : List Int) (idx : List Nat), idx.length = src.length →
    (∃ i ∈ idx, dst.length ≤ i) → setSubsetDiagonal .debug src idx dst = .error .assertFail

/-- C08 is false for the code: `to->size()` is `rows * cols`, so index 2 of a 2x2 diagonal matrix
passes the assertion and is written out of bounds, even in a debug build. -/
theorem C08_diagonal_bounds_violated : ¬ DiagonalSetSubsetChecksBounds := by
  intro h
  have := h [5] [1, 2] [2] rfl ⟨2, by simp, by simp⟩
  revert this
  decide

/-- C08, the part that holds: with in-range indices the diagonal overload is the vector overload on
the diagonals, and an index that is at least `n * n` is rejected (first offending index).
Missing: indices between `n` and `n * n - 1` (see `C08_diagonal_bounds_violated`). -/
theorem C08_diagonal_partial (b : Build) (src dst : List α) (idx : List Nat)
    (hlen : idx.length = src.length) :
    ((∀ i ∈ idx, i < dst.length) → setSubsetDiagonal b src idx dst = setSubset b src idx dst) ∧
    (∀ i is, idx = i :: is → dst.length * dst.length ≤ i →
      setSubsetDiagonal .debug src idx dst = .error .assertFail) := by
  constructor
  · intro hlt
    have : ∀ (idx : List Nat) (k : Nat) (d : List α), d.length = dst.length →
        (∀ i ∈ idx, i < dst.length) →
        setSubsetLoop b (dst.length * dst.length) src k idx d =
          setSubsetLoop b dst.length src k idx d := by
      intro idx
      induction idx with
      | nil => intros; rfl
      | cons i is ih =>
        intro k d hd h
        have hi := h i (by simp)
        have hi2 : i < dst.length * dst.length := by nlinarith
        simp only [setSubsetLoop, hi, hi2, decide_true, albatrossAssert_true, except_ok_bind]
        cases hv : vecGet src k with
        | error e => rfl
        | ok x =>
          simp only [except_ok_bind, vecSet, hd, hi, if_true]
          exact ih _ _ (by simpa using hd) fun j hj => h j (List.mem_cons_of_mem _ hj)
    simp only [setSubsetDiagonal, setSubset, this idx 0 dst rfl hlt]
  · rintro i is rfl hge
    have : decide (i < dst.length * dst.length) = false := by simpa using hge
    simp only [setSubsetDiagonal, hlen, decide_true, albatrossAssert_true, except_ok_bind,
      setSubsetLoop, this]
    rfl

example : setSubsetDiagonal .debug [5] [2] [1, 2] = .error .ub := by decide

end Albatross
