import Verif.Folds
import Verif.IndexingProps

/-! # Cross-validation folds and stitching: C04, C05 -/

namespace Albatross

variable {F R K S : Type}

/-- The groups hold every index below `n` exactly once. -/
structure IsPartition [LT K] (ix : SMap K (List Nat)) (n : Nat) : Prop where
  wf : SMap.WF ix
  perm : ix.values.flatten.Perm (List.range n)

section helpers

theorem IsPartition.mem_lt [LinearOrder K] {ix : SMap K (List Nat)} {n : Nat} (h : IsPartition ix n)
    {kv : K × List Nat} (hkv : kv ∈ ix) {i : Nat} (hi : i ∈ kv.2) : i < n := by
  have : i ∈ ix.values.flatten := List.mem_flatten.2 ⟨kv.2, List.mem_map_of_mem hkv, hi⟩
  simpa using h.perm.mem_iff.1 this

theorem IsPartition.nodup [LinearOrder K] {ix : SMap K (List Nat)} {n : Nat} (h : IsPartition ix n)
    {kv : K × List Nat} (hkv : kv ∈ ix) : kv.2.Nodup := by
  have h1 : ix.values.flatten.Nodup := h.perm.nodup_iff.2 List.nodup_range
  exact (List.nodup_flatten.1 h1).1 _ (List.mem_map_of_mem hkv)

theorem complement_perm (idx : List Nat) (n : Nat) (hn : idx.Nodup) (h : ∀ i ∈ idx, i < n) :
    (indicesComplement idx n ++ idx).Perm (List.range n) := by
  have hc := C06_indices_complement idx n
  rw [List.perm_ext_iff_of_nodup]
  · intro i
    rw [List.mem_append, hc.2.1, List.mem_range]
    constructor
    · rintro (h1 | h1)
      · exact h1.1
      · exact h i h1
    · intro h1
      by_cases h2 : i ∈ idx
      · exact .inr h2
      · exact .inl ⟨h1, h2⟩
  · rw [List.nodup_append]
    refine ⟨hc.1.imp fun h => ne_of_lt h, hn, ?_⟩
    rintro a ha c hcm rfl
    exact ((hc.2.1 a).1 ha).2 hcm
  · exact List.nodup_range

theorem createFold_ok (b : Build) (d : Dataset F R) (hd : d.Valid) (idx : List Nat)
    (hn : idx.Nodup) (h : ∀ i ∈ idx, i < d.features.length) :
    createFold b d idx = .ok { train := d.pick (indicesComplement idx d.features.length),
                               test := d.pick idx, testIndices := idx } := by
  have hperm := complement_perm idx d.features.length hn h
  have hlen := hperm.length_eq
  simp only [List.length_append, List.length_range] at hlen
  have hc : ∀ i ∈ indicesComplement idx d.features.length, i < d.features.length := fun i hi =>
    (((C06_indices_complement idx d.features.length).2.1 i).1 hi).1
  have hv1 := hd.1
  have hv2 := hd.2
  have e1 := subset_ok b d.features _ hc
  have e2 := subset_ok b d.mean _ (by rw [hv1]; exact hc)
  have e3 := subset_ok b d.variance _ (by rw [hv2]; exact hc)
  have e4 := subset_ok b d.features _ h
  have e5 := subset_ok b d.mean _ (by rw [hv1]; exact h)
  have e6 := subset_ok b d.variance _ (by rw [hv2]; exact h)
  have l1 := length_filterMap_get d.features _ hc
  have l2 := length_filterMap_get d.mean _ (by rw [hv1]; exact hc)
  have l3 := length_filterMap_get d.variance _ (by rw [hv2]; exact hc)
  have l4 := length_filterMap_get d.features _ h
  have l5 := length_filterMap_get d.mean _ (by rw [hv1]; exact h)
  have l6 := length_filterMap_get d.variance _ (by rw [hv2]; exact h)
  have hsum : idx.length + (indicesComplement idx d.features.length).length = d.features.length := by
    omega
  unfold createFold subsetMarginal
  simp only [e1, e2, e3, e4, e5, e6, except_ok_bind, l1, l2, l3, l4, l5, l6, decide_true,
    albatrossAssert_true, except_pure, mkDataset, hsum, Dataset.pick]

theorem uniqueIndices_eq [LinearOrder K] {ix : SMap K (List Nat)} {n : Nat} (h : IsPartition ix n) :
    uniqueIndices ix = List.range n := by
  have : uniqueIndices ix = setOfList ix.values.flatten := by
    unfold uniqueIndices setOfList SMap.values
    rw [List.foldl_flatten, List.foldl_map]
  rw [this]
  refine sorted_ext (sorted_setOfList _) ?_ ?_
  · simpa using List.pairwise_lt_range
  · intro i; rw [mem_setOfList, h.perm.mem_iff]

theorem foldl_count (ix : SMap K (List Nat)) (c : Nat) :
    ix.foldl (fun c kv => c + kv.2.length) c = c + ix.values.flatten.length := by
  induction ix generalizing c with
  | nil => simp [SMap.values]
  | cons a t ih =>
    rw [List.foldl_cons, ih]
    simp [SMap.values]; omega

theorem datasetSize_ok [LinearOrder K] (b : Build) {ix : SMap K (List Nat)} {n : Nat}
    (h : IsPartition ix n) (hn : 0 < n) : datasetSizeFromIndexer b ix = .ok n := by
  unfold datasetSizeFromIndexer
  obtain ⟨m, rfl⟩ : ∃ m, n = m + 1 := ⟨n - 1, by omega⟩
  have h1 : (List.range (m + 1)).head? = some 0 := by simp [List.range_succ_eq_map]
  have h2 : (List.range (m + 1)).getLast? = some m := by simp [List.range_succ]
  simp only [uniqueIndices_eq h, foldl_count, h.perm.length_eq, List.length_range, Nat.zero_add,
    decide_true, albatrossAssert_true, except_ok_bind, h1, h2, except_pure]

theorem groupIndexerFromFolds_spec [LinearOrder K] (b : Build) :
    ∀ (folds : SMap K (Fold F R)) (acc : SMap K (List Nat)),
      SMap.WF (acc ++ folds.map fun kf => (kf.1, kf.2.testIndices)) →
      folds.foldlM (fun out f => do
        albatrossAssert b (!SMap.contains out f.1)
        pure (out.put f.1 f.2.testIndices)) acc =
        (.ok (acc ++ folds.map fun kf => (kf.1, kf.2.testIndices)) : Outcome _)
  | [], acc, _ => by simp
  | f :: t, acc, hw => by
    have hlt : ∀ x ∈ acc, x.1 < f.1 := fun x hx =>
      (List.pairwise_append.1 hw).2.2 x hx (f.1, f.2.testIndices) (by simp)
    have hnc : SMap.contains acc f.1 = false := by
      unfold SMap.contains
      rw [(SMap.find?_eq_none (m := acc) (k := f.1)).2 fun x hx => ne_of_lt (hlt x hx)]; rfl
    have hput : acc.put f.1 f.2.testIndices = acc ++ [(f.1, f.2.testIndices)] := by
      unfold SMap.put; rw [SMap.alter_of_gt _ hlt]
    rw [List.foldlM_cons]
    simp only [hnc, Bool.not_false, albatrossAssert_true, except_ok_bind, except_pure, hput]
    refine (groupIndexerFromFolds_spec b t _ (by simpa using hw)).trans ?_
    simp

end helpers

/-- C04: for every dataset and every partition of its indices into groups, in either build, the
folds exist, one per group; the test half of a fold is exactly the group (in the order of its
indices), the training half is exactly the other rows in dataset order, together they are the whole
dataset, every row keeps its own target, and reading the indexer back from the folds gives the
original one. -/
theorem C04_folds_split [LinearOrder K] (b : Build) (d : Dataset F R) (hd : d.Valid)
    (ix : SMap K (List Nat)) (h : IsPartition ix d.features.length) :
    ∃ folds, foldsFromGroupIndexer b d ix = .ok folds ∧
      folds.keys = ix.keys ∧
      (∀ k is, ix.find? k = some is → ∃ f, folds.find? k = some f ∧ f.testIndices = is ∧
        f.train.Valid ∧ f.test.Valid ∧
        f.test.rows.map some = is.map (d.rows[·]?) ∧
        f.train.rows = (d.rows.zipIdx.filter fun r => r.2 ∉ is).map Prod.fst ∧
        (f.train.rows ++ f.test.rows).Perm d.rows) ∧
      groupIndexerFromFolds b folds = .ok ix := by
  have hlt : ∀ kv ∈ ix, ∀ i ∈ kv.2, i < d.features.length := fun kv hkv i hi => h.mem_lt hkv hi
  let mk : List Nat → Fold F R := fun is =>
    { train := d.pick (indicesComplement is d.features.length), test := d.pick is,
      testIndices := is }
  have e := groupsOf_ok (createFold b d) mk ix h.wf
    (fun kv hkv => createFold_ok b d hd kv.2 (h.nodup hkv) (hlt kv hkv))
  refine ⟨_, e, by simp [SMap.keys], ?_, ?_⟩
  · intro k is hk
    have hmem := SMap.mem_of_find? hk
    have hl := hlt _ hmem
    have hnd : is.Nodup := h.nodup hmem
    have hc : ∀ i ∈ indicesComplement is d.features.length, i < d.features.length := fun i hi =>
      (((C06_indices_complement is d.features.length).2.1 i).1 hi).1
    refine ⟨mk is, ?_, rfl, pick_valid d hd _ hc, pick_valid d hd _ hl, ?_, ?_, ?_⟩
    · rw [SMap.find?_map_values ix fun kv => mk kv.2, hk]; rfl
    · show (d.pick is).rows.map some = _
      rw [pick_rows d hd _ hl]
      rw [List.map_filterMap]
      have : ∀ l : List Nat, (∀ i ∈ l, i < d.features.length) →
          l.filterMap (fun i => (d.rows[i]?).map some) = l.map (d.rows[·]?) := by
        intro l
        induction l with
        | nil => simp
        | cons i t ih =>
          intro hl
          have hi : i < d.rows.length := by rw [rows_length d hd]; exact hl i (by simp)
          have := ih fun j hj => hl j (List.mem_cons_of_mem _ hj)
          simp [hi, this]
      exact this is hl
    · show (d.pick _).rows = _
      rw [pick_rows d hd _ hc]
      have hcomp : indicesComplement is d.features.length =
          (List.range d.rows.length).filter fun i => i ∉ is := by
        refine sorted_ext (C06_indices_complement is d.features.length).1 ?_ ?_
        · exact List.Pairwise.filter _ (by simpa using List.pairwise_lt_range)
        · intro i
          rw [(C06_indices_complement is d.features.length).2.1, List.mem_filter, List.mem_range,
            rows_length d hd]
          simp
      rw [hcomp]
      generalize d.rows = rs
      have : ∀ (rs pre : List (F × R × R)),
          ((List.range' pre.length rs.length).filter fun i => i ∉ is).filterMap
            ((pre ++ rs)[·]?) = ((rs.zipIdx pre.length).filter fun r => r.2 ∉ is).map Prod.fst := by
        intro rs
        induction rs with
        | nil => intro pre; simp
        | cons r t ih =>
          intro pre
          have hi := ih (pre ++ [r])
          simp only [List.append_assoc, List.singleton_append, List.length_append,
            List.length_singleton] at hi
          rw [List.length_cons, List.range'_succ, List.zipIdx_cons, List.filter_cons,
            List.filter_cons]
          by_cases hm : pre.length ∈ is
          · simp only [hm, not_true_eq_false, decide_false, Bool.false_eq_true, if_false]
            exact hi
          · simp only [hm, not_false_eq_true, decide_true, if_true, List.map_cons]
            rw [← hi, List.filterMap_cons]
            simp
      have h0 := this rs []
      simpa [List.range_eq_range'] using h0
    · show ((d.pick _).rows ++ (d.pick is).rows).Perm _
      rw [pick_rows d hd _ hc, pick_rows d hd _ hl, ← List.filterMap_append]
      have := (complement_perm is d.features.length hnd hl).filterMap (d.rows[·]?)
      rw [← rows_length d hd, filterMap_range_self] at this
      rw [rows_length d hd] at this
      exact this
  · unfold groupIndexerFromFolds
    have hmap : (ix.map fun kv => (kv.1, mk kv.2)).map (fun kf => (kf.1, kf.2.testIndices)) = ix := by
      rw [List.map_map]
      conv_rhs => rw [← List.map_id ix]
      rfl
    rw [groupIndexerFromFolds_spec b _ [] (by rw [List.nil_append, hmap]; exact h.wf)]
    rw [List.nil_append, hmap]

/-- The groups of `group_by` are such a partition, so `folds_from_grouper` is covered by C04. -/
theorem C04_grouper_is_partition [LinearOrder K] (b : Build) (d : Dataset F R) (g : F → K) :
    IsPartition (buildIndexer g d.features) d.features.length ∧
    foldsFromGrouper b d g = foldsFromGroupIndexer b d (buildIndexer g d.features) := by
  refine ⟨⟨(C01_group_by_partitions g d.features).1, ?_⟩, rfl⟩
  have hp := values_buildKeys_perm 0 (d.features.map g) []
  rw [← buildIndexer_eq] at hp
  simpa [SMap.values, List.range_eq_range'] using hp

/-- C04: the dataset size read from the indexer is the number of rows; on an empty indexer the code
dereferences an end iterator. -/
theorem C04_dataset_size [LinearOrder K] (b : Build) (ix : SMap K (List Nat)) (n : Nat)
    (h : IsPartition ix n) :
    datasetSizeFromIndexer b ix = if 0 < n then .ok n else .error .ub := by
  split
  · next hn => exact datasetSize_ok b h hn
  · next hn =>
    obtain rfl : n = 0 := by omega
    unfold datasetSizeFromIndexer
    simp only [uniqueIndices_eq h, foldl_count, h.perm.length_eq, List.range_zero, List.length_nil,
      Nat.zero_add, decide_true, albatrossAssert_true, except_ok_bind, List.head?_nil]

/-- C04: in a debug build the size check rejects every indexer that is not a partition of an
initial segment of the indices. -/
theorem C04_dataset_size_checks [LinearOrder K] (ix : SMap K (List Nat)) (hw : SMap.WF ix) (n : Nat)
    (h : datasetSizeFromIndexer .debug ix = .ok n) : IsPartition ix n := by
  have hu : uniqueIndices ix = setOfList ix.values.flatten := by
    unfold uniqueIndices setOfList SMap.values
    rw [List.foldl_flatten, List.foldl_map]
  unfold datasetSizeFromIndexer at h
  simp only [hu, foldl_count, Nat.zero_add] at h
  have hsorted := sorted_setOfList ix.values.flatten
  generalize hU : setOfList ix.values.flatten = u at h hsorted
  have hassert : ∀ {c : Bool} {α : Type} {f : Unit → Outcome α} {r : α},
      (albatrossAssert .debug c >>= f) = .ok r → c = true ∧ f () = .ok r := by
    intro c α f r hc
    cases c with
    | false => simp [albatrossAssert] at hc
    | true => exact ⟨rfl, by simpa using hc⟩
  obtain ⟨h1, h⟩ := hassert h
  cases hh : u.head? with
  | none => rw [hh] at h; simp at h
  | some z =>
    cases hl : u.getLast? with
    | none => rw [hh, hl] at h; simp at h
    | some m =>
      rw [hh, hl] at h
      obtain ⟨h2, h⟩ := hassert h
      obtain ⟨h3, h⟩ := hassert h
      simp at h h1 h3
      subst h
      have hnd : u.Nodup := hsorted.imp fun h => ne_of_lt h
      have hle : ∀ x ∈ u, x ≤ m := by
        intro x hx
        have hne : u ≠ [] := List.ne_nil_of_mem hx
        have hlast : u.getLast hne = m := by
          rw [List.getLast?_eq_some_getLast hne] at hl; simpa using hl
        rw [← hlast]
        obtain ⟨j, hj, rfl⟩ := List.getElem_of_mem hx
        rw [List.getLast_eq_getElem hne]
        rcases Nat.lt_or_ge j (u.length - 1) with hlt | hge
        · exact le_of_lt (List.pairwise_iff_getElem.1 hsorted _ _ hj (by omega) hlt)
        · exact le_of_eq (by congr 1; omega)
      have hperm1 : u.Perm (List.range (m + 1)) := by
        refine (List.subperm_of_subset hnd ?_).perm_of_length_le (by simp [h3])
        intro x hx; have := hle x hx; simp; omega
      have hperm2 : u.Perm ix.values.flatten := by
        refine (List.subperm_of_subset hnd ?_).perm_of_length_le (by simp [← h1])
        intro x hx; rw [← hU, mem_setOfList] at hx; exact hx
      exact ⟨hw, hperm2.symm.trans hperm1⟩

/-! ## C05 -/

section helpers

theorem setSubset_ok (b : Build) (src : List R) (idx : List Nat) (dst : List R)
    (hl : idx.length = src.length) (hb : ∀ i ∈ idx, i < dst.length) (hn : idx.Nodup) :
    ∃ out, setSubset b src idx dst = .ok out ∧ out.length = dst.length ∧
      (∀ j, j ∉ idx → out[j]? = dst[j]?) ∧ ∀ m i : Nat, idx[m]? = some i → out[i]? = src[m]? := by
  obtain ⟨out, h1, h2, h3, h4⟩ := setSubsetLoop_ok b dst.length src 0 idx dst hb le_rfl (by omega)
  refine ⟨out, ?_, h2, h3, ?_⟩
  · unfold setSubset; simp only [hl, decide_true, albatrossAssert_true, except_ok_bind, h1]
  · intro m i hm; simpa using h4 hn m i hm

theorem stitch_ok [LinearOrder K] (b : Build) (means : SMap K (List R)) :
    ∀ (ix : SMap K (List Nat)) (dst : List R) (c : Nat),
      ix.values.flatten.Nodup → (∀ i ∈ ix.values.flatten, i < dst.length) →
      (∀ kv ∈ ix, ∃ m, means.find? kv.1 = some m ∧ m.length = kv.2.length) →
      ∃ out, ix.foldlM (fun (acc : List R × Nat) kv => do
          let m ← means.at? kv.1
          albatrossAssert b (decide (m.length = kv.2.length))
          let p ← setSubset b m kv.2 acc.1
          pure (p, acc.2 + kv.2.length)) (dst, c) =
          (.ok (out, c + ix.values.flatten.length) : Outcome _) ∧
        out.length = dst.length ∧
        (∀ j, j ∉ ix.values.flatten → out[j]? = dst[j]?) ∧
        (∀ kv ∈ ix, ∀ m i : Nat, kv.2[m]? = some i → ∀ p, means.find? kv.1 = some p →
          out[i]? = p[m]?)
  | [], dst, c, _, _, _ => ⟨dst, by simp [SMap.values], rfl, by simp, by simp⟩
  | kv :: t, dst, c, hn, hb, hm => by
    have hval : SMap.values (kv :: t) = kv.2 :: SMap.values t := rfl
    rw [hval, List.flatten_cons] at hn hb
    obtain ⟨hn1, hn2, hn3⟩ := List.nodup_append.1 hn
    obtain ⟨p, hp, hlen⟩ := hm kv (by simp)
    obtain ⟨o1, h1, h2, h3, h4⟩ := setSubset_ok b p kv.2 dst hlen.symm
      (fun i hi => hb i (List.mem_append_left _ hi)) hn1
    obtain ⟨o2, g1, g2, g3, g4⟩ := stitch_ok b means t o1 (c + kv.2.length) hn2
      (fun i hi => by rw [h2]; exact hb i (List.mem_append_right _ hi))
      (fun kv' hkv' => hm kv' (List.mem_cons_of_mem _ hkv'))
    refine ⟨o2, ?_, by rw [g2, h2], ?_, ?_⟩
    · rw [List.foldlM_cons]
      have hat : means.at? kv.1 = .ok p := by simp [SMap.at?, hp]
      rw [hval, List.flatten_cons, List.length_append, ← Nat.add_assoc]
      simp only [hat, except_ok_bind, hlen, decide_true, albatrossAssert_true, h1, except_pure]
      exact g1
    · intro j hj
      rw [hval, List.flatten_cons, List.mem_append, not_or] at hj
      rw [g3 j hj.2, h3 j hj.1]
    · intro kv' hkv' m i hi q hq
      rcases List.mem_cons.1 hkv' with rfl | hkv'
      · rw [hp] at hq; cases hq
        have hin : i ∈ kv'.2 := List.mem_of_getElem? hi
        rw [g3 i (fun hmem => hn3 i hin i hmem rfl)]
        exact h4 m i hi
      · exact g4 kv' hkv' m i hi q hq

theorem stitch2_ok [LinearOrder K] (b : Build) (preds : SMap K (List R × List R)) :
    ∀ (ix : SMap K (List Nat)) (d1 d2 : List R) (c : Nat), d1.length = d2.length →
      ix.values.flatten.Nodup → (∀ i ∈ ix.values.flatten, i < d1.length) →
      (∀ kv ∈ ix, ∃ m, preds.find? kv.1 = some m ∧ m.1.length = kv.2.length ∧
        m.2.length = kv.2.length) →
      ∃ o1 o2, ix.foldlM (fun (acc : (List R × List R) × Nat) kv => do
          let p ← preds.at? kv.1
          albatrossAssert b (decide (p.1.length = kv.2.length))
          let m ← setSubset b p.1 kv.2 acc.1.1
          let v ← setSubset b p.2 kv.2 acc.1.2
          pure ((m, v), acc.2 + kv.2.length)) ((d1, d2), c) =
          (.ok ((o1, o2), c + ix.values.flatten.length) : Outcome _) ∧
        o1.length = d1.length ∧ o2.length = d2.length ∧
        (∀ j, j ∉ ix.values.flatten → o1[j]? = d1[j]? ∧ o2[j]? = d2[j]?) ∧
        (∀ kv ∈ ix, ∀ m i : Nat, kv.2[m]? = some i → ∀ p, preds.find? kv.1 = some p →
          o1[i]? = p.1[m]? ∧ o2[i]? = p.2[m]?)
  | [], d1, d2, c, _, _, _, _ => ⟨d1, d2, by simp [SMap.values], rfl, rfl, by simp, by simp⟩
  | kv :: t, d1, d2, c, hd, hn, hb, hm => by
    have hval : SMap.values (kv :: t) = kv.2 :: SMap.values t := rfl
    rw [hval, List.flatten_cons] at hn hb
    obtain ⟨hn1, hn2, hn3⟩ := List.nodup_append.1 hn
    obtain ⟨p, hp, hlen, hlen2⟩ := hm kv (by simp)
    obtain ⟨a1, h1, h2, h3, h4⟩ := setSubset_ok b p.1 kv.2 d1 hlen.symm
      (fun i hi => hb i (List.mem_append_left _ hi)) hn1
    obtain ⟨b1, k1, k2, k3, k4⟩ := setSubset_ok b p.2 kv.2 d2 hlen2.symm
      (fun i hi => hd ▸ hb i (List.mem_append_left _ hi)) hn1
    obtain ⟨o1, o2, g1, g2, g2', g3, g4⟩ := stitch2_ok b preds t a1 b1 (c + kv.2.length)
      (by rw [h2, k2, hd]) hn2
      (fun i hi => by rw [h2]; exact hb i (List.mem_append_right _ hi))
      (fun kv' hkv' => hm kv' (List.mem_cons_of_mem _ hkv'))
    refine ⟨o1, o2, ?_, by rw [g2, h2], by rw [g2', k2], ?_, ?_⟩
    · rw [List.foldlM_cons]
      have hat : preds.at? kv.1 = .ok p := by simp [SMap.at?, hp]
      rw [hval, List.flatten_cons, List.length_append, ← Nat.add_assoc]
      simp only [hat, except_ok_bind, hlen, decide_true, albatrossAssert_true, h1, k1, except_pure]
      exact g1
    · intro j hj
      rw [hval, List.flatten_cons, List.mem_append, not_or] at hj
      rw [(g3 j hj.2).1, (g3 j hj.2).2, h3 j hj.1, k3 j hj.1]; exact ⟨rfl, rfl⟩
    · intro kv' hkv' m i hi q hq
      rcases List.mem_cons.1 hkv' with rfl | hkv'
      · rw [hp] at hq; cases hq
        have hin : i ∈ kv'.2 := List.mem_of_getElem? hi
        have := g3 i (fun hmem => hn3 i hin i hmem rfl)
        rw [this.1, this.2]
        exact ⟨h4 m i hi, k4 m i hi⟩
      · exact g4 kv' hkv' m i hi q hq

end helpers

/-- C05: whatever the grouping, the order of the indices inside a group and the content of the
uninitialised output vector, stitched mean predictions exist and element `i` is the prediction made
for element `i`: if `i` is the `m`-th index of group `k`, it is the `m`-th entry of the prediction of
group `k`. -/
theorem C05_means_in_dataset_order [LinearOrder K] (b : Build) (uninit : Nat → R)
    (ix : SMap K (List Nat)) (n : Nat) (hn : 0 < n) (h : IsPartition ix n)
    (means : SMap K (List R)) (hsize : means.length = ix.length)
    (hm : ∀ k is, ix.find? k = some is → ∃ m, means.find? k = some m ∧ m.length = is.length) :
    ∃ out, concatenateMeanPredictions b uninit ix means = .ok out ∧ out.length = n ∧
      (∀ k is p, ix.find? k = some is → means.find? k = some p →
        ∀ m i : Nat, is[m]? = some i → out[i]? = p[m]?) ∧
      (∀ i < n, ∃ k is, ix.find? k = some is ∧ i ∈ is) := by
  have hnd : ix.values.flatten.Nodup := h.perm.nodup_iff.2 List.nodup_range
  obtain ⟨out, h1, h2, h3, h4⟩ := stitch_ok b means ix ((List.range n).map uninit) 0 hnd
    (by intro i hi; simpa using h.perm.mem_iff.1 hi)
    (by
      intro kv hkv
      exact hm kv.1 kv.2 (SMap.find?_of_mem h.wf hkv))
  refine ⟨out, ?_, by simpa using h2, ?_, ?_⟩
  · unfold concatenateMeanPredictions
    simp only [hsize, decide_true, albatrossAssert_true, except_ok_bind, datasetSize_ok b h hn,
      except_pure]
    rw [except_bind_eq_ok]
    refine ⟨_, h1, ?_⟩
    have : 0 + ix.values.flatten.length = n := by rw [h.perm.length_eq]; simp
    simp only [this, decide_true, albatrossAssert_true, except_ok_bind]
  · intro k is p hk hp m i hi
    exact h4 (k, is) (SMap.mem_of_find? hk) m i hi p hp
  · intro i hi
    have : i ∈ ix.values.flatten := h.perm.mem_iff.2 (by simpa using hi)
    obtain ⟨is, his, hii⟩ := List.mem_flatten.1 this
    obtain ⟨kv, hkv, rfl⟩ := List.mem_map.1 his
    exact ⟨kv.1, kv.2, SMap.find?_of_mem h.wf hkv, hii⟩

/-- C05 for marginal predictions: the same for means and variances together. -/
theorem C05_marginals_in_dataset_order [LinearOrder K] (b : Build) (uninit : Nat → R)
    (ix : SMap K (List Nat)) (n : Nat) (hn : 0 < n) (h : IsPartition ix n)
    (preds : SMap K (List R × List R)) (hsize : preds.length = ix.length)
    (hm : ∀ k is, ix.find? k = some is → ∃ m, preds.find? k = some m ∧ m.1.length = is.length ∧
      m.2.length = is.length) :
    ∃ mean variance, concatenateMarginalPredictions b uninit ix preds = .ok (mean, variance) ∧
      mean.length = n ∧ variance.length = n ∧
      (∀ k is p, ix.find? k = some is → preds.find? k = some p →
        ∀ m i : Nat, is[m]? = some i → mean[i]? = p.1[m]? ∧ variance[i]? = p.2[m]?) := by
  have hnd : ix.values.flatten.Nodup := h.perm.nodup_iff.2 List.nodup_range
  obtain ⟨o1, o2, h1, h2, h2', h3, h4⟩ := stitch2_ok b preds ix ((List.range n).map uninit)
    ((List.range n).map uninit) 0 rfl hnd
    (by intro i hi; simpa using h.perm.mem_iff.1 hi)
    (by
      intro kv hkv
      exact hm kv.1 kv.2 (SMap.find?_of_mem h.wf hkv))
  have l1 : o1.length = n := by simpa using h2
  have l2 : o2.length = n := by simpa using h2'
  refine ⟨o1, o2, ?_, l1, l2, ?_⟩
  · unfold concatenateMarginalPredictions
    simp only [hsize, decide_true, albatrossAssert_true, except_ok_bind, datasetSize_ok b h hn,
      except_pure]
    rw [except_bind_eq_ok]
    refine ⟨_, h1, ?_⟩
    have : 0 + ix.values.flatten.length = n := by rw [h.perm.length_eq]; simp
    simp only [this, l1, l2, decide_true, albatrossAssert_true, except_ok_bind]
  · intro k is p hk hp m i hi
    exact h4 (k, is) (SMap.mem_of_find? hk) m i hi p hp

/-- C05 end to end: for a model that predicts one mean per feature, the cross-validated mean of
element `i` is the prediction, at that element's feature, of the model fitted to the rows outside
`i`'s group. -/
theorem C05_cross_validated_mean [LinearOrder K] (b : Build) (uninit : Nat → R)
    (fitPredict : Dataset F R → List F → List R)
    (hlen : ∀ d fs, (fitPredict d fs).length = fs.length)
    (d : Dataset F R) (hd : d.Valid) (hne : d.features ≠ [])
    (ix : SMap K (List Nat)) (h : IsPartition ix d.features.length) :
    ∃ out, crossValidatedMean b uninit fitPredict d ix = .ok out ∧ out.length = d.features.length ∧
      ∀ k is, ix.find? k = some is → ∀ m i : Nat, is[m]? = some i →
        ∃ train features, train.Valid ∧
          train.rows = (d.rows.zipIdx.filter fun r => r.2 ∉ is).map Prod.fst ∧
          features.map some = is.map (d.features[·]?) ∧ features[m]? = d.features[i]? ∧
          out[i]? = (fitPredict train features)[m]? := by
  have hlt : ∀ kv ∈ ix, ∀ i ∈ kv.2, i < d.features.length := fun kv hkv i hi => h.mem_lt hkv hi
  obtain ⟨folds, hf1, hf2, hf3, -⟩ := C04_folds_split b d hd ix h
  let pr : List Nat → List R := fun is =>
    fitPredict (d.pick (indicesComplement is d.features.length)) (is.filterMap (d.features[·]?))
  have e := groupsOf_ok (fun is => do
      let f ← createFold b d is
      pure (fitPredict f.train f.test.features)) pr ix h.wf
    (fun kv hkv => by
      rw [createFold_ok b d hd kv.2 (h.nodup hkv) (hlt kv hkv)]; rfl)
  have hn : 0 < d.features.length := List.length_pos_iff.2 hne
  obtain ⟨out, h1, h2, h3, -⟩ := C05_means_in_dataset_order b uninit ix _ hn h
    (ix.map fun kv => (kv.1, pr kv.2)) (by simp) (by
      intro k is hk
      refine ⟨pr is, ?_, ?_⟩
      · rw [SMap.find?_map_values ix fun kv => pr kv.2, hk]; rfl
      · rw [hlen, length_filterMap_get _ _ (hlt _ (SMap.mem_of_find? hk))])
  refine ⟨out, ?_, h2, ?_⟩
  · unfold crossValidatedMean crossValidatedMeans
    rw [e]; exact h1
  · intro k is hk m i hi
    have hmem := SMap.mem_of_find? hk
    obtain ⟨f, hfk, -, hf4, -, -, hf5, -⟩ := hf3 k is hk
    have hfe : f = { train := d.pick (indicesComplement is d.features.length),
                     test := d.pick is, testIndices := is } := by
      have hc := groupsOf_ok (createFold b d) (fun is => (⟨d.pick (indicesComplement is
        d.features.length), d.pick is, is⟩ : Fold F R)) ix h.wf
        (fun kv hkv => createFold_ok b d hd kv.2 (h.nodup hkv) (hlt kv hkv))
      unfold foldsFromGroupIndexer at hf1
      rw [hc] at hf1; cases hf1
      rw [SMap.find?_map_values ix fun kv => (⟨d.pick (indicesComplement kv.2
        d.features.length), d.pick kv.2, kv.2⟩ : Fold F R), hk] at hfk
      simpa using hfk.symm
    subst hfe
    have hmap : (is.filterMap (d.features[·]?)).map some = is.map (d.features[·]?) := by
      have : ∀ l : List Nat, (∀ i ∈ l, i < d.features.length) →
          (l.filterMap (d.features[·]?)).map some = l.map (d.features[·]?) := by
        intro l
        induction l with
        | nil => simp
        | cons i t ih =>
          intro hl
          have hi := hl i (by simp)
          have := ih fun j hj => hl j (List.mem_cons_of_mem _ hj)
          simp [hi, this]
      exact this is (hlt _ hmem)
    refine ⟨_, is.filterMap (d.features[·]?), hf4, hf5, hmap, ?_, ?_⟩
    · have := congrArg (fun l => l[m]?) hmap
      simp only [List.getElem?_map, hi, Option.map_some] at this
      cases hx : (is.filterMap (d.features[·]?))[m]? with
      | none => rw [hx] at this; simp at this
      | some x => rw [hx] at this; simpa using this
    · exact h3 k is _ hk (by rw [SMap.find?_map_values ix fun kv => pr kv.2, hk]; rfl) m i hi

/-! ## Non-vacuity -/

def sampleIndexer : SMap Nat (List Nat) := [(3, [4, 1]), (7, [0]), (9, [2, 3])]

theorem sampleIndexer_partition : IsPartition sampleIndexer 5 where
  wf := by simp [SMap.WF, sampleIndexer]
  perm := by decide

example : concatenateMeanPredictions .debug (fun _ => (0 : Int)) sampleIndexer
    [(3, [40, 10]), (7, [0]), (9, [20, 30])] = .ok [0, 10, 20, 30, 40] := by decide

example : foldsFromGroupIndexer .debug
    { features := ["a", "b", "c"], mean := [1, 2, 3], variance := [(4 : Int), 5, 6] }
    [(1, [2, 0]), (2, [1])] =
    .ok [(1, { train := { features := ["b"], mean := [2], variance := [5] },
               test := { features := ["c", "a"], mean := [3, 1], variance := [6, 4] },
               testIndices := [2, 0] }),
         (2, { train := { features := ["a", "c"], mean := [1, 3], variance := [4, 6] },
               test := { features := ["b"], mean := [2], variance := [5] },
               testIndices := [1] })] := by decide +kernel

example : datasetSizeFromIndexer .debug ([(1, [0, 2])] : SMap Nat (List Nat)) =
    .error .assertFail := by decide

end Albatross
