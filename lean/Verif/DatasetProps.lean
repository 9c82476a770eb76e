import Verif.IndexingProps
import Mathlib.Data.List.Zip

/-! # Properties C09, C10: `deduplicate`, `align_datasets`, concatenation of datasets -/

namespace Albatross

variable {F R : Type}

/-! ## C09 -/

theorem filterMap_sublist {α : Type} (xs : List α) (p : Nat → Bool) :
    (((List.range xs.length).filter p).filterMap (xs[·]?)).Sublist xs := by
  have h1 : ((List.range xs.length).filter p).Sublist (List.range xs.length) := List.filter_sublist
  have := h1.filterMap (xs[·]?)
  rwa [filterMap_range_self] at this

theorem appearsLater_iff [DecidableEq F] (fs : List F) (i : Nat) :
    appearsLater fs i = true ↔ ∃ j, i < j ∧ ∃ x, fs[i]? = some x ∧ fs[j]? = some x := by
  unfold appearsLater
  cases h : fs[i]? with
  | none => simp
  | some x =>
    simp only [List.any_eq_true, decide_eq_true_eq, Option.some.injEq]
    constructor
    · rintro ⟨y, hy, rfl⟩
      obtain ⟨k, hk⟩ := List.mem_iff_getElem?.1 hy
      rw [List.getElem?_drop] at hk
      exact ⟨_, by omega, x, rfl, hk⟩
    · rintro ⟨j, hj, y, rfl, hy⟩
      refine ⟨x, ?_, rfl⟩
      rw [List.mem_iff_getElem?]
      exact ⟨j - (i + 1), by rw [List.getElem?_drop, ← hy]; congr 1; omega⟩

/-- The index list used by `deduplicate`. -/
def uniqueInds [DecidableEq F] (fs : List F) : List Nat :=
  (List.range fs.length).filter fun i => !appearsLater fs i

theorem mem_uniqueInds [DecidableEq F] (fs : List F) (i : Nat) :
    i ∈ uniqueInds fs ↔ i < fs.length ∧ ∀ j x, fs[i]? = some x → fs[j]? = some x → j ≤ i := by
  unfold uniqueInds
  rw [List.mem_filter, List.mem_range]
  have : (!appearsLater fs i) = true ↔ ¬ appearsLater fs i = true := by simp
  rw [this, appearsLater_iff]
  constructor
  · rintro ⟨h1, h2⟩
    refine ⟨h1, fun j x hi hj => ?_⟩
    by_contra hc
    exact h2 ⟨j, by omega, x, hi, hj⟩
  · rintro ⟨h1, h2⟩
    refine ⟨h1, ?_⟩
    rintro ⟨j, hj, x, hi, hx⟩
    have := h2 j x hi hx
    omega

/-- C09. `deduplicate` succeeds on every valid dataset, drops the metadata, keeps a sub-sequence of
the rows in which every feature of the input occurs exactly once, and the row kept for a feature is
its last row in the input. -/
theorem C09_deduplicate [DecidableEq F] (b : Build) (d : Dataset F R) (hd : d.Valid) :
    ∃ out, deduplicate b d = .ok out ∧ out.Valid ∧ out.metadata = [] ∧
      out.rows.Sublist d.rows ∧ out.features.Nodup ∧
      (∀ f, f ∈ out.features ↔ f ∈ d.features) ∧
      (∀ r ∈ out.rows, ∃ i : Nat, d.rows[i]? = some r ∧ ∀ (j : Nat) (s : F × R × R), d.rows[j]? = some s → s.1 = r.1 → j ≤ i) ∧
      (d.features.Nodup → out = { d with metadata := [] }) := by
  have hlt : ∀ i ∈ uniqueInds d.features, i < d.features.length :=
    fun i hi => ((mem_uniqueInds _ _).1 hi).1
  have hrl := rows_length d hd
  have hrow : ∀ i : Nat, d.features[i]? = (d.rows[i]?).map Prod.fst := by
    intro i; rw [← List.getElem?_map, rows_features d hd]
  refine ⟨d.pick (uniqueInds d.features), subsetDataset_ok b d hd _ hlt,
    pick_valid d hd _ hlt, rfl, ?_, ?_, ?_, ?_, ?_⟩
  · rw [pick_rows d hd _ hlt]
    unfold uniqueInds
    rw [← hrl]
    exact filterMap_sublist _ _
  · show (List.filterMap (d.features[·]?) (uniqueInds d.features)).Nodup
    unfold List.Nodup
    rw [List.pairwise_filterMap]
    have hs : (uniqueInds d.features).Pairwise (· < ·) := List.pairwise_lt_range.filter _
    refine hs.imp_of_mem ?_
    rintro i j hi - hij x hx y hy rfl
    have := ((mem_uniqueInds _ _).1 hi).2 j x hx hy
    omega
  · intro f
    show f ∈ List.filterMap (d.features[·]?) (uniqueInds d.features) ↔ _
    rw [List.mem_filterMap]
    constructor
    · rintro ⟨i, -, hi⟩; exact List.mem_of_getElem? hi
    · intro hf
      obtain ⟨k, hk⟩ := List.mem_iff_getElem?.1 hf
      have hkl : k ≤ d.features.length := (List.getElem?_eq_some_iff.1 hk).1.le
      have hspec : d.features[Nat.findGreatest (fun i => d.features[i]? = some f)
          d.features.length]? = some f :=
        Nat.findGreatest_spec (P := fun i => d.features[i]? = some f) hkl hk
      refine ⟨_, (mem_uniqueInds _ _).2 ⟨(List.getElem?_eq_some_iff.1 hspec).1, ?_⟩, hspec⟩
      intro j x h1 h2
      rw [hspec] at h1
      cases h1
      exact Nat.le_findGreatest (P := fun i => d.features[i]? = some f)
        (List.getElem?_eq_some_iff.1 h2).1.le h2
  · intro r hr
    rw [pick_rows d hd _ hlt, List.mem_filterMap] at hr
    obtain ⟨i, hi, hr⟩ := hr
    refine ⟨i, hr, fun j s hj e => ?_⟩
    refine ((mem_uniqueInds _ _).1 hi).2 j r.1 (by rw [hrow, hr]; rfl) ?_
    rw [hrow, hj]; simp [e]
  · intro hnd
    have : uniqueInds d.features = List.range d.features.length := by
      unfold uniqueInds
      rw [List.filter_eq_self]
      intro i _
      have : ¬ appearsLater d.features i = true := by
        rw [appearsLater_iff]
        rintro ⟨j, hj, x, h1, h2⟩
        exact List.nodup_iff_getElem?_ne_getElem?.1 hnd i j hj (List.getElem?_eq_some_iff.1 h2).1
          (h1.trans h2.symm)
      simpa using this
    unfold Dataset.pick
    rw [this, filterMap_range_self]
    have h1 := filterMap_range_self d.mean
    have h2 := filterMap_range_self d.variance
    rw [hd.1] at h1
    rw [hd.2] at h2
    rw [h1, h2]

example : deduplicate .debug
      ({ features := [1, 2, 1], mean := [4, 5, 6], variance := [0, 1, 2] } : Dataset Nat Int) =
    .ok { features := [2, 1], mean := [5, 6], variance := [1, 2] } := by decide

/-! ## C10 -/

theorem alignInner_eq (eq : F → F → Bool) (x : F) (i j : Nat) (ys : List F) :
    alignInner eq x i j ys =
      ((ys.zipIdx j).filter fun p => eq x p.1).map fun p => (i, p.2) := by
  induction ys generalizing j with
  | nil => rfl
  | cons y ys ih =>
    simp only [alignInner, List.zipIdx_cons, List.filter_cons]
    cases eq x y <;> simp [ih]

theorem alignOuter_eq (eq : F → F → Bool) (ys : List F) (i : Nat) (xs : List F) :
    alignOuter eq ys i xs =
      (((xs.zipIdx i) ×ˢ (ys.zipIdx 0)).filter fun pq => eq pq.1.1 pq.2.1).map
        fun pq => (pq.1.2, pq.2.2) := by
  induction xs generalizing i with
  | nil => rfl
  | cons x xs ih =>
    simp only [alignOuter, List.zipIdx_cons, List.product_cons, List.filter_append, List.map_append]
    rw [alignInner_eq, ih, List.filter_map, List.map_map]
    rfl

theorem zipIdx_map_fst' {α β : Type} (f : α → β) (l : List α) (i : Nat) :
    (l.map f).zipIdx i = (l.zipIdx i).map fun p => (f p.1, p.2) := by
  induction l generalizing i with
  | nil => rfl
  | cons a t ih => simp [ih]

theorem product_map {α β γ δ : Type} (f : α → γ) (g : β → δ) (l : List α) (m : List β) :
    (l.map f) ×ˢ (m.map g) = (l ×ˢ m).map fun p => (f p.1, g p.2) := by
  induction l with
  | nil => rfl
  | cons a t ih =>
    simp only [List.map_cons, List.product_cons, List.map_append, List.map_map, ih]
    rfl

/-- The pairs of positions with their rows that `align_datasets` selects. -/
def matchedRows (eq : F → F → Bool) (x y : Dataset F R) :
    List (((F × R × R) × Nat) × ((F × R × R) × Nat)) :=
  ((x.rows.zipIdx) ×ˢ (y.rows.zipIdx)).filter fun pq => eq pq.1.1.1 pq.2.1.1

theorem alignOuter_rows (eq : F → F → Bool) (x y : Dataset F R) (hx : x.Valid) (hy : y.Valid) :
    alignOuter eq y.features 0 x.features =
      (matchedRows eq x y).map fun pq => (pq.1.2, pq.2.2) := by
  rw [alignOuter_eq, ← rows_features x hx, ← rows_features y hy, zipIdx_map_fst', zipIdx_map_fst',
    product_map, List.filter_map, List.map_map]
  rfl

theorem filterMap_zipIdx {α γ : Type} (l : List α) (m : List γ) (π : γ → α × Nat)
    (h : ∀ c ∈ m, π c ∈ l.zipIdx) :
    (m.map fun c => (π c).2).filterMap (l[·]?) = m.map fun c => (π c).1 := by
  induction m with
  | nil => rfl
  | cons c m ih =>
    have hc := h c (by simp)
    have : l[(π c).2]? = some (π c).1 := List.mem_zipIdx_iff_getElem?.1 hc
    simp only [List.map_cons]
    rw [List.filterMap_cons_some this, ih fun c hc => h c (List.mem_cons_of_mem _ hc)]

/-- C10. `align_datasets` succeeds on valid datasets.  Afterwards the two datasets are valid, have
the same number of rows, and pairing row `k` of one with row `k` of the other lists exactly the
matching pairs of input rows, in lexicographic order of their positions. -/
theorem C10_align_datasets (b : Build) (eq : F → F → Bool) (x y : Dataset F R)
    (hx : x.Valid) (hy : y.Valid) :
    ∃ x' y', alignDatasets b eq x y = .ok (x', y') ∧ x'.Valid ∧ y'.Valid ∧
      x'.features.length = y'.features.length ∧
      x'.rows.zip y'.rows = (x.rows ×ˢ y.rows).filter fun pq => eq pq.1.1 pq.2.1 := by
  set M := matchedRows eq x y with hM
  have hMx : ∀ c ∈ M, c.1 ∈ x.rows.zipIdx := fun c hc =>
    (List.mem_product.1 (List.mem_filter.1 hc).1).1
  have hMy : ∀ c ∈ M, c.2 ∈ y.rows.zipIdx := fun c hc =>
    (List.mem_product.1 (List.mem_filter.1 hc).1).2
  have hltx : ∀ i ∈ M.map (fun c => c.1.2), i < x.features.length := by
    intro i hi
    obtain ⟨c, hc, rfl⟩ := List.mem_map.1 hi
    have := List.mem_zipIdx_iff_getElem?.1 (hMx c hc)
    rw [← rows_length x hx]
    exact (List.getElem?_eq_some_iff.1 this).1
  have hlty : ∀ i ∈ M.map (fun c => c.2.2), i < y.features.length := by
    intro i hi
    obtain ⟨c, hc, rfl⟩ := List.mem_map.1 hi
    have := List.mem_zipIdx_iff_getElem?.1 (hMy c hc)
    rw [← rows_length y hy]
    exact (List.getElem?_eq_some_iff.1 this).1
  have hspec : (M.map fun c => (c.1.1, c.2.1)) =
      (x.rows ×ˢ y.rows).filter fun pq => eq pq.1.1 pq.2.1 := by
    have e : x.rows ×ˢ y.rows = ((x.rows.zipIdx) ×ˢ (y.rows.zipIdx)).map fun p => (p.1.1, p.2.1) := by
      rw [← product_map]
      simp
    rw [e, List.filter_map]
    rfl
  have hpairs := alignOuter_rows eq x y hx hy
  have hX : (alignOuter eq y.features 0 x.features).map Prod.fst = M.map fun c => c.1.2 := by
    rw [hpairs, List.map_map]; rfl
  have hY : (alignOuter eq y.features 0 x.features).map Prod.snd = M.map fun c => c.2.2 := by
    rw [hpairs, List.map_map]; rfl
  by_cases hemp : M = []
  · refine ⟨{ features := [], mean := [], variance := [] },
      { features := [], mean := [], variance := [] }, ?_, ?_, ?_, rfl, ?_⟩
    · simp only [alignDatasets, hX, hY, hemp]
      simp
    · simp [Dataset.Valid]
    · simp [Dataset.Valid]
    · rw [← hspec, hemp]; rfl
  · have hxr := pick_rows x hx _ hltx
    have hyr := pick_rows y hy _ hlty
    rw [filterMap_zipIdx x.rows M (fun c => c.1) hMx] at hxr
    rw [filterMap_zipIdx y.rows M (fun c => c.2) hMy] at hyr
    have vx := pick_valid x hx _ hltx
    have vy := pick_valid y hy _ hlty
    refine ⟨x.pick (M.map fun c => c.1.2), y.pick (M.map fun c => c.2.2), ?_, vx, vy, ?_, ?_⟩
    · simp only [alignDatasets, hX, hY, List.length_map, decide_true, albatrossAssert_true,
        except_ok_bind]
      have : ¬ M.length = 0 := by simpa using hemp
      rw [if_neg this, subsetDataset_ok b x hx _ hltx, subsetDataset_ok b y hy _ hlty]
      rfl
    · rw [← rows_length _ vx, ← rows_length _ vy, hxr, hyr]; simp
    · rw [hxr, hyr, ← hspec, List.zip_map']

/-- C10. When the comparison is equality and neither side repeats a feature, every common feature
appears exactly once, in the order of `x`, at the same row on both sides. -/
theorem C10_align_unique [DecidableEq F] (b : Build) (x y : Dataset F R)
    (hx : x.Valid) (hy : y.Valid) (hny : y.features.Nodup) :
    ∃ x' y', alignDatasets b (fun f g => decide (f = g)) x y = .ok (x', y') ∧
      x'.features = x.features.filter (fun f => decide (f ∈ y.features)) ∧
      y'.features = x'.features := by
  obtain ⟨x', y', h1, v1, v2, hl, hz⟩ := C10_align_datasets b (fun f g => decide (f = g)) x y hx hy
  refine ⟨x', y', h1, ?_⟩
  have hl' : x'.rows.length = y'.rows.length := by
    rw [rows_length _ v1, rows_length _ v2, hl]
  have hfx : x'.features = (x'.rows.zip y'.rows).map fun p => p.1.1 := by
    rw [← rows_features x' v1]
    conv_lhs => rw [← List.map_fst_zip (l₁ := x'.rows) (l₂ := y'.rows) hl'.le, List.map_map]
    rfl
  have hfy : y'.features = (x'.rows.zip y'.rows).map fun p => p.2.1 := by
    rw [← rows_features y' v2]
    conv_lhs => rw [← List.map_snd_zip (l₁ := x'.rows) (l₂ := y'.rows) hl'.ge, List.map_map]
    rfl
  have hxy : y'.features = x'.features := by
    rw [hfx, hfy]
    apply List.map_congr_left
    intro p hp
    rw [hz, List.mem_filter] at hp
    simpa using (of_decide_eq_true hp.2).symm
  refine ⟨?_, hxy⟩
  rw [hfx, hz, ← rows_features x hx]
  have hny' : (y.rows.map Prod.fst).Nodup := by rw [rows_features y hy]; exact hny
  rw [← rows_features y hy]
  generalize y.rows = Y at hny'
  generalize x.rows = X
  induction X with
  | nil => rfl
  | cons r X ih =>
    simp only [List.product_cons, List.filter_append, List.map_append, ih, List.map_cons,
      List.filter_cons]
    have key : ∀ (Y : List (F × R × R)), (Y.map Prod.fst).Nodup →
        ((Y.map fun b => (r, b)).filter (fun pq => decide (pq.1.1 = pq.2.1))).map
          (fun p => p.1.1) = if r.1 ∈ Y.map Prod.fst then [r.1] else [] := by
      intro Y
      induction Y with
      | nil => simp
      | cons s Y ihY =>
        intro hn
        simp only [List.map_cons, List.nodup_cons] at hn
        have := ihY hn.2
        simp only [List.map_cons, List.filter_cons]
        by_cases e : r.1 = s.1
        · have hnot : r.1 ∉ Y.map Prod.fst := by rw [e]; exact hn.1
          rw [if_neg hnot] at this
          simp only [e, decide_true, if_true, List.map_cons, List.mem_cons, true_or]
          rw [← e, this]
        · simp only [e, decide_false, Bool.false_eq_true, if_false, this, List.mem_cons, false_or]
    rw [key Y hny']
    by_cases hm : r.1 ∈ Y.map Prod.fst
    · simp [hm]
    · simp [hm]

/-- C10. With repeated features every matching pair is kept, so the aligned datasets can be larger
than either input (the `continue` in the inner loop does not leave it). -/
theorem C10_align_duplicates_grow :
    ∃ x y x' y' : Dataset Nat Int, x.Valid ∧ y.Valid ∧
      alignDatasets .debug (fun f g => decide (f = g)) x y = .ok (x', y') ∧
      x.features.length < x'.features.length ∧ y.features.length < y'.features.length :=
  ⟨{ features := [1, 1], mean := [1, 2], variance := [0, 0] },
   { features := [1, 1], mean := [3, 4], variance := [0, 0] },
   { features := [1, 1, 1, 1], mean := [1, 1, 2, 2], variance := [0, 0, 0, 0] },
   { features := [1, 1, 1, 1], mean := [3, 4, 3, 4], variance := [0, 0, 0, 0] },
   by simp [Dataset.Valid], by simp [Dataset.Valid], by decide, by decide, by decide⟩

example : alignDatasets .debug (fun f g => decide (f = g))
      ({ features := [1, 2, 3], mean := [4, 5, 6], variance := [0, 1, 2] } : Dataset Nat Int)
      { features := [3, 9, 1], mean := [7, 8, 9], variance := [3, 4, 5] } =
    .ok ({ features := [1, 3], mean := [4, 6], variance := [0, 2] },
      { features := [1, 3], mean := [9, 7], variance := [5, 3] }) := by decide

/-! ## Concatenation -/

/-- `concatenate_datasets(x, y)` of valid datasets has the rows of `x` followed by those of `y`. -/
theorem C73_concatenate_datasets (b : Build) (x y : Dataset F R) (hx : x.Valid) (hy : y.Valid) :
    ∃ z, concatenateDatasets b x y = .ok z ∧ z.Valid ∧ z.rows = x.rows ++ y.rows := by
  refine ⟨{ features := x.features ++ y.features, mean := x.mean ++ y.mean,
            variance := x.variance ++ y.variance }, ?_, ?_, ?_⟩
  · simp [concatenateDatasets, mkDataset, concatenate_eq, hx.1, hx.2, hy.1, hy.2]
  · simp [Dataset.Valid, hx.1, hx.2, hy.1, hy.2]
  · simp only [Dataset.rows]
    rw [List.zip_append (by rw [hx.1, hx.2]), List.zip_append (by simp [hx.1, hx.2])]

/-- A subset of a concatenation splits: indices below `x.size()` read from `x`, the others, shifted,
from `y`. -/
theorem C73_subset_of_concatenation (b : Build) (x y z : Dataset F R) (hx : x.Valid) (hy : y.Valid)
    (hz : concatenateDatasets b x y = .ok z) (i : Nat) :
    (i < x.features.length → z.rows[i]? = x.rows[i]?) ∧
    (x.features.length ≤ i → z.rows[i]? = y.rows[i - x.features.length]?) := by
  obtain ⟨z', h1, -, h3⟩ := C73_concatenate_datasets b x y hx hy
  rw [hz] at h1
  cases h1
  rw [h3, ← rows_length x hx]
  exact ⟨fun h => List.getElem?_append_left h, fun h => List.getElem?_append_right h⟩

end Albatross
