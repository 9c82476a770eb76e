import Verif.Utils
import Verif.IndexingProps
import Verif.SamplerCsvProps
import Mathlib.Tactic.Linarith
import Mathlib.Tactic.Positivity
import Mathlib.Tactic.FieldSimp
import Mathlib.Algebra.Order.Round

/-! # C67, C70, C71 and C81: casts, unique values and filters, `linspace`, inducing point grids -/

namespace Albatross

variable {α β K V F R : Type}

/-! ## C67: integer casts -/

theorem assert_debug_false : albatrossAssert .debug false = .error .assertFail := rfl

theorem assert_ndebug (c : Bool) : albatrossAssert .ndebug c = .ok () := by cases c <;> rfl

theorem toSize_indexMax (b : Build) : toSize b indexMax = .ok (2 ^ 63 - 1) := by
  have h : (0 : Int) ≤ indexMax := by decide
  have e : (indexMax % 2 ^ 64).toNat = 2 ^ 63 - 1 := by decide
  simp only [toSize, h, decide_true, albatrossAssert_true, except_ok_bind, except_pure, e]

theorem wrap_low {n : Int} (h0 : 0 ≤ n) (h : n < 2 ^ 63) : Int.bmod n (2 ^ 64) = n :=
  Int.bmod_eq_of_le_mul_two (by push_cast; omega) (by push_cast; omega)

theorem wrap_high {n : Int} (h : 2 ^ 63 ≤ n) (h' : n < 2 ^ 64) : Int.bmod n (2 ^ 64) = n - 2 ^ 64 := by
  rw [Int.bmod_eq_iff (by norm_num)]
  push_cast
  exact ⟨by omega, by omega, by omega⟩

theorem toIndex_of_le (b : Build) (n : Nat) (h : n ≤ 2 ^ 63 - 1) :
    toIndex b n = .ok (Int.bmod n (2 ^ 64)) := by
  have hm := toSize_indexMax b
  generalize 2 ^ 63 - 1 = m at h hm
  simp only [toIndex, hm, except_ok_bind, h, decide_true, albatrossAssert_true, except_pure]

theorem toIndex_of_gt (n : Nat) (h : ¬ n ≤ 2 ^ 63 - 1) :
    toIndex .debug n = .error .assertFail ∧ toIndex .ndebug n = .ok (Int.bmod n (2 ^ 64)) := by
  have hm := toSize_indexMax
  generalize 2 ^ 63 - 1 = m at h hm
  constructor
  · simp only [toIndex, hm, except_ok_bind, h, decide_false, assert_debug_false, except_error_bind]
  · simp only [toIndex, hm, except_ok_bind, assert_ndebug, except_pure]

/-- C67: on the non-negative half of `Eigen::Index`, converting to `std::size_t` and back is the identity. -/
theorem C67_index_round_trip (b : Build) (i : Int) (h0 : 0 ≤ i) (h1 : i < 2 ^ 63) :
    (toSize b i >>= toIndex b) = .ok i ∧ ∃ n : Nat, toSize b i = .ok n ∧ (n : Int) = i := by
  have hs : toSize b i = .ok i.toNat := by
    have e : i % 2 ^ 64 = i := Int.emod_eq_of_lt h0 (by omega)
    simp only [toSize, h0, decide_true, albatrossAssert_true, except_ok_bind, except_pure, e]
  refine ⟨?_, i.toNat, hs, by omega⟩
  have hl : i.toNat ≤ 2 ^ 63 - 1 := by omega
  have hw : Int.bmod (i.toNat : Int) (2 ^ 64) = i := by
    rw [Int.toNat_of_nonneg h0, wrap_low h0 h1]
  rw [hs, except_ok_bind, toIndex_of_le b _ hl, hw]

/-- C67: the sizes representable as `Eigen::Index` round trip. -/
theorem C67_size_round_trip (b : Build) (n : Nat) (h : n < 2 ^ 63) :
    toIndex b n = .ok (n : Int) ∧ (toIndex b n >>= toSize b) = .ok n := by
  have hl : n ≤ 2 ^ 63 - 1 := by omega
  have hw : Int.bmod (n : Int) (2 ^ 64) = n := wrap_low (by omega) (by omega)
  have hi : toIndex b n = .ok (n : Int) := by
    rw [toIndex_of_le b n hl, hw]
  refine ⟨hi, ?_⟩
  have e : (n : Int) % 2 ^ 64 = n := Int.emod_eq_of_lt (by omega) (by omega)
  have h0 : (0 : Int) ≤ n := by omega
  simp only [hi, except_ok_bind, toSize, h0, decide_true, albatrossAssert_true, except_pure, e, Int.toNat_natCast]

/-- C67: outside of those ranges a debug build stops; with `NDEBUG` the value wraps around and has the
other sign. -/
theorem C67_outside (i : Int) (hi : i < 0) (hi' : -2 ^ 63 ≤ i) (n : Nat) (hn : 2 ^ 63 ≤ n) (hn' : n < 2 ^ 64) :
    toSize .debug i = .error .assertFail ∧ toIndex .debug n = .error .assertFail ∧
    (∃ k : Nat, toSize .ndebug i = .ok k ∧ (k : Int) = i + 2 ^ 64) ∧
    toIndex .ndebug n = .ok ((n : Int) - 2 ^ 64) := by
  have c : ¬ (0 : Int) ≤ i := by omega
  have cn : ¬ n ≤ 2 ^ 63 - 1 := by omega
  have e : i % 2 ^ 64 = i + 2 ^ 64 := by
    rw [← Int.add_emod_right]; exact Int.emod_eq_of_lt (by omega) (by omega)
  have hw : Int.bmod (n : Int) (2 ^ 64) = n - 2 ^ 64 := wrap_high (by omega) (by omega)
  refine ⟨?_, ?_, ⟨(i + 2 ^ 64).toNat, ?_, by omega⟩, ?_⟩
  · simp only [toSize, c, decide_false, assert_debug_false, except_error_bind]
  · exact (toIndex_of_gt n cn).1
  · simp only [toSize, assert_ndebug, except_ok_bind, except_pure, e]
  · rw [(toIndex_of_gt n cn).2, hw]

theorem castToDouble_exact (n : Int) (h : n.natAbs ≤ 2 ^ 53) : castToDouble n = n := by
  have hmag : (roundHalfEven ((n.natAbs : ℝ) / 2 ^ (Nat.log 2 n.natAbs - 52)) : ℝ) *
      2 ^ (Nat.log 2 n.natAbs - 52) = (n.natAbs : ℝ) := by
    rcases Nat.lt_or_ge n.natAbs (2 ^ 53) with hlt | hge
    · have : Nat.log 2 n.natAbs - 52 = 0 := by
        rcases Nat.eq_zero_or_pos n.natAbs with h0 | h0
        · simp [h0]
        · have := (Nat.log_lt_iff_lt_pow (b := 2) (x := 53) (by norm_num) h0.ne').2 hlt
          omega
      rw [this, pow_zero, div_one, mul_one, roundHalfEven_nat]
    · have he : n.natAbs = 2 ^ 53 := le_antisymm h hge
      rw [he, Nat.log_pow (by norm_num)]
      have : ((2 ^ 53 : Nat) : ℝ) / 2 ^ (53 - 52) = ((2 ^ 52 : Nat) : ℝ) := by norm_num
      rw [this, roundHalfEven_nat]
      norm_num
  unfold castToDouble
  simp only
  rw [hmag]
  split_ifs with hn
  · have : ((n.natAbs : Int) : ℝ) = ((-n : Int) : ℝ) := by congr 1; omega
    rw [← Int.cast_natCast, this]; push_cast; ring
  · have : ((n.natAbs : Int) : ℝ) = (n : ℝ) := by congr 1; omega
    rw [← this]; simp

/-- C67: `to_double` is exact on the accepted range and stops a debug build outside of it. -/
theorem C67_to_double (b : Build) (n : Nat) (i : Int) :
    (n ≤ 2 ^ 53 → sizeToDouble b n = .ok (n : ℝ)) ∧
    (2 ^ 53 < n → sizeToDouble .debug n = .error .assertFail) ∧
    (-2 ^ 53 ≤ i → i ≤ 2 ^ 53 → indexToDouble b i = .ok (i : ℝ)) ∧
    (i < -2 ^ 53 ∨ 2 ^ 53 < i → indexToDouble .debug i = .error .assertFail) := by
  have hk : maxIntegerPrecisionIndex = 2 ^ 53 := by decide
  refine ⟨fun h => ?_, fun h => ?_, fun h1 h2 => ?_, fun h => ?_⟩
  · simp only [sizeToDouble, h, decide_true, albatrossAssert_true, except_ok_bind, except_pure]
    rw [castToDouble_exact _ (by simpa using h)]; simp
  · simp only [sizeToDouble, Nat.not_le.2 h, decide_false, assert_debug_false, except_error_bind]
  · have : i ≤ 2 ^ 53 ∧ -2 ^ 53 ≤ i := ⟨h2, h1⟩
    simp only [indexToDouble, hk, this, and_self, decide_true, albatrossAssert_true, except_ok_bind, except_pure]
    rw [castToDouble_exact _ (by omega)]
  · have : ¬ (i ≤ 2 ^ 53 ∧ -2 ^ 53 ≤ i) := by omega
    simp only [indexToDouble, hk, this, decide_false, assert_debug_false, except_error_bind]

/-- C67, the bound cannot be raised: the next integer is not representable and is rounded to a different one. -/
theorem C67_to_double_limit : sizeToDouble .ndebug (2 ^ 53 + 1) = .ok ((2 ^ 53 : Nat) : ℝ) := by
  have hlog : Nat.log 2 (2 ^ 53 + 1) = 53 :=
    (Nat.log_eq_iff (by norm_num)).2 ⟨by norm_num, by norm_num⟩
  have hc : castToDouble ((2 ^ 53 + 1 : Nat) : Int) = ((2 ^ 53 : Nat) : ℝ) := by
    unfold castToDouble
    simp only [Int.natAbs_natCast, hlog]
    have hf : ⌊((2 ^ 53 + 1 : Nat) : ℝ) / 2 ^ (53 - 52)⌋₊ = 2 ^ 52 := by
      rw [Nat.floor_eq_iff (by positivity)]
      norm_num
    have hr : roundHalfEven (((2 ^ 53 + 1 : Nat) : ℝ) / 2 ^ (53 - 52)) = 2 ^ 52 := by
      unfold roundHalfEven
      simp only [hf]
      rw [if_neg (by norm_num), if_neg (by norm_num), if_pos (by norm_num)]
    rw [hr, if_neg (by norm_num)]
    norm_num
  simp only [sizeToDouble, assert_ndebug, except_ok_bind, except_pure, hc]

example : toSize .ndebug (-1) = .ok 18446744073709551615 ∧ toIndex .debug 5 = .ok 5 := by decide

/-! ## C70: unique values and filters -/

/-- C70: `unique_values` holds exactly the values, each once and in increasing order. -/
theorem C70_unique_values [LinearOrder K] (xs : List K) :
    (uniqueValues xs).Pairwise (· < ·) ∧ ∀ k, k ∈ uniqueValues xs ↔ k ∈ xs :=
  ⟨sorted_setOfList xs, fun _ => mem_setOfList⟩

/-- C70: with a function, the values of the function. -/
theorem C70_unique_values_apply [LinearOrder K] (xs : List α) (f : α → K) :
    (uniqueValuesApply xs f).Pairwise (· < ·) ∧ ∀ k, k ∈ uniqueValuesApply xs f ↔ ∃ x ∈ xs, f x = k :=
  ⟨sorted_setOfList _, fun k => by simp [uniqueValuesApply, mem_setOfList]⟩

theorem uniqueValueSet_setOfList [LinearOrder K] (xs : List K) (v : K) :
    uniqueValueSet .debug (setOfList xs) = .ok v ↔ xs ≠ [] ∧ ∀ x ∈ xs, x = v := by
  have hmem : ∀ k, k ∈ setOfList xs ↔ k ∈ xs := fun k => mem_setOfList
  have hs := sorted_setOfList xs
  rcases h : setOfList xs with - | ⟨a, - | ⟨c, t⟩⟩
  · rw [h] at hmem
    have : xs = [] := List.eq_nil_iff_forall_not_mem.2 fun k hk => by simpa using (hmem k).2 hk
    subst this
    constructor
    · intro e; cases e
    · intro e; exact absurd rfl e.1
  · rw [h] at hmem
    have e : uniqueValueSet .debug [a] = .ok a := rfl
    rw [e]
    constructor
    · intro e; cases e
      refine ⟨?_, fun x hx => by simpa using (hmem x).2 hx⟩
      rintro rfl
      simpa using (hmem v).1 (by simp)
    · rintro ⟨-, hv⟩
      rw [hv a ((hmem a).1 (by simp))]
  · rw [h] at hmem hs
    constructor
    · intro e; cases e
    · rintro ⟨-, hv⟩
      have ha := hv a ((hmem a).1 (by simp))
      have hc := hv c ((hmem c).1 (by simp))
      have := (List.pairwise_cons.1 hs).1 c (by simp)
      rw [ha, hc] at this
      exact absurd this (lt_irrefl v)

/-- C70: in a debug build `unique_value` succeeds exactly when there is an element and all elements are
equal, and returns that element; otherwise the assertion fails. -/
theorem C70_unique_value [LinearOrder K] (xs : List K) :
    (∀ v, uniqueValue .debug xs = .ok v ↔ xs ≠ [] ∧ ∀ x ∈ xs, x = v) ∧
    ((∀ v, ¬ (xs ≠ [] ∧ ∀ x ∈ xs, x = v)) → uniqueValue .debug xs = .error .assertFail) := by
  refine ⟨fun v => uniqueValueSet_setOfList xs v, fun h => ?_⟩
  unfold uniqueValue uniqueValueSet uniqueValues
  by_cases hl : (setOfList xs).length = 1
  · exfalso
    obtain ⟨a, ha⟩ := List.length_eq_one_iff.1 hl
    refine h a ((uniqueValueSet_setOfList xs a).1 ?_)
    rw [ha]; rfl
  · simp only [hl, decide_false, assert_debug_false, except_error_bind]

/-- C70: the same with a function applied to the elements. -/
theorem C70_unique_value_apply [LinearOrder K] (xs : List α) (f : α → K) (v : K) :
    uniqueValueApply .debug xs f = .ok v ↔ xs ≠ [] ∧ ∀ x ∈ xs, f x = v := by
  unfold uniqueValueApply uniqueValuesApply
  rw [uniqueValueSet_setOfList]
  simp

/-- C70, with `NDEBUG`: the smallest value is returned even though the values differ, and an empty vector is
undefined behaviour. -/
theorem C70_unique_value_ndebug [LinearOrder K] (xs : List K) :
    (xs = [] → uniqueValue .ndebug xs = .error .ub) ∧
    (xs ≠ [] → ∃ v ∈ xs, (∀ x ∈ xs, v ≤ x) ∧ uniqueValue .ndebug xs = .ok v) := by
  refine ⟨fun h => by subst h; rfl, fun h => ?_⟩
  have hmem : ∀ k, k ∈ setOfList xs ↔ k ∈ xs := fun k => mem_setOfList
  have hs := sorted_setOfList xs
  rcases e : setOfList xs with - | ⟨a, t⟩
  · rw [e] at hmem
    exact absurd (List.eq_nil_iff_forall_not_mem.2 fun k hk => by simpa using (hmem k).2 hk) h
  · rw [e] at hmem hs
    refine ⟨a, (hmem a).1 (by simp), fun x hx => ?_, ?_⟩
    · rcases List.mem_cons.1 ((hmem x).2 hx) with rfl | hx
      · exact le_rfl
      · exact ((List.pairwise_cons.1 hs).1 x hx).le
    · unfold uniqueValue uniqueValueSet uniqueValues
      rw [e]
      cases h : decide ((a :: t).length = 1) <;> rfl

example : uniqueValue .debug [3, 3, 3] = .ok 3 ∧ uniqueValue .debug [3, 4] = .error .assertFail ∧
    uniqueValue .ndebug [4, 3] = .ok 3 := by decide

/-- C70: `filter` of a vector keeps exactly the elements satisfying the predicate, in order and with
multiplicity. -/
theorem C70_filter_vector (p : α → Bool) (xs : List α) : filterVector p xs = xs.filter p := by
  have : ∀ (xs acc : List α), xs.foldl (fun out x => if p x then out ++ [x] else out) acc =
      acc ++ xs.filter p := by
    intro xs
    induction xs with
    | nil => simp
    | cons a t ih =>
      intro acc
      rw [List.foldl_cons, ih, List.filter_cons]
      split_ifs <;> simp
  simpa [filterVector] using this xs []

/-- C70: `filter` of a set. -/
theorem C70_filter_set [LinearOrder K] (p : K → Bool) (xs : List K) :
    (filterSet p xs).Pairwise (· < ·) ∧ ∀ k, k ∈ filterSet p xs ↔ k ∈ xs ∧ p k = true := by
  refine ⟨sorted_setOfList _, fun k => ?_⟩
  simp [filterSet, mem_setOfList, C70_filter_vector]

theorem filterMap_eq [LinearOrder K] (p : K → V → Bool) (m : SMap K V) (h : SMap.WF m) :
    filterMap p m = m.filter fun kv => p kv.1 kv.2 := by
  have hsub : SMap.WF (m.filter fun kv => p kv.1 kv.2) := by
    rw [SMap.wf_iff_keys] at h ⊢
    exact h.sublist ((List.filter_sublist).map _)
  have e : ∀ (l out : SMap K V), l.foldl (fun out kv => if p kv.1 kv.2 then out.emplace kv.1 kv.2 else out) out =
      (l.filter fun kv => p kv.1 kv.2).foldl (fun out kv => out.emplace kv.1 kv.2) out := by
    intro l
    induction l with
    | nil => intro out; rfl
    | cons a t ih =>
      intro out
      rw [List.foldl_cons, ih, List.filter_cons]
      split_ifs <;> rfl
  unfold filterMap
  rw [e]
  simpa using SMap.foldl_emplace_append _ [] (by simpa using hsub)

/-- C70: `filter` of a map keeps exactly the entries satisfying the predicate. -/
theorem C70_filter_map [LinearOrder K] (p : K → V → Bool) (m : SMap K V) (h : SMap.WF m) :
    SMap.WF (filterMap p m) ∧
    ∀ k v, (filterMap p m).find? k = some v ↔ m.find? k = some v ∧ p k v = true := by
  have hsub : SMap.WF (m.filter fun kv => p kv.1 kv.2) := by
    rw [SMap.wf_iff_keys] at h ⊢
    exact h.sublist ((List.filter_sublist).map _)
  rw [filterMap_eq p m h]
  refine ⟨hsub, fun k v => ?_⟩
  constructor
  · intro e
    have := List.mem_filter.1 (SMap.mem_of_find? e)
    exact ⟨SMap.find?_of_mem h this.1, this.2⟩
  · rintro ⟨e, hp⟩
    exact SMap.find?_of_mem hsub (List.mem_filter.2 ⟨SMap.mem_of_find? e, hp⟩)

/-- C70: `apply` of a map keeps the keys and maps the values. -/
theorem C70_apply_map [LinearOrder K] (f : K → V → β) (m : SMap K V) (h : SMap.WF m) :
    SMap.WF (applyMap f m) ∧ ∀ k, (applyMap f m).find? k = (m.find? k).map (f k) := by
  have hk : SMap.WF (m.map fun kv => (kv.1, f kv.1 kv.2)) := by
    rw [SMap.wf_iff_keys] at h ⊢
    simpa [SMap.keys, List.map_map, Function.comp_def] using h
  have e : applyMap f m = m.map fun kv => (kv.1, f kv.1 kv.2) := by
    unfold applyMap
    have := SMap.foldl_emplace_append (m.map fun kv => (kv.1, f kv.1 kv.2)) [] (by simpa using hk)
    rw [List.foldl_map] at this
    simpa using this
  rw [e]
  refine ⟨hk, fun k => ?_⟩
  rcases hv : m.find? k with - | v
  · rw [Option.map_none]
    by_contra hne
    obtain ⟨w, hw⟩ := Option.ne_none_iff_exists'.1 hne
    obtain ⟨⟨k', v⟩, hm, he⟩ := List.mem_map.1 (SMap.mem_of_find? hw)
    cases he
    rw [SMap.find?_of_mem h hm] at hv
    cases hv
  · exact SMap.find?_of_mem hk (List.mem_map.2 ⟨_, SMap.mem_of_find? hv, rfl⟩)

theorem filterIndices_ok (p : α → Bool) (xs : List α) :
    filterIndices p xs = .ok ((List.range xs.length).filter fun i => (xs[i]?).any p) := by
  have : ∀ (is acc : List Nat), (∀ i ∈ is, i < xs.length) →
      is.foldlM (fun out i => do
        let f ← vecGet xs i
        pure (if p f then out ++ [i] else out)) acc =
      (.ok (acc ++ is.filter fun i => (xs[i]?).any p) : Outcome (List Nat)) := by
    intro is
    induction is with
    | nil => intro acc _; simp
    | cons a t ih =>
      intro acc h
      have ha := h a (by simp)
      rw [List.foldlM_cons, vecGet_lt ha]
      simp only [except_ok_bind, except_pure] at ih ⊢
      rw [ih _ fun i hi => h i (by simp [hi]), List.filter_cons]
      simp only [List.getElem?_eq_getElem ha, Option.any_some]
      split_ifs <;> simp
  unfold filterIndices
  rw [this _ _ (by simp)]
  simp

/-- C70: `filter` of a dataset keeps exactly the rows whose feature satisfies the predicate, in order. -/
theorem C70_filter_dataset (b : Build) (p : F → Bool) (d : Dataset F R) (hd : d.Valid) :
    ∃ d', filterDataset b p d = .ok d' ∧ d'.Valid ∧ d'.rows = d.rows.filter fun row => p row.1 := by
  have hlt : ∀ i ∈ (List.range d.features.length).filter fun i => (d.features[i]?).any p,
      i < d.features.length := fun i hi => List.mem_range.1 (List.mem_filter.1 hi).1
  refine ⟨_, ?_, pick_valid d hd _ hlt, ?_⟩
  · rw [filterDataset, filterIndices_ok, except_ok_bind, subsetDataset_ok b d hd _ hlt]; rfl
  · rw [pick_rows d hd _ hlt]
    have hl := rows_length d hd
    have hf := rows_features d hd
    have e : ∀ i : Nat, (d.features[i]?).any p = (d.rows[i]?).any (fun row : F × R × R => p row.1) := by
      intro i
      rw [← hf, List.getElem?_map]
      cases d.rows[i]? <;> rfl
    simp only [e]
    rw [← hl]
    have key : ∀ (rows : List (F × R × R)) (q : F × R × R → Bool),
        ((List.range rows.length).filter fun i => (rows[i]?).any q).filterMap (rows[·]?) = rows.filter q := by
      intro rows q
      conv_rhs => rw [← filterMap_range_self rows]
      rw [List.filterMap_filter, List.filter_filterMap]
      apply List.filterMap_congr
      intro i hi
      rcases rows[i]? with - | r
      · rfl
      · simp [Option.filter]
    exact key _ _

example : filterVector (fun n => n % 2 = 0) [4, 1, 2, 4, 3] = [4, 2, 4] := by decide

/-- C70: `all`, `any` and `vector_contains`. -/
theorem C70_all_any_contains [DecidableEq α] (bs : List Bool) (xs : List α) (x : α) :
    (allOf bs = true ↔ ∀ v ∈ bs, v = true) ∧ (anyOf bs = true ↔ ∃ v ∈ bs, v = true) ∧
    (vectorContains xs x = true ↔ x ∈ xs) := by
  refine ⟨?_, ?_, ?_⟩
  · induction bs with
    | nil => simp [allOf]
    | cons a t ih => cases a <;> simp [allOf, ih]
  · induction bs with
    | nil => simp [anyOf]
    | cons a t ih => cases a <;> simp [anyOf, ih]
  · induction xs with
    | nil => simp [vectorContains]
    | cons a t ih =>
      rw [vectorContains]
      split_ifs with h
      · simp [h]
      · simp [ih, Ne.symm h]

/-! ## C71: linspace -/

/-- `n` equally spaced values from `a` to `c` inclusive. -/
def IsLinspace (a c : ℝ) (n : Nat) (xs : List Dbl) : Prop :=
  xs.length = n ∧ xs[0]? = some (.fin a) ∧ xs[n - 1]? = some (.fin c) ∧
  ∃ step : ℝ, ∀ i < n, xs[i]? = some (.fin (a + i * step))

theorem linspaceLoop_get (step : ℝ) (n : Nat) (a : ℝ) :
    (linspaceLoop (.fin step) n (.fin a)).length = n ∧
    ∀ i < n, (linspaceLoop (.fin step) n (.fin a))[i]? = some (.fin (a + i * step)) := by
  induction n generalizing a with
  | zero => simp [linspaceLoop]
  | succ n ih =>
    rw [linspaceLoop, Dbl.fin_add]
    obtain ⟨h1, h2⟩ := ih (a + step)
    refine ⟨by simp [h1], fun i hi => ?_⟩
    rcases i with - | i
    · simp
    · rw [List.getElem?_cons_succ, h2 i (by omega)]
      push_cast
      congr 2
      ring

theorem linspace_eq (b : Build) (a c : ℝ) (n : Nat) (h2 : 2 ≤ n) (hn : n ≤ 2 ^ 53 + 1) :
    ∃ xs, linspace b (.fin a) (.fin c) n = .ok xs ∧ xs.length = n ∧
      ∀ i < n, xs[i]? = some (.fin (a + i * ((c - a) / ((n - 1 : Nat) : ℝ)))) := by
  have e : (n + (2 ^ 64 - 1)) % 2 ^ 64 = n - 1 := by
    have : n + (2 ^ 64 - 1) = (n - 1) + 2 ^ 64 := by omega
    rw [this, Nat.add_mod_right, Nat.mod_eq_of_lt (by omega)]
  have hpos : ((n - 1 : Nat) : ℝ) ≠ 0 := by
    rw [Nat.cast_ne_zero]; omega
  refine ⟨_, ?_, linspaceLoop_get ((c - a) / ((n - 1 : Nat) : ℝ)) n a⟩
  rw [linspace, e, (C67_to_double b (n - 1) 0).1 (by omega)]
  simp only [except_ok_bind, except_pure, Dbl.fin_sub, Dbl.fin_div hpos]

/-- C71 for two or more values: `n` equally spaced values from `a` to `b` inclusive. -/
theorem C71_linspace_partial (b : Build) (a c : ℝ) (n : Nat) (h2 : 2 ≤ n) (hn : n ≤ 2 ^ 53 + 1) :
    ∃ xs, linspace b (.fin a) (.fin c) n = .ok xs ∧ IsLinspace a c n xs := by
  obtain ⟨xs, h, hl, hx⟩ := linspace_eq b a c n h2 hn
  have hpos : ((n - 1 : Nat) : ℝ) ≠ 0 := by
    rw [Nat.cast_ne_zero]; omega
  refine ⟨xs, h, hl, ?_, ?_, _, hx⟩
  · rw [hx 0 (by omega)]; simp
  · rw [hx (n - 1) (by omega), mul_div_cancel₀ _ hpos]; simp

/-- C71 as stated, for every `n`. -/
def LinspaceInclusive : Prop :=
  ∀ (b : Build) (a c : ℝ) (n : Nat), n ≤ 2 ^ 53 + 1 →
    ∃ xs, linspace b (.fin a) (.fin c) n = .ok xs ∧ IsLinspace a c n xs

/-- C71, one value: only the first end is returned. -/
theorem C71_single (b : Build) (a c : Dbl) : linspace b a c 1 = .ok [a] := by
  rw [linspace, show (1 + (2 ^ 64 - 1)) % 2 ^ 64 = 0 from by norm_num, (C67_to_double b 0 0).1 (by omega)]
  simp only [except_ok_bind, except_pure, linspaceLoop]

/-- C71, no values: a debug build stops in the cast of the wrapped around `n - 1`, an `NDEBUG` build
returns the empty vector. -/
theorem C71_empty (a c : Dbl) :
    linspace .debug a c 0 = .error .assertFail ∧ linspace .ndebug a c 0 = .ok [] := by
  constructor
  · rw [linspace, (C67_to_double .debug _ 0).2.1 (by norm_num), except_error_bind]
  · simp only [linspace, sizeToDouble, assert_ndebug, except_ok_bind, except_pure, linspaceLoop]

/-- C71 is false for one value between different ends. -/
theorem C71_linspace_false : ¬ LinspaceInclusive := by
  intro h
  obtain ⟨xs, hx, -, -, h3, -⟩ := h .debug 0 1 1 (by norm_num)
  rw [C71_single] at hx
  cases hx
  simp at h3

/-! ## C81: the grids of inducing points -/

theorem foldl_minElement_spec (xs : List ℝ) (x : ℝ) : ∃ m, (m = x ∨ m ∈ xs) ∧ m ≤ x ∧ (∀ y ∈ xs, m ≤ y) ∧
    (xs.map Dbl.fin).foldl (fun m y => if y < m then y else m) (.fin x) = .fin m := by
  induction xs generalizing x with
  | nil => exact ⟨x, by simp⟩
  | cons a t ih =>
    rw [List.map_cons, List.foldl_cons]
    by_cases h : a < x
    · obtain ⟨m, h1, h2, h3, h4⟩ := ih a
      refine ⟨m, ?_, h2.trans h.le, ?_, ?_⟩
      · rcases h1 with h1 | h1 <;> simp [h1]
      · intro y hy
        rcases List.mem_cons.1 hy with rfl | hy
        · exact h2
        · exact h3 y hy
      · rw [if_pos (by simpa using h), h4]
    · obtain ⟨m, h1, h2, h3, h4⟩ := ih x
      refine ⟨m, ?_, h2, ?_, ?_⟩
      · rcases h1 with h1 | h1 <;> simp [h1]
      · intro y hy
        rcases List.mem_cons.1 hy with rfl | hy
        · exact h2.trans (not_lt.1 h)
        · exact h3 y hy
      · rw [if_neg (by simpa using h), h4]

theorem foldl_maxElement_spec (xs : List ℝ) (x : ℝ) : ∃ m, (m = x ∨ m ∈ xs) ∧ x ≤ m ∧ (∀ y ∈ xs, y ≤ m) ∧
    (xs.map Dbl.fin).foldl (fun m y => if m < y then y else m) (.fin x) = .fin m := by
  induction xs generalizing x with
  | nil => exact ⟨x, by simp⟩
  | cons a t ih =>
    rw [List.map_cons, List.foldl_cons]
    by_cases h : x < a
    · obtain ⟨m, h1, h2, h3, h4⟩ := ih a
      refine ⟨m, ?_, h.le.trans h2, ?_, ?_⟩
      · rcases h1 with h1 | h1 <;> simp [h1]
      · intro y hy
        rcases List.mem_cons.1 hy with rfl | hy
        · exact h2
        · exact h3 y hy
      · rw [if_pos (by simpa using h), h4]
    · obtain ⟨m, h1, h2, h3, h4⟩ := ih x
      refine ⟨m, ?_, h2, ?_, ?_⟩
      · rcases h1 with h1 | h1 <;> simp [h1]
      · intro y hy
        rcases List.mem_cons.1 hy with rfl | hy
        · exact (not_lt.1 h).trans h2
        · exact h3 y hy
      · rw [if_neg (by simpa using h), h4]

/-- `g` is a regular grid of `n ≥ 3` points over exactly the range of `xs`, with spacing at most `spacing`. -/
structure IsInducingGrid (xs : List ℝ) (spacing : ℝ) (g : List Dbl) where
  lower : ℝ
  upper : ℝ
  lower_mem : lower ∈ xs
  upper_mem : upper ∈ xs
  inside : ∀ x ∈ xs, lower ≤ x ∧ x ≤ upper
  count : 3 ≤ g.length
  regular : IsLinspace lower upper g.length g
  close : (upper - lower) / ((g.length - 1 : Nat) : ℝ) ≤ spacing

theorem safeCastToSize_nat (b : Build) (n : Nat) (h : (n : ℝ) < 2 ^ 64) :
    safeCastToSize b (.fin n) = .ok n := by
  have h2 : (-1 : ℝ) < (n : ℝ) := by
    have : (0 : ℝ) ≤ (n : ℝ) := Nat.cast_nonneg _
    linarith
  simp only [safeCastToSize, Dbl.fin_lt, h, decide_true, albatrossAssert_true, except_ok_bind, h2,
    and_self, if_true, Nat.floor_natCast]

theorem exists_two_pow_53 : ∃ N : Nat, (N : ℝ) = 2 ^ 53 ∧ N = 9007199254740992 :=
  ⟨9007199254740992, by norm_num, rfl⟩

theorem ssrGrid_eq (k : ℝ) (hk : 0 < k) (b : Build) (l : ℝ) (hl : 0 < l) (xs : List ℝ) (hne : xs ≠ [])
    (hsize : ∀ x ∈ xs, ∀ y ∈ xs, k * (y - x) / l ≤ 2 ^ 53) :
    ∃ mn ∈ xs, ∃ mx ∈ xs, (∀ x ∈ xs, mn ≤ x ∧ x ≤ mx) ∧
      ssrGrid k b (.fin l) (xs.map .fin) =
        linspace b (.fin mn) (.fin mx) (max ⌈k * (mx - mn) / l⌉₊ 3) ∧
      max ⌈k * (mx - mn) / l⌉₊ 3 ≤ 9007199254740992 := by
  obtain ⟨N, hN, hN'⟩ := exists_two_pow_53
  have hN3 : 3 ≤ N := by omega
  have hN64 : (N : ℝ) < 2 ^ 64 := by rw [hN]; exact pow_lt_pow_right₀ (by norm_num) (by norm_num)
  rw [← hN] at hsize
  rw [← hN']
  rcases xs with - | ⟨x, t⟩
  · exact absurd rfl hne
  obtain ⟨mn, a1, a2, a3, a4⟩ := foldl_minElement_spec t x
  obtain ⟨mx, b1, b2, b3, b4⟩ := foldl_maxElement_spec t x
  have hmn : mn ∈ x :: t := by rcases a1 with h | h <;> simp [h]
  have hmx : mx ∈ x :: t := by rcases b1 with h | h <;> simp [h]
  have hin : ∀ y ∈ x :: t, mn ≤ y ∧ y ≤ mx := by
    intro y hy
    rcases List.mem_cons.1 hy with rfl | hy
    · exact ⟨a2, b2⟩
    · exact ⟨a3 y hy, b3 y hy⟩
  set q := k * (mx - mn) / l with hq
  have hq0 : 0 ≤ q := by
    have : 0 ≤ mx - mn := by linarith [(hin mx hmx).1]
    positivity
  have hqs : q ≤ N := hsize mn hmn mx hmx
  have hceil : ⌈q⌉₊ ≤ N := Nat.ceil_le.2 hqs
  have hbound : max ⌈q⌉₊ 3 ≤ N := max_le hceil hN3
  refine ⟨mn, hmn, mx, hmx, hin, ?_, hbound⟩
  have hm : stdMax (Dbl.ceil (.fin q)) (.fin 3) = .fin ((max ⌈q⌉₊ 3 : Nat) : ℝ) := by
    have hc : ((⌈q⌉ : ℤ) : ℝ) = (⌈q⌉₊ : ℝ) := by
      rw [← Int.natCast_ceil_eq_ceil hq0]; simp
    simp only [Dbl.ceil, stdMax, Dbl.fin_lt, hc]
    split_ifs with h
    · have : ⌈q⌉₊ < 3 := by exact_mod_cast h
      rw [max_eq_right this.le]; norm_num
    · have : 3 ≤ ⌈q⌉₊ := by exact_mod_cast not_lt.1 h
      rw [max_eq_left this]
  have hcast : safeCastToSize b (.fin ((max ⌈q⌉₊ 3 : Nat) : ℝ)) = .ok (max ⌈q⌉₊ 3) := by
    exact safeCastToSize_nat b _ ((Nat.cast_le (α := ℝ).2 hbound).trans_lt hN64)
  have hargs : ssrArguments k b (.fin l) ((x :: t).map .fin) = .ok (.fin mn, .fin mx, max ⌈q⌉₊ 3) := by
    rw [ssrArguments, List.map_cons, minElement, maxElement, a4, b4]
    simp only [except_ok_bind, Dbl.fin_sub, Dbl.fin_mul, Dbl.fin_div hl.ne', ← hq, hm, hcast, except_pure]
  rw [ssrGrid, hargs, except_ok_bind]

/-- C81: for any non-empty inputs and positive length scale (with fewer than `2^53` grid points) the grid
runs over exactly the range of the inputs, has at least three points and its spacing is at most one and a
half times the length scale divided by the number of points per length scale. -/
theorem C81_grid_partial (k : ℝ) (hk : 0 < k) (b : Build) (l : ℝ) (hl : 0 < l) (xs : List ℝ) (hne : xs ≠ [])
    (hsize : ∀ x ∈ xs, ∀ y ∈ xs, k * (y - x) / l ≤ 2 ^ 53) :
    ∃ g, ssrGrid k b (.fin l) (xs.map .fin) = .ok g ∧ Nonempty (IsInducingGrid xs (3 / 2 * (l / k)) g) := by
  obtain ⟨mn, hmn, mx, hmx, hin, he, hb⟩ := ssrGrid_eq k hk b l hl xs hne hsize
  have h3 : 3 ≤ max ⌈k * (mx - mn) / l⌉₊ 3 := le_max_right _ _
  have hc : k * (mx - mn) / l ≤ ((max ⌈k * (mx - mn) / l⌉₊ 3 : Nat) : ℝ) :=
    (Nat.le_ceil _).trans (by exact_mod_cast le_max_left _ _)
  generalize max ⌈k * (mx - mn) / l⌉₊ 3 = n at *
  obtain ⟨g, hg, hlin⟩ := C71_linspace_partial b mn mx n (by omega) (by omega)
  refine ⟨g, he.trans hg, ⟨mn, mx, hmn, hmx, hin, by rw [hlin.1]; exact h3, by rw [hlin.1]; exact hlin, ?_⟩⟩
  rw [hlin.1, Nat.cast_sub (by omega)]
  have hn3 : (3 : ℝ) ≤ n := by exact_mod_cast h3
  have hp : (0 : ℝ) < n - 1 := by linarith
  push_cast
  rw [div_le_iff₀ hp]
  have h1 : mx - mn ≤ n * (l / k) := by
    rw [div_le_iff₀ hl] at hc
    rw [mul_div_assoc', le_div_iff₀ hk]
    linarith
  have h2 : (0 : ℝ) < l / k := by positivity
  nlinarith

/-- C81: hence every input is within three quarters of the nominal spacing of some grid point: `0.075`
length scales for the squared exponential (`k = 10`), `0.0375` for the exponential (`k = 20`). -/
theorem C81_every_input_close (k : ℝ) (hk : 0 < k) (b : Build) (l : ℝ) (hl : 0 < l) (xs : List ℝ)
    (hne : xs ≠ []) (hsize : ∀ x ∈ xs, ∀ y ∈ xs, k * (y - x) / l ≤ 2 ^ 53) :
    ∃ g, ssrGrid k b (.fin l) (xs.map .fin) = .ok g ∧
      ∀ x ∈ xs, ∃ y, Dbl.fin y ∈ g ∧ |x - y| ≤ 3 / 4 * (l / k) := by
  obtain ⟨g, hg, ⟨hi⟩⟩ := C81_grid_partial k hk b l hl xs hne hsize
  refine ⟨g, hg, fun x hx => ?_⟩
  obtain ⟨h1, h2⟩ := hi.inside x hx
  obtain ⟨-, h0, hlast, step, hstep⟩ := hi.regular
  have hcount := hi.count
  have hlen : (3 : ℝ) ≤ g.length := by exact_mod_cast hcount
  have hstep' : hi.lower + ((g.length - 1 : Nat) : ℝ) * step = hi.upper := by
    have := hstep (g.length - 1) (by omega)
    rw [hlast] at this
    injection this with this
    injection this with this
    exact this.symm
  have hpos : (0 : ℝ) < ((g.length - 1 : Nat) : ℝ) := by
    rw [Nat.cast_pos]; omega
  have hs : step ≤ 3 / 2 * (l / k) := by
    have := hi.close
    rwa [← hstep', add_sub_cancel_left, mul_div_cancel_left₀ _ hpos.ne'] at this
  have hs0 : 0 ≤ step := by
    by_contra hneg
    have := mul_neg_of_pos_of_neg hpos (not_le.1 hneg)
    linarith
  have hlk : (0 : ℝ) < l / k := by positivity
  have hmem : ∀ i < g.length, Dbl.fin (hi.lower + i * step) ∈ g := fun i h =>
    List.mem_of_getElem? (hstep i h)
  rcases hs0.eq_or_lt with hz | hz
  · refine ⟨_, hmem 0 (by omega), ?_⟩
    have : x = hi.lower := by
      rw [← hz] at hstep'
      linarith
    rw [this]
    simp only [Nat.cast_zero, zero_mul, add_zero, sub_self, abs_zero]
    positivity
  · set t := (x - hi.lower) / step with ht
    have ht0 : 0 ≤ t := div_nonneg (by linarith) hz.le
    have htn : t ≤ ((g.length - 1 : Nat) : ℝ) := by
      rw [ht, div_le_iff₀ hz]; linarith
    have hxt : x = hi.lower + t * step := by
      rw [ht, div_mul_cancel₀ _ hz.ne']; ring
    have hround : |t - roundHalfEven t| ≤ 1 / 2 := roundHalfEven_spec ht0
    have hlt : roundHalfEven t < g.length := by
      have := (abs_le.1 hround).1
      have h : (roundHalfEven t : ℝ) ≤ ((g.length - 1 : Nat) : ℝ) + 1 / 2 := by linarith
      by_contra hc
      have : ((g.length - 1 : Nat) : ℝ) + 1 ≤ (roundHalfEven t : ℝ) := by
        have : g.length - 1 + 1 ≤ roundHalfEven t := by omega
        exact_mod_cast this
      linarith
    refine ⟨_, hmem _ hlt, ?_⟩
    rw [hxt, show hi.lower + t * step - (hi.lower + (roundHalfEven t : ℝ) * step) =
      (t - roundHalfEven t) * step by ring, abs_mul, abs_of_pos hz]
    nlinarith

/-- The nominal density of `_ssr_impl`: neighbouring grid points at most one `k`-th of a length scale apart. -/
def GridHasRequestedDensity (k : ℝ) : Prop :=
  ∀ (b : Build) (l : ℝ), 0 < l → ∀ xs : List ℝ, xs ≠ [] →
    (∀ x ∈ xs, ∀ y ∈ xs, k * (y - x) / l ≤ 2 ^ 53) →
    ∃ g, ssrGrid k b (.fin l) (xs.map .fin) = .ok g ∧ Nonempty (IsInducingGrid xs (l / k) g)

/-- C81: the nominal density is not reached, because `n` points leave only `n - 1` gaps: for the inputs 0 and
3 with length scale 10 the three grid points are 1.5 apart instead of 1. -/
theorem C81_density_false : ¬ GridHasRequestedDensity 10 := by
  intro h
  have hs : ∀ x ∈ [(0 : ℝ), 3], ∀ y ∈ [(0 : ℝ), 3], (10 : ℝ) * (y - x) / 10 ≤ 2 ^ 53 := by
    intro x hx y hy
    simp only [List.mem_cons, List.not_mem_nil, or_false] at hx hy
    rcases hx with rfl | rfl <;> rcases hy with rfl | rfl <;> norm_num
  obtain ⟨g, hg, ⟨hi⟩⟩ := h .debug 10 (by norm_num) [0, 3] (by simp) hs
  obtain ⟨mn, hmn, mx, hmx, hin, he, hb⟩ := ssrGrid_eq 10 (by norm_num) .debug 10 (by norm_num) [0, 3] (by simp) hs
  have e0 : mn = 0 := by
    have := (hin 0 (by simp)).1
    simp only [List.mem_cons, List.not_mem_nil, or_false] at hmn
    rcases hmn with rfl | rfl
    · rfl
    · norm_num at this
  have e1 : mx = 3 := by
    have := (hin 3 (by simp)).2
    simp only [List.mem_cons, List.not_mem_nil, or_false] at hmx
    rcases hmx with rfl | rfl
    · norm_num at this
    · rfl
  subst e0 e1
  have hn : ⌈(10 : ℝ) * (3 - 0) / 10⌉₊ = 3 := by
    rw [show (10 : ℝ) * (3 - 0) / 10 = ((3 : Nat) : ℝ) by norm_num, Nat.ceil_natCast]
  rw [hn, max_self] at he
  obtain ⟨xs, hx, hl, hv⟩ := linspace_eq .debug 0 3 3 (by norm_num) (by norm_num)
  rw [he, hx] at hg
  cases hg
  have e0 : hi.lower = 0 := by
    have := hi.regular.2.1
    rw [hv 0 (by norm_num)] at this
    injection this with this
    injection this with this
    rw [← this]; simp
  have e1 : hi.upper = 3 := by
    have := hi.regular.2.2.1
    rw [hl, hv 2 (by norm_num)] at this
    injection this with this
    injection this with this
    rw [← this]; norm_num
  have := hi.close
  rw [e0, e1, hl] at this
  norm_num at this

/-- C81, no inputs: the end iterator is dereferenced. -/
theorem C81_empty (k : ℝ) (b : Build) (l : Dbl) : ssrGrid k b l [] = .error .ub := rfl

/-- C81, length scale zero (for inputs that are not all equal): the infinite count is caught in a debug
build and undefined behaviour under `NDEBUG`. -/
theorem C81_zero_length_scale (k : ℝ) (hk : 0 < k) :
    ssrGrid k .debug (.fin 0) [.fin 0, .fin 1] = .error .assertFail ∧
    ssrGrid k .ndebug (.fin 0) [.fin 0, .fin 1] = .error .ub := by
  have hd : Dbl.fin k / Dbl.fin 0 = .pinf := by
    show Dbl.div _ _ = _
    simp [Dbl.div, Dbl.signInf, hk]
  have hm : stdMax (Dbl.ceil .pinf) (.fin 3) = .pinf := by
    have : ¬ (Dbl.pinf < Dbl.fin 3) := fun h => h
    simp [Dbl.ceil, stdMax, this]
  have hs : ¬ (Dbl.pinf < Dbl.fin (2 ^ 64)) := fun h => h
  have hlt : ¬ ((1 : ℝ) < 0) := by norm_num
  have hargs : ∀ b, ssrArguments k b (.fin 0) [.fin 0, .fin 1] =
      safeCastToSize b .pinf >>= fun n => .ok (.fin 0, .fin 1, n) := by
    intro b
    simp only [ssrArguments, minElement, maxElement, List.foldl_cons, List.foldl_nil, Dbl.fin_lt, hlt, if_false,
      zero_lt_one, if_true, except_ok_bind, Dbl.fin_sub, Dbl.fin_mul, sub_zero, mul_one, hd, hm, except_pure]
  constructor
  · simp only [ssrGrid, hargs, safeCastToSize, hs, decide_false, assert_debug_false, except_error_bind]
  · simp only [ssrGrid, hargs, safeCastToSize, assert_ndebug, except_ok_bind, except_error_bind]

end Albatross
