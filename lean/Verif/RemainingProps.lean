import Verif.BlockUtilsProps
import Verif.HandlersProps
import Verif.IndexingProps
import Verif.LikelihoodProps
import Verif.MapUtilsProps
import Verif.ModelMetricsProps
import Verif.RansacGpProps
import Verif.SamplerCsvProps
import Verif.SimpleModelsProps
import Verif.TuneProps

/-! # The functions no other property file speaks about: first groups, matrix subsets, `map_at_or`, bulk setters,
malformed files, grouped sums, RANSAC metrics -/

namespace Albatross
open Matrix

variable {α K V : Type}

/-! ## C02, C07 -/

/-- C02: `first_group` is the group of the smallest key; without elements it dereferences the end of the map. -/
theorem C02_first_group [LinearOrder K] (b : Build) (g : α → K) (xs : List α) :
    (xs = [] → firstGroup b g xs = .error .ub) ∧
    (xs ≠ [] → ∃ k, (∃ x ∈ xs, g x = k) ∧ (∀ x ∈ xs, k ≤ g x) ∧
      firstGroup b g xs = .ok (k, xs.filter fun x => decide (g x = k))) := by
  constructor
  · rintro rfl; rfl
  · intro hne
    have hw : SMap.WF (buildIndexer g xs) := (C01_group_by_partitions g xs).1
    have hget := C02_get_group b g xs
    have hk : ∀ k, (∃ x ∈ xs, g x = k) ↔ k ∈ (buildIndexer g xs).keys := by
      intro k
      rw [SMap.mem_keys]
      have := hget k
      unfold getGroup SMap.at? at this
      cases hf : (buildIndexer g xs).find? k with
      | none =>
        rw [hf] at this
        constructor
        · intro h; rw [if_pos h] at this; cases this
        · intro h; cases h
      | some is =>
        refine ⟨fun _ => rfl, fun _ => ?_⟩
        by_contra hno
        rw [hf, if_neg hno] at this
        have hlt := buildIndexer_index_lt g xs (kv := (k, is)) (SMap.mem_of_find? hf)
        have hs := subset_ok b xs is hlt
        simp only [except_ok_bind, hs] at this
        cases this
    cases hm : buildIndexer g xs with
    | nil =>
      obtain ⟨x, hx⟩ := List.exists_mem_of_ne_nil xs hne
      have := (hk (g x)).1 ⟨x, hx, rfl⟩
      rw [hm] at this
      simp [SMap.keys] at this
    | cons kv rest =>
      obtain ⟨k, is⟩ := kv
      have hmem : ∃ x ∈ xs, g x = k := (hk k).2 (by rw [hm]; simp [SMap.keys])
      refine ⟨k, hmem, fun x hx => ?_, ?_⟩
      · have := (hk (g x)).1 ⟨x, hx, rfl⟩
        rw [hm] at this hw
        simp only [SMap.keys, List.map_cons, List.mem_cons, List.mem_map] at this
        rcases this with h | ⟨kv, hkv, h⟩
        · exact h.ge
        · rw [← h]; exact ((SMap.wf_cons.1 hw).1 kv hkv).le
      · have := hget k
        rw [if_pos hmem] at this
        unfold getGroup SMap.at? at this
        rw [hm] at this
        have hf : SMap.find? ((k, is) :: rest) k = some is := by simp [SMap.find?]
        rw [hf] at this
        simp only [except_ok_bind] at this
        unfold firstGroup
        rw [hm]
        simp only [this, except_ok_bind, except_pure]

example (b : Build) : firstGroup b (fun n : Nat => n % 3) [5, 1, 4, 2] = .ok (1, [1, 4]) := by
  cases b <;> rfl

/-- C07: the rows of a matrix, in the order asked for; an index which is no row is an assertion failure in a debug
build and an out-of-bounds read otherwise. -/
theorem C07_subset_rows (b : Build) (rows : List (List α)) (idx : List Nat) :
    (∀ out, subsetRows b rows idx = .ok out ↔
      out.length = idx.length ∧ ∀ k i : Nat, idx[k]? = some i → rows[i]? = out[k]? ∧ i < rows.length) ∧
    ((∃ i ∈ idx, rows.length ≤ i) →
      subsetRows b rows idx = .error (match b with | .debug => .assertFail | .ndebug => .ub)) :=
  C07_subset b rows idx

theorem mapM_error_of_mem {β : Type} (f : α → Outcome β) (e : Fault) (xs : List α)
    (hok : ∀ x ∈ xs, (∃ y, f x = .ok y) ∨ f x = .error e) (hex : ∃ x ∈ xs, f x = .error e) :
    xs.mapM f = .error e := by
  induction xs with
  | nil => obtain ⟨x, hx, -⟩ := hex; simp at hx
  | cons x xs ih =>
    rw [List.mapM_cons]
    rcases hok x (by simp) with ⟨y, hy⟩ | hy
    · rw [hy, except_ok_bind, ih (fun z hz => hok z (List.mem_cons_of_mem _ hz))]
      · rfl
      · obtain ⟨z, hz, hze⟩ := hex
        rcases List.mem_cons.1 hz with rfl | hz
        · rw [hy] at hze; cases hze
        · exact ⟨z, hz, hze⟩
    · rw [hy]; rfl

/-- C07: a row or column index out of range is an assertion failure of the matrix `subset` in a debug build and an
out-of-bounds read otherwise. -/
theorem C07_subset_matrix_rejects (b : Build) (m : DenseMat α) (rowIdx colIdx : List Nat)
    (h : (colIdx ≠ [] ∧ ∃ i ∈ rowIdx, m.rows ≤ i) ∨ (rowIdx ≠ [] ∧ ∃ j ∈ colIdx, m.cols ≤ j)) :
    subsetMatrix b m rowIdx colIdx = .error (match b with | .debug => .assertFail | .ndebug => .ub) := by
  set e : Fault := (match b with | .debug => .assertFail | .ndebug => .ub) with he
  let f : Nat → Nat → Outcome α := fun i j => do
    albatrossAssert b (decide (i < m.rows))
    albatrossAssert b (decide (j < m.cols))
    m.get i j
  have hf : ∀ i j, f i j = if i < m.rows ∧ j < m.cols then .ok (m.entry i j) else .error e := by
    intro i j
    by_cases hi : i < m.rows <;> by_cases hj : j < m.cols <;> cases b <;>
      simp [f, hi, hj, DenseMat.get, albatrossAssert, he, bind, Except.bind]
  have hrow : ∀ i, (∃ y, colIdx.mapM (f i) = .ok y) ∨ colIdx.mapM (f i) = .error e := by
    intro i
    by_cases hall : ∀ j ∈ colIdx, i < m.rows ∧ j < m.cols
    · left
      have : ∀ j ∈ colIdx, f i j = .ok (m.entry i j) := fun j hj => by rw [hf, if_pos (hall j hj)]
      exact ⟨_, mapM_eq_map _ this⟩
    · right
      push Not at hall
      obtain ⟨j, hj, hij⟩ := hall
      refine mapM_error_of_mem _ _ _ (fun k _ => ?_) ⟨j, hj, ?_⟩
      · rw [hf]; split_ifs
        · exact Or.inl ⟨_, rfl⟩
        · exact Or.inr rfl
      · rw [hf, if_neg]; rintro ⟨h1, h2⟩; exact absurd h2 (not_lt.2 (hij h1))
  show rowIdx.mapM (fun i => colIdx.mapM (f i)) = .error e
  refine mapM_error_of_mem _ _ _ (fun i _ => hrow i) ?_
  rcases h with ⟨hne, i, hi, hge⟩ | ⟨hne, j, hj, hge⟩
  · refine ⟨i, hi, mapM_error_of_mem _ _ _ (fun k _ => ?_) ?_⟩
    · right; rw [hf, if_neg fun h => absurd h.1 (not_lt.2 hge)]
    · obtain ⟨j, hj⟩ := List.exists_mem_of_ne_nil _ hne
      exact ⟨j, hj, by rw [hf, if_neg fun h => absurd h.1 (not_lt.2 hge)]⟩
  · obtain ⟨i, hi⟩ := List.exists_mem_of_ne_nil _ hne
    refine ⟨i, hi, mapM_error_of_mem _ _ _ (fun k _ => ?_) ⟨j, hj, ?_⟩⟩
    · rw [hf]; split_ifs
      · exact Or.inl ⟨_, rfl⟩
      · exact Or.inr rfl
    · rw [hf, if_neg fun h => absurd h.2 (not_lt.2 hge)]

/-- C07: `symmetric_subset` takes the same rows and columns of a square matrix; other matrices are refused by a
debug build. -/
theorem C07_symmetric_subset (b : Build) (m : DenseMat α) (idx : List Nat) :
    (m.rows = m.cols → (∀ i ∈ idx, i < m.rows) →
      symmetricSubset b m idx = .ok (idx.map fun i => idx.map fun j => m.entry i j)) ∧
    (m.rows ≠ m.cols → symmetricSubset .debug m idx = .error .assertFail) := by
  constructor
  · intro h hi
    rw [symmetricSubset, decide_eq_true h, albatrossAssert_true, except_ok_bind,
      C07_subset_matrix b m idx idx hi fun i hi' => h ▸ hi i hi']
  · intro h
    rw [symmetricSubset, decide_eq_false h]; rfl

/-! ## C11 -/

/-- C11: `map_at_or` is the value of the key, or the default. -/
theorem C11_map_at_or [LinearOrder K] (m : SMap K V) (k : K) (value : V) :
    (∀ v, m.find? k = some v → mapAtOr m k value = v) ∧ (m.find? k = none → mapAtOr m k value = value) := by
  constructor
  · intro v h; simp [mapAtOr, SMap.contains, h]
  · intro h; simp [mapAtOr, h]

example : mapAtOr ([(1, "a"), (4, "b")] : SMap Nat String) 4 "z" = "b" ∧
    mapAtOr ([(1, "a"), (4, "b")] : SMap Nat String) 2 "z" = "z" := by decide

/-! ## C25, C26, C72 -/

/-- C26: `set_param_prior_if_exists` reports whether the parameter exists, and changes only its prior. -/
theorem C26_set_prior_if_exists (b : Build) (params : ParameterStore) (hw : SMap.WF params) (name : String)
    (prior : Prior) :
    ∃ flag out, setParamPriorIfExists b name prior params = .ok (flag, out) ∧ SMap.WF out ∧
      (flag = true ↔ name ∈ params.keys) ∧
      ∀ k, out.find? k = (params.find? k).map fun old => if k = name then ⟨old.value, prior⟩ else old := by
  unfold setParamPriorIfExists modifyParam
  cases hf : params.find? name with
  | none =>
    refine ⟨false, params, rfl, hw, ?_, fun k => ?_⟩
    · rw [SMap.mem_keys, hf]; simp
    · by_cases hk : k = name
      · subst hk; rw [hf]; rfl
      · simp [hk]
  | some old =>
    refine ⟨true, _, rfl, SMap.wf_put hw _ _, ?_, fun k => ?_⟩
    · rw [SMap.mem_keys, hf]; simp
    · rw [SMap.find?_put hw]
      by_cases hk : k = name
      · subst hk; simp [hf]
      · simp [hk]

theorem setParamValue_eq (b : Build) (name : String) (v : Dbl) (params : ParameterStore) :
    setParamValue b name v params =
      setParam b name ⟨v, ((params.find? name).map Parameter.prior).getD .uninformative⟩ params := by
  unfold setParamValue setParam modifyParam
  cases params.find? name <;> rfl

theorem setParamValues_existing (b : Build) (input : SMap String Dbl) (hi : SMap.WF input)
    (params : ParameterStore) (hw : SMap.WF params) (h : ∀ k ∈ input.keys, k ∈ params.keys) :
    ∃ out, setParamValues b input params = .ok out ∧ SMap.WF out ∧
      ∀ k, out.find? k = (params.find? k).map fun old => ⟨(input.find? k).getD old.value, old.prior⟩ := by
  unfold setParamValues
  induction input generalizing params with
  | nil => exact ⟨params, rfl, hw, fun k => by simp [SMap.find?]⟩
  | cons kv rest ih =>
    obtain ⟨n, v⟩ := kv
    have hn : SMap.find? rest n = none := SMap.find?_none_of_lt (SMap.wf_cons.1 hi).1
    obtain ⟨old, ho⟩ := Option.isSome_iff_exists.1 (SMap.mem_keys.1 (h n (by simp [SMap.keys])))
    obtain ⟨-, ⟨o1, e1, e2, e3⟩, -⟩ := C26_set_existing b params hw n old old v .fixed ho
    obtain ⟨out, h1, h2, h3⟩ := ih hi.tail o1 e2 fun k hk => by
      rw [SMap.mem_keys, e3]
      by_cases hkn : k = n
      · simp [hkn]
      · rw [if_neg hkn, ← SMap.mem_keys]
        exact h k (by simp [SMap.keys] at hk ⊢; exact Or.inr hk)
    refine ⟨out, ?_, h2, fun k => ?_⟩
    · rw [List.foldlM_cons, e1, except_ok_bind, h1]
    · rw [h3, e3]
      by_cases hk : k = n
      · subst hk; simp [SMap.find?, hn, ho]
      · simp [SMap.find?, hk]

/-- C26: `set_param_values` replaces exactly the named values, keeping every prior; one missing name aborts a debug
build. -/
theorem C26_set_param_values (b : Build) (input : SMap String Dbl) (params : ParameterStore) (hi : SMap.WF input)
    (hw : SMap.WF params) :
    ((∀ k ∈ input.keys, k ∈ params.keys) →
      ∃ out, setParamValues b input params = .ok out ∧ SMap.WF out ∧
        ∀ k, out.find? k = (params.find? k).map fun old => ⟨(input.find? k).getD old.value, old.prior⟩) ∧
    ((∃ k ∈ input.keys, k ∉ params.keys) → setParamValues .debug input params = .error .assertFail) := by
  refine ⟨setParamValues_existing b input hi params hw, ?_⟩
  unfold setParamValues
  clear hi
  induction input generalizing params with
  | nil => rintro ⟨k, hk, -⟩; simp [SMap.keys] at hk
  | cons kv rest ih =>
    obtain ⟨n, v⟩ := kv
    rintro ⟨k, hk, hk'⟩
    rw [List.foldlM_cons]
    cases hf : params.find? n with
    | none => rw [(C26_set_missing params n ⟨v, .fixed⟩ v .fixed hf).1.2.1]; rfl
    | some old =>
      obtain ⟨-, ⟨o1, e1, e2, e3⟩, -⟩ := C26_set_existing .debug params hw n old old v .fixed hf
      have hkn : k ≠ n := by
        rintro rfl; rw [SMap.mem_keys, hf] at hk'; exact hk' rfl
      rw [e1, except_ok_bind]
      refine ih o1 e2 ⟨k, ?_, ?_⟩
      · simpa [SMap.keys, hkn] using hk
      · rw [SMap.mem_keys, e3, if_neg hkn, ← SMap.mem_keys]
        exact hk'

example (b : Build) : ∃ out, setParamValues b [("b", .fin 7)] abcStore = .ok out ∧
    (out.find? "b").map Parameter.value = some (.fin 7) ∧ out.find? "a" = abcStore.find? "a" := by
  obtain ⟨out, h1, -, h2⟩ := (C26_set_param_values b [("b", .fin 7)] abcStore
    (by rw [SMap.wf_iff_keys]; simp [SMap.keys]) abc_wf).1
    (by simp [SMap.keys, abcStore])
  exact ⟨out, h1, by simp [h2, abcStore, SMap.find?], by simp [h2, abcStore, SMap.find?]⟩

/-- C25: `set_param_values` on an object whose components share no name sets exactly the named values.  (Full claim:
for every object; false when names are shared, see `C25_shared_name_violates`.) -/
theorem C25_set_param_values_partial (b : Build) (h : Handler) (hs : h.Separate) (input : SMap String Dbl)
    (hi : SMap.WF input) (hne : ∀ k ∈ h.getParams.keys, k ≠ "")
    (hsub : ∀ k ∈ input.keys, k ∈ h.getParams.keys) :
    ∃ h', h.setAllValues b input = .ok h' ∧ h'.Separate ∧
      ∀ k, h'.getParams.find? k =
        (h.getParams.find? k).map fun old => ⟨(input.find? k).getD old.value, old.prior⟩ := by
  have hw := Handler.getParams_wf hs.proper
  obtain ⟨out, h1, h2, h3⟩ := (C26_set_param_values b input h.getParams hi hw).1 hsub
  have hkeys : ∀ k, k ∈ SMap.keys out → k ∈ h.getParams.keys := by
    intro k hk
    rw [SMap.mem_keys, h3] at hk
    rw [SMap.mem_keys]; simpa using hk
  obtain ⟨h', e1, e2, e3⟩ := Handler.uncheckedSetAll_spec b out h hs h2 (fun k hk => hne k (hkeys k hk)) hkeys
  refine ⟨h', by simp [Handler.setAllValues, h1, e1], e2, fun k => ?_⟩
  rw [e3, h3]
  cases h.getParams.find? k <;> simp

/-- C25: one unknown name makes `set_param_values` abort a debug build, and nothing is set. -/
theorem C25_set_param_values_missing (h : Handler) (hs : h.Separate) (input : SMap String Dbl)
    (hi : SMap.WF input) (hmiss : ∃ k ∈ input.keys, k ∉ h.getParams.keys) :
    h.setAllValues .debug input = .error .assertFail := by
  have hw := Handler.getParams_wf hs.proper
  rw [Handler.setAllValues, (C26_set_param_values .debug input h.getParams hi hw).2 hmiss]; rfl

/-- C72: a uniform prior made by a debug build has its bounds in order. -/
theorem C72_uniform_bounds (l u : Dbl) :
    (l < u → ∀ b, Prior.mkUniform b l u = .ok (.uniform l u)) ∧
    (¬ l < u → Prior.mkUniform .debug l u = .error .assertFail) := by
  constructor
  · intro h b; rw [Prior.mkUniform, decide_eq_true h, albatrossAssert_true]; rfl
  · intro h; rw [Prior.mkUniform, decide_eq_false h]; rfl

/-! ## C48 -/

/-- C48: a line with another number of fields than the header is refused by a debug build; with `NDEBUG` a short
line is read past its end. -/
theorem C48_ragged_line (columns : List (List Char)) (st : Dbl × List (SMap String Dbl)) (line : List Char)
    (v₀ : Dbl) (rest : List Dbl) (hv : parseLine line = v₀ :: rest) :
    (rest.length + 1 ≠ columns.length → readCsvLine .debug columns st line = .error .assertFail) ∧
    (rest.length + 1 < columns.length → 3 ≤ rest.length + 1 →
      readCsvLine .ndebug columns st line = .error .ub) := by
  constructor
  · intro h
    have hb : ((v₀ :: rest).length == columns.length) = false := by simpa using h
    rw [readCsvLine, hv]
    simp only [vecGet, List.getElem?_cons_zero, except_ok_bind, hb]
    rfl
  · intro h h3
    have hv0 : vecGet (v₀ :: rest) 0 = .ok v₀ := rfl
    rw [readCsvLine, hv]
    simp only [hv0, except_ok_bind]
    have key : ∀ (n i : Nat) (m : SMap String Dbl), 3 ≤ i → i + n = columns.length → i ≤ rest.length + 1 →
        rest.length + 1 < columns.length →
        (List.range' i n).foldlM (fun (m : SMap String Dbl) i => (do
          let c ← vecGet columns i
          let v ← vecGet (v₀ :: rest) i
          pure (SMap.put m (String.ofList c) v) : Outcome _)) m = .error .ub := by
      intro n
      induction n with
      | zero => intro i m _ h1 h2 h3; omega
      | succ n ih =>
        intro i m hi h1 h2 h3
        rw [List.range'_succ, List.foldlM_cons]
        have hc : vecGet columns i = .ok columns[i] := by
          rw [vecGet, List.getElem?_eq_getElem (by omega)]
        rw [hc]
        by_cases he : i = rest.length + 1
        · have : vecGet (v₀ :: rest) i = .error .ub := by
            rw [vecGet, List.getElem?_eq_none (by simp; omega)]
          rw [this]; rfl
        · have : vecGet (v₀ :: rest) i = .ok ((v₀ :: rest)[i]'(by simp; omega)) := by
            rw [vecGet, List.getElem?_eq_getElem]
          rw [this]
          exact ih (i + 1) _ (by omega) (by omega) (by omega) h3
    have hb : ((v₀ :: rest).length == columns.length) = false := by
      rw [beq_eq_false_iff_ne, List.length_cons]; omega
    rw [hb, assert_ndebug, except_ok_bind, key (columns.length - 3) 3 [] le_rfl (by omega) h3 h]
    rfl

/-! ## C54 -/

/-- C54: the Eigen overload gives the answer of the vector overload, except that an empty vector is undefined
behaviour: its first element is taken by address. -/
theorem C54_eigen (lg ex : Dbl → Dbl) (b : Build) (initial : List Dbl) (optimize : List Dbl → List Dbl)
    (hopt : ∀ x, (optimize x).length = x.length) :
    (initial ≠ [] → tuneEigen lg ex b initial optimize = tuneVector lg ex b initial optimize) ∧
    (initial = [] → tuneEigen lg ex b initial optimize = .error .ub) := by
  obtain ⟨x₀, hp, -, hx⟩ := C54_rearranged_partial lg ex b initial
  have hl : (optimize x₀).length = initial.length := by rw [hopt, hp.length_eq]
  constructor
  · intro hne
    rw [tuneEigen, hx optimize hopt, except_ok_bind]
    cases ho : optimize x₀ with
    | nil => rw [ho] at hl; exact absurd (List.length_eq_zero_iff.1 hl.symm) hne
    | cons a t => rfl
  · rintro rfl
    rw [tuneEigen, hx optimize hopt, except_ok_bind, List.length_eq_zero_iff.1 hl]
    rfl

/-! ## C63 -/

/-- C63: neither the data fitted nor the constructor used matters for the parameters reported. -/
theorem C63_default : NullModel.default.getParams = [] := rfl

/-! ## C69 -/

/-- C69: `block_sum` of grouped matrices adds the blocks of all keys. -/
theorem C69_sum_grouped [LinearOrder K] (r c : Nat) (m : SMap K DMat)
    (hx : ∀ kv ∈ m, kv.2.rows = r ∧ kv.2.cols = c) :
    (m ≠ [] → ∃ out, blockSumGrouped m = .ok out ∧
      out.Is (∑ k : Fin m.length, (m[k].2.mat r c))) ∧
    (m = [] → blockSumGrouped m = .error .ub) := by
  refine ⟨fun hne => ?_, fun h => by subst h; rfl⟩
  have hv : ∀ x ∈ SMap.values m, x.rows = r ∧ x.cols = c := by
    intro x hx'
    obtain ⟨kv, hkv, rfl⟩ := List.mem_map.1 hx'
    exact hx kv hkv
  obtain ⟨out, h1, h2, h3, h4⟩ := blockSum_ok r c (SMap.values m) (by simpa [SMap.values] using hne) hv
  refine ⟨out, h1, h2, h3, fun i j => ?_⟩
  rw [h4, Matrix.sum_apply]
  have := (Fin.sum_univ_fun_getElem m fun kv => kv.2.get i j).symm
  rw [SMap.values, List.map_map]
  exact this

/-! ## C87 -/

/-- C87: the differential entropy metric looks at the prior of the members only, and its value is the one of C41
(so it is off by `(n - 1)/2 · log det` from the entropy). -/
theorem C87_entropy_metric_partial [DecidableEq K] {m : Nat} (c : ConditionalGaussian m) (ldlt : LdltRoutine)
    (indexer : SMap K (List Nat)) (keys : List K) (obs : K → List (Fin m)) (h : GroupsAre indexer keys obs)
    (inlier : DynJoint → DynMarginal → Outcome Dbl) (isValid : DynJoint → DynMarginal → Outcome Bool)
    (groups : List K) (hg : ∀ k ∈ groups, k ∈ keys)
    (S : Matrix (Fin (groups.flatMap obs).length) (Fin (groups.flatMap obs).length) ℝ)
    (hS : ∀ i j, S i j = c.prior.covariance ((groups.flatMap obs).get i) ((groups.flatMap obs).get j))
    (hp : S.PosDef) (hF : (ldlt _ S).Factors S) :
    (gpRansacCalls ldlt c indexer inlier (differentialEntropyMetric ldlt) isValid).consensusMetric groups =
      .ok (.fin (gaussianEntropy S + ((groups.flatMap obs).length - 1) / 2 * Real.log S.det)) := by
  have := (C87_consensus_on_members c ldlt indexer keys obs h inlier (differentialEntropyMetric ldlt) isValid
    groups hg).1
  have e : (of fun i j => c.prior.covariance ((groups.flatMap obs).get i) ((groups.flatMap obs).get j)) = S := by
    ext i j; exact (hS i j).symm
  rw [this, differentialEntropyMetric]
  simp only [e]
  rw [C41_code_value _ S hF hp, Fintype.card_fin]
  rfl

/-- C87: the chi squared metric is the probability of a squared Mahalanobis distance at most that of the observations
from their prior, noise included. -/
theorem C87_chi_squared_metric [DecidableEq K] {m : Nat} (b : Build) (llt : (d : Nat) → Llt d)
    (c : ConditionalGaussian m) (ldlt : LdltRoutine)
    (indexer : SMap K (List Nat)) (keys : List K) (obs : K → List (Fin m)) (h : GroupsAre indexer keys obs)
    (inlier : DynJoint → DynMarginal → Outcome Dbl) (isValid : DynJoint → DynMarginal → Outcome Bool)
    (groups : List K) (hg : ∀ k ∈ groups, k ∈ keys) (hp : (truthCovariance c (groups.flatMap obs)).PosDef) :
    (gpRansacCalls ldlt c indexer inlier (chiSquaredConsensusMetric b llt) isValid).consensusMetric groups =
      chiSquaredCdf b (.fin
        ((fun i => c.prior.mean ((groups.flatMap obs).get i) - c.truth.mean ((groups.flatMap obs).get i)) ⬝ᵥ
          (truthCovariance c (groups.flatMap obs))⁻¹ *ᵥ
          fun i => c.prior.mean ((groups.flatMap obs).get i) - c.truth.mean ((groups.flatMap obs).get i)))
      (.fin (groups.flatMap obs).length) := by
  have := (C87_consensus_on_members c ldlt indexer keys obs h inlier (chiSquaredConsensusMetric b llt) isValid
    groups hg).1
  rw [this, chiSquaredConsensusMetric, chiSquaredJoint, dif_pos rfl]
  have hcov : (of fun i j => c.prior.covariance ((groups.flatMap obs).get i) ((groups.flatMap obs).get j)) +
      diagonal (fun i => c.truth.variance ((groups.flatMap obs).get i)) = truthCovariance c (groups.flatMap obs) :=
    truthCovariance_eq c _
  have hv := C50_vector b (llt (groups.flatMap obs).length)
    (fun i => c.prior.mean ((groups.flatMap obs).get i) - c.truth.mean ((groups.flatMap obs).get i)) _ hp
  simp only [Fin.cast_eq_self]
  rw [hcov, hv]

end Albatross
