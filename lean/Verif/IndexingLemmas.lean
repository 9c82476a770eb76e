import Verif.Indexing
import Mathlib.Data.List.Range
import Mathlib.Data.List.Perm.Basic
import Mathlib.Data.Int.CardIntervalMod
import Mathlib.Algebra.BigOperators.Group.List.Basic

/-! # Helper lemmas for the indexing model -/

namespace Albatross

variable {α β F R K : Type}

/-! ## `Except` plumbing -/

@[simp] theorem except_ok_bind {ε : Type} (a : α) (f : α → Except ε β) :
    (Except.ok a >>= f) = f a := rfl
@[simp] theorem except_error_bind {ε : Type} (e : ε) (f : α → Except ε β) :
    ((Except.error e : Except ε α) >>= f) = Except.error e := rfl
@[simp] theorem except_pure {ε : Type} (a : α) : (pure a : Except ε α) = Except.ok a := rfl

theorem except_bind_eq_ok {ε : Type} {x : Except ε α} {f : α → Except ε β} {y : β} :
    (x >>= f) = Except.ok y ↔ ∃ a, x = Except.ok a ∧ f a = Except.ok y := by
  cases x <;> simp

/-! ## subset -/

theorem subset_nil (b : Build) (v : List α) : subset b v [] = .ok [] := rfl

theorem subset_cons_of_lt (b : Build) (v : List α) {i : Nat} (is : List Nat) (h : i < v.length) :
    subset b v (i :: is) = (subset b v is).map (v[i] :: ·) := by
  unfold subset
  rw [List.mapM_cons]
  simp only [h, decide_true, albatrossAssert_true, except_ok_bind, vecGet_lt h]
  cases (is.mapM fun i => do
    albatrossAssert b (decide (i < v.length))
    vecGet v i : Outcome (List α)) <;> rfl

theorem subset_cons_of_ge_debug (v : List α) {i : Nat} (is : List Nat) (h : v.length ≤ i) :
    subset .debug v (i :: is) = .error .assertFail := by
  unfold subset
  rw [List.mapM_cons]
  have : decide (i < v.length) = false := by simpa using h
  simp [this, albatrossAssert]

theorem subset_cons_of_ge_ndebug (v : List α) {i : Nat} (is : List Nat) (h : v.length ≤ i) :
    subset .ndebug v (i :: is) = .error .ub := by
  unfold subset
  rw [List.mapM_cons]
  have : decide (i < v.length) = false := by simpa using h
  simp [this, albatrossAssert, vecGet, h]

theorem subset_eq_ok_iff (b : Build) (v : List α) (idx : List Nat) (out : List α) :
    subset b v idx = .ok out ↔ idx.map (v[·]?) = out.map some := by
  induction idx generalizing out with
  | nil => cases out <;> simp [subset_nil]
  | cons i is ih =>
    by_cases h : i < v.length
    · rw [subset_cons_of_lt b v is h]
      cases out with
      | nil => cases subset b v is <;> simp [Except.map]
      | cons o os =>
        have := ih os
        cases hs : subset b v is with
        | error e => rw [hs] at this; simp at this; simp [Except.map, h, this]
        | ok w => rw [hs] at this; simp at this; simp [Except.map, h, ← this]
    · push Not at h
      have : (v[i]? : Option α) = none := by simp [h]
      cases b
      · rw [subset_cons_of_ge_debug v is h]; cases out <;> simp [this]
      · rw [subset_cons_of_ge_ndebug v is h]; cases out <;> simp [this]

/-- In-range indices: `subset` succeeds, in closed form. -/
theorem subset_ok (b : Build) (v : List α) (idx : List Nat) (h : ∀ i ∈ idx, i < v.length) :
    subset b v idx = .ok (idx.filterMap (v[·]?)) := by
  rw [subset_eq_ok_iff]
  induction idx with
  | nil => rfl
  | cons i is ih =>
    have hi := h i (by simp)
    simp [hi]
    simpa using ih fun j hj => h j (List.mem_cons_of_mem _ hj)

theorem length_filterMap_get (v : List α) (idx : List Nat) (h : ∀ i ∈ idx, i < v.length) :
    (idx.filterMap (v[·]?)).length = idx.length := by
  induction idx with
  | nil => rfl
  | cons i is ih =>
    have hi := h i (by simp)
    simp [hi, ih fun j hj => h j (List.mem_cons_of_mem _ hj)]

theorem zip_filterMap_get (v : List α) (w : List β) (idx : List Nat)
    (hv : ∀ i ∈ idx, i < v.length) (hw : ∀ i ∈ idx, i < w.length) :
    (idx.filterMap (v[·]?)).zip (idx.filterMap (w[·]?)) = idx.filterMap ((v.zip w)[·]?) := by
  induction idx with
  | nil => rfl
  | cons i is ih =>
    have h1 := hv i (by simp)
    have h2 := hw i (by simp)
    have h3 : i < (v.zip w).length := by simp [h1, h2]
    rw [List.filterMap_cons_some (b := v[i]) (by simp [h1]),
      List.filterMap_cons_some (b := w[i]) (by simp [h2]),
      List.filterMap_cons_some (b := (v.zip w)[i]) (by simp [h1, h2])]
    simp [ih (fun j hj => hv j (List.mem_cons_of_mem _ hj))
      fun j hj => hw j (List.mem_cons_of_mem _ hj)]

/-! ## stdSetDifference -/

theorem stdSetDifference_spec [LinearOrder K] (x y : List K) (hx : x.Pairwise (· < ·))
    (hy : y.Pairwise (· < ·)) :
    (stdSetDifference x y).Pairwise (· < ·) ∧ ∀ z, z ∈ stdSetDifference x y ↔ z ∈ x ∧ z ∉ y := by
  fun_induction stdSetDifference x y with
  | case1 y => simp
  | case2 x xs => simp [hx]
  | case3 x xs y ys hlt ih =>
    have ⟨hx1, hx2⟩ := List.pairwise_cons.1 hx
    have ⟨hy1, hy2⟩ := List.pairwise_cons.1 hy
    have ⟨h1, h2⟩ := ih hx2 hy
    refine ⟨List.pairwise_cons.2 ⟨fun z hz => hx1 z ((h2 z).1 hz).1, h1⟩, fun z => ?_⟩
    rw [List.mem_cons, h2, List.mem_cons, List.mem_cons]
    constructor
    · rintro (rfl | ⟨h3, h4⟩)
      · refine ⟨Or.inl rfl, ?_⟩
        rintro (rfl | h)
        · exact lt_irrefl _ hlt
        · exact lt_asymm hlt (hy1 _ h)
      · exact ⟨Or.inr h3, by simpa using h4⟩
    · rintro ⟨rfl | h3, h4⟩
      · exact Or.inl rfl
      · exact Or.inr ⟨h3, by simpa using h4⟩
  | case4 x xs y ys hlt hgt ih =>
    have ⟨hx1, hx2⟩ := List.pairwise_cons.1 hx
    have ⟨hy1, hy2⟩ := List.pairwise_cons.1 hy
    have ⟨h1, h2⟩ := ih hx hy2
    refine ⟨h1, fun z => ?_⟩
    rw [h2, List.mem_cons (a := z) (b := y)]
    constructor
    · rintro ⟨h3, h4⟩
      refine ⟨h3, ?_⟩
      rintro (rfl | h)
      · rcases List.mem_cons.1 h3 with rfl | h3
        · exact lt_irrefl _ hgt
        · exact lt_asymm hgt (hx1 _ h3)
      · exact h4 h
    · rintro ⟨h3, h4⟩
      exact ⟨h3, fun h => h4 (Or.inr h)⟩
  | case5 x xs y ys hlt hgt ih =>
    have ⟨hx1, hx2⟩ := List.pairwise_cons.1 hx
    have ⟨hy1, hy2⟩ := List.pairwise_cons.1 hy
    have e : x = y := le_antisymm (not_lt.1 hgt) (not_lt.1 hlt)
    subst e
    have ⟨h1, h2⟩ := ih hx2 hy2
    refine ⟨h1, fun z => ?_⟩
    rw [h2, List.mem_cons, List.mem_cons]
    constructor
    · rintro ⟨h3, h4⟩
      exact ⟨Or.inr h3, fun h => h.elim (fun e => by subst e; exact lt_irrefl _ (hx1 _ h3)) h4⟩
    · rintro ⟨h3, h4⟩
      exact ⟨h3.resolve_left fun e => h4 (Or.inl e), fun h => h4 (Or.inr h)⟩

theorem vectorSetDifference_spec [LinearOrder K] (x y : List K) :
    (vectorSetDifference x y).Pairwise (· < ·) ∧
      ∀ z, z ∈ vectorSetDifference x y ↔ z ∈ x ∧ z ∉ y := by
  have h := stdSetDifference_spec (setOfList x) (setOfList y) (sorted_setOfList x)
    (sorted_setOfList y)
  refine ⟨sorted_setOfList _, fun z => ?_⟩
  unfold vectorSetDifference setDifference
  rw [mem_setOfList, h.2, mem_setOfList, mem_setOfList]

/-! ## set_subset -/

theorem setSubsetLoop_ok (b : Build) (bound : Nat) (src : List α) (k : Nat) (idx : List Nat)
    (dst : List α) (hb : ∀ i ∈ idx, i < dst.length) (hbound : dst.length ≤ bound)
    (hs : k + idx.length ≤ src.length) :
    ∃ out, setSubsetLoop b bound src k idx dst = .ok out ∧ out.length = dst.length ∧
      (∀ j, j ∉ idx → out[j]? = dst[j]?) ∧
      (idx.Nodup → ∀ m i, idx[m]? = some i → out[i]? = src[k + m]?) := by
  induction idx generalizing k dst with
  | nil => exact ⟨dst, rfl, rfl, by simp, by simp⟩
  | cons i is ih =>
    have hi : i < dst.length := hb i (by simp)
    have hk : k < src.length := by simp at hs; omega
    have hlen : (dst.set i src[k]).length = dst.length := by simp
    obtain ⟨out, h1, h2, h3, h4⟩ := ih (k + 1) (dst.set i src[k])
      (fun j hj => by rw [hlen]; exact hb j (List.mem_cons_of_mem _ hj)) (by rw [hlen]; exact hbound)
      (by simp at hs; omega)
    refine ⟨out, ?_, by rw [h2, hlen], ?_, ?_⟩
    · have : i < bound := by omega
      simp [setSubsetLoop, this, vecGet_lt hk, vecSet, hi, h1]
    · intro j hj
      simp only [List.mem_cons, not_or] at hj
      rw [h3 j hj.2, List.getElem?_set_ne (Ne.symm hj.1)]
    · intro hnd m j hm
      have ⟨hn1, hn2⟩ := List.nodup_cons.1 hnd
      cases m with
      | zero =>
        simp at hm; subst hm
        rw [h3 i hn1, List.getElem?_set_self hi]
        simp [hk]
      | succ m =>
        simp at hm
        rw [h4 hn2 m j hm]
        congr 1; omega

/-! ## group_by -/

/-- Effect of one iteration of `IndexerBuilder::build` is a single "append to the entry". -/
theorem build_step [LinearOrder K] {out : SMap K (List Nat)} (hw : SMap.WF out) (k : K) (i : Nat) :
    (if out.contains k then out else out.put k []).alter (fun o => o.getD [] ++ [i]) k =
      out.alter (fun o => o.getD [] ++ [i]) k := by
  by_cases hc : out.contains k
  · simp [hc]
  · simp only [hc, Bool.false_eq_true, if_false]
    have hn : out.find? k = none := by simpa [SMap.contains] using hc
    refine SMap.ext (SMap.wf_alter (SMap.wf_put hw _ _)) (SMap.wf_alter hw) fun k' => ?_
    rw [SMap.find?_alter (SMap.wf_put hw _ _), SMap.find?_alter hw, SMap.find?_put hw,
      SMap.find?_put hw]
    by_cases e : k' = k <;> simp [e, hn]

/-- Abstract version of the builders: append index `i` to the entry of the i-th key. -/
def buildKeys [LT K] [DecidableLT K] [DecidableEq K] :
    Nat → List K → SMap K (List Nat) → SMap K (List Nat)
  | _, [], out => out
  | i, k :: ks, out => buildKeys (i + 1) ks (out.alter (fun o => o.getD [] ++ [i]) k)

theorem wf_buildKeys [LinearOrder K] (i : Nat) (ks : List K) (out : SMap K (List Nat))
    (hw : SMap.WF out) : SMap.WF (buildKeys i ks out) := by
  induction ks generalizing i out with
  | nil => exact hw
  | cons k ks ih => exact ih _ _ (SMap.wf_alter hw)

theorem buildIndexerLoop_eq [LinearOrder K] (g : α → K) (i : Nat) (xs : List α)
    (out : SMap K (List Nat)) (hw : SMap.WF out) :
    buildIndexerLoop g i xs out = buildKeys i (xs.map g) out := by
  induction xs generalizing i out with
  | nil => rfl
  | cons x xs ih =>
    simp only [buildIndexerLoop, List.map_cons, buildKeys]
    rw [build_step hw]
    exact ih _ _ (SMap.wf_alter hw)

theorem buildIndexer_eq [LinearOrder K] (g : α → K) (xs : List α) :
    buildIndexer g xs = buildKeys 0 (xs.map g) [] := buildIndexerLoop_eq g 0 xs [] SMap.wf_nil

/-- Positions (offset `i`) at which key `k` occurs. -/
def positions [DecidableEq K] : Nat → List K → K → List Nat
  | _, [], _ => []
  | i, k' :: ks, k => if k' = k then i :: positions (i + 1) ks k else positions (i + 1) ks k

theorem mem_positions [DecidableEq K] (i : Nat) (ks : List K) (k : K) (j : Nat) :
    j ∈ positions i ks k ↔ ∃ m, j = i + m ∧ ks[m]? = some k := by
  induction ks generalizing i with
  | nil => simp [positions]
  | cons a t ih =>
    have h : j ∈ positions (i + 1) t k ↔ ∃ m, j = i + (m + 1) ∧ (a :: t)[m + 1]? = some k := by
      rw [ih]; simp [Nat.add_assoc, Nat.add_comm 1]
    have key : (∃ m, j = i + m ∧ (a :: t)[m]? = some k) ↔
        (j = i ∧ a = k) ∨ j ∈ positions (i + 1) t k := by
      rw [h]
      constructor
      · rintro ⟨m, hm, hk⟩
        cases m with
        | zero => left; exact ⟨by simpa using hm, by simpa using hk⟩
        | succ m => right; exact ⟨m, hm, hk⟩
      · rintro (⟨h1, h2⟩ | ⟨m, h1, h2⟩)
        · exact ⟨0, by simpa using h1, by simpa using h2⟩
        · exact ⟨m + 1, h1, h2⟩
    rw [key]
    simp only [positions]
    split
    · next e => simp [e]
    · next e => simp [e]

theorem positions_sorted [DecidableEq K] (i : Nat) (ks : List K) (k : K) :
    (positions i ks k).Pairwise (· < ·) := by
  induction ks generalizing i with
  | nil => simp [positions]
  | cons a t ih =>
    simp only [positions]
    split
    · refine List.pairwise_cons.2 ⟨fun j hj => ?_, ih _⟩
      obtain ⟨m, rfl, -⟩ := (mem_positions _ _ _ _).1 hj
      omega
    · exact ih _

theorem find?_buildKeys [LinearOrder K] (i : Nat) (ks : List K) (out : SMap K (List Nat))
    (hw : SMap.WF out) (k : K) :
    (buildKeys i ks out).find? k =
      if positions i ks k = [] then out.find? k
      else some ((out.find? k).getD [] ++ positions i ks k) := by
  induction ks generalizing i out with
  | nil => simp [buildKeys, positions]
  | cons a t ih =>
    simp only [buildKeys, positions]
    rw [ih _ _ (SMap.wf_alter hw), SMap.find?_alter hw]
    by_cases e : k = a
    · subst e
      simp only [if_true]
      split <;> simp_all
    · simp [e, Ne.symm e]

theorem values_alter_perm [LinearOrder K] (i : Nat) (k : K) (m : SMap K (List Nat)) :
    ((m.alter (fun o => o.getD [] ++ [i]) k).values.flatten).Perm (i :: m.values.flatten) := by
  induction m with
  | nil => simp [SMap.alter, SMap.values]
  | cons a t ih =>
    obtain ⟨k', v⟩ := a
    simp only [SMap.alter]
    split
    · simp only [SMap.values, List.map_cons, List.flatten_cons, Option.getD_some]
      rw [List.append_assoc]
      exact List.perm_middle
    · split
      · simp [SMap.values]
      · simp only [SMap.values, List.map_cons, List.flatten_cons] at ih ⊢
        exact (List.Perm.append_left v ih).trans List.perm_middle

theorem values_buildKeys_perm [LinearOrder K] (i : Nat) (ks : List K) (out : SMap K (List Nat)) :
    ((buildKeys i ks out).values.flatten).Perm
      ((List.range' i ks.length) ++ out.values.flatten) := by
  induction ks generalizing i out with
  | nil => simp [buildKeys]
  | cons a t ih =>
    simp only [buildKeys, List.length_cons, List.range'_succ, List.cons_append]
    exact (ih _ _).trans
      (((values_alter_perm i a out).append_left _).trans List.perm_middle)

theorem filterMap_positions [DecidableEq K] (g : α → K) (pre xs : List α) (k : K) :
    (positions pre.length (xs.map g) k).filterMap ((pre ++ xs)[·]?) =
      xs.filter fun x => decide (g x = k) := by
  induction xs generalizing pre with
  | nil => simp [positions]
  | cons x xs ih =>
    have := ih (pre ++ [x])
    simp only [List.length_append, List.length_singleton, List.append_assoc,
      List.singleton_append] at this
    simp only [List.map_cons, positions]
    by_cases e : g x = k
    · simp [e, this]
    · simp [e, this]

theorem concatenateAll_eq (xss : List (List α)) : concatenateAll xss = xss.flatten := by
  have : ∀ (acc : List α), xss.foldl (fun out xs => out ++ xs) acc = acc ++ xss.flatten := by
    induction xss with
    | nil => simp
    | cons a t ih => intro acc; simp [ih]
  simpa [concatenateAll] using this []

theorem concatenate_eq (xs ys : List α) : concatenate xs ys = xs ++ ys := by
  unfold concatenate
  induction ys generalizing xs with
  | nil => simp
  | cons a t ih => simp [ih]

/-- `groups` over a well formed indexer: one entry per group. -/
theorem groupsOf_ok [LinearOrder K] (sub : List Nat → Outcome β) (f : List Nat → β)
    (indexer : SMap K (List Nat)) (hw : SMap.WF indexer)
    (h : ∀ kv ∈ indexer, sub kv.2 = .ok (f kv.2)) :
    groupsOf sub indexer = .ok (indexer.map fun kv => (kv.1, f kv.2)) := by
  unfold groupsOf
  have : ∀ (l acc : SMap K β) (ix : SMap K (List Nat)),
      l = ix.map (fun kv => (kv.1, f kv.2)) → (∀ kv ∈ ix, sub kv.2 = .ok (f kv.2)) →
      (ix.foldlM (fun out kv => do let v ← sub kv.2; pure (SMap.emplace out kv.1 v)) acc :
        Outcome (SMap K β)) = .ok (l.foldl (fun m kv => m.emplace kv.1 kv.2) acc) := by
    intro l acc ix
    induction ix generalizing l acc with
    | nil => rintro rfl -; rfl
    | cons a t ih =>
      rintro rfl hs
      rw [List.foldlM_cons, hs a (by simp)]
      simp only [except_ok_bind, except_pure, List.map_cons, List.foldl_cons]
      exact ih _ _ rfl fun kv hkv => hs kv (List.mem_cons_of_mem _ hkv)
  rw [this _ [] indexer rfl h]
  congr 1
  exact SMap.ofList_of_wf (SMap.wf_map_values (fun kv => f kv.2) hw)

theorem buildIndexer_index_lt [LinearOrder K] (g : α → K) (xs : List α) {kv : K × List Nat}
    (h : kv ∈ buildIndexer g xs) : ∀ i ∈ kv.2, i < xs.length := by
  intro i hi
  rw [buildIndexer_eq] at h
  have hw : SMap.WF (buildKeys 0 (xs.map g) []) := wf_buildKeys _ _ _ SMap.wf_nil
  have hf := SMap.find?_of_mem hw (k := kv.1) (v := kv.2) h
  rw [find?_buildKeys _ _ _ SMap.wf_nil] at hf
  split at hf
  · simp [SMap.find?] at hf
  · simp only [Option.some.injEq, SMap.find?, Option.getD_none, List.nil_append] at hf
    rw [← hf] at hi
    obtain ⟨m, rfl, hm⟩ := (mem_positions _ _ _ _).1 hi
    have := List.getElem?_eq_some_iff.1 hm
    obtain ⟨h1, -⟩ := this
    simpa using h1

end Albatross
