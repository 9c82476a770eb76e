import Verif.VariantUtils
import Verif.IndexingLemmas

/-! # C85: converting to and from variants -/

namespace Albatross

variable {τ : Type} {El : τ → Type} {ts us : List τ}

/-! ## To variants -/

theorem setVariants_fold {X V : Type} (set : X → V → V) (inj : X → V) (hset : ∀ x v, set x v = inj x) (xs : List X)
    (init : List V) (hlen : init.length = xs.length) :
    ∀ k ≤ xs.length, (List.range k).foldlM (fun out i => do
      let x ← vecGet xs i
      let old ← vecGet out i
      pure (out.set i (set x old))) init = (.ok ((xs.take k).map inj ++ init.drop k) : Outcome (List V)) := by
  intro k
  induction k with
  | zero => intro _; simp [except_pure]
  | succ k ih =>
    intro hk
    have hk1 : k < xs.length := hk
    rw [List.range_succ, List.foldlM_append, ih (by omega)]
    simp only [except_ok_bind, List.foldlM_cons, List.foldlM_nil]
    have hl : k < ((xs.take k).map inj ++ init.drop k).length := by simp; omega
    rw [vecGet_lt hk1, vecGet_lt hl]
    simp only [except_ok_bind, except_pure, hset]
    congr 1
    have e1 : List.drop k init = init[k]'(by omega) :: init.drop (k + 1) := (List.drop_eq_getElem_cons (by omega))
    rw [e1, List.take_succ_eq_append_getElem hk1, List.map_append, List.set_append_right _ _ (by simp)]
    have e2 : k - ((xs.take k).map inj).length = 0 := by simp; omega
    rw [e2, List.set_cons_zero]
    simp

/-- Whatever the vector held before, `set_variants` leaves exactly one variant per element, in order, holding its
value. -/
theorem C85_to_variants (h : ∀ t ∈ us, t ∈ ts) {t : τ} (ht : t ∈ ts) (fill : VariantVal El ts)
    (before : List (VariantVal El ts)) :
    (∀ xs : List (El t), setVariants (setVariantValue ht) fill xs before = .ok (xs.map fun x => ⟨t, ht, x⟩)) ∧
      ∀ xs : List (VariantVal El us),
        setVariants (setVariantSub h) fill xs before = .ok (xs.map fun x => ⟨x.tag, h _ x.mem, x.val⟩) := by
  constructor
  · intro xs
    unfold setVariants
    have hl : (stdResize before xs.length fill).length = xs.length := by simp [stdResize]; omega
    rw [setVariants_fold (setVariantValue ht) (fun x => ⟨t, ht, x⟩) (fun _ _ => rfl) xs _ hl _ (le_refl _)]
    rw [List.take_length, List.drop_eq_nil_of_le (by omega), List.append_nil]
  · intro xs
    unfold setVariants
    have hl : (stdResize before xs.length fill).length = xs.length := by simp [stdResize]; omega
    rw [setVariants_fold (setVariantSub h) (fun x => ⟨x.tag, h _ x.mem, x.val⟩) (fun _ _ => rfl) xs _ hl _ (le_refl _)]
    rw [List.take_length, List.drop_eq_nil_of_le (by omega), List.append_nil]

variable [DecidableEq τ]

/-! ## From variants -/

theorem extract_eq_filterMap (t : τ) (xs : List (VariantVal El ts)) :
    extractFromVariants t xs = xs.filterMap (VariantVal.get? t) := by
  have : ∀ (l : List (VariantVal El ts)) (acc : List (El t)), l.foldl (fun output x => match x.get? t with
      | some f => output ++ [f]
      | none => output) acc = acc ++ l.filterMap (VariantVal.get? t) := by
    intro l
    induction l with
    | nil => intro acc; simp
    | cons x l ih =>
      intro acc
      rw [List.foldl_cons, ih]
      cases hx : x.get? t with
      | none => simp [hx]
      | some f => simp [hx]
  exact (this xs []).trans (by simp)

/-- The values of one type, in order: a variant holding the type contributes its value, any other nothing. -/
theorem C85_extract (t : τ) :
    extractFromVariants t ([] : List (VariantVal El ts)) = [] ∧
      (∀ (h : t ∈ ts) (v : El t) (xs : List (VariantVal El ts)),
        extractFromVariants t (⟨t, h, v⟩ :: xs) = v :: extractFromVariants t xs) ∧
      ∀ (x : VariantVal El ts) (xs : List (VariantVal El ts)), x.tag ≠ t →
        extractFromVariants t (x :: xs) = extractFromVariants t xs := by
  refine ⟨rfl, fun h v xs => ?_, fun x xs hx => ?_⟩
  · rw [extract_eq_filterMap, extract_eq_filterMap, List.filterMap_cons]
    simp [VariantVal.get?]
  · rw [extract_eq_filterMap, extract_eq_filterMap, List.filterMap_cons]
    simp [VariantVal.get?, hx]

/-- Converting a vector of one type to variants and extracting gives the vector back for that type and nothing for
another; converting to a wider variant changes nothing that can be extracted. -/
theorem C85_round_trip (h : ∀ t ∈ us, t ∈ ts) {t : τ} (ht : t ∈ ts) (fill : VariantVal El ts) :
    (∀ xs : List (El t), ∃ vs, toVariantVector (setVariantValue ht) fill xs = .ok vs ∧
      extractFromVariants t vs = xs ∧ ∀ t', t' ≠ t → extractFromVariants t' vs = []) ∧
    ∀ xs : List (VariantVal El us), ∃ vs, toVariantVector (setVariantSub h) fill xs = .ok vs ∧
      ∀ t', extractFromVariants t' vs = extractFromVariants t' xs := by
  constructor
  · intro xs
    refine ⟨_, (C85_to_variants h ht fill []).1 xs, ?_, fun t' ht' => ?_⟩
    · rw [extract_eq_filterMap]
      induction xs with
      | nil => rfl
      | cons x xs ih =>
        rw [List.map_cons, List.filterMap_cons]
        simp only [VariantVal.get?, dif_pos]
        exact congrArg _ ih
    · rw [extract_eq_filterMap]
      induction xs with
      | nil => rfl
      | cons x xs ih =>
        rw [List.map_cons, List.filterMap_cons]
        simp only [VariantVal.get?, dif_neg ht'.symm]
        exact ih
  · intro xs
    refine ⟨_, (C85_to_variants h ht fill []).2 xs, fun t' => ?_⟩
    rw [extract_eq_filterMap, extract_eq_filterMap, List.filterMap_map]
    rfl

/-- No value is lost or invented: the numbers of values extracted for the (different) types of the variant add up
to the number of variants. -/
theorem C85_extract_counts (hnd : ts.Nodup) (xs : List (VariantVal El ts)) :
    (ts.map fun t => (extractFromVariants t xs).length).sum = xs.length := by
  induction xs with
  | nil => simp [extract_eq_filterMap]
  | cons x xs ih =>
    have hone : (ts.map fun t => if x.tag = t then 1 else 0).sum = 1 := by
      have hx := x.mem
      generalize x.tag = a at hx ⊢
      clear ih xs
      clear x
      induction ts with
      | nil => simp at hx
      | cons t ts ih =>
        rw [List.map_cons, List.sum_cons]
        rcases List.mem_cons.mp hx with rfl | hmem
        · have hz : (ts.map fun t => if a = t then 1 else 0).sum = 0 := by
            apply List.sum_eq_zero
            intro n hn
            obtain ⟨t, ht, rfl⟩ := List.mem_map.mp hn
            rw [if_neg]
            rintro rfl
            exact (List.nodup_cons.mp hnd).1 ht
          rw [if_pos rfl, hz]
        · have hne : a ≠ t := by
            rintro rfl
            exact (List.nodup_cons.mp hnd).1 hmem
          rw [if_neg hne, ih (List.nodup_cons.mp hnd).2 hmem]
    have hsplit : (fun t => (extractFromVariants t (x :: xs)).length) =
        fun t => (if x.tag = t then 1 else 0) + (extractFromVariants t xs).length := by
      funext t
      rw [extract_eq_filterMap, extract_eq_filterMap, List.filterMap_cons]
      by_cases ht : x.tag = t
      · simp only [VariantVal.get?, dif_pos ht, List.length_cons, if_pos ht]; omega
      · simp only [VariantVal.get?, dif_neg ht, if_neg ht]; omega
    rw [hsplit, List.sum_map_add, hone, ih, List.length_cons]
    omega

/-! ## Datasets -/

/-- Specification: the observations whose feature is of type `t`. -/
def observationsOf {R : Type} (t : τ) : List (VariantVal El ts × R × R) → List (El t × R × R)
  | [] => []
  | (x, r) :: rest => if h : x.tag = t then (h ▸ x.val, r) :: observationsOf t rest else observationsOf t rest

/-- The observations of a dataset: feature, target and variance of the target. -/
def Dataset.observations {F R : Type} (d : Dataset F R) : List (F × R × R) := d.features.zip (d.mean.zip d.variance)

theorem observationsOf_eq {R : Type} (t : τ) (l : List (VariantVal El ts × R × R)) :
    observationsOf t l = l.filterMap fun r => (r.1.get? t).map (·, r.2) := by
  induction l with
  | nil => rfl
  | cons r l ih =>
    obtain ⟨x, r⟩ := r
    rw [observationsOf, List.filterMap_cons]
    by_cases h : x.tag = t
    · simp only [dif_pos h, VariantVal.get?, Option.map_some, ih]
    · simp only [dif_neg h, VariantVal.get?, Option.map_none, ih]

theorem extractDataset_fold (t : τ) (fs : List (VariantVal El ts)) :
    ∀ k ≤ fs.length, (List.range k).foldlM (extractStep t fs) ([], []) =
      (.ok ((List.range k).filter (fun i => ((fs[i]?).bind (VariantVal.get? t)).isSome),
        (fs.take k).filterMap (VariantVal.get? t)) : Outcome (List Nat × List (El t))) := by
  intro k
  induction k with
  | zero => intro _; rfl
  | succ k ih =>
    intro hk
    have hk1 : k < fs.length := hk
    rw [List.range_succ, List.foldlM_append, ih (by omega)]
    simp only [except_ok_bind, List.foldlM_cons, List.foldlM_nil]
    unfold extractStep
    rw [vecGet_lt hk1]
    simp only [except_ok_bind, except_pure]
    rw [List.filter_append, List.take_succ_eq_append_getElem hk1, List.filterMap_append]
    have e : fs[k]? = some fs[k] := List.getElem?_eq_getElem hk1
    cases hx : (fs[k]).get? t with
    | none => simp [hx, e, except_ok_bind]
    | some f => simp [hx, e, except_ok_bind]

theorem extractDataset_rows {R : Type} (t : τ) (fs : List (VariantVal El ts)) (ms vs : List R)
    (h1 : ms.length = fs.length) (h2 : vs.length = fs.length) :
    ∀ k ≤ fs.length,
      let idx := (List.range k).filter (fun i => ((fs[i]?).bind (VariantVal.get? t)).isSome)
      let out := (fs.take k).filterMap (VariantVal.get? t)
      (idx.filterMap (ms[·]?)).length = out.length ∧ (idx.filterMap (vs[·]?)).length = out.length ∧
        out.zip ((idx.filterMap (ms[·]?)).zip (idx.filterMap (vs[·]?))) =
          ((fs.zip (ms.zip vs)).take k).filterMap fun r => (r.1.get? t).map (·, r.2) := by
  intro k
  induction k with
  | zero => intro _; simp
  | succ k ih =>
    intro hk
    have hk1 : k < fs.length := hk
    obtain ⟨i1, i2, i3⟩ := ih (by omega)
    have e : fs[k]? = some fs[k] := List.getElem?_eq_getElem hk1
    have em : ms[k]? = some (ms[k]'(by omega)) := List.getElem?_eq_getElem (by omega)
    have ev : vs[k]? = some (vs[k]'(by omega)) := List.getElem?_eq_getElem (by omega)
    have hz : k < (fs.zip (ms.zip vs)).length := by simp; omega
    simp only
    rw [List.range_succ, List.filter_append, List.take_succ_eq_append_getElem hk1, List.filterMap_append,
      List.filterMap_append, List.filterMap_append, List.take_succ_eq_append_getElem hz, List.filterMap_append,
      ← i3]
    cases hx : (fs[k]).get? t with
    | none =>
      simp only [List.filter_cons, e, Option.bind_some, hx, Option.isSome_none, List.filter_nil, List.filterMap_nil,
        List.append_nil, List.filterMap_cons, List.getElem_zip, Option.map_none]
      simp only [Bool.false_eq_true, if_false, List.filterMap_nil, List.append_nil]
      exact ⟨i1, i2, trivial⟩
    | some f =>
      simp only [List.filter_cons, e, Option.bind_some, hx, Option.isSome_some, List.filter_nil, if_true,
        List.filterMap_cons, List.filterMap_nil, em, ev, List.length_append, i1, i2, List.getElem_zip,
        Option.map_some, List.length_cons, List.length_nil, true_and]
      rw [List.zip_append (by rw [i1, i2]), List.zip_append (by simp [i1, i2])]
      rfl

/-- Extracting one type from a dataset keeps exactly the observations whose feature is of the type, each with its
own target and variance, in order; the metadata is dropped. -/
theorem C85_extract_dataset {R : Type} (b : Build) (t : τ) (d : Dataset (VariantVal El ts) R) (hd : d.Valid) :
    ∃ out, extractFromVariantsDataset b t d = .ok out ∧ out.Valid ∧
      out.observations = observationsOf t d.observations ∧ out.features = extractFromVariants t d.features ∧
      out.metadata = [] := by
  obtain ⟨h1, h2⟩ := hd
  obtain ⟨i1, i2, i3⟩ := extractDataset_rows t d.features d.mean d.variance h1 h2 _ (le_refl _)
  have hb : ∀ i ∈ (List.range d.features.length).filter
      (fun i => ((d.features[i]?).bind (VariantVal.get? t)).isSome), i < d.features.length := by
    intro i hi
    exact List.mem_range.mp (List.mem_filter.mp hi).1
  rw [List.take_length] at i1 i2 i3
  refine ⟨⟨d.features.filterMap (VariantVal.get? t), _, _, []⟩, ?_, ⟨i1, i2⟩, ?_, ?_, rfl⟩
  · unfold extractFromVariantsDataset
    rw [extractDataset_fold t d.features _ (le_refl _)]
    simp only [except_ok_bind]
    rw [subset_ok _ _ _ (by rw [h1]; exact hb), subset_ok _ _ _ (by rw [h2]; exact hb)]
    simp only [except_ok_bind, List.take_length]
    unfold mkDataset
    rw [i1, i2]
    simp only [decide_true, albatrossAssert_true, except_ok_bind]
    rfl
  · rw [observationsOf_eq]
    unfold Dataset.observations
    simp only
    rw [i3, List.take_of_length_le (by simp)]
  · rw [extract_eq_filterMap]

/-! ## Examples -/

/-- Two types. -/
def exampleEl : Bool → Type
  | true => Nat
  | false => String

def exampleNat (n : Nat) : VariantVal exampleEl [true, false] := ⟨true, by decide, n⟩
def exampleString (s : String) : VariantVal exampleEl [true, false] := ⟨false, by decide, s⟩

example : ∃ out, extractFromVariantsDataset .debug true
    (⟨[exampleNat 3, exampleString "a", exampleNat 5], [1, 2, 3], [7, 8, 9], [("k", "v")]⟩ : Dataset _ Nat) = .ok out ∧
      out.observations = [((3 : Nat), 1, 7), ((5 : Nat), 3, 9)] ∧ out.metadata = [] := by
  obtain ⟨out, e, -, h, -, m⟩ := C85_extract_dataset .debug true
    (⟨[exampleNat 3, exampleString "a", exampleNat 5], [1, 2, 3], [7, 8, 9], [("k", "v")]⟩ : Dataset _ Nat) ⟨rfl, rfl⟩
  exact ⟨out, e, h, m⟩

end Albatross
