import Verif.XmlFlatten
import Verif.CsvProps

/-! # C109: every value of a serialised feature becomes a column -/

namespace Albatross

/-! ## Specification -/

/-- Names joined with dots. -/
def dotted : List String → String
  | [] => ""
  | [a] => a
  | a :: b :: t => a ++ "." ++ dotted (b :: t)

mutual

/-- The values stored in a tree with the names of the elements that lead to them, in document order.  A value is the text
of an element without element children. -/
def XmlNode.values : XmlNode → List (List String × String)
  | .mk _ name value children =>
    if children.any XmlNode.isElement then (childValues children).map fun pv => (name :: pv.1, pv.2)
    else [([name], value)]

/-- The values stored in the element children. -/
def childValues : List XmlNode → List (List String × String)
  | [] => []
  | c :: rest => (if c.isElement then c.values else []) ++ childValues rest

end

mutual

/-- No element has both text and element children, as in every document that an archive writes. -/
def XmlNode.NoMixed : XmlNode → Prop
  | .mk _ _ value children => (children.any XmlNode.isElement → value = "") ∧ childrenNoMixed children

/-- The same for every element child. -/
def childrenNoMixed : List XmlNode → Prop
  | [] => True
  | c :: rest => (c.isElement → c.NoMixed) ∧ childrenNoMixed rest

end

/-- The name of the column of a value: the path below the root, or the name of the root if the root itself is the value. -/
def xmlColumn : List String → String
  | [root] => root
  | path => dotted path.tail

/-- The value of the last entry with the given key. -/
def lookupLast (k : String) : List (String × String) → Option String
  | [] => none
  | (a, v) :: t => (lookupLast k t).or (if a = k then some v else none)

/-! ## Lemmas -/

theorem lookupLast_append (k : String) (l m : List (String × String)) :
    lookupLast k (l ++ m) = (lookupLast k m).or (lookupLast k l) := by
  induction l with
  | nil => simp [lookupLast]
  | cons a t ih => obtain ⟨a, v⟩ := a; simp [lookupLast, ih, Option.or_assoc]

theorem lookupLast_none {k : String} {l : List (String × String)} (h : ∀ x ∈ l, x.1 ≠ k) : lookupLast k l = none := by
  induction l with
  | nil => rfl
  | cons a t ih =>
    obtain ⟨a, v⟩ := a
    simp only [List.forall_mem_cons] at h
    simp [lookupLast, ih h.2, h.1]

theorem find?_eq_lookupLast {m : SMap String String} (hm : SMap.WF m) (k : String) : m.find? k = lookupLast k m := by
  induction m with
  | nil => rfl
  | cons a t ih =>
    obtain ⟨a, v⟩ := a
    have h := SMap.wf_cons.1 hm
    simp only [SMap.find?, lookupLast]
    by_cases e : k = a
    · subst e
      rw [if_pos rfl, if_pos rfl, lookupLast_none fun x hx => (h.1 x hx).ne']
      rfl
    · rw [if_neg e, if_neg (Ne.symm e), ih h.2]
      simp

theorem foldl_put_lookup (g : String → String) (c : List (String × String)) (m : SMap String String) (hm : SMap.WF m) :
    SMap.WF (c.foldl (fun out p => SMap.put out (g p.1) p.2) m) ∧
    ∀ k, (c.foldl (fun out p => SMap.put out (g p.1) p.2) m).find? k =
      (lookupLast k (c.map fun p => (g p.1, p.2))).or (m.find? k) := by
  induction c generalizing m with
  | nil => simpa [lookupLast] using hm
  | cons a t ih =>
    obtain ⟨a, v⟩ := a
    rw [List.foldl_cons]
    obtain ⟨h1, h2⟩ := ih _ (SMap.wf_put hm (g a) v)
    refine ⟨h1, fun k => ?_⟩
    rw [h2, SMap.find?_put hm, List.map_cons, lookupLast, Option.or_assoc]
    congr 1
    by_cases e : k = g a
    · simp [e]
    · simp [e, Ne.symm e]

theorem lookupLast_map {g : String → String} (hg : Function.Injective g) (k : String) (l : List (String × String)) :
    lookupLast (g k) (l.map fun p => (g p.1, p.2)) = lookupLast k l := by
  induction l with
  | nil => rfl
  | cons a t ih => obtain ⟨a, v⟩ := a; simp [lookupLast, ih, hg.eq_iff]

theorem lookupLast_map_congr {g : String → String} (hg : Function.Injective g) {l m : List (String × String)}
    (h : ∀ k, lookupLast k l = lookupLast k m) (k : String) :
    lookupLast k (l.map fun p => (g p.1, p.2)) = lookupLast k (m.map fun p => (g p.1, p.2)) := by
  by_cases e : ∃ k', g k' = k
  · obtain ⟨k', rfl⟩ := e
    rw [lookupLast_map hg, lookupLast_map hg, h]
  · have hn : ∀ l : List (String × String), lookupLast k (l.map fun p => (g p.1, p.2)) = none := fun l =>
      lookupLast_none fun x hx => by
        obtain ⟨y, -, rfl⟩ := List.mem_map.1 hx
        exact fun e' => e ⟨y.1, e'⟩
    rw [hn, hn]

/-- What a node prepends. -/
def xmlPrefix (prepend : Bool) (name k : String) : String := if prepend then name ++ "." ++ k else k

theorem xmlPrefix_injective (prepend : Bool) (name : String) : Function.Injective (xmlPrefix prepend name) := by
  intro a b h
  unfold xmlPrefix at h
  split_ifs at h
  · have h := congrArg String.toList h
    simp only [String.toList_append, List.append_cancel_left_eq] at h
    exact String.toList_inj.1 h
  · exact h

/-- The non-empty values under their dotted names. -/
def namedValues (l : List (List String × String)) : List (String × String) :=
  (l.filter fun pv => pv.2 ≠ "").map fun pv => (dotted pv.1, pv.2)

theorem namedValues_append (l m : List (List String × String)) :
    namedValues (l ++ m) = namedValues l ++ namedValues m := by simp [namedValues]

mutual

theorem values_path_ne (n : XmlNode) : ∀ pv ∈ n.values, pv.1 ≠ [] := by
  obtain ⟨e, name, value, children⟩ := n
  intro pv h
  rw [XmlNode.values] at h
  split_ifs at h
  · obtain ⟨p, -, rfl⟩ := List.mem_map.1 h; simp
  · rw [List.mem_singleton.1 h]; simp

theorem childValues_path_ne (l : List XmlNode) : ∀ pv ∈ childValues l, pv.1 ≠ [] := by
  intro pv h
  match l with
  | [] => simp [childValues] at h
  | c :: rest =>
    rw [childValues, List.mem_append] at h
    rcases h with h | h
    · split_ifs at h
      · exact values_path_ne c pv h
      · simp at h
    · exact childValues_path_ne rest pv h

end

theorem dotted_cons (a : String) {p : List String} (h : p ≠ []) : dotted (a :: p) = a ++ "." ++ dotted p := by
  cases p with
  | nil => exact absurd rfl h
  | cons b t => rfl

theorem childValues_of_none {l : List XmlNode} (h : l.any XmlNode.isElement = false) : childValues l = [] := by
  induction l with
  | nil => rfl
  | cons c t ih =>
    simp only [List.any_cons, Bool.or_eq_false_iff] at h
    simp [childValues, h.1, ih h.2]

theorem namedValues_cons (name : String) (l : List (List String × String)) (h : ∀ pv ∈ l, pv.1 ≠ []) :
    namedValues (l.map fun pv => (name :: pv.1, pv.2)) =
      (namedValues l).map fun p => (xmlPrefix true name p.1, p.2) := by
  unfold namedValues
  rw [List.filter_map, List.map_map, List.map_map]
  refine List.map_congr_left fun pv hpv => ?_
  have := h pv (List.mem_filter.1 hpv).1
  simp [Function.comp, dotted_cons name this, xmlPrefix]

theorem flattenChildren_spec (prepend : Bool) (name : String) : ∀ (l : List XmlNode),
    (∀ c ∈ l, c.isElement → SMap.WF (flattenXml true c) ∧
      ∀ k, (flattenXml true c).find? k = lookupLast k (namedValues c.values)) →
    ∀ m : SMap String String, SMap.WF m → SMap.WF (flattenChildren prepend name l m) ∧
      ∀ k, (flattenChildren prepend name l m).find? k =
        (lookupLast k ((namedValues (childValues l)).map fun p => (xmlPrefix prepend name p.1, p.2))).or (m.find? k) := by
  intro l
  induction l with
  | nil => intro _ m hm; rw [flattenChildren, childValues]; exact ⟨hm, fun k => by simp [namedValues, lookupLast]⟩
  | cons c rest ih =>
    intro hc m hm
    rw [flattenChildren, childValues]
    have ih' := ih fun c' h => hc c' (by simp [h])
    by_cases he : c.isElement
    · obtain ⟨w, hl⟩ := hc c (by simp) he
      rw [if_pos he, if_pos he]
      have hf := foldl_put_lookup (xmlPrefix prepend name) (flattenXml true c) m hm
      obtain ⟨h1, h2⟩ := ih' _ hf.1
      refine ⟨h1, fun k => (h2 k).trans ?_⟩
      rw [namedValues_append, List.map_append, lookupLast_append, Option.or_assoc]
      congr 1
      refine (hf.2 k).trans ?_
      congr 1
      exact lookupLast_map_congr (xmlPrefix_injective prepend name)
        (fun k => (find?_eq_lookupLast w k).symm.trans (hl k)) k
    · rw [if_neg he, if_neg he, List.nil_append]
      exact ih' m hm

theorem string_length_pos {s : String} : s.length > 0 ↔ s ≠ "" := by
  rw [gt_iff_lt, Nat.pos_iff_ne_zero, Ne, String.length_eq_zero_iff]

mutual

theorem flattenXml_spec : (n : XmlNode) → n.NoMixed → SMap.WF (flattenXml true n) ∧
      ∀ k, (flattenXml true n).find? k = lookupLast k (namedValues n.values)
  | .mk e name value children, hn => by
    rw [XmlNode.NoMixed] at hn
    rw [flattenXml, XmlNode.values]
    by_cases hv : value = ""
    · subst hv
      rw [if_neg (by simp)]
      have hs := flattenChildren_spec true name children (flattenChildren_all children hn.2) [] SMap.wf_nil
      refine ⟨hs.1, fun k => (hs.2 k).trans ?_⟩
      split_ifs with ha
      · rw [namedValues_cons _ _ (childValues_path_ne children)]
        simp [SMap.find?]
      · rw [childValues_of_none (by simpa using ha)]
        rfl
    · have ha : ¬ children.any XmlNode.isElement = true := fun h => hv (hn.1 h)
      rw [if_pos (string_length_pos.2 hv), if_neg ha]
      refine ⟨SMap.wf_put SMap.wf_nil _ _, fun k => ?_⟩
      rw [SMap.find?_put SMap.wf_nil]
      simp only [namedValues, SMap.find?, List.filter_cons, List.filter_nil, decide_not, hv, decide_false, Bool.not_false,
        if_true, List.map_cons, List.map_nil, dotted, lookupLast, Option.none_or]
      by_cases e : k = name
      · simp [e]
      · simp [e, Ne.symm e]

theorem flattenChildren_all : (l : List XmlNode) → childrenNoMixed l →
    ∀ c ∈ l, c.isElement → SMap.WF (flattenXml true c) ∧
      ∀ k, (flattenXml true c).find? k = lookupLast k (namedValues c.values)
  | [], _ => by simp
  | c :: rest, h => by
    rw [childrenNoMixed] at h
    intro c' hc' he
    rcases List.mem_cons.1 hc' with e | hr
    · rw [e] at he ⊢
      exact flattenXml_spec c (h.1 he)
    · exact flattenChildren_all rest h.2 c' hr he

end

/-! ## The claims -/

/-- The non-empty values of a feature with their columns. -/
def xmlEntries (n : XmlNode) : List (String × String) :=
  (n.values.filter fun pv => pv.2 ≠ "").map fun pv => (xmlColumn pv.1, pv.2)

/-- C109: exactly which map `to_map` makes: the column `k` has the last non-empty value whose dotted name is `k`. -/
theorem C109_lookup (e : Bool) (root first : XmlNode) (others : List XmlNode) (doc : List XmlNode) (name value : String)
    (hr : root = .mk e name value (first :: others)) (hn : first.NoMixed) :
    ∃ m, toMapXml (root :: doc) = .ok m ∧ SMap.WF m ∧ ∀ k, m.find? k = lookupLast k (xmlEntries first) := by
  subst hr
  refine ⟨_, rfl, ?_⟩
  obtain ⟨e', name', value', children⟩ := first
  rw [XmlNode.NoMixed] at hn
  rw [flattenXml, xmlEntries, XmlNode.values]
  by_cases hv : value' = ""
  · subst hv
    rw [if_neg (by simp)]
    have hs := flattenChildren_spec false name' children (flattenChildren_all children hn.2) [] SMap.wf_nil
    refine ⟨hs.1, fun k => (hs.2 k).trans ?_⟩
    split_ifs with ha
    · simp only [SMap.find?, Option.or_none, namedValues, xmlPrefix, Bool.false_eq_true, if_false, List.filter_map,
        List.map_map, Function.comp_def]
      congr 1
      refine List.map_congr_left fun pv hpv => ?_
      have := childValues_path_ne children pv (List.mem_filter.1 hpv).1
      obtain ⟨a, t, hp⟩ := List.exists_cons_of_ne_nil this
      simp [hp, xmlColumn]
    · rw [childValues_of_none (by simpa using ha)]
      rfl
  · have ha : ¬ children.any XmlNode.isElement = true := fun h => hv (hn.1 h)
    rw [if_pos (string_length_pos.2 hv), if_neg ha]
    refine ⟨SMap.wf_put SMap.wf_nil _ _, fun k => ?_⟩
    rw [SMap.find?_put SMap.wf_nil]
    simp only [SMap.find?, List.filter_cons, List.filter_nil, decide_not, hv, decide_false, Bool.not_false,
      if_true, List.map_cons, List.map_nil, xmlColumn, lookupLast, Option.none_or]
    by_cases e : k = name'
    · simp [e]
    · simp [e, Ne.symm e]

theorem lookupLast_mem {k v : String} {l : List (String × String)} (h : lookupLast k l = some v) : (k, v) ∈ l := by
  induction l with
  | nil => simp [lookupLast] at h
  | cons a t ih =>
    obtain ⟨a, w⟩ := a
    rw [lookupLast] at h
    cases ht : lookupLast k t with
    | some w' => rw [ht] at h; exact List.mem_cons_of_mem _ (ih (ht.trans h))
    | none =>
      rw [ht, Option.none_or] at h
      split_ifs at h with e
      cases h; rw [e]; simp

theorem lookupLast_of_mem {k v : String} {l : List (String × String)} (hd : (l.map Prod.fst).Nodup) (h : (k, v) ∈ l) :
    lookupLast k l = some v := by
  induction l with
  | nil => simp at h
  | cons a t ih =>
    obtain ⟨a, w⟩ := a
    rw [List.map_cons, List.nodup_cons] at hd
    rw [lookupLast]
    rcases List.mem_cons.1 h with h | h
    · cases h
      rw [lookupLast_none fun x hx e => hd.1 (List.mem_map.2 ⟨x, hx, e⟩)]
      simp
    · rw [ih hd.2 h]; rfl

/-- C109.  Full claim: every value of every serialised feature has its own column, named by the dotted path, and there are
no other columns.  Proved if no value is empty and no two dotted names agree; without these it is false, see
`C109_empty_false` and `C109_collision_false`. -/
theorem C109_columns_partial (e : Bool) (first : XmlNode) (others doc : List XmlNode) (name value : String)
    (hn : first.NoMixed) (hne : ∀ pv ∈ first.values, pv.2 ≠ "")
    (hd : (first.values.map fun pv => xmlColumn pv.1).Nodup) :
    ∃ m, toMapXml (.mk e name value (first :: others) :: doc) = .ok m ∧
      (∀ path v, (path, v) ∈ first.values → m.find? (xmlColumn path) = some v) ∧
      ∀ k v, m.find? k = some v → ∃ path, (path, v) ∈ first.values ∧ xmlColumn path = k := by
  obtain ⟨m, h1, -, h2⟩ := C109_lookup e _ first others doc name value rfl hn
  have he : xmlEntries first = first.values.map fun pv => (xmlColumn pv.1, pv.2) := by
    rw [xmlEntries, List.filter_eq_self.2 fun pv h => by simpa using hne pv h]
  refine ⟨m, h1, fun path v hp => ?_, fun k v hk => ?_⟩
  · rw [h2]
    refine lookupLast_of_mem ?_ ?_
    · rw [he, List.map_map]; exact hd
    · rw [he]; exact List.mem_map.2 ⟨_, hp, rfl⟩
  · rw [h2] at hk
    have := lookupLast_mem hk
    rw [he] at this
    obtain ⟨pv, hp, hpe⟩ := List.mem_map.1 this
    rw [Prod.mk.injEq] at hpe
    exact ⟨pv.1, hpe.2 ▸ hp, hpe.1⟩

theorem dotted_toList (p : List String) : (dotted p).toList = joinSep '.' (p.map String.toList) := by
  induction p with
  | nil => rfl
  | cons a t ih =>
    cases t with
    | nil => rfl
    | cons b t =>
      rw [dotted, String.toList_append, String.toList_append, ih]
      simp [joinSep]

/-- C109: dotted names can only agree for equal paths if no name has a dot in it, so that then siblings with different
names are enough for all columns to differ. -/
theorem C109_dotted_injective (p q : List String) (hp : p ≠ []) (hq : q ≠ []) (hpd : ∀ a ∈ p, '.' ∉ a.toList)
    (hqd : ∀ a ∈ q, '.' ∉ a.toList) (h : dotted p = dotted q) : p = q := by
  have h := congrArg (fun s => cut '.' s.toList) h
  simp only [dotted_toList] at h
  rw [cut_joinSep (by simpa using hp) (by simpa using hpd), cut_joinSep (by simpa using hq) (by simpa using hqd)] at h
  exact List.map_injective_iff.2 (fun _ _ => String.toList_inj.1) h

/-- A feature with a number and a record of two numbers. -/
def sampleXml : XmlNode :=
  .mk true "value0" "" [.mk true "a" "1" [.mk false "" "1" []],
    .mk true "b" "" [.mk true "x" "2" [.mk false "" "2" []], .mk true "y" "3" [.mk false "" "3" []]]]

/-- `sampleXml` meets the hypotheses of `C109_columns_partial`. -/
example : sampleXml.NoMixed ∧ (∀ pv ∈ sampleXml.values, pv.2 ≠ "") ∧
    (sampleXml.values.map fun pv => xmlColumn pv.1).Nodup ∧
    toMapXml [.mk true "cereal" "" [sampleXml]] = .ok [("a", "1"), ("b.x", "2"), ("b.y", "3")] := by
  refine ⟨?_, ?_, ?_, ?_⟩
  · simp [sampleXml, XmlNode.NoMixed, childrenNoMixed, XmlNode.isElement]
  · simp [sampleXml, XmlNode.values, childValues, XmlNode.isElement]
  · simp [sampleXml, XmlNode.values, childValues, XmlNode.isElement, xmlColumn, dotted]
  · rfl

/-- Paths without dots. -/
example : dotted ["b", "x"] = "b.x" ∧ ∀ a ∈ ["b", "x"], '.' ∉ a.toList := by
  constructor
  · rfl
  · decide

/-- C109 fails for empty values: a feature with an empty string has no column for it, so that it cannot be told from a
feature without that member. -/
theorem C109_empty_false :
    let n : XmlNode := .mk true "value0" "" [.mk true "a" "1" [], .mk true "s" "" []]
    n.NoMixed ∧ (["value0", "s"], "") ∈ n.values ∧
      toMapXml [.mk true "cereal" "" [n]] = .ok [("a", "1")] ∧
      toMapXml [.mk true "cereal" "" [.mk true "value0" "" [.mk true "a" "1" []]]] = .ok [("a", "1")] := by
  refine ⟨?_, ?_, rfl, rfl⟩
  · simp [XmlNode.NoMixed, childrenNoMixed, XmlNode.isElement]
  · simp [XmlNode.values, childValues, XmlNode.isElement]

/-- C109 fails for names with dots: the member `a.b` and the member `b` of `a` share a column, and the later one is
kept. -/
theorem C109_collision_false :
    let n : XmlNode := .mk true "value0" "" [.mk true "a.b" "1" [], .mk true "a" "" [.mk true "b" "2" []]]
    n.NoMixed ∧ (["value0", "a.b"], "1") ∈ n.values ∧ (["value0", "a", "b"], "2") ∈ n.values ∧
      toMapXml [.mk true "cereal" "" [n]] = .ok [("a.b", "2")] := by
  refine ⟨?_, ?_, ?_, rfl⟩
  · simp [XmlNode.NoMixed, childrenNoMixed, XmlNode.isElement]
  · simp [XmlNode.values, childValues, XmlNode.isElement]
  · simp [XmlNode.values, childValues, XmlNode.isElement]

/-- C109 fails for members called like one of the four columns of every row: whatever the member `target` of a feature
is, the row holds the target of the dataset. -/
theorem C109_target_false (toStr : Dbl → String) (v : String) (t tv p pv : Dbl) (hv : v ≠ toStr t) :
    let m : SMap String String := [("target", v)]
    (toMapRow toStr (fun f : SMap String String => f) m t tv p pv).find? "target" = some (toStr t) ∧
      some (toStr t) ≠ m.find? "target" := by
  refine ⟨?_, ?_⟩
  · have w0 : SMap.WF ([("target", v)] : SMap String String) := by simp [SMap.WF]
    have w1 := SMap.wf_put w0 "target" (toStr t)
    have w2 := SMap.wf_put w1 "target_variance" (toStr tv)
    have w3 := SMap.wf_put w2 "prediction" (toStr p)
    rw [toMapRow]
    simp only [SMap.find?_put w3, SMap.find?_put w2, SMap.find?_put w1, SMap.find?_put w0]
    simp
  · simp only [SMap.find?, if_true, ne_eq, Option.some.injEq]
    exact Ne.symm hv

/-- A value that differs from the target's text. -/
example : "5" ≠ (fun _ : Dbl => "n") (.fin 1) := by decide

/-- C109: a feature that is a number has the single column `feature`. -/
theorem C109_double (toStr : Dbl → String) (x : Dbl) (k v : String) :
    (toMapDouble toStr x).find? k = some v ↔ k = "feature" ∧ v = toStr x := by
  simp only [toMapDouble, SMap.find?]
  split_ifs with h
  · simp [h, eq_comm]
  · simp [h]

end Albatross
