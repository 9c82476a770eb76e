import Verif.Csv
import Verif.MapUtilsProps
import Verif.IndexingLemmas
import Mathlib.Data.String.Basic

/-! # C64: CSV output is rectangular -/

namespace Albatross

/-! ## Specification: what a CSV text means -/

/-- Cut a text at every `sep`: `n` separators give `n + 1` parts. -/
def cut (sep : Char) : List Char → List (List Char)
  | [] => [[]]
  | c :: cs =>
    if c = sep then [] :: cut sep cs
    else match cut sep cs with
      | f :: fs => (c :: f) :: fs
      | [] => [[c]]

/-- The table a CSV text stands for: lines end with a newline, fields are separated by commas. -/
def csvTable (text : List Char) : List (List String) :=
  (cut '\n' text).dropLast.map fun line => (cut ',' line).map String.ofList

/-- The entry of row `i` in column `c`: metadata of the predictions first, then metadata of the
dataset, then the four numbers, then the feature's own columns. -/
def csvEntry {F : Type} (toStr : Dbl → String) (featureMap : F → SMap String String)
    (d : Dataset F Dbl) (p : CsvPrediction) (i : Nat) (c : String) : Option String :=
  (p.metadata.find? c).or <| (d.metadata.find? c).or <|
    if c = "prediction_variance" then (p.diagonal[i]?).map toStr
    else if c = "prediction" then (p.mean[i]?).map toStr
    else if c = "target_variance" then (d.variance[i]?).map toStr
    else if c = "target" then (d.mean[i]?).map toStr
    else (d.features[i]?).bind fun f => (featureMap f).find? c

/-- No separator in a field. -/
def PlainField (s : String) : Prop := ',' ∉ s.toList ∧ '\n' ∉ s.toList

/-! ## Cutting and joining -/

/-- Parts separated by `sep`. -/
def joinSep (sep : Char) : List (List Char) → List Char
  | [] => []
  | [x] => x
  | x :: y :: t => x ++ sep :: joinSep sep (y :: t)

theorem cut_ne_nil (sep : Char) (l : List Char) : cut sep l ≠ [] := by
  cases l with
  | nil => simp [cut]
  | cons c cs =>
    unfold cut; split_ifs
    · simp
    · split <;> simp

theorem cut_of_not_mem {sep : Char} {l : List Char} (h : sep ∉ l) : cut sep l = [l] := by
  induction l with
  | nil => rfl
  | cons c cs ih =>
    simp only [List.mem_cons, not_or] at h
    rw [cut, if_neg (Ne.symm h.1), ih h.2]

theorem cut_append {sep : Char} {a : List Char} (h : sep ∉ a) (r : List Char) :
    cut sep (a ++ sep :: r) = a :: cut sep r := by
  induction a with
  | nil => simp [cut]
  | cons c cs ih =>
    simp only [List.mem_cons, not_or] at h
    rw [List.cons_append, cut, if_neg (Ne.symm h.1), ih h.2]

theorem cut_joinSep {sep : Char} {l : List (List Char)} (hne : l ≠ []) (h : ∀ x ∈ l, sep ∉ x) :
    cut sep (joinSep sep l) = l := by
  induction l with
  | nil => exact absurd rfl hne
  | cons x t ih =>
    cases t with
    | nil => exact cut_of_not_mem (h x (by simp))
    | cons y t =>
      rw [joinSep, cut_append (h x (by simp)), ih (by simp) (fun z hz => h z (by simp_all))]

theorem cut_lines {ls : List (List Char)} (h : ∀ x ∈ ls, '\n' ∉ x) :
    cut '\n' (ls.flatMap (· ++ ['\n'])) = ls ++ [[]] := by
  induction ls with
  | nil => rfl
  | cons x t ih =>
    rw [List.flatMap_cons, List.append_assoc, List.singleton_append, cut_append (h x (by simp)),
      ih (fun z hz => h z (by simp [hz]))]
    rfl

theorem mem_joinSep {sep c : Char} {l : List (List Char)} (h : c ∈ joinSep sep l) :
    c = sep ∨ ∃ x ∈ l, c ∈ x := by
  induction l with
  | nil => simp [joinSep] at h
  | cons x t ih =>
    cases t with
    | nil => exact .inr ⟨x, by simp, h⟩
    | cons y t =>
      simp only [joinSep, List.mem_append, List.mem_cons] at h
      rcases h with h | h | h
      · exact .inr ⟨x, by simp, h⟩
      · exact .inl h
      · rcases ih h with h | ⟨z, hz, hc⟩
        · exact .inl h
        · exact .inr ⟨z, by simp_all, hc⟩

/-- A text made of joined lines of plain fields stands for the table of those fields. -/
theorem csvTable_join {rows : List (List String)} (hne : ∀ r ∈ rows, r ≠ [])
    (hp : ∀ r ∈ rows, ∀ f ∈ r, PlainField f) :
    csvTable ((rows.map fun r => joinSep ',' (r.map String.toList)).flatMap (· ++ ['\n'])) = rows := by
  unfold csvTable
  rw [cut_lines, List.dropLast_concat, List.map_map]
  · conv_rhs => rw [← List.map_id rows]
    refine List.map_congr_left fun r hr => ?_
    simp only [Function.comp, id]
    rw [cut_joinSep (by simpa using hne r hr)]
    · rw [List.map_map]
      conv_rhs => rw [← List.map_id r]
      exact List.map_congr_left fun x _ => by simp
    · intro x hx
      obtain ⟨f, hf, rfl⟩ := List.mem_map.1 hx
      exact (hp r hr f hf).1
  · intro x hx hc
    obtain ⟨r, hr, rfl⟩ := List.mem_map.1 hx
    rcases mem_joinSep hc with h | ⟨y, hy, hc⟩
    · exact absurd h (by decide)
    · obtain ⟨f, hf, rfl⟩ := List.mem_map.1 hy
      exact (hp r hr f hf).2 hc

/-! ## The writers -/

theorem joinSep_append_sep (l : List (List Char)) :
    l.flatMap (· ++ [',']) = if l = [] then [] else joinSep ',' l ++ [','] := by
  induction l with
  | nil => rfl
  | cons x t ih =>
    rw [List.flatMap_cons, ih]
    cases t with
    | nil => simp [joinSep]
    | cons y t => simp [joinSep]

theorem foldl_put_fields (g : String → List Char) (cols : List String) (s : OStream)
    (hs : s.fail = false) (step : OStream → String → OStream)
    (hstep : ∀ s c, s.fail = false → step s c = ⟨s.text ++ g c ++ [','], false⟩) :
    cols.foldl step s = ⟨s.text ++ (cols.map g).flatMap (· ++ [',']), false⟩ := by
  induction cols generalizing s with
  | nil => cases s; simp_all
  | cons c t ih =>
    rw [List.foldl_cons, hstep s c hs, ih _ rfl]
    simp

theorem replaceLast_join (s : List Char) (l : List (List Char)) (hl : l ≠ []) :
    OStream.replaceLastWithNewline ⟨s ++ l.flatMap (· ++ [',']), false⟩ =
      ⟨s ++ joinSep ',' l ++ ['\n'], false⟩ := by
  rw [joinSep_append_sep, if_neg hl, ← List.append_assoc]
  simp [OStream.replaceLastWithNewline]

/-- A line of `write_row` has one field per column, empty where the row has no entry. -/
theorem writeRow_eq (s : OStream) (hs : s.fail = false) (row : SMap String String)
    (cols : List String) (hc : cols ≠ []) :
    writeRow s row cols =
      ⟨s.text ++ joinSep ',' (cols.map fun c => ((row.find? c).getD "").toList) ++ ['\n'], false⟩ := by
  unfold writeRow
  rw [foldl_put_fields (fun c => ((row.find? c).getD "").toList) cols s hs, replaceLast_join]
  · simpa using hc
  · intro s c hs
    cases h : row.find? c <;> simp [OStream.put, hs]

theorem writeHeader_eq (s : OStream) (hs : s.fail = false) (cols : List String) (hc : cols ≠ []) :
    writeHeader s cols = ⟨s.text ++ joinSep ',' (cols.map String.toList) ++ ['\n'], false⟩ := by
  unfold writeHeader
  rw [foldl_put_fields String.toList cols s hs, replaceLast_join]
  · simpa using hc
  · intro s c hs
    simp [OStream.put, hs]

variable {F : Type}

/-- The dataset and prediction sizes agree and every map is a `std::map`. -/
structure CsvValid (featureMap : F → SMap String String) (d : Dataset F Dbl) (p : CsvPrediction) :
    Prop where
  valid : d.Valid
  mean : p.mean.length = d.features.length
  diagonal : p.diagonal.length = d.features.length
  features : ∀ f ∈ d.features, SMap.WF (featureMap f)
  dmeta : SMap.WF d.metadata
  pmeta : SMap.WF p.metadata

theorem toMapAt_spec (toStr : Dbl → String) (featureMap : F → SMap String String) (b : Build)
    {d : Dataset F Dbl} {p : CsvPrediction} (hv : CsvValid featureMap d p) {i : Nat}
    (hi : i < d.features.length) :
    ∃ row, toMapAt toStr featureMap b d p i = .ok row ∧ SMap.WF row ∧
      ∀ c, row.find? c = csvEntry toStr featureMap d p i c := by
  have h1 := hv.valid.1
  have h2 := hv.valid.2
  have h3 := hv.mean
  have h4 := hv.diagonal
  have hf := hv.features _ (List.getElem_mem hi)
  unfold toMapAt
  simp only [h1, h3, beq_self_eq_true, albatrossAssert_true, hi, decide_true, except_ok_bind,
    vecGet_lt (show i < d.variance.length by omega), vecGet_lt (show i < p.diagonal.length by omega),
    vecGet_lt (show i < d.features.length by omega), vecGet_lt (show i < d.mean.length by omega),
    vecGet_lt (show i < p.mean.length by omega), except_pure]
  have w1 := SMap.wf_put hf "target" (toStr (d.mean[i]'(by omega)))
  have w2 := SMap.wf_put w1 "target_variance" (toStr (d.variance[i]'(by omega)))
  have w3 := SMap.wf_put w2 "prediction" (toStr (p.mean[i]'(by omega)))
  have w4 := SMap.wf_put w3 "prediction_variance" (toStr (p.diagonal[i]'(by omega)))
  have w5 := C11_map_join _ _ w4 hv.dmeta
  have w6 := C11_map_join _ _ w5.1 hv.pmeta
  refine ⟨_, rfl, w6.1, fun c => ?_⟩
  rw [toMapRow]
  simp only [w6.2, w5.2, SMap.find?_put w3, SMap.find?_put w2, SMap.find?_put w1, SMap.find?_put hf,
    csvEntry, List.getElem?_eq_getElem (show i < d.variance.length by omega),
    List.getElem?_eq_getElem (show i < p.diagonal.length by omega), List.getElem?_eq_getElem hi,
    List.getElem?_eq_getElem (show i < d.mean.length by omega),
    List.getElem?_eq_getElem (show i < p.mean.length by omega), Option.map_some, Option.bind_some]

theorem getColumnNames_spec (toStr : Dbl → String) (featureMap : F → SMap String String) (b : Build)
    {d : Dataset F Dbl} {p : CsvPrediction} (hv : CsvValid featureMap d p) :
    ∃ cols, getColumnNames toStr featureMap b d p = .ok cols ∧ cols.Pairwise (· < ·) ∧
      ∀ c, c ∈ cols ↔ ∃ i, i < d.features.length ∧ (csvEntry toStr featureMap d p i c).isSome := by
  unfold getColumnNames
  have key : ∀ (l : List Nat) (acc : List String), (∀ i ∈ l, i < d.features.length) →
      acc.Pairwise (· < ·) → ∃ cols, l.foldlM (fun keys i => do
        let m ← toMapAt toStr featureMap b d p i
        pure (m.keys.foldl (fun s x => setInsert x s) keys)) acc = Except.ok cols ∧
        cols.Pairwise (· < ·) ∧ ∀ c, c ∈ cols ↔ c ∈ acc ∨
          ∃ i ∈ l, (csvEntry toStr featureMap d p i c).isSome := by
    intro l
    induction l with
    | nil => intro acc _ ha; exact ⟨acc, rfl, ha, by simp⟩
    | cons i t ih =>
      intro acc hl ha
      obtain ⟨row, h1, hw, h2⟩ := toMapAt_spec toStr featureMap b hv (hl i (by simp))
      have hs := foldl_setInsert row.keys acc ha
      obtain ⟨cols, h3, h4, h5⟩ := ih _ (fun j hj => hl j (by simp [hj])) hs.1
      refine ⟨cols, ?_, h4, fun c => ?_⟩
      · rw [List.foldlM_cons, h1]; exact h3
      · rw [h5, hs.2, SMap.mem_keys, h2]
        simp only [List.mem_cons, exists_eq_or_imp]
        tauto
  obtain ⟨cols, h1, h2, h3⟩ := key (List.range d.features.length) [] (fun i hi => List.mem_range.1 hi)
    List.Pairwise.nil
  exact ⟨cols, h1, h2, fun c => by simp [h3, List.mem_range]⟩

/-- The fields of row `i` under the given columns. -/
def csvRow (toStr : Dbl → String) (featureMap : F → SMap String String) (d : Dataset F Dbl)
    (p : CsvPrediction) (cols : List String) (i : Nat) : List String :=
  cols.map fun c => (csvEntry toStr featureMap d p i c).getD ""

theorem writeRowsCsv_spec (toStr : Dbl → String) (featureMap : F → SMap String String) (b : Build)
    {d : Dataset F Dbl} {p : CsvPrediction} (hv : CsvValid featureMap d p) (s : OStream)
    (hs : s.fail = false) (cols : List String) (hc : cols ≠ []) :
    writeRowsCsv toStr featureMap b s d p cols = .ok ⟨s.text ++
      (((List.range d.features.length).map (csvRow toStr featureMap d p cols)).map
        fun r => joinSep ',' (r.map String.toList)).flatMap (· ++ ['\n']), false⟩ := by
  unfold writeRowsCsv
  have key : ∀ (l : List Nat) (s : OStream), s.fail = false → (∀ i ∈ l, i < d.features.length) →
      l.foldlM (fun stream i => do
        let row ← toMapAt toStr featureMap b d p i
        pure (writeRow stream row cols)) s = Except.ok (ε := Fault) ⟨s.text ++
      ((l.map (csvRow toStr featureMap d p cols)).map
        fun r => joinSep ',' (r.map String.toList)).flatMap (· ++ ['\n']), false⟩ := by
    intro l
    induction l with
    | nil => intro s hs _; cases s; simp_all [except_pure]
    | cons i t ih =>
      intro s hs hl
      obtain ⟨row, h1, -, h2⟩ := toMapAt_spec toStr featureMap b hv (hl i (by simp))
      rw [List.foldlM_cons, h1]
      simp only [except_ok_bind]
      rw [writeRow_eq s hs row cols hc]
      refine (ih ⟨_, false⟩ rfl (fun j hj => hl j (by simp [hj]))).trans ?_
      simp [csvRow, h2, Function.comp_def]
  exact key _ s hs fun i hi => List.mem_range.1 hi

/-- C64.  Full claim: for *every* dataset `write_to_csv` appends one header line and one line per
feature, the columns being the sorted union of the keys of all rows, a missing entry an empty field,
and reading the text back gives the table.  Proved for every dataset with at least one feature (and a
usable stream, matching sizes): for an empty dataset the header is not written, see
`C64_empty_false`. -/
theorem C64_rectangular_partial (toStr : Dbl → String) (featureMap : F → SMap String String)
    (b : Build) (d : Dataset F Dbl) (p : CsvPrediction) (hv : CsvValid featureMap d p)
    (hne : d.features ≠ []) (s : OStream) (hs : s.fail = false) (header : Bool) :
    ∃ out added cols, writeToCsv toStr featureMap b s d p header = .ok out ∧
      out.fail = false ∧ out.text = s.text ++ added ∧ cols.Pairwise (· < ·) ∧
      (∀ c, c ∈ cols ↔ ∃ i, i < d.features.length ∧ (csvEntry toStr featureMap d p i c).isSome) ∧
      ((∀ c ∈ cols, PlainField c) →
        (∀ i < d.features.length, ∀ c v, csvEntry toStr featureMap d p i c = some v → PlainField v) →
        csvTable added = (if header then [cols] else []) ++
          (List.range d.features.length).map fun i =>
            cols.map fun c => (csvEntry toStr featureMap d p i c).getD "") ∧
      added = (((if header then [cols] else []) ++ (List.range d.features.length).map fun i =>
            cols.map fun c => (csvEntry toStr featureMap d p i c).getD "").map
              fun r => joinSep ',' (r.map String.toList)).flatMap (· ++ ['\n']) := by
  obtain ⟨cols, h1, h2, h3⟩ := getColumnNames_spec toStr featureMap b hv
  have hlen : 0 < d.features.length := List.length_pos_iff.2 hne
  have hcols : cols ≠ [] := by
    have : "target" ∈ cols := (h3 _).2 ⟨0, hlen, by
      have : 0 < d.mean.length := by have := hv.valid.1; omega
      simp only [csvEntry, Option.isSome_or, List.getElem?_eq_getElem this]
      simp⟩
    intro h; rw [h] at this; simp at this
  set rows : List (List String) := (if header then [cols] else []) ++
    (List.range d.features.length).map fun i =>
      cols.map fun c => (csvEntry toStr featureMap d p i c).getD "" with hrows
  refine ⟨⟨s.text ++ (rows.map fun r => joinSep ',' (r.map String.toList)).flatMap (· ++ ['\n']),
    false⟩, _, cols, ?_, rfl, rfl, h2, h3, fun hpc hpv => ?_, rfl⟩
  · unfold writeToCsv
    rw [h1]
    simp only [except_ok_bind]
    cases header with
    | false =>
      simp only [Bool.false_eq_true, if_false, List.nil_append] at hrows ⊢
      rw [writeRowsCsv_spec toStr featureMap b hv s hs cols hcols, hrows]
      rfl
    | true =>
      simp only [if_true] at hrows ⊢
      rw [writeHeader_eq s hs cols hcols, writeRowsCsv_spec toStr featureMap b hv _ rfl cols hcols,
        hrows]
      simp [csvRow, Function.comp_def]
  · apply csvTable_join
    · intro r hr
      rw [hrows, List.mem_append] at hr
      rcases hr with hr | hr
      · cases header <;> simp_all
      · obtain ⟨i, -, rfl⟩ := List.mem_map.1 hr
        simpa using hcols
    · intro r hr f hf
      rw [hrows, List.mem_append] at hr
      rcases hr with hr | hr
      · cases header
        · simp at hr
        · simp only [if_true, List.mem_singleton] at hr
          exact hpc f (hr ▸ hf)
      · obtain ⟨i, hi, rfl⟩ := List.mem_map.1 hr
        obtain ⟨c, hc, rfl⟩ := List.mem_map.1 hf
        cases he : csvEntry toStr featureMap d p i c with
        | none => simp [PlainField]
        | some v => exact hpv i (List.mem_range.1 hi) c v he

/-- C64, writing a dataset alone: the predictions are zeros. -/
theorem C64_dataset_only_partial (toStr : Dbl → String) (featureMap : F → SMap String String)
    (b : Build) (d : Dataset F Dbl) (hd : d.Valid) (hf : ∀ f ∈ d.features, SMap.WF (featureMap f))
    (hm : SMap.WF d.metadata) (hne : d.features ≠ []) (s : OStream) (hs : s.fail = false)
    (header : Bool) :
    ∃ out added cols, writeDatasetCsv toStr featureMap b s d header = .ok out ∧ out.fail = false ∧
      out.text = s.text ++ added ∧ cols.Pairwise (· < ·) ∧
      let z : CsvPrediction :=
        ⟨List.replicate d.features.length (.fin 0), List.replicate d.features.length (.fin 0), []⟩
      (∀ c, c ∈ cols ↔ ∃ i, i < d.features.length ∧ (csvEntry toStr featureMap d z i c).isSome) ∧
      ((∀ c ∈ cols, PlainField c) →
        (∀ i < d.features.length, ∀ c v, csvEntry toStr featureMap d z i c = some v → PlainField v) →
        csvTable added = (if header then [cols] else []) ++
          (List.range d.features.length).map fun i =>
            cols.map fun c => (csvEntry toStr featureMap d z i c).getD "") := by
  have e : d.mean.map (fun _ => Dbl.fin 0) = List.replicate d.features.length (.fin 0) := by
    rw [List.map_const', hd.1]
  unfold writeDatasetCsv
  rw [e]
  have hv : CsvValid featureMap d
      ⟨List.replicate d.features.length (.fin 0), List.replicate d.features.length (.fin 0), []⟩ :=
    ⟨hd, by simp, by simp, hf, hm, SMap.wf_nil⟩
  obtain ⟨out, added, cols, h1, h2, h3, h4, h5, h6, -⟩ :=
    C64_rectangular_partial toStr featureMap b d _ hv hne s hs header
  exact ⟨out, added, cols, h1, h2, h3, h4, h5, h6⟩

/-- C64 fails for an empty dataset: there are no columns, so the header line is missing; on an empty
stream the stream is left in its failed state, on a stream with content the last character of that
content is overwritten by a newline. -/
theorem C64_empty_false (toStr : Dbl → String) (featureMap : F → SMap String String) (b : Build) :
    writeToCsv toStr featureMap b ⟨[], false⟩ (⟨[], [], [], []⟩ : Dataset F Dbl) ⟨[], [], []⟩ true =
      .ok ⟨[], true⟩ ∧
    writeToCsv toStr featureMap b ⟨['a', 'b'], false⟩ (⟨[], [], [], []⟩ : Dataset F Dbl) ⟨[], [], []⟩
      true = .ok ⟨['a', '\n'], false⟩ := ⟨rfl, rfl⟩

/-- C64 fails for the overload that writes several datasets: the columns are those of the first
dataset, so an entry that only a later dataset has (here the metadata `m`) is not written. -/
theorem C64_datasets_false :
    let d1 : Dataset Unit Dbl := ⟨[()], [.fin 1], [.fin 0], []⟩
    let d2 : Dataset Unit Dbl := ⟨[()], [.fin 2], [.fin 0], [("m", "x")]⟩
    let p : CsvPrediction := ⟨[.fin 0], [.fin 0], []⟩
    writeDatasetsCsv (fun _ => "n") (fun _ => []) .debug ⟨[], false⟩ [d1, d2] [p, p] =
      .ok ⟨"prediction,prediction_variance,target,target_variance\nn,n,n,n\nn,n,n,n\n".toList, false⟩ ∧
    csvEntry (fun _ => "n") (fun _ => []) d2 p 0 "m" = some "x" := by
  refine ⟨?_, rfl⟩
  rfl

/-- C64, several datasets: one header with the columns of the first dataset, then the rows of every
dataset under those columns. -/
theorem C64_datasets_partial (toStr : Dbl → String) (featureMap : F → SMap String String) (b : Build)
    (ds : List (Dataset F Dbl)) (ps : List CsvPrediction) (hlen : ds.length = ps.length)
    (hv : ∀ x ∈ ds.zip ps, CsvValid featureMap x.1 x.2) (d0 : Dataset F Dbl) (p0 : CsvPrediction)
    (h0 : (ds.zip ps).head? = some (d0, p0)) (hne : d0.features ≠ []) :
    ∃ text cols, writeDatasetsCsv toStr featureMap b ⟨[], false⟩ ds ps = .ok ⟨text, false⟩ ∧
      cols.Pairwise (· < ·) ∧
      (∀ c, c ∈ cols ↔ ∃ i, i < d0.features.length ∧ (csvEntry toStr featureMap d0 p0 i c).isSome) ∧
      ((∀ c ∈ cols, PlainField c) →
        (∀ x ∈ ds.zip ps, ∀ i < x.1.features.length, ∀ c v,
          csvEntry toStr featureMap x.1 x.2 i c = some v → PlainField v) →
        csvTable text = [cols] ++ (ds.zip ps).flatMap fun x =>
          (List.range x.1.features.length).map fun i =>
            cols.map fun c => (csvEntry toStr featureMap x.1 x.2 i c).getD "") := by
  obtain ⟨ds', ps', rfl, rfl⟩ : ∃ ds' ps', ds = d0 :: ds' ∧ ps = p0 :: ps' := by
    cases ds with
    | nil => simp at h0
    | cons a t => cases ps with
      | nil => simp at h0
      | cons a' t' => simp at h0; exact ⟨t, t', by rw [h0.1], by rw [h0.2]⟩
  have hv0 : CsvValid featureMap d0 p0 := hv (d0, p0) (by simp)
  obtain ⟨cols, h1, h2, h3⟩ := getColumnNames_spec toStr featureMap b hv0
  have hl : 0 < d0.features.length := List.length_pos_iff.2 hne
  have hcols : cols ≠ [] := by
    have : "target" ∈ cols := (h3 _).2 ⟨0, hl, by
      have : 0 < d0.mean.length := by have := hv0.valid.1; omega
      simp only [csvEntry, Option.isSome_or, List.getElem?_eq_getElem this]
      simp⟩
    intro h; rw [h] at this; simp at this
  generalize hds : d0 :: ds' = ds at *
  generalize hps : p0 :: ps' = ps at *
  have hd0 : ds[0]? = some d0 := by rw [← hds]; rfl
  have hp0 : ps[0]? = some p0 := by rw [← hps]; rfl
  have rowsWritten : ∀ (l : List Nat), (∀ i ∈ l, i < ds.length) → ∀ (s : OStream), s.fail = false →
      l.foldlM (fun stream i => do
        let d ← vecGet ds i
        let p ← vecGet ps i
        writeRowsCsv toStr featureMap b stream d p cols) s = Except.ok (ε := Fault) ⟨s.text ++
        ((l.filterMap fun i => (ds.zip ps)[i]?).flatMap fun x =>
          (((List.range x.1.features.length).map (csvRow toStr featureMap x.1 x.2 cols)).map
            fun r => joinSep ',' (r.map String.toList)).flatMap (· ++ ['\n'])), false⟩ := by
    intro l
    induction l with
    | nil => intro _ s hs; cases s; simp_all [except_pure]
    | cons i t ih =>
      intro hi s hs
      have h1 : i < ds.length := hi i (by simp)
      have h2 : i < ps.length := by omega
      have hz : (ds.zip ps)[i]? = some (ds[i], ps[i]) := by
        rw [List.getElem?_eq_getElem (by simp; omega)]; simp
      have hvi := hv _ (List.mem_of_getElem? hz)
      rw [List.foldlM_cons, vecGet_lt h1, vecGet_lt h2]
      simp only [except_ok_bind]
      rw [writeRowsCsv_spec toStr featureMap b hvi s hs cols hcols]
      simp only [except_ok_bind]
      rw [ih (fun j hj => hi j (by simp [hj])) _ rfl, List.filterMap_cons_some hz, List.flatMap_cons]
      simp only [List.append_assoc]
  have hall : (List.range ds.length).filterMap (fun i => (ds.zip ps)[i]?) = ds.zip ps := by
    have e : ds.length = (ds.zip ps).length := by simp [hlen]
    rw [e]
    generalize ds.zip ps = z
    induction z with
    | nil => rfl
    | cons a t ih =>
      rw [List.length_cons, List.range_succ_eq_map, List.filterMap_cons_some (by rfl),
        List.filterMap_map]
      congr 1
  refine ⟨joinSep ',' (cols.map String.toList) ++ ['\n'] ++ (ds.zip ps).flatMap (fun x =>
          (((List.range x.1.features.length).map (csvRow toStr featureMap x.1 x.2 cols)).map
            fun r => joinSep ',' (r.map String.toList)).flatMap (· ++ ['\n'])), cols, ?_, h2, h3,
    fun hpc hpv => ?_⟩
  · unfold writeDatasetsCsv
    simp only [vecGet, hd0, hp0, except_ok_bind, h1, hlen, beq_self_eq_true, albatrossAssert_true]
    rw [writeHeader_eq _ rfl cols hcols, ← hlen]
    have := rowsWritten (List.range ds.length) (fun i hi => List.mem_range.1 hi)
      ⟨joinSep ',' (cols.map String.toList) ++ ['\n'], false⟩ rfl
    rw [hall] at this
    exact this
  · have := csvTable_join (rows := [cols] ++ (ds.zip ps).flatMap fun x =>
          (List.range x.1.features.length).map (csvRow toStr featureMap x.1 x.2 cols)) ?_ ?_
    · rw [List.map_append, List.flatMap_append, List.map_flatMap, List.flatMap_assoc] at this
      simp only [List.map_singleton, List.flatMap_singleton] at this
      exact this
    · intro r hr
      rw [List.mem_append] at hr
      rcases hr with hr | hr
      · rw [List.mem_singleton.1 hr]; exact hcols
      · obtain ⟨x, -, hr⟩ := List.mem_flatMap.1 hr
        obtain ⟨i, -, rfl⟩ := List.mem_map.1 hr
        simpa [csvRow] using hcols
    · intro r hr f hf
      rw [List.mem_append] at hr
      rcases hr with hr | hr
      · exact hpc f (by rw [List.mem_singleton.1 hr] at hf; exact hf)
      · obtain ⟨x, hx, hr⟩ := List.mem_flatMap.1 hr
        obtain ⟨i, hi, rfl⟩ := List.mem_map.1 hr
        obtain ⟨c, hc, rfl⟩ := List.mem_map.1 hf
        cases he : csvEntry toStr featureMap x.1 x.2 i c with
        | none => simp [PlainField]
        | some v => exact hpv x hx i (List.mem_range.1 hi) c v he

theorem foldl_zipIdx_join (sep : Char) (g : OStream → α → OStream) (h : α → List Char)
    (hg : ∀ s a, s.fail = false → g s a = ⟨s.text ++ h a, false⟩) (n : Nat) (l : List α) (k : Nat)
    (hk : k + l.length = n) (s : OStream) (hs : s.fail = false) :
    (l.zipIdx k).foldl (fun stream cj =>
      if cj.2 + 1 < n then (g stream cj.1).put [sep] else g stream cj.1) s =
      ⟨s.text ++ joinSep sep (l.map h), false⟩ := by
  induction l generalizing k s with
  | nil => cases s; simp_all [joinSep]
  | cons a t ih =>
    rw [List.zipIdx_cons, List.foldl_cons]
    simp only [List.length_cons] at hk
    cases t with
    | nil =>
      have : ¬ k + 1 < n := by simp at hk; omega
      simp [this, hg s a hs, joinSep]
    | cons y t =>
      have hlt : k + 1 < n := by simp at hk; omega
      simp only [hlt, if_true]
      rw [hg s a hs, ih (k + 1) (by simp at hk ⊢; omega) _ (by simp [OStream.put])]
      simp [OStream.put, joinSep]

/-- C64, matrices: the entries of a row separated by commas, the rows by newlines, none at the end. -/
theorem C64_matrix (s : OStream) (hs : s.fail = false) (x : List (List (List Char))) :
    writeMatrixCsv s x = ⟨s.text ++ joinSep '\n' (x.map (joinSep ',')), false⟩ := by
  unfold writeMatrixCsv
  exact foldl_zipIdx_join '\n' (fun s r => (r.zipIdx).foldl (fun stream cj =>
      if cj.2 + 1 < r.length then (stream.put cj.1).put [','] else stream.put cj.1) s) (joinSep ',')
    (fun s r hs => by
      have := foldl_zipIdx_join ',' (fun s c => s.put c) id (fun s a hs => by simp [OStream.put, hs])
        r.length r 0 (by simp) s hs
      simpa using this) x.length x 0 (by simp) s hs

/-- C64, matrices: reading the text back gives the matrix. -/
theorem C64_matrix_round_trip (x : List (List (List Char))) (hne : x ≠ []) (hr : ∀ r ∈ x, r ≠ [])
    (hp : ∀ r ∈ x, ∀ e ∈ r, ',' ∉ e ∧ '\n' ∉ e) :
    (cut '\n' (writeMatrixCsv ⟨[], false⟩ x).text).map (cut ',') = x := by
  rw [C64_matrix _ rfl]
  simp only [List.nil_append]
  rw [cut_joinSep (by simpa using hne), List.map_map]
  · conv_rhs => rw [← List.map_id x]
    exact List.map_congr_left fun r h => cut_joinSep (hr r h) fun e he => (hp r h e he).1
  · intro l hl hc
    obtain ⟨r, h, rfl⟩ := List.mem_map.1 hl
    rcases mem_joinSep hc with h' | ⟨e, he, hc⟩
    · exact absurd h' (by decide)
    · exact (hp r h e he).2 hc

/-! ## The hypotheses are met by non-trivial inputs -/

/-- Two rows with different keys. -/
example : CsvValid (fun f : Nat => if f = 0 then [("x", "1")] else [("y", "2")])
    ⟨[0, 1], [.fin 1, .nan], [.fin 0, .fin 2], [("source", "a")]⟩
    ⟨[.fin 3, .pinf], [.fin 0, .fin 1], [("source", "b")]⟩ ∧
    writeToCsv (fun _ => "n") (fun f : Nat => if f = 0 then [("x", "1")] else [("y", "2")]) .debug
      ⟨[], false⟩ ⟨[0, 1], [.fin 1, .nan], [.fin 0, .fin 2], [("source", "a")]⟩
      ⟨[.fin 3, .pinf], [.fin 0, .fin 1], [("source", "b")]⟩ true =
      .ok ⟨("prediction,prediction_variance,source,target,target_variance,x,y\n" ++
        "n,n,b,n,n,1,\nn,n,b,n,n,,2\n").toList, false⟩ := by
  refine ⟨⟨⟨rfl, rfl⟩, rfl, rfl, ?_, ?_, ?_⟩, rfl⟩
  · intro f hf
    simp only [List.mem_cons, List.not_mem_nil, or_false] at hf
    rcases hf with rfl | rfl <;> simp [SMap.WF]
  · simp [SMap.WF]
  · simp [SMap.WF]

example : PlainField "target" := by unfold PlainField; decide

example : (cut '\n' (writeMatrixCsv ⟨[], false⟩ [[['1'], ['2']], [['3'], ['4']]]).text).map (cut ',') =
    [[['1'], ['2']], [['3'], ['4']]] :=
  C64_matrix_round_trip _ (by simp) (by simp) (by decide)

end Albatross
