import Verif.Printing
import Verif.UtilsProps
import Verif.EigenDirectionsProps
import Verif.CovTreeProps

/-! # C107: printing to a stream.  C108: the table of a call trace. -/

namespace Albatross

variable {V K F X : Type}

/-! ## Specification -/

/-- The text has been added to the stream `os`, and nothing to any other. -/
structure WritesOnly (os : Nat) (text : List Char) (before after : Streams) : Prop where
  added : after os = before os ++ text
  others : ∀ o, o ≠ os → after o = before o

/-- The line of one target. -/
noncomputable def targetText (label : List Char) (mean variance : Dbl) : List Char :=
  label ++ [' ', ' ', ' ', ' '] ++ defaultText mean ++ [' ', ' ', ' ', '+', '/', '-', ' '] ++
    defaultText variance.sqrt ++ ['\n']

/-- The text of an edge. -/
noncomputable def edgeText (text : V → List Char) (e : Edge V Dbl) : List Char :=
  text e.a ++ [' ', '<', '-', '-', '>', ' '] ++ text e.b ++ [' ', '['] ++ defaultText e.cost ++ [']']

/-- The line of one score. -/
noncomputable def scoreText (text : K → List Char) (kv : K × Dbl) : List Char :=
  [' ', ' ', ' ', ' '] ++ text kv.1 ++ [' ', ':', ' '] ++ defaultText kv.2 ++ ['\n']

/-- The text of an iteration. -/
noncomputable def iterationText (text : K → List Char) (it : RansacIteration K) : List Char :=
  ['C', 'A', 'N', 'D', 'I', 'D', 'A', 'T', 'E', 'S', ':', ' '] ++ (it.candidates.flatMap fun k => text k ++ [',', ' ']) ++ ['\n'] ++
    ['I', 'N', 'L', 'I', 'E', 'R', 'S', ':', ' ', '\n'] ++ it.inliers.flatMap (scoreText text) ++
    ['O', 'U', 'T', 'L', 'I', 'E', 'R', 'S', ':', ' ', '\n'] ++ it.outliers.flatMap (scoreText text) ++
    ['C', 'O', 'N', 'S', 'E', 'N', 'S', 'U', 'S', '_', 'M', 'E', 'T', 'R', 'I', 'C', ':', ' '] ++ defaultText it.consensusMetricValue

/-- The text of a matrix: the rows on lines of their own, the entries separated by a space and right aligned in `width`
characters. -/
noncomputable def matrixText (width : Nat) (rows : List (List Dbl)) : List Char :=
  List.intercalate ['\n'] (rows.map fun row => List.intercalate [' '] (row.map fun x => padLeft width (defaultText x)))

/-! ## Writing -/

theorem writesOnly_iff (os : Nat) (t : List Char) (ss ss' : Streams) : WritesOnly os t ss ss' ↔ ss' = writeTo os t ss := by
  constructor
  · rintro ⟨h1, h2⟩
    funext o
    unfold writeTo
    split_ifs with h
    · rw [h, h1]
    · exact h2 o h
  · rintro rfl
    exact ⟨by simp [writeTo], fun o ho => by simp [writeTo, ho]⟩

theorem writeTo_writeTo (os : Nat) (t t' : List Char) (ss : Streams) :
    writeTo os t' (writeTo os t ss) = writeTo os (t ++ t') ss := by
  funext o
  unfold writeTo
  split_ifs <;> simp

theorem writeTo_nil (os : Nat) (ss : Streams) : writeTo os [] ss = ss := by
  funext o
  simp [writeTo]

theorem foldl_writeTo {α : Type} (os : Nat) (f : α → List Char) (step : Streams → α → Streams) :
    ∀ (l : List α) (ss : Streams), (∀ ss, ∀ a ∈ l, step ss a = writeTo os (f a) ss) →
      l.foldl step ss = writeTo os (l.flatMap f) ss
  | [], ss, _ => by simp [writeTo_nil]
  | a :: l, ss, h => by
    rw [List.foldl_cons, h ss a (by simp), foldl_writeTo os f step l _ fun ss a ha => h ss a (by simp [ha]),
      writeTo_writeTo, List.flatMap_cons]

theorem foldlM_writeTo {α : Type} (os : Nat) (f : α → List Char) (step : Streams → α → Outcome Streams) :
    ∀ (l : List α) (ss : Streams), (∀ ss, ∀ a ∈ l, step ss a = .ok (writeTo os (f a) ss)) →
      l.foldlM step ss = .ok (writeTo os (l.flatMap f) ss)
  | [], ss, _ => by simp [writeTo_nil, pure, Except.pure]
  | a :: l, ss, h => by
    rw [List.foldlM_cons, h ss a (by simp)]
    refine (foldlM_writeTo os f step l _ fun ss a ha => h ss a (by simp [ha])).trans ?_
    rw [writeTo_writeTo, List.flatMap_cons]

theorem printTarget_eq (os : Nat) (label : List Char) (m v : Dbl) (ss : Streams) :
    printTarget os m v (writeTo os label ss) = writeTo os (targetText label m v) ss := by
  simp only [printTarget, writeTo_writeTo, targetText, List.append_assoc]

theorem printEdge_eq (text : V → List Char) (os : Nat) (e : Edge V Dbl) (ss : Streams) :
    printEdge text os e ss = writeTo os (edgeText text e) ss := by
  simp only [printEdge, writeTo_writeTo, edgeText, List.append_assoc]

theorem printScore_eq (text : K → List Char) (os : Nat) (kv : K × Dbl) (ss : Streams) :
    printScore text os ss kv = writeTo os (scoreText text kv) ss := by
  simp only [printScore, writeTo_writeTo, scoreText, List.append_assoc]

theorem printIteration_eq (text : K → List Char) (os : Nat) (it : RansacIteration K) (ss : Streams) :
    printIteration text os it ss = writeTo os (iterationText text it) ss := by
  unfold printIteration
  dsimp only
  rw [foldl_writeTo os (scoreText text) _ it.outliers _ fun ss a _ => printScore_eq text os a ss,
    foldl_writeTo os (scoreText text) _ it.inliers _ fun ss a _ => printScore_eq text os a ss,
    foldl_writeTo os (fun k => text k ++ [',', ' ']) _ it.candidates _ fun ss a _ => writeTo_writeTo ..]
  simp only [writeTo_writeTo, iterationText]

theorem withPoint_ne_nil (ip frac : List Nat) (h : ip ≠ []) : withPoint ip frac ≠ [] := by
  simp [withPoint, h]

theorem defaultText_length_pos (x : Dbl) : 0 < (defaultText x).length := by
  rw [List.length_pos_iff]
  unfold defaultText generalText signedText
  cases x with
  | fin x =>
    simp only [ne_eq, List.append_eq_nil_iff, not_and]
    intro _
    unfold generalUnsigned
    split_ifs with h0
    · simp
    · have hp : ∀ k, padDigits 6 k ≠ [] := by
        intro k
        simp [padDigits]
      have ht : ∀ j k, (padDigits 6 k).take (j + 1) ≠ [] := by
        intro j k h
        rcases List.take_eq_nil_iff.1 h with h | h
        · omega
        · exact hp k h
      dsimp only
      split_ifs
      · simp [withPoint_ne_nil _ _ (ht 0 _)]
      · exact withPoint_ne_nil _ _ (ht _ _)
      · exact withPoint_ne_nil _ _ (by simp)
  | pinf => simp
  | ninf => simp
  | nan => simp

/-! ## C107 -/

/-- C107: an edge is printed as `a <--> b [cost]` to the stream given. -/
theorem C107_edge_partial (text : V → List Char) (os : Nat) (e : Edge V Dbl) (ss : Streams) :
    WritesOnly os (text e.a ++ [' ', '<', '-', '-', '>', ' '] ++ text e.b ++ [' ', '['] ++ defaultText e.cost ++ [']']) ss
      (printEdge text os e ss) :=
  (writesOnly_iff ..).2 (printEdge_eq ..)

/-- C107: a measurement is printed as `Meas[x]` to the stream given. -/
theorem C107_measurement_partial (text : X → List Char) (os : Nat) (x : X) (ss : Streams) :
    WritesOnly os (['M', 'e', 'a', 's', '['] ++ text x ++ [']']) ss (printMeasurement text os x ss) := by
  rw [writesOnly_iff]
  simp only [printMeasurement, writeTo_writeTo]

/-- C107: a marginal distribution is printed to the stream given, one line per entry: its index, mean and standard
deviation. -/
theorem C107_marginal_partial (b : Build) (os n : Nat) (m v : Fin n → Dbl) (ss : Streams) :
    ∃ ss', printMarginal b os (List.ofFn m) (List.ofFn v) ss = .ok ss' ∧
      WritesOnly os ((List.finRange n).flatMap fun i : Fin n => targetText (sizeToString i) (m i) (v i)) ss ss' := by
  refine ⟨_, ?_, (writesOnly_iff ..).2 rfl⟩
  unfold printMarginal
  have e0 : albatrossAssert b (decide ((List.ofFn m).length = (List.ofFn v).length)) = .ok () := by
    simp [albatrossAssert]
  rw [e0]
  rw [except_ok_bind, List.length_ofFn, ← List.map_coe_finRange_eq_range, List.foldlM_map]
  refine foldlM_writeTo os (fun i : Fin n => targetText (sizeToString i) (m i) (v i)) _ _ _ fun ss i _ => ?_
  have hm := vecGet_ofFn m i.2 []
  have hv := vecGet_ofFn v i.2 []
  simp only [List.append_nil] at hm hv
  rw [hm, except_ok_bind]
  unfold marginalDiagonal
  have e1 : albatrossAssert b (decide (i.1 < (List.ofFn v).length)) = .ok () := by simp [albatrossAssert]
  rw [e1, except_ok_bind, hv, except_ok_bind, printTarget_eq]
  rfl

/-- C107: a dataset is printed to the stream given, one line per feature: the feature (or its index, if features cannot be
printed), and the mean and standard deviation of its target. -/
theorem C107_dataset_partial (b : Build) (text : Option (F → List Char)) (os n : Nat) (f : Fin n → F) (m v : Fin n → Dbl)
    (metadata : SMap String String) (ss : Streams) :
    ∃ ss', printDataset b text os ⟨List.ofFn f, List.ofFn m, List.ofFn v, metadata⟩ ss = .ok ss' ∧
      WritesOnly os ((List.finRange n).flatMap fun i : Fin n =>
        targetText (text.elim (sizeToString i) fun t => t (f i)) (m i) (v i)) ss ss' := by
  refine ⟨_, ?_, (writesOnly_iff ..).2 rfl⟩
  unfold printDataset
  dsimp only
  rw [List.length_ofFn (f := f), ← List.map_coe_finRange_eq_range, List.foldlM_map]
  refine foldlM_writeTo os (fun i : Fin n => targetText (text.elim (sizeToString i) fun t => t (f i)) (m i) (v i)) _ _ _
    fun ss i _ => ?_
  have hf := vecGet_ofFn f i.2 []
  have hm := vecGet_ofFn m i.2 []
  have hv := vecGet_ofFn v i.2 []
  simp only [List.append_nil] at hf hm hv
  have ha : eigenAssert b (decide (i.1 < (List.ofFn m).length)) = .ok () := by simp [eigenAssert]
  rw [hf, except_ok_bind, ha, except_ok_bind, hm, except_ok_bind]
  unfold marginalDiagonal
  have e1 : albatrossAssert b (decide (i.1 < (List.ofFn v).length)) = .ok () := by simp [albatrossAssert]
  rw [e1, except_ok_bind, hv, except_ok_bind, printTarget_eq]
  cases text <;> rfl

/-- C107: an iteration of RANSAC is printed to the stream given. -/
theorem C107_iteration_partial (text : K → List Char) (os : Nat) (it : RansacIteration K) (ss : Streams) :
    WritesOnly os (iterationText text it) ss (printIteration text os it ss) :=
  (writesOnly_iff ..).2 (printIteration_eq ..)

/-- C107: the result of RANSAC is printed to the stream given: the iterations in order, the best one, and the name of the
return code. -/
theorem C107_output_partial (b : Build) (text : K → List Char) (os : Nat) (r : RansacOutput K) (ss : Streams) :
    ∃ ss' name, ransacCodeName b r.returnCode.value = .ok name ∧ printRansacOutput b text os r ss = .ok ss' ∧
      WritesOnly os ((r.iterations.zipIdx.flatMap fun it => ['=', '=', '=', '=', ' ', 'I', 't', 'e', 'r', 'a', 't', 'i', 'o', 'n', ' '] ++ sizeToString it.2 ++
        ['=', '=', '=', '=', '\n'] ++ iterationText text it.1 ++ ['\n']) ++ ['=', '=', '=', '=', ' ', 'B', 'e', 's', 't', ' ', '=', '=', '=', '=', '\n'] ++ iterationText text r.best ++
        ['\n', 'R', 'E', 'T', 'U', 'R', 'N', ' ', 'C', 'O', 'D', 'E', ':', ' '] ++ name.toList ++ ['\n']) ss ss' := by
  obtain ⟨name, hn⟩ : ∃ s, ransacCodeName b r.returnCode.value = .ok s := by
    cases r.returnCode <;> exact ⟨_, rfl⟩
  refine ⟨_, name, hn, ?_, (writesOnly_iff ..).2 rfl⟩
  unfold printRansacOutput
  dsimp only
  rw [hn, except_ok_bind, foldl_writeTo os (fun it : RansacIteration K × Nat => ['=', '=', '=', '=', ' ', 'I', 't', 'e', 'r', 'a', 't', 'i', 'o', 'n', ' '] ++
    sizeToString it.2 ++ ['=', '=', '=', '=', '\n'] ++ iterationText text it.1 ++ ['\n'])]
  · simp only [printIteration_eq, writeTo_writeTo]
    rw [except_pure]
    congr 2
    simp
  · intro ss a _
    simp only [printIteration_eq, writeTo_writeTo]

theorem printGraph_eq (text : V → List Char) (os : Nat) (g : Graph V Dbl) (ss : Streams) :
    printGraph text os g ss = writeTo coutStream (g.edges.flatMap fun e => edgeText text e ++ ['\n']) ss := by
  unfold printGraph
  exact foldl_writeTo coutStream (fun e => edgeText text e ++ ['\n']) _ _ _ fun ss a _ => by
    rw [printEdge_eq, writeTo_writeTo]

/-- C107: a graph is printed to `std::cout`, one edge per line, when that is the stream given. -/
theorem C107_graph_partial (text : V → List Char) (g : Graph V Dbl) (ss : Streams) :
    WritesOnly coutStream (g.edges.flatMap fun e => edgeText text e ++ ['\n']) ss (printGraph text coutStream g ss) :=
  (writesOnly_iff ..).2 (printGraph_eq ..)

/-- C107 is false of graphs: whatever stream a graph with an edge is printed to, its edges appear on `std::cout`, and
nothing on the stream given. -/
theorem C107_graph_false (text : V → List Char) (g : Graph V Dbl) (hg : g.edges ≠ []) (os : Nat) (hos : os ≠ coutStream)
    (ss : Streams) :
    printGraph text os g ss os = ss os ∧ printGraph text os g ss coutStream ≠ ss coutStream ∧
      ¬ WritesOnly os (g.edges.flatMap fun e => edgeText text e ++ ['\n']) ss (printGraph text os g ss) := by
  have hne : (g.edges.flatMap fun e => edgeText text e ++ ['\n']) ≠ [] := by
    intro h
    obtain ⟨e, es, he⟩ := List.exists_cons_of_ne_nil hg
    rw [he] at h
    simp at h
  have h1 : printGraph text os g ss os = ss os := by
    rw [printGraph_eq]
    simp [writeTo, hos]
  refine ⟨h1, ?_, ?_⟩
  · rw [printGraph_eq]
    simp only [writeTo, if_true]
    intro h
    exact hne (List.append_right_eq_self.1 h)
  · intro h
    rw [h.added] at h1
    exact hne (List.append_right_eq_self.1 h1)

/-- A graph of one edge, printed to a stream other than `std::cout`. -/
example : (⟨[⟨1, 2, .fin 3, 0⟩], [1, 2]⟩ : Graph Nat Dbl).edges ≠ [] ∧ (5 : Nat) ≠ coutStream := by
  simp [coutStream]

theorem printMatrix_row (os width : Nat) (ss : Streams) : ∀ (row : List Dbl),
    row.zipIdx.foldl (fun ss x => writeTo os ((if x.2 = 0 then [] else [' ']) ++ padLeft width (defaultText x.1)) ss) ss =
      writeTo os (List.intercalate [' '] (row.map fun x => padLeft width (defaultText x))) ss := by
  intro row
  rw [foldl_writeTo os (fun x : Dbl × Nat => (if x.2 = 0 then [] else [' ']) ++ padLeft width (defaultText x.1)) _ _ _
    fun _ _ _ => rfl]
  congr 1
  have aux : ∀ (l : List Dbl) (k : Nat), 0 < k → ((l.zipIdx k).flatMap fun x =>
      (if x.2 = 0 then [] else [' ']) ++ padLeft width (defaultText x.1)) =
      l.flatMap fun x => [' '] ++ padLeft width (defaultText x) := by
    intro l
    induction l with
    | nil => intro k _; rfl
    | cons x xs ih =>
      intro k hk
      rw [List.zipIdx_cons, List.flatMap_cons, List.flatMap_cons, ih (k + 1) (by omega)]
      simp only [if_neg (show k ≠ 0 by omega)]
  have aux2 : ∀ (x : Dbl) (l : List Dbl), List.intercalate [' '] ((x :: l).map fun x => padLeft width (defaultText x)) =
      padLeft width (defaultText x) ++ l.flatMap fun x => [' '] ++ padLeft width (defaultText x) := by
    intro x l
    induction l generalizing x with
    | nil => simp [List.intercalate]
    | cons y l ih =>
      rw [List.map_cons, List.map_cons, List.intercalate, List.intersperse_cons_cons, List.flatten_cons, List.flatten_cons,
        ← List.intercalate, ← List.map_cons (f := fun x => padLeft width (defaultText x)), ih y, List.flatMap_cons]
      simp
  cases row with
  | nil => rfl
  | cons x xs =>
    rw [List.zipIdx_cons, List.flatMap_cons, aux xs 1 (by omega), aux2]
    simp

/-- The width of the entries: that of the longest. -/
def IsMatrixWidth (width : Nat) (rows : List (List Dbl)) : Prop :=
  (∀ row ∈ rows, ∀ x ∈ row, (defaultText x).length ≤ width) ∧
    (width = 0 ∨ ∃ row ∈ rows, ∃ x ∈ row, (defaultText x).length = width)

theorem foldl_max_bound : ∀ (l : List Nat) (a : Nat), (∀ x ∈ l, x ≤ l.foldl max a) ∧ a ≤ l.foldl max a ∧
    (l.foldl max a = a ∨ l.foldl max a ∈ l)
  | [], a => by simp
  | x :: l, a => by
    obtain ⟨h1, h2, h3⟩ := foldl_max_bound l (max a x)
    rw [List.foldl_cons]
    refine ⟨?_, le_trans (le_max_left a x) h2, ?_⟩
    · intro y hy
      rcases List.mem_cons.1 hy with rfl | hy
      · exact le_trans (le_max_right a y) h2
      · exact h1 y hy
    · rcases h3 with h3 | h3
      · rw [h3]
        rcases le_total a x with h | h
        · right; rw [max_eq_right h]; simp
        · left; exact max_eq_left h
      · right; simp [h3]

theorem printMatrix_eq (os : Nat) (rows : List (List Dbl)) (ss : Streams) :
    ∃ width, IsMatrixWidth width rows ∧ printMatrix os rows ss = writeTo os (matrixText width rows) ss := by
  obtain ⟨h1, _, h3⟩ := foldl_max_bound (rows.flatten.map fun x => (defaultText x).length) 0
  refine ⟨(rows.flatten.map fun x => (defaultText x).length).foldl max 0, ⟨?_, ?_⟩, ?_⟩
  · intro row hr x hx
    exact h1 _ (List.mem_map.2 ⟨x, List.mem_flatten.2 ⟨row, hr, hx⟩, rfl⟩)
  · rcases h3 with h3 | h3
    · exact Or.inl h3
    · obtain ⟨x, hx, e⟩ := List.mem_map.1 h3
      obtain ⟨row, hr, hx⟩ := List.mem_flatten.1 hx
      exact Or.inr ⟨row, hr, x, hx, e⟩
  · unfold printMatrix
    dsimp only
    generalize (rows.flatten.map fun x => (defaultText x).length).foldl max 0 = width
    let rowText : List Dbl → List Char := fun row => List.intercalate [' '] (row.map fun x => padLeft width (defaultText x))
    have aux : ∀ (l : List (List Dbl)) (k : Nat) (ss : Streams), k + l.length = rows.length →
        (l.zipIdx k).foldl (fun ss row =>
          let ss := row.1.zipIdx.foldl (fun ss x =>
            writeTo os ((if x.2 = 0 then [] else [' ']) ++ padLeft width (defaultText x.1)) ss) ss
          if row.2 + 1 < rows.length then writeTo os ['\n'] ss else ss) ss =
        writeTo os (List.intercalate ['\n'] (l.map rowText)) ss := by
      intro l
      induction l with
      | nil => intro k ss _; simp [List.intercalate, writeTo_nil]
      | cons row l ih =>
        intro k ss hk
        rw [List.zipIdx_cons, List.foldl_cons, ih (k + 1) _ (by simp at hk; omega)]
        dsimp only
        rw [printMatrix_row]
        cases l with
        | nil =>
          rw [if_neg (by simp at hk; omega)]
          simp [List.intercalate, writeTo_nil, rowText]
        | cons row' l =>
          rw [if_pos (by simp at hk; omega), writeTo_writeTo, writeTo_writeTo]
          congr 1
    exact aux rows 0 ss (by simp)

/-- C107: the table of a joint distribution has the mean in its first column and the covariance in the others; all entries
have the width of the longest.  It is printed to `std::cout` when that is the stream given. -/
theorem C107_joint_partial (b : Build) (mean : List Dbl) (covariance : List (List Dbl))
    (h : covariance.length = mean.length) (ss : Streams) :
    ∃ width ss', IsMatrixWidth width (List.zipWith List.cons mean covariance) ∧
      printJoint b coutStream mean covariance ss = .ok ss' ∧
      WritesOnly coutStream (matrixText width (List.zipWith List.cons mean covariance)) ss ss' := by
  obtain ⟨width, hw, e⟩ := printMatrix_eq coutStream (List.zipWith List.cons mean covariance) ss
  refine ⟨width, _, hw, ?_, (writesOnly_iff ..).2 rfl⟩
  unfold printJoint
  simp only [eigenAssert, h, decide_true, if_true]
  rw [except_ok_bind, ← e]
  rfl

/-- C107 is false of joint distributions: whatever stream one is printed to, nothing appears there; the table goes to
`std::cout`. -/
theorem C107_joint_false (b : Build) (mean : List Dbl) (covariance : List (List Dbl))
    (h : covariance.length = mean.length) (hm : mean ≠ []) (os : Nat) (hos : os ≠ coutStream) (ss : Streams) :
    ∃ width ss', printJoint b os mean covariance ss = .ok ss' ∧ ss' os = ss os ∧ ss' coutStream ≠ ss coutStream ∧
      ss' coutStream = ss coutStream ++ matrixText width (List.zipWith List.cons mean covariance) ∧
      ¬ WritesOnly os (matrixText width (List.zipWith List.cons mean covariance)) ss ss' := by
  obtain ⟨width, ss', ⟨hw, _⟩, e, ho⟩ := C107_joint_partial b mean covariance h ss
  have hne : matrixText width (List.zipWith List.cons mean covariance) ≠ [] := by
    obtain ⟨m, ms, rfl⟩ := List.exists_cons_of_ne_nil hm
    obtain ⟨c, cs, rfl⟩ := List.exists_cons_of_ne_nil (l := covariance) (by
      rintro rfl
      simp at h)
    intro h0
    have hx := hw (m :: c) (by simp) m (by simp)
    have hpos : 0 < (defaultText m).length := defaultText_length_pos m
    have h1 : ∀ (a : List Char) (l : List (List Char)) (sep : List Char), a ≠ [] → List.intercalate sep (a :: l) ≠ [] := by
      intro a l sep ha
      cases l <;> simp [List.intercalate, ha]
    refine h1 _ _ _ (h1 _ _ _ ?_) h0
    intro h2
    have h3 := congrArg List.length h2
    simp only [padLeft, List.length_append, List.length_nil] at h3
    omega
  refine ⟨width, ss', e, ho.others os hos, ?_, ho.added, ?_⟩
  · rw [ho.added]
    intro h'
    exact hne (List.append_right_eq_self.1 h')
  · intro h'
    have := h'.added
    rw [ho.others os hos] at this
    exact hne (List.append_right_eq_self.1 this.symm)

/-- A joint distribution of two entries. -/
example : ([[.fin 1, .fin 0], [.fin 0, .fin 1]] : List (List Dbl)).length = ([.fin 3, .fin 4] : List Dbl).length ∧
    ([.fin 3, .fin 4] : List Dbl) ≠ [] ∧ (5 : Nat) ≠ coutStream := by
  simp [coutStream]

/-! ## C108 -/

theorem foldl_longest (l : List CallAndValue) : ∀ n,
    (∀ cv ∈ l, cv.value.length ≤ l.foldl (fun n cv => if n < cv.value.length then cv.value.length else n) n) ∧
    n ≤ l.foldl (fun n cv => if n < cv.value.length then cv.value.length else n) n ∧
    (l.foldl (fun n cv => if n < cv.value.length then cv.value.length else n) n = n ∨
      ∃ cv ∈ l, cv.value.length = l.foldl (fun n cv => if n < cv.value.length then cv.value.length else n) n) := by
  induction l with
  | nil => intro n; simp
  | cons cv l ih =>
    intro n
    rw [List.foldl_cons]
    obtain ⟨h1, h2, h3⟩ := ih (if n < cv.value.length then cv.value.length else n)
    generalize l.foldl _ _ = r at h1 h2 h3
    have hn : n ≤ r ∧ cv.value.length ≤ r := by split_ifs at h2 <;> omega
    refine ⟨?_, hn.1, ?_⟩
    · intro c hc
      rcases List.mem_cons.1 hc with rfl | hc
      · exact hn.2
      · exact h1 c hc
    · rcases h3 with h3 | ⟨c, hc, h3⟩
      · split_ifs at h3 with h
        · exact Or.inr ⟨cv, by simp, h3.symm⟩
        · exact Or.inl h3
      · exact Or.inr ⟨c, by simp [hc], h3⟩

theorem traceLine_eq (width : Nat) (value name : List Char) (ss : Streams) :
    traceLine width value name ss =
      writeTo coutStream (padRight width value ++ padRight 100 name ++ ['\n']) ss := by
  simp only [traceLine, writeTo_writeTo, List.append_assoc]

/-- C108: the table goes to `std::cout`: a header of two lines, then a line for every call in order.  The first column is
two characters wider than the longest value, and the second starts right after it. -/
theorem C108_table (trace : List CallAndValue) (ss : Streams) :
    ∃ longest, (∀ cv ∈ trace, cv.value.length ≤ longest) ∧
      (trace ≠ [] → ∃ cv ∈ trace, cv.value.length = longest) ∧
      WritesOnly coutStream
        (padRight (longest + 2) ['V', 'A', 'L', 'U', 'E'] ++ padRight 100 ['F', 'U', 'N', 'C', 'T', 'I', 'O', 'N'] ++
          ['\n'] ++ padRight (longest + 2) ['-', '-', '-', '-', '-'] ++
          padRight 100 ['-', '-', '-', '-', '-', '-', '-', '-'] ++ ['\n'] ++
          trace.flatMap fun cv => cv.value ++ List.replicate (longest + 2 - cv.value.length) ' ' ++
            padRight 100 cv.callName ++ ['\n']) ss (printCallTrace trace ss) := by
  obtain ⟨h1, h2, h3⟩ := foldl_longest trace 0
  refine ⟨_, h1, ?_, ?_⟩
  · intro hne
    rcases h3 with h3 | h3
    · obtain ⟨cv, l, rfl⟩ := List.exists_cons_of_ne_nil hne
      refine ⟨cv, by simp, ?_⟩
      have := h1 cv (by simp)
      rw [h3] at this ⊢
      omega
    · exact h3
  · rw [writesOnly_iff]
    unfold printCallTrace
    dsimp only
    rw [foldl_writeTo coutStream _ _ trace _ fun ss cv _ => traceLine_eq _ cv.value cv.callName ss]
    simp only [traceLine_eq, writeTo_writeTo]
    simp only [padRight, List.append_assoc]

/-- The column at which the second word of a line starts. -/
def secondColumn (width : Nat) (first : List Char) : Nat := (padRight width first).length

/-- C108: the function names of all lines start in the same column, at least two characters after the longest value; the
headings do so as well if some value has three characters. -/
theorem C108_aligned (trace : List CallAndValue) (longest : Nat) (h : ∀ cv ∈ trace, cv.value.length ≤ longest) :
    (∀ cv ∈ trace, secondColumn (longest + 2) cv.value = longest + 2) ∧
    ((∃ cv ∈ trace, 3 ≤ cv.value.length) →
      secondColumn (longest + 2) ['V', 'A', 'L', 'U', 'E'] = longest + 2 ∧
      secondColumn (longest + 2) ['-', '-', '-', '-', '-'] = longest + 2) := by
  constructor
  · intro cv hc
    have := h cv hc
    simp only [secondColumn, padRight, List.length_append, List.length_replicate]
    omega
  · rintro ⟨cv, hc, h3⟩
    have := h cv hc
    constructor <;>
    · simp only [secondColumn, padRight, List.length_append, List.length_replicate, List.length_cons, List.length_nil]
      omega

/-- A trace of two calls. -/
example : (∀ cv ∈ ([⟨['f'], ['1', '.', '5']⟩, ⟨['g'], ['2']⟩] : List CallAndValue), cv.value.length ≤ 3) ∧
    ∃ cv ∈ ([⟨['f'], ['1', '.', '5']⟩, ⟨['g'], ['2']⟩] : List CallAndValue), 3 ≤ cv.value.length := by
  simp

theorem addOperator_length {b : Build} {cv cv' : CallAndValue} {c : Char} (h : cv.addOperator b c = .ok cv') :
    cv'.value.length = cv.value.length := by
  unfold CallAndValue.addOperator at h
  obtain ⟨_, _, h⟩ := except_bind_eq_ok.1 h
  obtain ⟨_, _, h⟩ := except_bind_eq_ok.1 h
  obtain ⟨n, _, h⟩ := except_bind_eq_ok.1 h
  obtain ⟨v, hv, h⟩ := except_bind_eq_ok.1 h
  cases h
  unfold setThird at hv
  split_ifs at hv
  cases hv
  simp

theorem appendChild_long {b : Build} {parent child out : List CallAndValue} {c : Char}
    (h : appendChildCallTrace b parent child c = .ok out) :
    (∀ cv ∈ parent, cv ∈ out) ∧ ∃ cv ∈ out, 3 ≤ cv.value.length := by
  unfold appendChildCallTrace at h
  cases child with
  | nil => cases h
  | cons front rest =>
    obtain ⟨f, hf, h⟩ := except_bind_eq_ok.1 h
    cases h
    refine ⟨fun cv hc => by simp [hc], f, by simp, ?_⟩
    rw [addOperator_length hf]
    simp [CallAndValue.addDelimiter, levelDelimiter]

/-- C108: `std::to_string` of a number writes more than three characters. -/
theorem C108_to_string (x : ℝ) : 3 ≤ (toStringFixed x).length := by
  unfold toStringFixed
  dsimp only
  simp only [List.length_append, List.length_cons, List.length_replicate]
  omega

/-- C108: the trace of every covariance function, whatever the features, has a value of at least three characters (if
`std::to_string` returns that many: it writes six decimals), so that the headings stand over their columns. -/
theorem C108_headings {T : Type} {F : T → Type} {X S : Type} (b : Build) (toStr stream : ℝ → List Char)
    (hs : ∀ x, 3 ≤ (toStr x).length) (τ σ : Ty T) (x : Val F τ) (y : Val F σ) (t : CovTree F X S)
    (trace : List CallAndValue) (h : t.trace b toStr stream τ σ x y = .ok trace) :
    ∃ cv ∈ trace, 3 ≤ cv.value.length := by
  cases t with
  | leaf n s c r =>
    cases h
    refine ⟨_, List.mem_singleton_self _, ?_⟩
    unfold traceValue
    split_ifs
    · exact hs _
    · show 3 ≤ "UNDEFINED".toList.length
      decide
  | node op l r =>
    unfold CovTree.trace at h
    obtain ⟨_, _, h⟩ := except_bind_eq_ok.1 h
    obtain ⟨_, _, h⟩ := except_bind_eq_ok.1 h
    obtain ⟨_, _, h⟩ := except_bind_eq_ok.1 h
    exact (appendChild_long h).2

/-- The trace of a constant exists, and `std::to_string` meets the hypothesis. -/
example : (∀ x, 3 ≤ (toStringFixed x).length) ∧
    ∃ trace, (constantTree 2 : CovTree (fun _ : Unit => Nat) Nat Nat).trace .debug toStringFixed toStringFixed (.base ())
      (.base ()) (show Val (fun _ : Unit => Nat) (.base ()) from (1 : Nat))
      (show Val (fun _ : Unit => Nat) (.base ()) from (2 : Nat)) = .ok trace :=
  ⟨C108_to_string, _, rfl⟩

end Albatross
