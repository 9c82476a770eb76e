import Verif.CovTree
import Verif.CovComposeProps
import Verif.UtilsProps

/-! # Composed covariance functions: C96 -/

namespace Albatross

variable {T : Type} {F : T → Type} {X S : Type}

/-! ## Specification of the trace -/

namespace CovTree

/-- Every function in the tree, parents first and left before right, with its depth and the operator above it. -/
def listing : CovTree F X S → Nat → Char → List (Nat × Char × CovTree F X S)
  | leaf n m c s, d, above => [(d, above, leaf n m c s)]
  | node op l r, d, above => (d, above, node op l r) :: (l.listing (d + 1) op.symbol ++ r.listing (d + 1) op.symbol)

/-- The text shown for a function: its name in a leaf, the name of a default constructed one otherwise. -/
def shownName : CovTree F X S → List Char
  | leaf n _ _ _ => n
  | node op l r => (node op l r).defaultName

/-- The value shown: `"UNDEFINED"` where the function does not accept the arguments. -/
noncomputable def shownValue (toStr stream : ℝ → List Char) (τ σ : Ty T) (x : Val F τ) (y : Val F σ)
    (t : CovTree F X S) : List Char :=
  if (defaultCaller t.caller).valid τ σ then
    (match t with | leaf .. => toStr | node .. => stream) ((defaultCaller t.caller).call τ σ x y)
  else "UNDEFINED".toList

/-- How far a function at a depth is indented: nothing at the top, else one bar per level with the operator on the last. -/
def indentation : Nat → Char → List Char
  | 0, _ => []
  | d + 1, above => (List.replicate d [' ', '|', ' ', ' ']).flatten ++ [' ', '|', above, ' ']

/-- One line of the trace. -/
noncomputable def line (toStr stream : ℝ → List Char) (τ σ : Ty T) (x : Val F τ) (y : Val F σ)
    (e : Nat × Char × CovTree F X S) : CallAndValue :=
  ⟨indentation e.1 e.2.1 ++ e.2.2.shownName, indentation e.1 e.2.1 ++ e.2.2.shownValue toStr stream τ σ x y⟩

/-- The number of functions in the tree. -/
def size : CovTree F X S → Nat
  | leaf .. => 1
  | node _ l r => 1 + l.size + r.size

theorem indentation_succ (d : Nat) (h : d ≠ 0) (c : Char) : levelDelimiter ++ indentation d c = indentation (d + 1) c := by
  rcases d with - | d
  · exact absurd rfl h
  · simp [indentation, levelDelimiter, List.replicate_succ]

theorem listing_succ (toStr stream : ℝ → List Char) (τ σ : Ty T) (x : Val F τ) (y : Val F σ) (t : CovTree F X S)
    (d : Nat) (hd : d ≠ 0) (c : Char) :
    ((t.listing d c).map (line toStr stream τ σ x y)).map CallAndValue.addDelimiter =
      (t.listing (d + 1) c).map (line toStr stream τ σ x y) := by
  induction t generalizing d c with
  | leaf n m k s =>
    simp only [listing, List.map_cons, List.map_nil, line, CallAndValue.addDelimiter, ← List.append_assoc,
      indentation_succ d hd]
  | node op l r ihl ihr =>
    simp only [listing, List.map_cons, List.map_append, ihl (d + 1) (by omega), ihr (d + 1) (by omega)]
    simp only [line, CallAndValue.addDelimiter, ← List.append_assoc, indentation_succ d hd]

/-- Indenting the trace of a child one level and marking its first line. -/
theorem appendChild_listing (b : Build) (toStr stream : ℝ → List Char) (τ σ : Ty T) (x : Val F τ) (y : Val F σ)
    (t : CovTree F X S) (parent : List CallAndValue) (c c' : Char) :
    appendChildCallTrace b parent ((t.listing 0 c').map (line toStr stream τ σ x y)) c =
      .ok (parent ++ (t.listing 1 c).map (line toStr stream τ σ x y)) := by
  cases t with
  | leaf n m k s =>
    simp [appendChildCallTrace, listing, line, CallAndValue.addDelimiter, CallAndValue.addOperator, indentation,
      levelDelimiter, setThird, albatrossAssert_true, except_ok_bind, except_pure, List.set]
  | node op l r =>
    have h : ((l.listing 1 op.symbol ++ r.listing 1 op.symbol).map (line toStr stream τ σ x y)).map
        CallAndValue.addDelimiter =
        (l.listing 2 op.symbol ++ r.listing 2 op.symbol).map (line toStr stream τ σ x y) := by
      rw [List.map_append, List.map_append, List.map_append, listing_succ _ _ _ _ _ _ _ _ (by omega),
        listing_succ _ _ _ _ _ _ _ _ (by omega)]
    rw [appendChildCallTrace, listing, List.map_cons, List.map_cons, h]
    simp [listing, line, CallAndValue.addDelimiter, CallAndValue.addOperator, indentation,
      levelDelimiter, setThird, albatrossAssert_true, except_ok_bind, except_pure, List.set]

theorem listing_length (t : CovTree F X S) (d : Nat) (c : Char) : (t.listing d c).length = t.size := by
  induction t generalizing d c with
  | leaf => rfl
  | node op l r ihl ihr => simp [listing, size, ihl, ihr]; omega

end CovTree

open CovTree

/-- C96: the trace never stops on an assertion, and lists every function of the composition once, parents before their
parts and left before right, each indented by its depth, marked with the operator that combines it and shown with its own
value, or `UNDEFINED` where it does not accept the arguments. -/
theorem C96_trace (b : Build) (toStr stream : ℝ → List Char) (τ σ : Ty T) (x : Val F τ) (y : Val F σ)
    (t : CovTree F X S) (c : Char) :
    ∃ ls, t.trace b toStr stream τ σ x y = .ok ls ∧ ls = (t.listing 0 c).map (line toStr stream τ σ x y) ∧
      ls.length = t.size := by
  suffices h : t.trace b toStr stream τ σ x y = .ok ((t.listing 0 c).map (line toStr stream τ σ x y)) from
    ⟨_, h, rfl, by rw [List.length_map, listing_length]⟩
  induction t generalizing c with
  | leaf n m k s =>
    simp only [CovTree.trace, listing, List.map_cons, List.map_nil, line, indentation, List.nil_append, shownName,
      shownValue, traceValue, except_pure, CovTree.caller]
    rfl
  | node op l r ihl ihr =>
    simp only [CovTree.trace, ihl c, ihr c, except_ok_bind, appendChild_listing]
    simp only [listing, List.map_cons, List.map_append, line, indentation, List.nil_append, shownName, shownValue,
      traceValue, List.cons_append]

/-! ## The trace can be read back -/

/-- What a reader can tell from the structure of a trace. -/
inductive Outline
  | leaf (name : List Char)
  | node (symbol : Char) (l r : Outline)

/-- The outline of a covariance function. -/
def CovTree.outline : CovTree F X S → Outline
  | .leaf n _ _ _ => .leaf n
  | .node op l r => .node op.symbol l.outline r.outline

/-- Every leaf has a name that does not begin with a space. -/
def CovTree.NamesVisible : CovTree F X S → Prop
  | .leaf n _ _ _ => ∃ c cs, n = c :: cs ∧ c ≠ ' '
  | .node _ l r => l.NamesVisible ∧ r.NamesVisible

/-- The depth of a line, its operator and its name: whole levels of indentation are taken off while there are any. -/
def readLine : List Char → Nat × Char × List Char
  | ' ' :: '|' :: c :: ' ' :: rest =>
    match readLine rest with
    | (0, _, n) => (1, c, n)
    | (d + 1, c', n) => (d + 2, c', n)
  | s => (0, ' ', s)

theorem readLine_visible (n : List Char) (h : ∃ c cs, n = c :: cs ∧ c ≠ ' ') : readLine n = (0, ' ', n) := by
  obtain ⟨c, cs, rfl, hc⟩ := h
  rw [readLine]
  intro c' rest heq
  exact hc (List.cons.inj heq).1

theorem readLine_indent (d : Nat) (c : Char) (n : List Char) (h : ∃ c cs, n = c :: cs ∧ c ≠ ' ') :
    readLine (indentation (d + 1) c ++ n) = (d + 1, c, n) := by
  induction d with
  | zero => simp [indentation, readLine, readLine_visible n h]
  | succ d ih =>
    rw [← indentation_succ (d + 1) (by omega) c, List.append_assoc, levelDelimiter]
    show readLine (' ' :: '|' :: ' ' :: ' ' :: (indentation (d + 1) c ++ n)) = _
    rw [readLine, ih]

theorem shownName_visible {t : CovTree F X S} (h : t.NamesVisible) : ∃ c cs, t.shownName = c :: cs ∧ c ≠ ' ' := by
  cases t with
  | leaf n m k s => exact h
  | node op l r => exact ⟨'(', _, rfl, by decide⟩

/-- What the reader sees of one line. -/
def seen (c : Char) (e : Nat × Char × CovTree F X S) : Nat × Char × List Char :=
  (e.1, if e.1 = 0 then c else e.2.1, e.2.2.shownName)

theorem listing_depth (t : CovTree F X S) (d : Nat) (c : Char) (e) (h : e ∈ t.listing d c) : d ≤ e.1 := by
  induction t generalizing d c with
  | leaf => simp [listing] at h; simp [h]
  | node op l r ihl ihr =>
    simp only [listing, List.mem_cons, List.mem_append] at h
    rcases h with rfl | h | h
    · exact le_refl _
    · exact le_of_lt (ihl _ _ h)
    · exact le_of_lt (ihr _ _ h)

theorem listing_cons (t : CovTree F X S) (d : Nat) (c : Char) : ∃ rest, t.listing d c = (d, c, t) :: rest := by
  cases t with
  | leaf => exact ⟨[], rfl⟩
  | node => exact ⟨_, rfl⟩

theorem listing_visible (t : CovTree F X S) (hv : t.NamesVisible) (d : Nat) (c : Char) (e) (h : e ∈ t.listing d c) :
    e.2.2.NamesVisible := by
  induction t generalizing d c with
  | leaf => simp [listing] at h; simpa [h] using hv
  | node op l r ihl ihr =>
    simp only [listing, List.mem_cons, List.mem_append] at h
    rcases h with rfl | h | h
    · exact hv
    · exact ihl hv.1 _ _ h
    · exact ihr hv.2 _ _ h

/-- Reading every line of a trace. -/
theorem read_trace (toStr stream : ℝ → List Char) (τ σ : Ty T) (x : Val F τ) (y : Val F σ) (t : CovTree F X S)
    (hv : t.NamesVisible) (c : Char) :
    ((t.listing 0 c).map (line toStr stream τ σ x y)).map (fun l => readLine l.callName) =
      (t.listing 0 c).map (seen ' ') := by
  rw [List.map_map]
  refine List.map_congr_left fun e he => ?_
  have hn := shownName_visible (listing_visible t hv 0 c e he)
  obtain ⟨d, above, s⟩ := e
  rcases d with - | d
  · simp [line, seen, indentation, readLine_visible _ hn]
  · simp [line, seen, readLine_indent d above _ hn]

/-- A listing is read in only one way. -/
theorem listing_unique (t t' : CovTree F X S) (d : Nat) (c c' : Char)
    (rest rest' : List (Nat × Char × List Char))
    (hr : ∀ e ∈ rest.head?, e.1 ≤ d) (hr' : ∀ e ∈ rest'.head?, e.1 ≤ d)
    (h : (t.listing d c).map (seen ' ') ++ rest = (t'.listing d c').map (seen ' ') ++ rest') :
    t.outline = t'.outline ∧ rest = rest' ∧ (d ≠ 0 → c = c') := by
  induction t generalizing t' d c c' rest rest' with
  | leaf n m k s =>
    cases t' with
    | leaf n' m' k' s' =>
      simp only [listing, List.map_cons, List.map_nil, List.cons_append, List.nil_append, List.cons.injEq, seen,
        Prod.mk.injEq, shownName] at h
      refine ⟨by rw [CovTree.outline, CovTree.outline, h.1.2.2], h.2, fun hd => ?_⟩
      simpa [hd] using h.1.2.1
    | node op' l' r' =>
      obtain ⟨q, hq⟩ := listing_cons l' (d + 1) op'.symbol
      simp only [listing, List.map_cons, List.map_nil, List.cons_append, List.nil_append, List.cons.injEq, hq] at h
      have := hr (seen ' ' (d + 1, op'.symbol, l')) (by rw [h.2]; rfl)
      simp [seen] at this
  | node op l r ihl ihr =>
    cases t' with
    | leaf n' m' k' s' =>
      obtain ⟨q, hq⟩ := listing_cons l (d + 1) op.symbol
      simp only [listing, List.map_cons, List.map_nil, List.cons_append, List.nil_append, List.cons.injEq, hq] at h
      have := hr' (seen ' ' (d + 1, op.symbol, l)) (by rw [← h.2]; rfl)
      simp [seen] at this
    | node op' l' r' =>
      simp only [listing, List.map_cons, List.map_append, List.cons_append, List.append_assoc, List.cons.injEq] at h
      have hhead : ∀ (u : CovTree F X S) (ch : Char) (q : List (Nat × Char × List Char)),
          ∀ e ∈ ((u.listing (d + 1) ch).map (seen ' ') ++ q).head?, e.1 ≤ d + 1 := by
        intro u ch q e he
        obtain ⟨p, hp⟩ := listing_cons u (d + 1) ch
        rw [hp] at he
        simp [seen] at he
        simp [← he]
      obtain ⟨h1, h2, h3⟩ := ihl l' (d + 1) _ _ _ _ (hhead r _ _) (hhead r' _ _) h.2
      obtain ⟨h4, h5, -⟩ := ihr r' (d + 1) _ _ _ _ (fun e he => (hr e he).trans (by omega))
        (fun e he => (hr' e he).trans (by omega)) h2
      refine ⟨by rw [CovTree.outline, CovTree.outline, h1, h4, h3 (by omega)], h5, fun hd => ?_⟩
      have := h.1
      simp only [seen, Prod.mk.injEq] at this
      simpa [hd] using this.2.1

/-- C96: the structure can be read off the trace: two compositions with the same trace have the same operators around the
same named leaves in the same places. -/
theorem C96_trace_readable (b : Build) (toStr stream : ℝ → List Char) (τ σ : Ty T) (x : Val F τ) (y : Val F σ)
    (t t' : CovTree F X S) (hv : t.NamesVisible) (hv' : t'.NamesVisible)
    (h : t.trace b toStr stream τ σ x y = t'.trace b toStr stream τ σ x y) : t.outline = t'.outline := by
  obtain ⟨ls, h1, h2, -⟩ := C96_trace b toStr stream τ σ x y t ' '
  obtain ⟨ls', h1', h2', -⟩ := C96_trace b toStr stream τ σ x y t' ' '
  rw [h1, h1'] at h
  cases h
  have := read_trace toStr stream τ σ x y t hv ' '
  rw [← h2, h2', read_trace toStr stream τ σ x y t' hv' ' '] at this
  exact (listing_unique t t' 0 ' ' ' ' [] [] (by simp) (by simp) (by simpa using this.symm)).1

/-! ## The names and values in the trace -/

/-- Names depend on the type only. -/
def CovTree.NamesByType : CovTree F X S → Prop
  | .leaf n m _ _ => n = m
  | .node _ l r => l.NamesByType ∧ r.NamesByType

theorem defaultName_eq (t : CovTree F X S) (h : t.NamesByType) : t.defaultName = t.name := by
  induction t with
  | leaf n m k s => exact Eq.symm h
  | node op l r ihl ihr => rw [CovTree.defaultName, CovTree.name, ihl h.1, ihr h.2]

theorem listing_byType (t : CovTree F X S) (hv : t.NamesByType) (d : Nat) (c : Char) (e) (h : e ∈ t.listing d c) :
    e.2.2.NamesByType := by
  induction t generalizing d c with
  | leaf => simp [listing] at h; simpa [h] using hv
  | node op l r ihl ihr =>
    simp only [listing, List.mem_cons, List.mem_append] at h
    rcases h with rfl | h | h
    · exact hv
    · exact ihl hv.1 _ _ h
    · exact ihr hv.2 _ _ h

/-- C96 as one would want it: every line names the function it is about. -/
def TraceNamesFunctions (F : T → Type) (X S : Type) : Prop :=
  ∀ (b : Build) (toStr stream : ℝ → List Char) (τ σ : Ty T) (x : Val F τ) (y : Val F σ) (t : CovTree F X S),
    ∃ ls, t.trace b toStr stream τ σ x y = .ok ls ∧
      ls.map CallAndValue.callName = (t.listing 0 ' ').map fun e => indentation e.1 e.2.1 ++ e.2.2.name

/-- C96: every line names its function where names depend on the type only. -/
theorem C96_trace_names_partial (b : Build) (toStr stream : ℝ → List Char) (τ σ : Ty T) (x : Val F τ) (y : Val F σ)
    (t : CovTree F X S) (h : t.NamesByType) :
    ∃ ls, t.trace b toStr stream τ σ x y = .ok ls ∧
      ls.map CallAndValue.callName = (t.listing 0 ' ').map fun e => indentation e.1 e.2.1 ++ e.2.2.name := by
  obtain ⟨ls, h1, h2, -⟩ := C96_trace b toStr stream τ σ x y t ' '
  refine ⟨ls, h1, ?_⟩
  rw [h2, List.map_map]
  refine List.map_congr_left fun e he => ?_
  have := listing_byType t h 0 ' ' e he
  obtain ⟨d, a, s⟩ := e
  cases s with
  | leaf n m k s => rfl
  | node op l r => simp [line, shownName, defaultName_eq _ this]

/-- The feature `0`. -/
def zeroFeature : Val (fun _ : Unit => ℝ) (.base ()) := (0 : ℝ)

/-- A covariance function named by the argument of its constructor. -/
def namedTree (n : String) : CovTree F X S :=
  .leaf n.toList "unnamed".toList ⟨fun _ _ => true, fun _ _ _ _ => 1⟩ none

/-- C96 is false where an object carries its name: a sum shows the names its parts would have by default. -/
theorem C96_trace_names_false : ¬ TraceNamesFunctions (fun _ : Unit => ℝ) ℝ ℝ := by
  intro h
  obtain ⟨ls, h1, h2⟩ := h .debug (fun _ => []) (fun _ => []) (.base ()) (.base ()) zeroFeature zeroFeature
    (.node .sum (namedTree "a") (namedTree "b"))
  obtain ⟨ls', h1', h2', -⟩ := C96_trace .debug (fun _ => []) (fun _ => []) (.base ()) (.base ()) zeroFeature zeroFeature
    (.node .sum (namedTree "a") (namedTree "b") : CovTree (fun _ : Unit => ℝ) ℝ ℝ) ' '
  rw [h1'] at h1
  cases h1
  rw [h2', List.map_map] at h2
  simp [listing, line, namedTree, indentation, shownName, CovTree.defaultName, CovTree.name, CovOp.symbol] at h2

theorem nearestNat_zero {y : ℝ} (h : y < 1 / 2) : nearestNat y = 0 := by
  have : ⌊y⌋₊ = 0 := Nat.floor_eq_zero.2 (by linarith)
  simp [nearestNat, this]
  intro h'
  linarith

/-- C96: `std::to_string` shows every value below half of `1e-6` as zero. -/
theorem C96_small_values (v : ℝ) (h0 : 0 ≤ v) (h : v < 5 / 10 ^ 7) : toStringFixed v = "0.000000".toList := by
  have hn : nearestNat (|v| * 10 ^ 6) = 0 := by
    rw [abs_of_nonneg h0]
    exact nearestNat_zero (by linarith)
  simp only [toStringFixed, hn, if_neg (not_lt.2 h0)]
  decide

/-- C96 as one would want it: a leaf that contributes something does not show the value of one that contributes nothing. -/
def TraceShowsContribution (F : T → Type) (X S : Type) : Prop :=
  ∀ (b : Build) (stream : ℝ → List Char) (τ σ : Ty T) (x : Val F τ) (y : Val F σ) (sigma : ℝ), sigma ≠ 0 →
    (constantTree sigma : CovTree F X S).trace b toStringFixed stream τ σ x y ≠
      (constantTree 0 : CovTree F X S).trace b toStringFixed stream τ σ x y

/-- C96 is false for a constant with standard deviation `1e-4`: its variance is shown as zero. -/
theorem C96_small_values_false : ¬ TraceShowsContribution (fun _ : Unit => ℝ) ℝ ℝ := by
  intro h
  refine h .debug (fun _ => []) (.base ()) (.base ()) zeroFeature zeroFeature (1 / 10 ^ 4) (by norm_num) ?_
  have hv : ∀ s : ℝ, (defaultCaller (⟨fun _ _ => true, fun _ _ _ _ => s * s⟩ : Caller fun _ : Unit => ℝ)).valid
      (.base ()) (.base ()) = true := fun s => rfl
  have hc : ∀ s : ℝ, (defaultCaller (⟨fun _ _ => true, fun _ _ _ _ => s * s⟩ : Caller fun _ : Unit => ℝ)).call
      (.base ()) (.base ()) zeroFeature zeroFeature = s * s := fun s => by
    simp [defaultCaller, varLayer, varCall, measLayer, measCall, linLayer, linCall, symLayer]
  simp only [constantTree, CovTree.trace, traceValue, hv, if_true, hc]
  rw [C96_small_values _ (by norm_num) (by norm_num), C96_small_values _ (by norm_num) (by norm_num)]

/-! ## State space representations -/

/-- The state space representations the leaves define, left to right. -/
def CovTree.leafSsrs : CovTree F X S → List (List X → Outcome (List S))
  | .leaf _ _ _ s => s.toList
  | .node _ l r => l.leafSsrs ++ r.leafSsrs

/-- No product with a scaling term. -/
def CovTree.Unscaled : CovTree F X S → Prop
  | .leaf .. => True
  | .node op l r => (op = .sum ∨ op = .product) ∧ l.Unscaled ∧ r.Unscaled

/-- C96 as one would want it: a composition has a state space representation when one of its parts has, and it is what
the parts give, one after the other. -/
def SsrCoversLeaves (F : T → Type) (X S : Type) : Prop :=
  ∀ t : CovTree F X S, (t.ssr = none ↔ t.leafSsrs = []) ∧
    ∀ f, t.ssr = some f → ∀ xs out, f xs = .ok out ↔ ∃ parts, t.leafSsrs.mapM (· xs) = .ok parts ∧ out = parts.flatten

theorem mapM_append_ok {A B : Type} (f : A → Outcome B) (l m : List A) (out : List B) :
    (l ++ m).mapM f = .ok out ↔ ∃ a c, l.mapM f = .ok a ∧ m.mapM f = .ok c ∧ out = a ++ c := by
  rw [List.mapM_append]
  cases h1 : l.mapM f with
  | error e => simp [bind, Except.bind]
  | ok a =>
    cases h2 : m.mapM f with
    | error e => simp [bind, Except.bind]
    | ok c =>
      simp only [except_ok_bind, except_pure, Except.ok.injEq]
      constructor
      · intro h; exact ⟨a, c, rfl, rfl, h.symm⟩
      · rintro ⟨_, _, rfl, rfl, h⟩; exact h.symm

/-- C96: a composition without products with scaling terms has a state space representation when one of its parts has,
and it is what the parts give, one after the other. -/
theorem C96_ssr_partial (t : CovTree F X S) (hu : t.Unscaled) : (t.ssr = none ↔ t.leafSsrs = []) ∧
    ∀ f, t.ssr = some f → ∀ xs out, f xs = .ok out ↔
      ∃ parts, t.leafSsrs.mapM (· xs) = .ok parts ∧ out = parts.flatten := by
  induction t with
  | leaf n m k s =>
    cases s with
    | none => simp [CovTree.ssr, CovTree.leafSsrs]
    | some g =>
      refine ⟨by simp [CovTree.ssr, CovTree.leafSsrs], fun f hf xs out => ?_⟩
      cases hf
      simp only [CovTree.leafSsrs, Option.toList_some, List.mapM_cons, List.mapM_nil]
      cases g xs with
      | error e => simp [bind, Except.bind]
      | ok v => simp [except_ok_bind, except_pure, eq_comm]
  | node op l r ihl ihr =>
    obtain ⟨l1, l2⟩ := ihl hu.2.1
    obtain ⟨r1, r2⟩ := ihr hu.2.2
    have key : (CovTree.node op l r).ssr = match l.ssr, r.ssr with
        | some f, some g => some fun xs => do
          let a ← f xs
          let c ← g xs
          pure (a ++ c)
        | some f, none => some f
        | none, some g => some g
        | none, none => none := by
      rcases hu.1 with rfl | rfl <;> rfl
    rw [key]
    cases hl : l.ssr with
    | none =>
      rw [CovTree.leafSsrs, l1.1 hl, List.nil_append]
      cases hr : r.ssr with
      | none => exact ⟨by simp [r1.1 hr], by simp⟩
      | some g => exact ⟨by rw [← r1, hr], fun f hf => by cases hf; exact r2 g hr⟩
    | some f =>
      have hne : l.leafSsrs ≠ [] := fun h => by rw [l1.2 h] at hl; cases hl
      cases hr : r.ssr with
      | none =>
        rw [CovTree.leafSsrs, r1.1 hr, List.append_nil]
        exact ⟨by simp [hne], fun f' hf => by cases hf; exact l2 f hl⟩
      | some g =>
        refine ⟨by simp [CovTree.leafSsrs, hne], fun f' hf xs out => ?_⟩
        simp only [Option.some.injEq] at hf
        subst hf
        simp only [CovTree.leafSsrs, mapM_append_ok, except_bind_eq_ok, except_pure, Except.ok.injEq]
        constructor
        · rintro ⟨a, ha, c, hc, rfl⟩
          obtain ⟨pa, h1, rfl⟩ := (l2 f hl xs a).1 ha
          obtain ⟨pc, h2, rfl⟩ := (r2 g hr xs c).1 hc
          exact ⟨pa ++ pc, ⟨pa, pc, h1, h2, rfl⟩, by simp⟩
        · rintro ⟨parts, ⟨pa, pc, h1, h2, rfl⟩, rfl⟩
          exact ⟨_, (l2 f hl xs _).2 ⟨pa, h1, rfl⟩, _, (r2 g hr xs _).2 ⟨pc, h2, rfl⟩, by simp⟩

/-- A leaf whose state space representation is one given point. -/
def pointTree (p : S) : CovTree F X S := .leaf [] [] ⟨fun _ _ => true, fun _ _ _ _ => 1⟩ (some fun _ => pure [p])

/-- C96: a product with a scaling term has no state space representation whatever the other factor has, so in a sum its
points are silently left out. -/
theorem C96_scaled_ssr (op : CovOp) (hop : op = .scaledLeft ∨ op = .scaledRight) (l r t : CovTree F X S) :
    (CovTree.node op l r).ssr = none ∧ (CovTree.node .sum (.node op l r) t).ssr = t.ssr ∧
      (CovTree.node .sum t (.node op l r)).ssr = t.ssr := by
  have h : (CovTree.node op l r).ssr = none := by rcases hop with rfl | rfl <;> rfl
  refine ⟨h, ?_, ?_⟩ <;> rw [CovTree.ssr, h] <;> cases t.ssr <;> rfl

/-- C96 is false for a product with a scaling term. -/
theorem C96_ssr_false : ¬ SsrCoversLeaves (fun _ : Unit => ℝ) ℝ ℝ := by
  intro h
  obtain ⟨h1, -⟩ := h (.node .scaledLeft (.leaf [] [] ⟨fun _ _ => true, fun _ _ _ _ => 1⟩ none) (pointTree 0))
  have := h1.1 rfl
  simp [CovTree.leafSsrs, pointTree] at this

/-- C96: the constant offers its state under another name, so it is left out of any sum or product. -/
theorem C96_constant_left_out (sigma : ℝ) (op : CovOp) (hop : op = .sum ∨ op = .product) (t : CovTree F X S) :
    (CovTree.node op (constantTree sigma) t).ssr = t.ssr ∧ (CovTree.node op t (constantTree sigma)).ssr = t.ssr := by
  have h : (constantTree sigma : CovTree F X S).ssr = none := rfl
  constructor <;> rcases hop with rfl | rfl <;> rw [CovTree.ssr, h] <;> cases t.ssr <;> rfl

/-! ## Uniformly spaced inducing points -/

theorem uniformInducingPoints_eq (b : Build) (n : Nat) (xs : List Dbl) (mn mx : Dbl) (h1 : minElement xs = .ok mn)
    (h2 : maxElement xs = .ok mx) : uniformInducingPoints b n xs = linspace b mn mx n := by
  unfold uniformInducingPoints
  rw [h1, h2, except_ok_bind, except_ok_bind]

/-- C96: two or more uniformly spaced inducing points run from the smallest to the largest feature, both included. -/
theorem C96_uniform_points (b : Build) (n : Nat) (h2 : 2 ≤ n) (hn : n ≤ 2 ^ 53 + 1) (xs : List ℝ) (hne : xs ≠ []) :
    ∃ mn ∈ xs, ∃ mx ∈ xs, (∀ x ∈ xs, mn ≤ x ∧ x ≤ mx) ∧
      ∃ g, uniformInducingPoints b n (xs.map .fin) = .ok g ∧ IsLinspace mn mx n g ∧
        ∀ p ∈ g, ∃ r : ℝ, p = .fin r ∧ mn ≤ r ∧ r ≤ mx := by
  rcases xs with - | ⟨x, t⟩
  · exact absurd rfl hne
  obtain ⟨mn, a1, a2, a3, a4⟩ := foldl_minElement_spec t x
  obtain ⟨mx, b1, b2, b3, b4⟩ := foldl_maxElement_spec t x
  refine ⟨mn, by rcases a1 with h | h <;> simp [h], mx, by rcases b1 with h | h <;> simp [h], fun y hy => ?_, ?_⟩
  · rcases List.mem_cons.1 hy with rfl | hy
    · exact ⟨a2, b2⟩
    · exact ⟨a3 y hy, b3 y hy⟩
  have he : uniformInducingPoints b n ((x :: t).map .fin) = linspace b (.fin mn) (.fin mx) n :=
    uniformInducingPoints_eq b n _ _ _ (by rw [List.map_cons, minElement, a4]) (by rw [List.map_cons, maxElement, b4])
  obtain ⟨g, hg, hlin⟩ := C71_linspace_partial b mn mx n h2 hn
  obtain ⟨g', hg', hl', hx'⟩ := linspace_eq b mn mx n h2 hn
  rw [hg] at hg'
  cases hg'
  clear hn
  refine ⟨g, he.trans hg, hlin, fun p hp => ?_⟩
  obtain ⟨i, hi, rfl⟩ := List.getElem_of_mem hp
  have hi' : i < n := hl' ▸ hi
  have hpi := hx' i hi'
  rw [List.getElem?_eq_getElem hi, Option.some.injEq] at hpi
  refine ⟨_, hpi, ?_⟩
  have hm : mn ≤ mx := a2.trans b2
  have hpos : (0 : ℝ) < ((n - 1 : Nat) : ℝ) := by exact_mod_cast (by omega : 0 < n - 1)
  have hq : 0 ≤ (mx - mn) / ((n - 1 : Nat) : ℝ) := div_nonneg (by linarith) hpos.le
  have hi1 : (i : ℝ) ≤ ((n - 1 : Nat) : ℝ) := by exact_mod_cast (by omega : i ≤ n - 1)
  have h3 : (i : ℝ) * ((mx - mn) / ((n - 1 : Nat) : ℝ)) ≤ mx - mn :=
    (mul_le_mul_of_nonneg_right hi1 hq).trans (by rw [mul_div_cancel₀ _ hpos.ne'])
  have h4 : 0 ≤ (i : ℝ) * ((mx - mn) / ((n - 1 : Nat) : ℝ)) := by positivity
  constructor <;> linarith

/-- C96: one point is the smallest feature; asking for no points stops a debug build and returns none otherwise; no
features is undefined behaviour. -/
theorem C96_uniform_points_degenerate (b : Build) (n : Nat) (xs : List ℝ) (hne : xs ≠ []) :
    (∃ mn ∈ xs, (∀ x ∈ xs, mn ≤ x) ∧ uniformInducingPoints b 1 (xs.map .fin) = .ok [.fin mn]) ∧
    uniformInducingPoints .debug 0 (xs.map .fin) = .error .assertFail ∧
    uniformInducingPoints .ndebug 0 (xs.map .fin) = .ok [] ∧
    uniformInducingPoints b n [] = .error .ub := by
  rcases xs with - | ⟨x, t⟩
  · exact absurd rfl hne
  obtain ⟨mn, a1, a2, a3, a4⟩ := foldl_minElement_spec t x
  obtain ⟨mx, b1, b2, b3, b4⟩ := foldl_maxElement_spec t x
  have he : ∀ b n, uniformInducingPoints b n ((x :: t).map .fin) = linspace b (.fin mn) (.fin mx) n := fun b n =>
    uniformInducingPoints_eq b n _ _ _ (by rw [List.map_cons, minElement, a4]) (by rw [List.map_cons, maxElement, b4])
  refine ⟨⟨mn, by rcases a1 with h | h <;> simp [h], fun y hy => ?_, by rw [he, C71_single]⟩, ?_, ?_, rfl⟩
  · rcases List.mem_cons.1 hy with rfl | hy
    · exact a2
    · exact a3 y hy
  · rw [he, (C71_empty _ _).1]
  · rw [he, (C71_empty _ _).2]

/-! ## Names and values of composed functions -/

/-- C96: the name of a composed function shows its parts and whether it adds or multiplies them. -/
theorem C96_names (l r : CovTree F X S) :
    (CovTree.node .sum l r).name = ['('] ++ l.name ++ ['+'] ++ r.name ++ [')'] ∧
    ∀ op ∈ [CovOp.product, .scaledLeft, .scaledRight],
      (CovTree.node op l r).name = ['('] ++ l.name ++ ['*'] ++ r.name ++ [')'] := by
  refine ⟨by simp [CovTree.name, CovOp.symbol], fun op hop => ?_⟩
  simp only [List.mem_cons, List.not_mem_nil, or_false] at hop
  rcases hop with rfl | rfl | rfl <;> simp [CovTree.name, CovOp.symbol]

/-- C96: a tree with a scaling term on either side has the scaled values of the other side (for the pairs of features
of `C75_scaling_partial`). -/
theorem C96_scaled_tree (n m : List Char) (ssr : Option (List X → Outcome (List S))) (on : T → Bool)
    (f : (t : T) → F t → ℝ) (r : CovTree F X S) (x y : Feat F)
    (h : x.meas = y.meas ∨ on x.ty = false ∨ on y.ty = false) :
    kernel (CovTree.node .scaledLeft (.leaf n m (scalingTerm (scalingOn on) (scalingFn f)) ssr) r).caller x y =
      scale on f x * scale on f y * kernel r.caller x y ∧
    kernel (CovTree.node .scaledRight r (.leaf n m (scalingTerm (scalingOn on) (scalingFn f)) ssr)).caller x y =
      scale on f x * scale on f y * kernel r.caller x y :=
  C75_scaling_partial on f r.caller x y h

/-! ## The hypotheses can be met -/

/-- A sum of a constant and a product, for `C96_trace_readable`, `C96_trace_names_partial` and `C96_ssr_partial`. -/
noncomputable example : ∃ t : CovTree (fun _ : Unit => ℝ) ℝ ℝ, t.NamesVisible ∧ t.NamesByType ∧ t.Unscaled ∧
    t.size = 5 ∧ t.ssr ≠ none ∧ t.name = "(constant+(constant*p))".toList :=
  ⟨.node .sum (constantTree 2) (.node .product (constantTree 1) (.leaf ['p'] ['p']
    ⟨fun _ _ => true, fun _ _ _ _ => 1⟩ (some fun xs => pure xs))),
    ⟨⟨'c', "onstant".toList, rfl, by decide⟩, ⟨'c', "onstant".toList, rfl, by decide⟩, 'p', [], rfl, by decide⟩,
    ⟨rfl, rfl, rfl⟩, ⟨Or.inl rfl, trivial, Or.inr rfl, trivial, trivial⟩, rfl, by simp [CovTree.ssr, constantTree], rfl⟩

/-- For `C96_small_values`. -/
example : (0 : ℝ) ≤ 1 / 10 ^ 8 ∧ (1 / 10 ^ 8 : ℝ) < 5 / 10 ^ 7 := by norm_num

/-- For `C96_uniform_points`. -/
example : (2 : Nat) ≤ 10 ∧ 10 ≤ 2 ^ 53 + 1 ∧ ([3, 1, 2] : List ℝ) ≠ [] := ⟨by norm_num, by norm_num, List.cons_ne_nil _ _⟩

end Albatross
