import Verif.Objects
import Verif.SuiteSparseProps

/-! # C91: saving and loading variants, priors and parameters -/

namespace Albatross

/-! ## Specification vocabulary -/

/-- The value goes through an archive unharmed: saving succeeds and leaves the value as it is, and loading what
was saved gives the value back, whatever is overwritten. -/
def Serial.Keeps {α : Type} (c : Serial α) (a : α) : Prop :=
  ∃ f, c.save a = .ok (f, a) ∧ ∀ old, c.load old f = .ok a

/-- A statement of a `serialize` function that keeps its member of `s`. -/
def Step.Keeps {σ : Type} (s : σ) : Step σ → Prop
  | .field m => m.serial.Keeps (m.get s) ∧ m.set s (m.get s) = s
  | .assign _ => False

/-- What a `serialize` function that keeps everything makes of `old`. -/
def transfer {σ : Type} (s : σ) : List (Step σ) → σ → σ
  | [], old => old
  | .field m :: steps, old => transfer s steps (m.set old (m.get s))
  | .assign f :: steps, old => transfer s steps (f old)

/-! ## Objects -/

theorem steps_keep {σ : Type} (text : Bool) (s : σ) (steps : List (Step σ)) (h : ∀ st ∈ steps, st.Keeps s) :
    ∃ fs, saveSteps steps s = .ok (fs, s) ∧ ∀ old before,
      loadSteps text steps old ⟨before, fs⟩ = .ok (transfer s steps old, ⟨before ++ fs, []⟩) := by
  induction steps with
  | nil => exact ⟨[], rfl, fun old before => by simp [loadSteps, transfer]⟩
  | cons st steps ih =>
    obtain ⟨fs, h1, h2⟩ := ih fun st hst => h st (by simp [hst])
    cases st with
    | assign f => exact absurd (h (.assign f) (by simp)) id
    | field m =>
      obtain ⟨⟨f, h3, h4⟩, h5⟩ := h (.field m) (by simp)
      refine ⟨(m.name, f) :: fs, ?_, fun old before => ?_⟩
      · simp only [saveSteps, h3, except_ok_bind, h5, h1]; rfl
      · simp only [loadSteps, next_cons, except_ok_bind, h4, h2, transfer, List.append_assoc, List.cons_append,
          List.nil_append]

/-- An object all of whose statements keep their members. -/
theorem object_keeps {σ : Type} (io : Io) (s : σ) (steps : List (Step σ)) (h : ∀ st ∈ steps, st.Keeps s)
    (ht : ∀ old, transfer s steps old = s) : (objectSerial io steps).Keeps s := by
  obtain ⟨fs, h1, h2⟩ := steps_keep io.text s steps h
  refine ⟨.node fs, ?_, fun old => ?_⟩
  · simp only [objectSerial, h1, except_ok_bind]; rfl
  · simp only [objectSerial, membersOf, except_ok_bind, Reader.start, h2, ht]; rfl

theorem int_keeps (io : Io) (n : Int) : (intSerial io).Keeps n := ⟨_, rfl, fun _ => rfl⟩
theorem nat_keeps (io : Io) (n : Nat) : (natSerial io).Keeps n := ⟨_, rfl, fun _ => rfl⟩
theorem dbl_keeps (io : Io) (x : Dbl) : (dblSerial io).Keeps x := ⟨_, rfl, fun _ => rfl⟩
theorem flag_keeps (io : Io) (x : Bool) : (flagSerial io).Keeps x := ⟨_, rfl, fun _ => rfl⟩
theorem string_keeps (io : Io) (x : String) : (stringSerial io).Keeps x := ⟨_, rfl, fun _ => rfl⟩

/-! ## Containers -/

theorem elements_keep {α : Type} (c : Serial α) (init : α) (xs : List α) (h : ∀ x ∈ xs, c.Keeps x) (i : Nat) :
    ∃ fs, saveElements c i xs = .ok (fs, xs) ∧ ∀ old, loadElements c init i old fs = .ok xs := by
  induction xs generalizing i with
  | nil => exact ⟨[], rfl, fun _ => rfl⟩
  | cons x xs ih =>
    obtain ⟨fs, h1, h2⟩ := ih (fun x hx => h x (by simp [hx])) (i + 1)
    obtain ⟨f, h3, h4⟩ := h x (by simp)
    refine ⟨(autoName i, f) :: fs, ?_, fun old => ?_⟩
    · simp only [saveElements, h3, except_ok_bind, h1]; rfl
    · simp only [loadElements, h4, except_ok_bind, h2]; rfl

theorem vector_keeps {α : Type} (io : Io) (c : Serial α) (init : α) (xs : List α) (h : ∀ x ∈ xs, c.Keeps x) :
    (vectorSerial io c init).Keeps xs := by
  obtain ⟨fs, h1, h2⟩ := elements_keep c init xs h 0
  refine ⟨.node fs, ?_, fun old => ?_⟩
  · simp only [vectorSerial, h1, except_ok_bind]; rfl
  · simp only [vectorSerial, membersOf, except_ok_bind, h2]

theorem map_keeps {κ ν : Type} [LinearOrder κ] (io : Io) (k : Serial κ) (v : Serial ν) (init : κ × ν) (m : SMap κ ν)
    (hm : SMap.WF m) (hk : ∀ p ∈ m, k.Keeps p.1) (hv : ∀ p ∈ m, v.Keeps p.2) : (mapSerial io k v init).Keeps m := by
  have hp : ∀ p ∈ m, (objectSerial io (pairSteps k v)).Keeps p := fun p hp =>
    object_keeps io p _ (by simp [pairSteps, Step.Keeps, hk p hp, hv p hp]) fun _ => rfl
  obtain ⟨fs, h1, h2⟩ := elements_keep _ init m hp 0
  refine ⟨.node fs, ?_, fun old => ?_⟩
  · simp only [mapSerial, h1, except_ok_bind]; rfl
  · simp only [mapSerial, membersOf, except_ok_bind, h2]
    rw [except_pure, SMap.ofList_of_wf hm]

/-! ## Variants -/

theorem loadVariant_hit (io : Io) (alts : List Alternative) (old : Variant alts) (r : Reader) (i : Fin alts.length)
    (n : Nat) (h : n ≤ i.val) :
    loadVariant io alts i.val old r n = (do
      let (f, _) ← r.next io.text "data"
      let value ← (alts.get i).serial.load (alts.get i).init f
      pure ⟨i, value⟩) := by
  obtain ⟨k, hk⟩ := Nat.exists_eq_add_of_le h
  induction k generalizing n with
  | zero =>
    have : n = i.val := by omega
    subst this
    unfold loadVariant
    rw [dif_pos i.isLt, if_pos rfl]
  | succ k ih =>
    unfold loadVariant
    rw [dif_pos (by omega), if_neg (by omega)]
    exact ih (n + 1) (by omega) (by omega)

theorem loadVariant_miss (io : Io) (alts : List Alternative) (old : Variant alts) (r : Reader) (t : Int)
    (h : t < 0 ∨ (alts.length : Int) ≤ t) (n : Nat) :
    loadVariant io alts t old r n = (do
      albatrossAssert io.b false
      pure old) := by
  induction hk : alts.length - n generalizing n with
  | zero =>
    unfold loadVariant
    rw [dif_neg (by omega)]
  | succ k ih =>
    unfold loadVariant
    rw [dif_pos (by omega), if_neg (by omega)]
    exact ih (n + 1) (by omega)

/-- **C91**: a variant of any types, holding any of them, survives saving and loading in both versions of the
format, whatever the variant that is loaded over holds. -/
theorem C91_variant (io : Io) (version : Nat) (alts : List Alternative) (v : Variant alts)
    (h : (alts.get v.1).serial.Keeps v.2) : (variantSerial io version alts).Keeps v := by
  obtain ⟨i, value⟩ := v
  obtain ⟨f, h1, h2⟩ := h
  have ha : decide ((i.val : Int) < alts.length) = true := by simp
  refine ⟨.node ([("which", .int i.val)] ++
    (if 0 < version then [("which_typeid", .name (alts.get i).typeName)] else []) ++ [("data", f)]), ?_, fun old => ?_⟩
  · simp only [variantSerial, h1, except_ok_bind]; rfl
  · by_cases hv : 0 < version
    · simp only [variantSerial, membersOf, except_ok_bind, Reader.start, hv, if_true, List.cons_append,
        List.nil_append, readInt_cons, readName_cons, ha, albatrossAssert_true,
        loadVariant_hit io alts old _ i 0 (Nat.zero_le _), next_cons, h2]
      rfl
    · simp only [variantSerial, membersOf, except_ok_bind, Reader.start, hv, if_false, List.cons_append,
        List.nil_append, readInt_cons, loadVariant_hit io alts old _ i 0 (Nat.zero_le _), next_cons, h2]
      rfl

/-- **C91**: an archive with an index that is not one of the types — negative ones included — stops a debug build
with an assertion, and in a build without assertions leaves the variant that was to be loaded as it was. -/
theorem C91_bad_index (io : Io) (alts : List Alternative) (version : Nat) (which : Int)
    (h : which < 0 ∨ (alts.length : Int) ≤ which) (name : String) (data : Field) (old : Variant alts) :
    (variantSerial io version alts).load old (.node ([("which", .int which)] ++
      (if 0 < version then [("which_typeid", .name name)] else []) ++ [("data", data)])) =
        match io.b with
        | .debug => .error .assertFail
        | .ndebug => .ok old := by
  by_cases hv : 0 < version
  · simp only [variantSerial, membersOf, except_ok_bind, Reader.start, hv, if_true, List.cons_append,
      List.nil_append, readInt_cons, readName_cons, loadVariant_miss io alts old _ which h 0]
    cases hb : io.b
    · by_cases hw : which < alts.length
      · simp [hw, albatrossAssert, except_error_bind, except_pure]
      · simp [hw, albatrossAssert]
    · by_cases hw : which < alts.length
      · simp [hw, albatrossAssert]
      · simp [hw, albatrossAssert]
  · simp only [variantSerial, membersOf, except_ok_bind, Reader.start, hv, if_false, List.cons_append,
      List.nil_append, readInt_cons, loadVariant_miss io alts old _ which h 0]
    cases hb : io.b
    · simp [albatrossAssert]
    · simp [albatrossAssert]

/-- **C91**: the type name in the archive has no influence on what is loaded. -/
theorem C91_type_name_ignored (io : Io) (alts : List Alternative) (version : Nat) (hv : 0 < version) (which : Int)
    (a b : String) (data : Field) (old : Variant alts) :
    (variantSerial io version alts).load old (.node [("which", .int which), ("which_typeid", .name a), ("data", data)]) =
      (variantSerial io version alts).load old
        (.node [("which", .int which), ("which_typeid", .name b), ("data", data)]) := by
  by_cases h : which < 0 ∨ (alts.length : Int) ≤ which
  · have h1 := C91_bad_index io alts version which h a data old
    have h2 := C91_bad_index io alts version which h b data old
    rw [if_pos hv] at h1 h2
    exact h1.trans h2.symm
  · obtain ⟨i, rfl⟩ : ∃ i : Fin alts.length, which = i.val := ⟨⟨which.toNat, by omega⟩, by simp; omega⟩
    simp only [variantSerial, membersOf, except_ok_bind, Reader.start, hv, if_true, readInt_cons, readName_cons,
      loadVariant_hit io alts old _ i 0 (Nat.zero_le _), next_cons]

/-- Two variants with the same types in different orders. -/
def gaussianFirst (io : Io) : List Alternative :=
  [⟨Dbl × Dbl, "GaussianPrior", objectSerial io (momentsSteps io), (.fin 0, .fin 1)⟩,
    ⟨Dbl × Dbl, "LogNormalPrior", objectSerial io (momentsSteps io), (.fin 0, .fin 1)⟩]

def logNormalFirst (io : Io) : List Alternative := (gaussianFirst io).reverse

/-- **C91**: the claim that loading a variant gives the type that was saved, or an error, is false: the type name
is saved but not checked, so that after a reordering of the types a Gaussian prior comes back as a log normal
one. -/
theorem C91_type_checked_false (io : Io) :
    ¬ ∀ (v : Variant (gaussianFirst io)) (f : Field) (v' : Variant (gaussianFirst io)),
      (variantSerial io variantVersion (gaussianFirst io)).save v = .ok (f, v') →
      ∀ old w : Variant (logNormalFirst io), (variantSerial io variantVersion (logNormalFirst io)).load old f = .ok w →
        ((logNormalFirst io).get w.1).typeName = ((gaussianFirst io).get v.1).typeName := by
  intro h
  have hk : (objectSerial io (momentsSteps io)).Keeps (Dbl.fin 0, Dbl.fin 1) :=
    object_keeps io _ _ (by simp [momentsSteps, Step.Keeps, dbl_keeps]) fun _ => rfl
  let v : Variant (gaussianFirst io) := ⟨⟨0, by simp [gaussianFirst]⟩, (Dbl.fin 0, Dbl.fin 1)⟩
  let w : Variant (logNormalFirst io) := ⟨⟨0, by simp [logNormalFirst, gaussianFirst]⟩, (Dbl.fin 0, Dbl.fin 1)⟩
  obtain ⟨f, h1, h2⟩ := hk
  have hs : (variantSerial io variantVersion (gaussianFirst io)).save v =
      .ok (.node [("which", .int 0), ("which_typeid", .name "GaussianPrior"), ("data", f)], v) := by
    show (do
      let (f, value) ← (objectSerial io (momentsSteps io)).save (Dbl.fin 0, Dbl.fin 1)
      pure (Field.node _, (⟨v.1, value⟩ : Variant (gaussianFirst io)))) = _
    rw [h1]; rfl
  have hl : (variantSerial io variantVersion (logNormalFirst io)).load w
      (.node [("which", .int 0), ("which_typeid", .name "GaussianPrior"), ("data", f)]) = .ok w := by
    have hw := loadVariant_hit io (logNormalFirst io) w
      ⟨[("which", .int 0), ("which_typeid", .name "GaussianPrior")], [("data", f)]⟩ w.1 0 (Nat.zero_le _)
    have ha : decide ((0 : Int) < (logNormalFirst io).length) = true := by simp [logNormalFirst, gaussianFirst]
    simp only [variantSerial, membersOf, except_ok_bind, Reader.start, variantVersion, Nat.zero_lt_one, if_true,
      readInt_cons, readName_cons, ha, albatrossAssert_true, List.nil_append, List.cons_append]
    refine hw.trans ?_
    rw [next_cons, except_ok_bind]
    show (do
      let value ← (objectSerial io (momentsSteps io)).load (Dbl.fin 0, Dbl.fin 1) f
      pure (⟨w.1, value⟩ : Variant (logNormalFirst io))) = _
    rw [h2]; rfl
  have := h v _ v hs w w hl
  revert this
  show ¬ "LogNormalPrior" = "GaussianPrior"
  decide

/-! ## Priors and parameters -/

theorem empty_keeps (io : Io) (u : Unit) : (objectSerial io emptyPriorSteps).Keeps u :=
  object_keeps io u _ (by simp [emptyPriorSteps]) fun _ => rfl

theorem bounds_keeps (io : Io) (p : Dbl × Dbl) : (objectSerial io (boundsSteps io)).Keeps p :=
  object_keeps io p _ (by simp [boundsSteps, Step.Keeps, dbl_keeps]) fun _ => rfl

theorem moments_keeps (io : Io) (p : Dbl × Dbl) : (objectSerial io (momentsSteps io)).Keeps p :=
  object_keeps io p _ (by simp [momentsSteps, Step.Keeps, dbl_keeps]) fun _ => rfl

/-- **C91**: every prior can be held by the variant, and every value the variant can hold is a prior. -/
theorem C91_priors (io : Io) : (∀ p, Prior.ofVariant io (Prior.toVariant io p) = p) ∧
    ∀ v, Prior.toVariant io (Prior.ofVariant io v) = v := by
  refine ⟨fun p => by cases p <;> rfl, fun v => ?_⟩
  obtain ⟨⟨i, hi⟩, p⟩ := v
  have : i < 9 := by simpa [possiblePriors] using hi
  interval_cases i <;> rfl

/-- **C91**: every prior, whatever its parameters, survives saving and loading. -/
theorem C91_prior (io : Io) (p : Prior) : (objectSerial io (priorSteps io)).Keeps p := by
  refine object_keeps io p _ ?_ fun _ => (C91_priors io).1 p
  have hv : (variantSerial io variantVersion (possiblePriors io)).Keeps (Prior.toVariant io p) := by
    apply C91_variant
    cases p
    · exact empty_keeps io ()
    · exact empty_keeps io ()
    · exact empty_keeps io ()
    · exact empty_keeps io ()
    · exact bounds_keeps io _
    · exact bounds_keeps io _
    · exact moments_keeps io _
    · exact moments_keeps io _
    · exact moments_keeps io _
  intro st hst
  simp only [priorSteps, List.mem_singleton] at hst
  subst hst
  exact ⟨hv, (C91_priors io).1 p⟩

/-- **C91**: every parameter survives saving and loading, its value and its prior. -/
theorem C91_parameter (io : Io) (p : Parameter) : (objectSerial io (parameterSteps io)).Keeps p :=
  object_keeps io p _ (by simp [parameterSteps, Step.Keeps, dbl_keeps, C91_prior]) fun _ => rfl

/-- **C91**: every map of parameters survives saving and loading. -/
theorem C91_store (io : Io) (ps : ParameterStore) (h : SMap.WF ps) : (storeSerial io).Keeps ps :=
  map_keeps io _ _ _ ps h (fun _ _ => string_keeps io _) fun _ _ => C91_parameter io _

/-! ## Examples -/

/-- An archive with codecs that do nothing. -/
def plainIo (text : Bool) (b : Build) : Io := ⟨text, b, storedZstd, ⟨id, id⟩, ⟨id, id⟩, fun n => List.replicate n 9⟩

example : (storeSerial (plainIo true .debug)).Keeps
    [("length", ⟨.fin 2, .logScaleUniform (.fin 1) (.fin 5)⟩), ("sigma", ⟨.nan, .fixed⟩)] := by
  refine C91_store _ _ ?_
  rw [SMap.wf_iff_keys]
  show ["length", "sigma"].Pairwise (· < ·)
  decide

example (old : Variant (possiblePriors (plainIo true .ndebug))) (data : Field) :
    (variantSerial (plainIo true .ndebug) 1 (possiblePriors (plainIo true .ndebug))).load old
      (.node [("which", .int (-1)), ("which_typeid", .name "?"), ("data", data)]) = .ok old :=
  C91_bad_index (plainIo true .ndebug) _ 1 (-1) (.inl (by norm_num)) "?" data old

end Albatross
