import Verif.Traits
import Mathlib.Data.List.Nodup
import Mathlib.Tactic.Tauto

/-! # Type traits decide what their names say -/

namespace Albatross

/-- The types a value of the type can hold. -/
def CppType.holds : CppType → List CppType
  | .variant ts => ts
  | t => [t]

/-- No alternative of the variant is a variant. -/
def Flat (ts : List CppType) : Prop := ∀ t ∈ ts, t.isVariant = false

theorem isInAlternatives_iff (t : CppType) (ts : List CppType) : isInAlternatives t ts = true ↔ t ∈ ts := by
  induction ts with
  | nil => simp [isInAlternatives]
  | cons a ts ih =>
    cases ts with
    | nil => simp [isInAlternatives]
    | cons b ts => rw [isInAlternatives, Bool.or_eq_true, ih, List.mem_cons]; simp; simp

/-! ## Variants -/

/-- **C129**: a type is found in a variant exactly if it is one of the alternatives. -/
theorem C129_in_variant (t y : CppType) : isInVariant t y = true ↔ ∃ ts, y = .variant ts ∧ t ∈ ts := by
  cases y <;> simp [isInVariant, isInAlternatives_iff]

/-- **C129**, for variants without variants among their alternatives: `variant_any` and `variant_all` are "some" and
"every", and a variant is a sub variant if its alternatives are alternatives of the other one. -/
theorem C129_variants_partial (e : CppType → Bool) (ts : List CppType) (h : Flat ts) (y : CppType) :
    (variantAny e ts = true ↔ ∃ t ∈ ts, e t = true) ∧ (variantAll e ts = true ↔ ∀ t ∈ ts, e t = true) ∧
      (isSubVariant (.variant ts) y = true ↔ ∀ t ∈ ts, ∃ ys, y = .variant ys ∧ t ∈ ys) := by
  have hany : variantAny e ts = true ↔ ∃ t ∈ ts, e t = true := by
    induction ts with
    | nil => simp [variantAny]
    | cons a ts ih =>
      have ha := h a (by simp)
      cases ts with
      | nil => simp [variantAny, ha]
      | cons b ts =>
        rw [variantAny, ha, List.exists_mem_cons_iff, ← ih fun t ht => h t (List.mem_cons_of_mem _ ht)]
        · simp
        · simp
  have hall : ∀ e : CppType → Bool, variantAll e ts = true ↔ ∀ t ∈ ts, e t = true := by
    intro e
    clear hany
    induction ts with
    | nil => simp [variantAll]
    | cons a ts ih =>
      have ha := h a (by simp)
      cases ts with
      | nil => simp [variantAll, ha]
      | cons b ts =>
        rw [variantAll, ha, List.forall_mem_cons, ← ih fun t ht => h t (List.mem_cons_of_mem _ ht)]
        · simp
        · simp
  refine ⟨hany, hall e, ?_⟩
  rw [isSubVariant, hall]
  exact forall₂_congr fun t _ => C129_in_variant t y

/-- Alternatives which are variants are not looked at: a variant of a variant is a sub variant of everything, and
what stands behind it is not looked at either. -/
theorem C129_variants_false :
    isSubVariant (.variant [.variant [.named 0]]) (.variant [.named 1]) = true ∧
    isSubVariant (.variant [.variant [.named 0]]) (.named 1) = true ∧
    variantAll (fun t => decide (t = .named 1)) [.variant [.named 1], .named 0] = true ∧
    variantAny (fun t => decide (t = .named 1)) [.variant [.named 0], .named 1] = false := by decide

/-- **C129**: types which are not variants are no sub variants. -/
theorem C129_not_sub_variant (x y : CppType) (h : x.isVariant = false) : isSubVariant x y = false := by
  cases x <;> simp_all [isSubVariant, CppType.isVariant]

/-! ## Setting variants -/

/-- **C129**: without variants within variants, `set_variant` takes a value exactly if all it can hold can be held by the
variant to set; a value of another type is refused with an explanation, a variant without. -/
theorem C129_set_variant_partial (x : CppType) (ts : List CppType) (h : Flat x.holds) :
    (setVariantOverload x ts = .convert ∨ setVariantOverload x ts = .assign ↔ ∀ t ∈ x.holds, t ∈ ts) ∧
      (setVariantOverload x ts = .convert → x.isVariant = true) ∧
      (setVariantOverload x ts = .assign → x.isVariant = false) ∧
      (setVariantOverload x ts = .refuse → x.isVariant = false) ∧
      (setVariantOverload x ts = .missing → x.isVariant = true) := by
  cases hx : x.isVariant
  · have hs := C129_not_sub_variant x (.variant ts) hx
    have hh : x.holds = [x] := by cases x <;> first | rfl | cases hx
    rw [hh]
    unfold setVariantOverload
    rw [hs, hx]
    by_cases hm : x ∈ ts
    · simp [isInVariant, (isInAlternatives_iff x ts).2 hm, hm]
    · have : isInAlternatives x ts = false := by
        rw [← Bool.not_eq_true, isInAlternatives_iff]; exact hm
      simp [isInVariant, this, hm]
  · obtain ⟨xs, rfl⟩ : ∃ xs, x = .variant xs := by
      cases x <;> first | exact ⟨_, rfl⟩ | cases hx
    have key := (C129_variants_partial (fun _ => true) xs h (.variant ts)).2.2
    unfold setVariantOverload
    cases hs : isSubVariant (.variant xs) (.variant ts)
    · rw [hs] at key
      simp only [CppType.holds, hx]
      simp at key ⊢
      exact key
    · rw [hs] at key
      simp only [CppType.holds, hx]
      simp at key ⊢
      exact key

/-- A variant holding a variant is said to convert to a variant which cannot hold it. -/
theorem C129_set_variant_false :
    setVariantOverload (.variant [.variant [.named 0]]) [.named 1] = .convert ∧
      ¬ ∀ t ∈ (CppType.variant [.variant [.named 0]]).holds, t ∈ [CppType.named 1] := by decide

/-! ## Concatenating -/

/-- **C129**: the element type of concatenated vectors can hold exactly what the two can hold; no type is listed twice
if none was. -/
theorem C129_concatenation (x y z : CppType) (h : concatenateElement x y = some z) :
    (∀ t, t ∈ z.holds ↔ t ∈ x.holds ∨ t ∈ y.holds) ∧ (x.holds.Nodup → y.holds.Nodup → z.holds.Nodup) ∧
      (x = y → z = x) := by
  unfold concatenateElement at h
  split at h
  · next he =>
    cases h
    subst he
    exact ⟨fun t => by simp, fun h _ => h, fun _ => rfl⟩
  · next he =>
    split at h
    · cases h
    · next hv =>
      cases h
      unfold concatenationType
      rw [if_neg he]
      have hi : ∀ u ts, isInVariant u (.variant ts) = true ↔ u ∈ ts := isInAlternatives_iff
      refine ⟨?_, ?_, fun h => absurd h he⟩
      · intro t
        cases x <;> cases y <;> simp [CppType.isVariant] at hv ⊢
        all_goals try simp [CppType.holds]
        case named.variant n ts =>
          by_cases hm : .named n ∈ ts <;> simp [hi, hm]
          rintro rfl; exact hm
        case wrap.variant w u ts =>
          by_cases hm : .wrap w u ∈ ts <;> simp [hi, hm]
          rintro rfl; exact hm
        case variant.named ts n =>
          by_cases hm : .named n ∈ ts <;> simp [hi, hm]
          rintro rfl; exact hm
        case variant.wrap ts w u =>
          by_cases hm : .wrap w u ∈ ts <;> simp [hi, hm]
          rintro rfl; exact hm
      · cases x <;> cases y <;> simp [CppType.isVariant] at hv he ⊢
        case named.named => simpa [CppType.holds] using he
        case named.wrap => simp [CppType.holds]
        case wrap.named => simp [CppType.holds]
        case wrap.wrap => simpa [CppType.holds] using he
        case named.variant n ts =>
          by_cases hm : .named n ∈ ts <;> simp [CppType.holds, hi, hm]
        case wrap.variant w u ts =>
          by_cases hm : .wrap w u ∈ ts <;> simp [CppType.holds, hi, hm]
        case variant.named ts n =>
          by_cases hm : .named n ∈ ts <;> simp [CppType.holds, hi, hm, List.nodup_append]
          intro hn
          exact ⟨hn, fun u hu hc => hm (hc ▸ hu)⟩
        case variant.wrap ts w u =>
          by_cases hm : .wrap w u ∈ ts <;> simp [CppType.holds, hi, hm, List.nodup_append]
          intro hn
          exact ⟨hn, fun u hu hc => hm (hc ▸ hu)⟩

/-- **C129**: only vectors of two different variants cannot be concatenated. -/
theorem C129_concatenation_missing (x y : CppType) :
    concatenateElement x y = none ↔ x ≠ y ∧ x.isVariant = true ∧ y.isVariant = true := by
  unfold concatenateElement
  by_cases h : x = y <;> cases x.isVariant <;> cases y.isVariant <;> simp [h]

/-! ## Merging -/

/-- **C129**: a merge function is used exactly if it can be called, with the key if it takes one; an intersection
explains why another function is refused. -/
theorem C129_merge_partial (m : MergeCalls) :
    ((∃ k, mapUnionFate m = .compiles k) ↔ m.withKey = true ∨ m.withoutKey = true) ∧
    ((∃ k, mapIntersectFate m = .compiles k) ↔ m.withKey = true ∨ m.withoutKey = true) ∧
    (∀ k, mapUnionFate m = .compiles k → k = m.withKey) ∧ (∀ k, mapIntersectFate m = .compiles k → k = m.withKey) ∧
    (mapIntersectFate m = .explained ↔ m.withKey = false ∧ m.withoutKey = false) := by
  obtain ⟨a, b⟩ := m
  cases a <;> cases b <;> simp [mapUnionFate, mapIntersectFate, mapUnionTraits, mapIntersectionTraits]

/-- A union never explains why a merge function is refused: the trait that would say so has no value. -/
theorem C129_merge_false : mapUnionFate ⟨false, false⟩ = .broken ∧ ∀ m, mapUnionFate m ≠ .explained := by
  refine ⟨rfl, fun ⟨a, b⟩ => ?_⟩
  cases a <;> cases b <;> decide

/-- `can_project_key` does not say whether a projection can be called. -/
theorem C129_project_key_false : ¬ ∀ invocable, canProjectKey invocable = true ↔ invocable = true := by
  intro h
  exact absurd ((h false).1 rfl) (by decide)

/-! ## Implementations -/

/-- **C129**: an implementation is invalid if it can be called but is not constant, changes an argument or returns
something else than `double`; a valid one is never reported. -/
theorem C129_call_impl (f : CallImpl) :
    (f.valid = true ↔ f.isConst = true ∧ (∀ p ∈ f.params, p = .value ∨ p = .constRef) ∧ f.returnsDouble = true) ∧
    (f.invalid = true ↔ .rvalueRef ∉ f.params ∧ (f.isConst = false ∨ .mutableRef ∈ f.params ∨ f.returnsDouble = false)) ∧
    (f.valid = true → f.possible = true ∧ f.invalid = false) := by
  have h1 : f.params.all Passing.takesConst = true ↔ ∀ p ∈ f.params, p = .value ∨ p = .constRef := by
    rw [List.all_eq_true]
    exact forall₂_congr fun p _ => by cases p <;> simp [Passing.takesConst]
  have h2 : f.params.all Passing.takesLvalue = true ↔ .rvalueRef ∉ f.params := by
    rw [List.all_eq_true]
    constructor
    · exact fun h hm => absurd (h _ hm) (by decide)
    · intro h p hp
      cases p <;> first | rfl | exact absurd hp h
  have hv : f.valid = true ↔
      f.isConst = true ∧ (∀ p ∈ f.params, p = .value ∨ p = .constRef) ∧ f.returnsDouble = true := by
    rw [CallImpl.valid, Bool.and_eq_true, Bool.and_eq_true, h1, and_assoc]
  refine ⟨hv, ?_, ?_⟩
  · rw [CallImpl.invalid, Bool.and_eq_true, Bool.not_eq_true', CallImpl.possible, h2]
    refine and_congr_right fun hr => ?_
    rw [← Bool.not_eq_true, hv]
    constructor
    · intro h
      by_contra hc
      push Not at hc
      refine h ⟨by simpa using hc.1, ?_, by simpa using hc.2.2⟩
      intro p hp
      cases p
      · exact Or.inl rfl
      · exact Or.inr rfl
      · exact absurd hp hc.2.1
      · exact absurd hp hr
    · rintro (h | h | h) ⟨h1, h2, h3⟩
      · rw [h] at h1; cases h1
      · rcases h2 _ h with h | h <;> cases h
      · rw [h] at h3; cases h3
  · intro h
    have hp : f.possible = true := by
      rw [CallImpl.possible, h2]
      intro hm
      rcases (hv.1 h).2.1 _ hm with h | h <;> cases h
    exact ⟨hp, by rw [CallImpl.invalid, hp, h]; rfl⟩

/-! ## Covariance functions of variants -/

/-- **C129**: two variants have a covariance if every alternative of both has one with itself. -/
theorem C129_variant_pair (ok : CppType → CppType → Bool) (ts ys : List CppType) :
    validCovCaller ok (.variant ts) (.variant ys) = true ↔
      (ts ≠ [] ∧ ∀ t ∈ ts, validCovCaller ok t t = true) ∧ (ys ≠ [] ∧ ∀ t ∈ ys, validCovCaller ok t t = true) := by
  have key : ∀ ts : List CppType, validForAll ok ts = true ↔ ts ≠ [] ∧ ∀ t ∈ ts, validCovCaller ok t t = true := by
    intro ts
    induction ts with
    | nil => simp [validForAll]
    | cons a ts ih =>
      cases ts with
      | nil => simp [validForAll]
      | cons b ts =>
        rw [validForAll, Bool.and_eq_true, ih, List.forall_mem_cons (a := a)]
        simp
  rw [validCovCaller, Bool.and_eq_true, key, key]

/-- **C129**: a cross covariance with a variant needs all alternatives to be valid and one of them to have a
covariance with the other type, which has to be valid too. -/
theorem C129_cross (ok : CppType → CppType → Bool) (a : CppType) (ts : List CppType) (h : Flat ts) (hne' : ts ≠ []) :
    validCrossCaller ok a (.variant ts) = true ↔
      validCovCaller ok a a = true ∧ (∀ t ∈ ts, validCovCaller ok t t = true) ∧
        ∃ t ∈ ts, validCovCaller ok a t = true := by
  have base : ∀ b : CppType, b.isVariant = false → (validCrossCaller ok a b = true ↔
      validCovCaller ok a a = true ∧ validCovCaller ok a b = true ∧ validCovCaller ok b b = true) := by
    intro b hb
    cases b with
    | variant _ => cases hb
    | _ => rw [validCrossCaller, Bool.and_eq_true, Bool.and_eq_true, and_assoc] <;> simp
  have hall : ∀ ts : List CppType, ts ≠ [] → (validForAll ok ts = true ↔ ∀ t ∈ ts, validCovCaller ok t t = true) := by
    intro ts hne
    have := C129_variant_pair ok ts ts
    rw [validCovCaller, Bool.and_self] at this
    rw [this]
    simp [hne]
  suffices ∀ ts : List CppType, Flat ts → ts ≠ [] → (validCrossCaller ok a (.variant ts) = true ↔
      validCovCaller ok a a = true ∧ (∀ t ∈ ts, validCovCaller ok t t = true) ∧
        ∃ t ∈ ts, validCovCaller ok a t = true) from this ts h hne'
  clear h hne' ts
  intro ts h hne
  induction ts with
  | nil => exact absurd rfl hne
  | cons b ts ih =>
    have hb := h b (by simp)
    cases ts with
    | nil =>
      rw [validCrossCaller, base b hb]
      simp
      tauto
    | cons c ts =>
      rw [validCrossCaller, Bool.and_eq_true, Bool.or_eq_true, base b hb,
        ih (fun t ht => h t (List.mem_cons_of_mem _ ht)) (by simp), hall _ (by simp),
        List.forall_mem_cons (a := b), List.exists_mem_cons_iff (a := b)]
      tauto

/-- **C129**: a type has a covariance with a variant if it has one with some alternative; a variant has one with itself
if all alternatives have. -/
theorem C129_variant_caller_partial (ok : CppType → CppType → Bool) (a : CppType) (ha : a.isVariant = false)
    (ts : List CppType) :
    (validVariantCaller ok a (.variant ts) = true ↔ ∃ t ∈ ts, validCovCaller ok a t = true) ∧
    (validVariantCaller ok (.variant ts) a = true ↔ ∃ t ∈ ts, validCovCaller ok t a = true) ∧
    (validVariantCaller ok (.variant ts) (.variant ts) = true ↔ ts ≠ [] ∧ ∀ t ∈ ts, validCovCaller ok t t = true) := by
  have hr : validAnyRight ok a ts = true ↔ ∃ t ∈ ts, validCovCaller ok a t = true := by
    induction ts with
    | nil => simp [validAnyRight]
    | cons b ts ih =>
      cases ts with
      | nil => simp [validAnyRight]
      | cons c ts =>
        rw [validAnyRight, Bool.or_eq_true, ih, List.exists_mem_cons_iff (a := b)]
        simp
  have hl : validAnyLeft ok a ts = true ↔ ∃ t ∈ ts, validCovCaller ok t a = true := by
    clear hr
    induction ts with
    | nil => simp [validAnyLeft]
    | cons b ts ih =>
      cases ts with
      | nil => simp [validAnyLeft]
      | cons c ts =>
        rw [validAnyLeft, Bool.or_eq_true, ih, List.exists_mem_cons_iff (a := b)]
        simp
  refine ⟨?_, ?_, ?_⟩
  · cases a <;> first | exact hr | cases ha
  · cases a <;> first | exact hl | cases ha
  · rw [validVariantCaller, if_pos rfl, C129_variant_pair, and_self]

/-- Two variants with the same alternatives in another order have a valid covariance, but not for the caller that
unpacks variants. -/
theorem C129_variant_caller_false :
    ∃ (ok : CppType → CppType → Bool) (ts ys : List CppType), (∀ t, t ∈ ts ↔ t ∈ ys) ∧
      validCovCaller ok (.variant ts) (.variant ys) = true ∧
      validVariantCaller ok (.variant ts) (.variant ys) = false := by
  refine ⟨fun _ _ => true, [.named 0, .named 1], [.named 1, .named 0], ?_, ?_, ?_⟩
  · intro t
    simp only [List.mem_cons, List.not_mem_nil, or_false]
    tauto
  · rw [C129_variant_pair]
    simp [validCovCaller]
  · rw [validVariantCaller, if_neg (by decide)]

/-- **C129**: a variant has a mean if some alternative has one. -/
theorem C129_variant_mean (ok : CppType → Bool) (ts : List CppType) (h : Flat ts) :
    validVariantMean ok ts = true ↔ ∃ t ∈ ts, ok t = true := by
  induction ts with
  | nil => simp [validVariantMean]
  | cons a ts ih =>
    have ha := h a (by simp)
    cases ts with
    | nil => simp [validVariantMean, ha]
    | cons b ts =>
      rw [validVariantMean, ha, List.exists_mem_cons_iff, ← ih fun t ht => h t (List.mem_cons_of_mem _ ht)]
      · simp
      · simp

/-- **C129**: a type is basic unless it is a linear combination, a measurement or a variant. -/
theorem C129_basic (t : CppType) :
    (t.isBasic = false ↔ (∃ s, t = .wrap .linearCombination s) ∨ t.isMeasurement = true ∨ t.isVariant = true) ∧
    (t.isMeasurement = true ↔ ∃ s, t = .wrap .measurement s) ∧ (t.isVector = true ↔ ∃ s, t = .wrap .vector s) ∧
    (t.isVariant = true ↔ ∃ ts, t = .variant ts) := by
  cases t with
  | named n => simp [CppType.isBasic, CppType.isMeasurement, CppType.isVariant, CppType.isVector]
  | wrap w s => cases w <;> simp [CppType.isBasic, CppType.isMeasurement, CppType.isVariant, CppType.isVector]
  | variant ts => simp [CppType.isBasic, CppType.isMeasurement, CppType.isVariant, CppType.isVector]

/-- A variant of two classes and a measurement has no variant among its alternatives. -/
example : Flat [.named 0, .wrap .measurement (.named 0), .named 1] := by
  intro t ht
  simp only [List.mem_cons, List.not_mem_nil, or_false] at ht
  rcases ht with rfl | rfl | rfl <;> rfl

/-- A class is added to the front of a variant. -/
example : concatenateElement (.named 2) (.variant [.named 0, .named 1]) =
    some (.variant [.named 2, .named 0, .named 1]) := by decide

end Albatross
