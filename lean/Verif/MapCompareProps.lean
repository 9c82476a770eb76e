import Verif.MapCompare
import Verif.UtilsProps

/-! # C114: map operations with comparators that have state and keys of two types -/

namespace Albatross

variable {C K L V W X S : Type}

/-! ## Specification vocabulary -/

/-- A strict weak ordering. -/
structure WeakOrder {α : Type} (lt : α → α → Bool) : Prop where
  irrefl : ∀ x, lt x x = false
  trans : ∀ x y z, lt x y = true → lt y z = true → lt x z = true
  cotrans : ∀ x y z, lt x z = true → lt x y = true ∨ lt y z = true

/-- The comparator cannot tell the two keys apart. -/
def SameKey {α : Type} (lt : α → α → Bool) (x y : α) : Prop := lt x y = false ∧ lt y x = false

/-- Entries with keys of the first type, in order. -/
def OrderedL (lt : K ⊕ L → K ⊕ L → Bool) (es : List (K × V)) : Prop :=
  es.Pairwise fun e f => lt (.inl e.1) (.inl f.1) = true

/-- Entries with keys of the second type, in order. -/
def OrderedR (lt : K ⊕ L → K ⊕ L → Bool) (es : List (L × W)) : Prop :=
  es.Pairwise fun e f => lt (.inr e.1) (.inr f.1) = true

/-- No two of the keys are the same for the comparator. -/
def Separated (lt : K ⊕ L → K ⊕ L → Bool) (es : List (K × V)) : Prop :=
  es.Pairwise fun e f => ¬ SameKey lt (.inl e.1) (.inl f.1)

/-- A map that holds exactly the entries with property `p`, in the order of a comparator made by default. -/
def HoldsExactly (cmp : Comparing C K L) (m : CMap C K V) (p : K × V → Prop) : Prop :=
  m.comp = cmp.init ∧ OrderedL (cmp.lt cmp.init) m.entries ∧ ∀ e, e ∈ m.entries ↔ p e

/-! ## Lemmas on orders -/

theorem WeakOrder.left {lt : K ⊕ L → K ⊕ L → Bool} (h : WeakOrder lt) :
    WeakOrder fun x y : K => lt (.inl x) (.inl y) :=
  ⟨fun _ => h.irrefl _, fun _ _ _ => h.trans _ _ _, fun _ _ _ => h.cotrans _ _ _⟩

theorem WeakOrder.asymm {α : Type} {lt : α → α → Bool} (h : WeakOrder lt) {x y : α} (hxy : lt x y = true) :
    lt y x = false := by
  cases e : lt y x with
  | false => rfl
  | true =>
    have := h.trans _ _ _ hxy e
    rw [h.irrefl] at this
    exact absurd this (by simp)

theorem WeakOrder.lt_of_same {α : Type} {lt : α → α → Bool} (h : WeakOrder lt) {x y z : α} (hxy : SameKey lt x y)
    (hyz : lt y z = true) : lt x z = true := by
  rcases h.cotrans y x z hyz with e | e
  · rw [hxy.2] at e; exact absurd e (by simp)
  · exact e

theorem WeakOrder.same_lt {α : Type} {lt : α → α → Bool} (h : WeakOrder lt) {x y z : α} (hxy : lt x y = true)
    (hyz : SameKey lt y z) : lt x z = true := by
  rcases h.cotrans x z y hxy with e | e
  · exact e
  · rw [hyz.2] at e; exact absurd e (by simp)

theorem not_same_of_lt {α : Type} {lt : α → α → Bool} {x y : α} (h : lt x y = true) : ¬ SameKey lt x y := by
  rintro ⟨e, -⟩
  rw [h] at e; exact absurd e (by simp)

theorem not_same_of_gt {α : Type} {lt : α → α → Bool} {x y : α} (h : lt y x = true) : ¬ SameKey lt x y := by
  rintro ⟨-, e⟩
  rw [h] at e; exact absurd e (by simp)

theorem SameKey.symm {α : Type} {lt : α → α → Bool} {x y : α} (h : SameKey lt x y) : SameKey lt y x := ⟨h.2, h.1⟩

theorem same_or {α : Type} (lt : α → α → Bool) (x y : α) : lt x y = true ∨ lt y x = true ∨ SameKey lt x y := by
  cases h1 : lt x y <;> cases h2 : lt y x <;> simp [SameKey, h1, h2]

/-! ## Inserting -/

theorem emplaceBy_spec {lt : K → K → Bool} (h : WeakOrder lt) (k : K) (v : V) (l : List (K × V))
    (hl : l.Pairwise fun e f => lt e.1 f.1 = true) (hk : ∀ e ∈ l, ¬ SameKey lt e.1 k) :
    (emplaceBy lt l k v).Pairwise (fun e f => lt e.1 f.1 = true) ∧ ∀ e, e ∈ emplaceBy lt l k v ↔ e ∈ l ∨ e = (k, v) := by
  induction l with
  | nil => simp [emplaceBy]
  | cons x l ih =>
    rw [List.pairwise_cons] at hl
    rw [emplaceBy]
    by_cases h1 : lt k x.1 = true
    · rw [if_pos h1]
      refine ⟨?_, fun e => by simp only [List.mem_cons]; tauto⟩
      rw [List.pairwise_cons, List.pairwise_cons]
      refine ⟨?_, hl⟩
      intro e he
      rcases List.mem_cons.1 he with rfl | he
      · exact h1
      · exact h.trans _ _ _ h1 (hl.1 e he)
    · rw [if_neg h1]
      have h2 : lt x.1 k = true := by
        rcases same_or lt x.1 k with e | e | e
        · exact e
        · exact absurd e h1
        · exact absurd e (hk x (by simp))
      rw [if_pos h2]
      obtain ⟨i1, i2⟩ := ih hl.2 fun e he => hk e (by simp [he])
      refine ⟨?_, fun e => by simp only [List.mem_cons, i2]; tauto⟩
      rw [List.pairwise_cons]
      refine ⟨fun e he => ?_, i1⟩
      rcases (i2 e).1 he with he | rfl
      · exact hl.1 e he
      · exact h2

/-- Entries inserted one after the other. -/
def emplaceAll (cmp : Comparing C K L) (m : CMap C K V) (es : List (K × V)) : CMap C K V :=
  es.foldl (fun m e => m.emplace cmp e.1 e.2) m

theorem emplaceAll_spec (cmp : Comparing C K L) (hw : WeakOrder (cmp.lt cmp.init)) (es : List (K × V)) (m : CMap C K V)
    (hc : m.comp = cmp.init) (ho : OrderedL (cmp.lt cmp.init) m.entries) (hs : Separated (cmp.lt cmp.init) (m.entries ++ es)) :
    HoldsExactly cmp (emplaceAll cmp m es) fun e => e ∈ m.entries ∨ e ∈ es := by
  induction es generalizing m with
  | nil => exact ⟨hc, ho, fun e => by simp [emplaceAll]⟩
  | cons x es ih =>
    have hs' := hs
    unfold Separated at hs'
    rw [List.pairwise_append] at hs'
    obtain ⟨s1, s2, s3⟩ := hs'
    have step := emplaceBy_spec hw.left x.1 x.2 m.entries ho fun e he => s3 e he x (by simp)
    have ent : (m.emplace cmp x.1 x.2).entries =
        emplaceBy (fun x y => cmp.lt cmp.init (.inl x) (.inl y)) m.entries x.1 x.2 := by
      rw [CMap.emplace, hc]
    have := ih (m.emplace cmp x.1 x.2) hc (by rw [ent]; exact step.1) (by
      unfold Separated
      rw [List.pairwise_append]
      rw [List.pairwise_cons] at s2
      refine ⟨?_, s2.2, fun e he f hf => ?_⟩
      · rw [ent]
        exact step.1.imp fun h => not_same_of_lt h
      · rw [ent, step.2] at he
        rcases he with he | rfl
        · exact s3 e he f (by simp [hf])
        · exact s2.1 f hf)
    obtain ⟨t1, t2, t3⟩ := this
    refine ⟨t1, t2, fun e => ?_⟩
    rw [show emplaceAll cmp m (x :: es) = emplaceAll cmp (m.emplace cmp x.1 x.2) es from rfl, t3]
    dsimp only
    rw [ent, step.2, List.mem_cons]
    tauto

/-! ## What the merge visits -/

/-- One call of a callback. -/
inductive Visit (K L V W : Type)
  | onlyA (k : K) (v : V)
  | onlyB (k : L) (w : W)
  | both (k : K) (v : V) (w : W)

/-- The calls in order. -/
def visits (lt : K ⊕ L → K ⊕ L → Bool) : List (K × V) → List (L × W) → List (Visit K L V W)
  | a :: as, b :: bs =>
    if lt (.inl a.1) (.inr b.1) then .onlyA a.1 a.2 :: visits lt as (b :: bs)
    else if lt (.inr b.1) (.inl a.1) then .onlyB b.1 b.2 :: visits lt (a :: as) bs
    else .both a.1 a.2 b.2 :: visits lt as bs
  | as, [] => as.map fun a => .onlyA a.1 a.2
  | [], bs => bs.map fun b => .onlyB b.1 b.2
termination_by a b => a.length + b.length

/-- A call with the callbacks. -/
def Visit.run (onlyA : K → V → S → S) (onlyB : L → W → S → S) (merge : K → V → W → S → S) (s : S) :
    Visit K L V W → S
  | .onlyA k v => onlyA k v s
  | .onlyB k w => onlyB k w s
  | .both k v w => merge k v w s

theorem mergeBy_visits (lt : K ⊕ L → K ⊕ L → Bool) (onlyA : K → V → S → S) (onlyB : L → W → S → S)
    (merge : K → V → W → S → S) (as : List (K × V)) (bs : List (L × W)) (s : S) :
    mergeBy lt onlyA onlyB merge as bs s = (visits lt as bs).foldl (Visit.run onlyA onlyB merge) s := by
  induction as, bs using visits.induct lt generalizing s with
  | case1 a as b bs h ih => rw [mergeBy, visits, if_pos h, if_pos h, ih]; rfl
  | case2 a as b bs h1 h2 ih => rw [mergeBy, visits, if_neg h1, if_neg h1, if_pos h2, if_pos h2, ih]; rfl
  | case3 a as b bs h1 h2 ih => rw [mergeBy, visits, if_neg h1, if_neg h1, if_neg h2, if_neg h2, ih]; rfl
  | case4 as => rw [mergeBy, visits, List.foldl_map]; rfl
  | case5 bs h =>
    cases bs with
    | nil => exact absurd rfl h
    | cons b bs => rw [mergeBy, visits, List.foldl_map] <;> simp [Visit.run]

/-- The key of a call. -/
def Visit.key : Visit K L V W → K ⊕ L
  | .onlyA k _ => .inl k
  | .onlyB k _ => .inr k
  | .both k _ _ => .inl k

/-- What is to be visited. -/
def Visit.Right (lt : K ⊕ L → K ⊕ L → Bool) (as : List (K × V)) (bs : List (L × W)) : Visit K L V W → Prop
  | .onlyA k v => (k, v) ∈ as ∧ ∀ b ∈ bs, ¬ SameKey lt (.inl k) (.inr b.1)
  | .onlyB k w => (k, w) ∈ bs ∧ ∀ a ∈ as, ¬ SameKey lt (.inl a.1) (.inr k)
  | .both k v w => (k, v) ∈ as ∧ ∃ b ∈ bs, SameKey lt (.inl k) (.inr b.1) ∧ b.2 = w

theorem visits_key (lt : K ⊕ L → K ⊕ L → Bool) (as : List (K × V)) (bs : List (L × W)) (x : Visit K L V W)
    (hx : x ∈ visits lt as bs) : (∃ a ∈ as, x.key = .inl a.1) ∨ ∃ b ∈ bs, x.key = .inr b.1 := by
  induction as, bs using visits.induct lt with
  | case1 a as b bs h ih =>
    rw [visits, if_pos h] at hx
    rcases List.mem_cons.1 hx with rfl | hx
    · exact Or.inl ⟨a, by simp, rfl⟩
    · rcases ih hx with ⟨y, hy, e⟩ | ⟨y, hy, e⟩
      · exact Or.inl ⟨y, by simp [hy], e⟩
      · exact Or.inr ⟨y, hy, e⟩
  | case2 a as b bs h1 h2 ih =>
    rw [visits, if_neg h1, if_pos h2] at hx
    rcases List.mem_cons.1 hx with rfl | hx
    · exact Or.inr ⟨b, by simp, rfl⟩
    · rcases ih hx with ⟨y, hy, e⟩ | ⟨y, hy, e⟩
      · exact Or.inl ⟨y, hy, e⟩
      · exact Or.inr ⟨y, by simp [hy], e⟩
  | case3 a as b bs h1 h2 ih =>
    rw [visits, if_neg h1, if_neg h2] at hx
    rcases List.mem_cons.1 hx with rfl | hx
    · exact Or.inl ⟨a, by simp, rfl⟩
    · rcases ih hx with ⟨y, hy, e⟩ | ⟨y, hy, e⟩
      · exact Or.inl ⟨y, by simp [hy], e⟩
      · exact Or.inr ⟨y, by simp [hy], e⟩
  | case4 as =>
    rw [visits, List.mem_map] at hx
    obtain ⟨a, ha, rfl⟩ := hx
    exact Or.inl ⟨a, ha, rfl⟩
  | case5 bs h =>
    cases bs with
    | nil => exact absurd rfl h
    | cons b bs =>
      rw [visits, List.mem_map] at hx
      · obtain ⟨a, ha, rfl⟩ := hx
        exact Or.inr ⟨a, ha, rfl⟩
      · simp

/-- The calls come in the order of the keys. -/
theorem visits_ordered {lt : K ⊕ L → K ⊕ L → Bool} (hw : WeakOrder lt) (as : List (K × V)) (bs : List (L × W))
    (ha : OrderedL lt as) (hb : OrderedR lt bs) : (visits lt as bs).Pairwise fun x y => lt x.key y.key = true := by
  induction as, bs using visits.induct lt with
  | case1 a as b bs h ih =>
    unfold OrderedL at ha
    rw [List.pairwise_cons] at ha
    rw [visits, if_pos h, List.pairwise_cons]
    refine ⟨fun x hx => ?_, ih ha.2 hb⟩
    rcases visits_key lt _ _ x hx with ⟨y, hy, e⟩ | ⟨y, hy, e⟩
    · rw [e]; exact ha.1 y hy
    · rw [e]
      rcases List.mem_cons.1 hy with rfl | hy
      · exact h
      · unfold OrderedR at hb
        rw [List.pairwise_cons] at hb
        exact hw.trans _ _ _ h (hb.1 y hy)
  | case2 a as b bs h1 h2 ih =>
    unfold OrderedR at hb
    rw [List.pairwise_cons] at hb
    rw [visits, if_neg h1, if_pos h2, List.pairwise_cons]
    refine ⟨fun x hx => ?_, ih ha hb.2⟩
    rcases visits_key lt _ _ x hx with ⟨y, hy, e⟩ | ⟨y, hy, e⟩
    · rw [e]
      rcases List.mem_cons.1 hy with rfl | hy
      · exact h2
      · unfold OrderedL at ha
        rw [List.pairwise_cons] at ha
        exact hw.trans _ _ _ h2 (ha.1 y hy)
    · rw [e]; exact hb.1 y hy
  | case3 a as b bs h1 h2 ih =>
    unfold OrderedL at ha
    unfold OrderedR at hb
    rw [List.pairwise_cons] at ha hb
    rw [visits, if_neg h1, if_neg h2, List.pairwise_cons]
    refine ⟨fun x hx => ?_, ih ha.2 hb.2⟩
    rcases visits_key lt _ _ x hx with ⟨y, hy, e⟩ | ⟨y, hy, e⟩
    · rw [e]; exact ha.1 y hy
    · rw [e]
      have hs : SameKey lt (.inl a.1) (.inr b.1) := ⟨by simpa using h1, by simpa using h2⟩
      exact hw.lt_of_same hs (hb.1 y hy)
  | case4 as =>
    rw [visits, List.pairwise_map]
    exact ha
  | case5 bs h =>
    cases bs with
    | nil => exact absurd rfl h
    | cons b bs =>
      rw [visits, List.pairwise_map]
      · exact hb
      · simp

/-- The calls are the right ones. -/
theorem visits_mem {lt : K ⊕ L → K ⊕ L → Bool} (hw : WeakOrder lt) (as : List (K × V)) (bs : List (L × W))
    (ha : OrderedL lt as) (hb : OrderedR lt bs) (x : Visit K L V W) : x ∈ visits lt as bs ↔ x.Right lt as bs := by
  induction as, bs using visits.induct lt with
  | case1 a as b bs h ih =>
    have ha' := ha
    unfold OrderedL at ha'
    rw [List.pairwise_cons] at ha'
    have hb' := hb
    unfold OrderedR at hb'
    rw [List.pairwise_cons] at hb'
    have hlt : ∀ y ∈ b :: bs, lt (.inl a.1) (.inr y.1) = true := by
      intro y hy
      rcases List.mem_cons.1 hy with rfl | hy
      · exact h
      · exact hw.trans _ _ _ h (hb'.1 y hy)
    rw [visits, if_pos h, List.mem_cons, ih ha'.2 hb]
    cases x with
    | onlyA k v =>
      simp only [Visit.Right, Visit.onlyA.injEq, List.mem_cons (a := (k, v))]
      constructor
      · rintro (⟨rfl, rfl⟩ | ⟨h1, h2⟩)
        · exact ⟨Or.inl rfl, fun y hy => not_same_of_lt (hlt y hy)⟩
        · exact ⟨Or.inr h1, h2⟩
      · rintro ⟨h1 | h1, h2⟩
        · subst h1; exact Or.inl ⟨rfl, rfl⟩
        · exact Or.inr ⟨h1, h2⟩
    | onlyB k w =>
      simp only [Visit.Right, reduceCtorEq, false_or]
      constructor
      · rintro ⟨h1, h2⟩
        refine ⟨h1, fun y hy => ?_⟩
        rcases List.mem_cons.1 hy with rfl | hy
        · exact not_same_of_lt (hlt _ h1)
        · exact h2 y hy
      · rintro ⟨h1, h2⟩
        exact ⟨h1, fun y hy => h2 y (by simp [hy])⟩
    | both k v w =>
      simp only [Visit.Right, reduceCtorEq, false_or]
      constructor
      · rintro ⟨h1, h2⟩
        exact ⟨by simp [h1], h2⟩
      · rintro ⟨h1, y, hy, h2, h3⟩
        rcases List.mem_cons.1 h1 with e | h1
        · subst e
          exact absurd h2 (not_same_of_lt (hlt y hy))
        · exact ⟨h1, y, hy, h2, h3⟩
  | case2 a as b bs h1 h2 ih =>
    have ha' := ha
    unfold OrderedL at ha'
    rw [List.pairwise_cons] at ha'
    have hb' := hb
    unfold OrderedR at hb'
    rw [List.pairwise_cons] at hb'
    have hgt : ∀ y ∈ a :: as, lt (.inr b.1) (.inl y.1) = true := by
      intro y hy
      rcases List.mem_cons.1 hy with rfl | hy
      · exact h2
      · exact hw.trans _ _ _ h2 (ha'.1 y hy)
    rw [visits, if_neg h1, if_pos h2, List.mem_cons, ih ha hb'.2]
    cases x with
    | onlyA k v =>
      simp only [Visit.Right, reduceCtorEq, false_or]
      constructor
      · rintro ⟨h3, h4⟩
        refine ⟨h3, fun y hy => ?_⟩
        rcases List.mem_cons.1 hy with rfl | hy
        · exact not_same_of_gt (hgt _ h3)
        · exact h4 y hy
      · rintro ⟨h3, h4⟩
        exact ⟨h3, fun y hy => h4 y (by simp [hy])⟩
    | onlyB k w =>
      simp only [Visit.Right, Visit.onlyB.injEq, List.mem_cons (a := (k, w))]
      constructor
      · rintro (⟨rfl, rfl⟩ | ⟨h3, h4⟩)
        · exact ⟨Or.inl rfl, fun y hy => not_same_of_gt (hgt y hy)⟩
        · exact ⟨Or.inr h3, h4⟩
      · rintro ⟨h3 | h3, h4⟩
        · subst h3; exact Or.inl ⟨rfl, rfl⟩
        · exact Or.inr ⟨h3, h4⟩
    | both k v w =>
      simp only [Visit.Right, reduceCtorEq, false_or]
      constructor
      · rintro ⟨h3, y, hy, h4, h5⟩
        exact ⟨h3, y, by simp [hy], h4, h5⟩
      · rintro ⟨h3, y, hy, h4, h5⟩
        rcases List.mem_cons.1 hy with e | hy
        · subst e
          exact absurd h4 (not_same_of_gt (hgt _ h3))
        · exact ⟨h3, y, hy, h4, h5⟩
  | case3 a as b bs h1 h2 ih =>
    have hs : SameKey lt (.inl a.1) (.inr b.1) := ⟨by simpa using h1, by simpa using h2⟩
    have ha' := ha
    unfold OrderedL at ha'
    rw [List.pairwise_cons] at ha'
    have hb' := hb
    unfold OrderedR at hb'
    rw [List.pairwise_cons] at hb'
    have hlt : ∀ y ∈ bs, lt (.inl a.1) (.inr y.1) = true := fun y hy => hw.lt_of_same hs (hb'.1 y hy)
    have hgt : ∀ y ∈ as, lt (.inr b.1) (.inl y.1) = true := fun y hy => hw.lt_of_same hs.symm (ha'.1 y hy)
    rw [visits, if_neg h1, if_neg h2, List.mem_cons, ih ha'.2 hb'.2]
    cases x with
    | onlyA k v =>
      simp only [Visit.Right, reduceCtorEq, false_or]
      constructor
      · rintro ⟨h3, h4⟩
        refine ⟨by simp [h3], fun y hy => ?_⟩
        rcases List.mem_cons.1 hy with rfl | hy
        · exact not_same_of_gt (hgt _ h3)
        · exact h4 y hy
      · rintro ⟨h3, h4⟩
        rcases List.mem_cons.1 h3 with e | h3
        · subst e
          exact absurd hs (h4 b (by simp))
        · exact ⟨h3, fun y hy => h4 y (by simp [hy])⟩
    | onlyB k w =>
      simp only [Visit.Right, reduceCtorEq, false_or]
      constructor
      · rintro ⟨h3, h4⟩
        refine ⟨by simp [h3], fun y hy => ?_⟩
        rcases List.mem_cons.1 hy with rfl | hy
        · exact not_same_of_lt (hlt _ h3)
        · exact h4 y hy
      · rintro ⟨h3, h4⟩
        rcases List.mem_cons.1 h3 with e | h3
        · subst e
          exact absurd hs (h4 a (by simp))
        · exact ⟨h3, fun y hy => h4 y (by simp [hy])⟩
    | both k v w =>
      simp only [Visit.Right, Visit.both.injEq]
      constructor
      · rintro (⟨rfl, rfl, rfl⟩ | ⟨h3, y, hy, h4, h5⟩)
        · exact ⟨by simp, b, by simp, hs, rfl⟩
        · exact ⟨by simp [h3], y, by simp [hy], h4, h5⟩
      · rintro ⟨h3, y, hy, h4, h5⟩
        rcases List.mem_cons.1 h3 with e | h3
        · rcases List.mem_cons.1 hy with e' | hy
          · subst e e'
            exact Or.inl ⟨rfl, rfl, h5.symm⟩
          · subst e
            exact absurd h4 (not_same_of_lt (hlt y hy))
        · rcases List.mem_cons.1 hy with e' | hy
          · subst e'
            exact absurd h4 (not_same_of_gt (hgt _ h3))
          · exact Or.inr ⟨h3, y, hy, h4, h5⟩
  | case4 as =>
    rw [visits, List.mem_map]
    cases x with
    | onlyA k v =>
      simp only [Visit.Right, Visit.onlyA.injEq, List.not_mem_nil, false_implies, implies_true, and_true]
      constructor
      · rintro ⟨a, h, rfl, rfl⟩; exact h
      · intro h; exact ⟨_, h, rfl, rfl⟩
    | onlyB k w => simp [Visit.Right]
    | both k v w => simp [Visit.Right]
  | case5 bs h =>
    cases bs with
    | nil => exact absurd rfl h
    | cons b bs =>
      rw [visits, List.mem_map]
      · cases x with
        | onlyA k v => simp [Visit.Right]
        | onlyB k w =>
          simp only [Visit.Right, Visit.onlyB.injEq, List.not_mem_nil, false_implies, implies_true, and_true]
          constructor
          · rintro ⟨a, h, rfl, rfl⟩; exact h
          · intro h; exact ⟨_, h, rfl, rfl⟩
        | both k v w => simp [Visit.Right]
      · simp

/-! ## The results -/

theorem foldl_emplace {T : Type} (cmp : Comparing C K L) (run : CMap C K X → T → CMap C K X) (f : T → Option (K × X))
    (hrun : ∀ s x, run s x = match f x with
      | none => s
      | some e => s.emplace cmp e.1 e.2) (xs : List T) (s : CMap C K X) :
    xs.foldl run s = emplaceAll cmp s (xs.filterMap f) := by
  induction xs generalizing s with
  | nil => rfl
  | cons x xs ih =>
    rw [List.foldl_cons, hrun, List.filterMap_cons]
    cases f x with
    | none => exact ih s
    | some e => exact ih _

/-- A map is built from the calls that give an entry. -/
theorem merge_holds {c : C} (cmp : Comparing C K L) (hw : WeakOrder (cmp.lt c)) (hw0 : WeakOrder (cmp.lt cmp.init))
    (hfine : ∀ x y : K, SameKey (cmp.lt cmp.init) (.inl x) (.inl y) → SameKey (cmp.lt c) (.inl x) (.inl y))
    (as : List (K × V)) (bs : List (L × W)) (ha : OrderedL (cmp.lt c) as) (hb : OrderedR (cmp.lt c) bs)
    (onlyA : K → V → CMap C K X → CMap C K X) (onlyB : L → W → CMap C K X → CMap C K X)
    (merge : K → V → W → CMap C K X → CMap C K X) (f : Visit K L V W → Option (K × X))
    (hf : ∀ x e, x.Right (cmp.lt c) as bs → f x = some e → SameKey (cmp.lt c) x.key (.inl e.1))
    (hrun : ∀ s x, Visit.run onlyA onlyB merge s x = match f x with
      | none => s
      | some e => s.emplace cmp e.1 e.2) :
    HoldsExactly cmp (mergeBy (cmp.lt c) onlyA onlyB merge as bs (CMap.empty cmp)) fun e =>
      ∃ x : Visit K L V W, x.Right (cmp.lt c) as bs ∧ f x = some e := by
  rw [mergeBy_visits, foldl_emplace cmp _ f hrun]
  have hsep : Separated (cmp.lt cmp.init) ((visits (cmp.lt c) as bs).filterMap f) := by
    unfold Separated
    rw [List.pairwise_filterMap]
    refine (List.Pairwise.and_mem.1 (visits_ordered hw as bs ha hb)).imp ?_
    rintro x y ⟨hx, hy, hxy⟩ e he e' he' hsame
    have h1 := hf x e ((visits_mem hw as bs ha hb x).1 hx) he
    have h2 := hf y e' ((visits_mem hw as bs ha hb y).1 hy) he'
    exact not_same_of_lt (hw.same_lt (hw.lt_of_same h1.symm hxy) h2) (hfine _ _ hsame)
  obtain ⟨t1, t2, t3⟩ := emplaceAll_spec cmp hw0 ((visits (cmp.lt c) as bs).filterMap f) (CMap.empty cmp) rfl
    List.Pairwise.nil (by simpa [CMap.empty] using hsep)
  refine ⟨t1, t2, fun e => ?_⟩
  rw [t3]
  simp only [CMap.empty, List.not_mem_nil, false_or, List.mem_filterMap]
  exact exists_congr fun x => and_congr_left fun _ => visits_mem hw as bs ha hb x

section

variable (cmp : Comparing C K L) (a : CMap C K V)

/-- The comparators are those the comments of the header ask for: the comparator of the first map and the one made by
default are strict weak orderings of the keys of both types, and the one made by default tells apart the keys that the
map's comparator tells apart — as it does when it is the same comparator. -/
structure Comparable : Prop where
  weak : WeakOrder (cmp.lt a.comp)
  weakInit : WeakOrder (cmp.lt cmp.init)
  finer : ∀ x y : K, SameKey (cmp.lt cmp.init) (.inl x) (.inl y) → SameKey (cmp.lt a.comp) (.inl x) (.inl y)
  ordered : OrderedL (cmp.lt a.comp) a.entries

variable {cmp a}

/-- **C114**: `map_difference` holds the entries of the first map whose keys are not the same as one of the second, for
keys of two types. -/
theorem C114_difference_partial (h : Comparable cmp a) (b : CMap C L W) (hb : OrderedR (cmp.lt a.comp) b.entries) :
    HoldsExactly cmp (cmapDifference cmp a b) fun e =>
      e ∈ a.entries ∧ ∀ f ∈ b.entries, ¬ SameKey (cmp.lt a.comp) (.inl e.1) (.inr f.1) := by
  obtain ⟨t1, t2, t3⟩ := merge_holds cmp h.weak h.weakInit h.finer a.entries b.entries h.ordered hb
    (fun k v d => d.emplace cmp k v) (fun _ _ d => d) (fun _ _ _ d => d)
    (fun x => match x with
      | .onlyA k v => some (k, v)
      | _ => none)
    (by rintro (⟨k, v⟩ | ⟨k, w⟩ | ⟨k, v, w⟩) e hx he <;> simp only [Option.some.injEq, reduceCtorEq] at he
        subst he; exact ⟨h.weak.irrefl _, h.weak.irrefl _⟩)
    (by rintro s (⟨k, v⟩ | ⟨k, w⟩ | ⟨k, v, w⟩) <;> rfl)
  refine ⟨t1, t2, fun e => (t3 e).trans ?_⟩
  constructor
  · rintro ⟨⟨k, v⟩ | ⟨k, w⟩ | ⟨k, v, w⟩, hx, he⟩ <;> simp only [Option.some.injEq, reduceCtorEq] at he
    subst he; exact hx
  · intro he
    exact ⟨.onlyA e.1 e.2, he, rfl⟩

/-- **C114**: `map_intersect` holds, for every key of the first map that is the same as one of the second, what the
merge function makes of the two values. -/
theorem C114_intersect_partial (h : Comparable cmp a) (b : CMap C L W) (hb : OrderedR (cmp.lt a.comp) b.entries)
    (merge : K → V → W → X) :
    HoldsExactly cmp (cmapIntersect cmp merge a b) fun e =>
      ∃ x ∈ a.entries, ∃ y ∈ b.entries, SameKey (cmp.lt a.comp) (.inl x.1) (.inr y.1) ∧ e = (x.1, merge x.1 x.2 y.2) := by
  obtain ⟨t1, t2, t3⟩ := merge_holds cmp h.weak h.weakInit h.finer a.entries b.entries h.ordered hb
    (fun _ _ d => d) (fun _ _ d => d) (fun k v w d => d.emplace cmp k (merge k v w))
    (fun x => match x with
      | .both k v w => some (k, merge k v w)
      | _ => none)
    (by rintro (⟨k, v⟩ | ⟨k, w⟩ | ⟨k, v, w⟩) e hx he <;> simp only [Option.some.injEq, reduceCtorEq] at he
        subst he; exact ⟨h.weak.irrefl _, h.weak.irrefl _⟩)
    (by rintro s (⟨k, v⟩ | ⟨k, w⟩ | ⟨k, v, w⟩) <;> rfl)
  refine ⟨t1, t2, fun e => (t3 e).trans ?_⟩
  constructor
  · rintro ⟨⟨k, v⟩ | ⟨k, w⟩ | ⟨k, v, w⟩, hx, he⟩ <;> simp only [Option.some.injEq, reduceCtorEq] at he
    obtain ⟨h1, y, hy, h2, rfl⟩ := hx
    exact ⟨(k, v), h1, y, hy, h2, he.symm⟩
  · rintro ⟨x, hx, y, hy, h1, rfl⟩
    exact ⟨.both x.1 x.2 y.2, ⟨hx, y, hy, h1, rfl⟩, rfl⟩

/-- **C114**: `map_symmetric_difference` holds the entries of either map whose keys are not the same as one of the other,
if the conversion of a key gives a key that is the same for the comparator. -/
theorem C114_symmetric_difference_partial (h : Comparable cmp a) (b : CMap C L V)
    (hb : OrderedR (cmp.lt a.comp) b.entries) (conv : L → K)
    (hconv : ∀ k, SameKey (cmp.lt a.comp) (.inl (conv k)) (.inr k)) :
    HoldsExactly cmp (cmapSymmetricDifference cmp conv a b) fun e =>
      (e ∈ a.entries ∧ ∀ f ∈ b.entries, ¬ SameKey (cmp.lt a.comp) (.inl e.1) (.inr f.1)) ∨
        ∃ y ∈ b.entries, (∀ x ∈ a.entries, ¬ SameKey (cmp.lt a.comp) (.inl x.1) (.inr y.1)) ∧ e = (conv y.1, y.2) := by
  obtain ⟨t1, t2, t3⟩ := merge_holds cmp h.weak h.weakInit h.finer a.entries b.entries h.ordered hb
    (fun k v d => d.emplace cmp k v) (fun k v d => d.emplace cmp (conv k) v) (fun _ _ _ d => d)
    (fun x => match x with
      | .onlyA k v => some (k, v)
      | .onlyB k v => some (conv k, v)
      | _ => none)
    (by rintro (⟨k, v⟩ | ⟨k, w⟩ | ⟨k, v, w⟩) e hx he <;> simp only [Option.some.injEq, reduceCtorEq] at he
        · subst he; exact ⟨h.weak.irrefl _, h.weak.irrefl _⟩
        · subst he; exact (hconv k).symm)
    (by rintro s (⟨k, v⟩ | ⟨k, w⟩ | ⟨k, v, w⟩) <;> rfl)
  refine ⟨t1, t2, fun e => (t3 e).trans ?_⟩
  constructor
  · rintro ⟨⟨k, v⟩ | ⟨k, w⟩ | ⟨k, v, w⟩, hx, he⟩ <;> simp only [Option.some.injEq, reduceCtorEq] at he
    · subst he; exact Or.inl hx
    · exact Or.inr ⟨(k, w), hx.1, hx.2, he.symm⟩
  · rintro (he | ⟨y, hy, h1, rfl⟩)
    · exact ⟨.onlyA e.1 e.2, he, rfl⟩
    · exact ⟨.onlyB y.1 y.2, ⟨hy, h1⟩, rfl⟩

/-- **C114**: `map_union` holds the entries of either map whose keys are not the same as one of the other, and what the
merge function makes of the values where they are the same, under the same condition on the conversion. -/
theorem C114_union_partial (h : Comparable cmp a) (b : CMap C L V) (hb : OrderedR (cmp.lt a.comp) b.entries)
    (conv : L → K) (hconv : ∀ k, SameKey (cmp.lt a.comp) (.inl (conv k)) (.inr k)) (merge : K → V → V → V) :
    HoldsExactly cmp (cmapUnion cmp conv merge a b) fun e =>
      (e ∈ a.entries ∧ ∀ f ∈ b.entries, ¬ SameKey (cmp.lt a.comp) (.inl e.1) (.inr f.1)) ∨
      (∃ y ∈ b.entries, (∀ x ∈ a.entries, ¬ SameKey (cmp.lt a.comp) (.inl x.1) (.inr y.1)) ∧ e = (conv y.1, y.2)) ∨
      ∃ x ∈ a.entries, ∃ y ∈ b.entries, SameKey (cmp.lt a.comp) (.inl x.1) (.inr y.1) ∧
        e = (x.1, merge x.1 x.2 y.2) := by
  obtain ⟨t1, t2, t3⟩ := merge_holds cmp h.weak h.weakInit h.finer a.entries b.entries h.ordered hb
    (fun k v d => d.emplace cmp k v) (fun k v d => d.emplace cmp (conv k) v)
    (fun k v w d => d.emplace cmp k (merge k v w))
    (fun x => match x with
      | .onlyA k v => some (k, v)
      | .onlyB k v => some (conv k, v)
      | .both k v w => some (k, merge k v w))
    (by rintro (⟨k, v⟩ | ⟨k, w⟩ | ⟨k, v, w⟩) e hx he <;> simp only [Option.some.injEq] at he <;> subst he
        · exact ⟨h.weak.irrefl _, h.weak.irrefl _⟩
        · exact (hconv k).symm
        · exact ⟨h.weak.irrefl _, h.weak.irrefl _⟩)
    (by rintro s (⟨k, v⟩ | ⟨k, w⟩ | ⟨k, v, w⟩) <;> rfl)
  refine ⟨t1, t2, fun e => (t3 e).trans ?_⟩
  constructor
  · rintro ⟨⟨k, v⟩ | ⟨k, w⟩ | ⟨k, v, w⟩, hx, he⟩ <;> simp only [Option.some.injEq] at he
    · subst he; exact Or.inl hx
    · exact Or.inr (Or.inl ⟨(k, w), hx.1, hx.2, he.symm⟩)
    · obtain ⟨h1, y, hy, h2, rfl⟩ := hx
      exact Or.inr (Or.inr ⟨(k, v), h1, y, hy, h2, he.symm⟩)
  · rintro (he | ⟨y, hy, h1, rfl⟩ | ⟨x, hx, y, hy, h1, rfl⟩)
    · exact ⟨.onlyA e.1 e.2, he, rfl⟩
    · exact ⟨.onlyB y.1 y.2, ⟨hy, h1⟩, rfl⟩
    · exact ⟨.both x.1 x.2 y.2, ⟨hx, y, hy, h1, rfl⟩, rfl⟩

end

theorem foldl_push {T α : Type} (run : List α → T → List α) (f : T → Option α)
    (hrun : ∀ s x, run s x = match f x with
      | none => s
      | some e => s ++ [e]) (xs : List T) (s : List α) : xs.foldl run s = s ++ xs.filterMap f := by
  induction xs generalizing s with
  | nil => simp
  | cons x xs ih =>
    rw [List.foldl_cons, hrun, List.filterMap_cons, ih]
    cases f x <;> simp

/-- **C114**: `map_difference_keys` and `map_intersect_keys` are the keys of the first map that are not, and that are, the
same as one of the second, in order — whatever state the comparator has. -/
theorem C114_keys (cmp : Comparing C K L) (a : CMap C K V) (b : CMap C L W) (hw : WeakOrder (cmp.lt a.comp))
    (ha : OrderedL (cmp.lt a.comp) a.entries) (hb : OrderedR (cmp.lt a.comp) b.entries) :
    ((cmapDifferenceKeys cmp a b).Pairwise fun x y => cmp.lt a.comp (.inl x) (.inl y) = true) ∧
    (∀ k, k ∈ cmapDifferenceKeys cmp a b ↔
      (∃ v, (k, v) ∈ a.entries) ∧ ∀ f ∈ b.entries, ¬ SameKey (cmp.lt a.comp) (.inl k) (.inr f.1)) ∧
    ((cmapIntersectKeys cmp a b).Pairwise fun x y => cmp.lt a.comp (.inl x) (.inl y) = true) ∧
    ∀ k, k ∈ cmapIntersectKeys cmp a b ↔
      (∃ v, (k, v) ∈ a.entries) ∧ ∃ f ∈ b.entries, SameKey (cmp.lt a.comp) (.inl k) (.inr f.1) := by
  have ho := visits_ordered hw a.entries b.entries ha hb
  have hm := visits_mem hw a.entries b.entries ha hb
  have e1 : cmapDifferenceKeys cmp a b = (visits (cmp.lt a.comp) a.entries b.entries).filterMap fun x =>
      match x with
      | .onlyA k _ => some k
      | _ => none := by
    rw [cmapDifferenceKeys, mergeBy_visits]
    exact (foldl_push _ _ (by rintro s (⟨k, v⟩ | ⟨k, w⟩ | ⟨k, v, w⟩) <;> rfl) _ []).trans (List.nil_append _)
  have e2 : cmapIntersectKeys cmp a b = (visits (cmp.lt a.comp) a.entries b.entries).filterMap fun x =>
      match x with
      | .both k _ _ => some k
      | _ => none := by
    rw [cmapIntersectKeys, mergeBy_visits]
    exact (foldl_push _ _ (by rintro s (⟨k, v⟩ | ⟨k, w⟩ | ⟨k, v, w⟩) <;> rfl) _ []).trans (List.nil_append _)
  refine ⟨?_, fun k => ?_, ?_, fun k => ?_⟩
  · rw [e1, List.pairwise_filterMap]
    refine ho.imp ?_
    rintro (⟨k, v⟩ | ⟨k, w⟩ | ⟨k, v, w⟩) (⟨k', v'⟩ | ⟨k', w'⟩ | ⟨k', v', w'⟩) hxy e he e' he' <;>
      simp only [Option.some.injEq, reduceCtorEq] at he he'
    subst he he'; exact hxy
  · rw [e1, List.mem_filterMap]
    constructor
    · rintro ⟨⟨k', v⟩ | ⟨k', w⟩ | ⟨k', v, w⟩, hx, he⟩ <;> simp only [Option.some.injEq, reduceCtorEq] at he
      subst he
      have := (hm _).1 hx
      exact ⟨⟨v, this.1⟩, this.2⟩
    · rintro ⟨⟨v, hv⟩, h⟩
      exact ⟨.onlyA k v, (hm _).2 ⟨hv, h⟩, rfl⟩
  · rw [e2, List.pairwise_filterMap]
    refine ho.imp ?_
    rintro (⟨k, v⟩ | ⟨k, w⟩ | ⟨k, v, w⟩) (⟨k', v'⟩ | ⟨k', w'⟩ | ⟨k', v', w'⟩) hxy e he e' he' <;>
      simp only [Option.some.injEq, reduceCtorEq] at he he'
    subst he he'; exact hxy
  · rw [e2, List.mem_filterMap]
    constructor
    · rintro ⟨⟨k', v⟩ | ⟨k', w⟩ | ⟨k', v, w⟩, hx, he⟩ <;> simp only [Option.some.injEq, reduceCtorEq] at he
      subst he
      obtain ⟨h1, f, hf, h2, -⟩ := (hm _).1 hx
      exact ⟨⟨v, h1⟩, f, hf, h2⟩
    · rintro ⟨⟨v, hv⟩, f, hf, h⟩
      exact ⟨.both k v f.2, (hm _).2 ⟨hv, f, hf, h, rfl⟩, rfl⟩

/-! ## Subsets -/

/-- The entries that are picked. -/
def picks (lt : K ⊕ L → K ⊕ L → Bool) : List (K × V) → List L → List (K × V)
  | a :: as, b :: bs =>
    if lt (.inl a.1) (.inr b) then picks lt as (b :: bs)
    else if lt (.inr b) (.inl a.1) then picks lt (a :: as) bs
    else a :: picks lt as bs
  | _, [] => []
  | [], _ => []
termination_by a b => a.length + b.length

theorem subsetBy_picks (lt : K ⊕ L → K ⊕ L → Bool) (merge : K → V → S → S) (as : List (K × V)) (bs : List L) (s : S) :
    subsetBy lt merge as bs s = (picks lt as bs).foldl (fun s e => merge e.1 e.2 s) s := by
  induction as, bs using picks.induct lt generalizing s with
  | case1 a as b bs h ih => rw [subsetBy, picks, if_pos h, if_pos h, ih]
  | case2 a as b bs h1 h2 ih => rw [subsetBy, picks, if_neg h1, if_neg h1, if_pos h2, if_pos h2, ih]
  | case3 a as b bs h1 h2 ih => rw [subsetBy, picks, if_neg h1, if_neg h1, if_neg h2, if_neg h2, ih]; rfl
  | case4 as => rw [subsetBy, picks]; rfl
  | case5 bs h =>
    cases bs with
    | nil => exact absurd rfl h
    | cons b bs => rw [subsetBy, picks] <;> simp

theorem picks_sublist (lt : K ⊕ L → K ⊕ L → Bool) (as : List (K × V)) (bs : List L) : (picks lt as bs).Sublist as := by
  induction as, bs using picks.induct lt with
  | case1 a as b bs h ih => rw [picks, if_pos h]; exact ih.cons a
  | case2 a as b bs h1 h2 ih => rw [picks, if_neg h1, if_pos h2]; exact ih
  | case3 a as b bs h1 h2 ih => rw [picks, if_neg h1, if_neg h2]; exact ih.cons_cons a
  | case4 as => rw [picks]; exact List.nil_sublist _
  | case5 bs h =>
    cases bs with
    | nil => exact absurd rfl h
    | cons b bs => rw [picks] <;> simp

/-- Keys in order, the same key possibly more than once. -/
def SortedKeys (lt : K ⊕ L → K ⊕ L → Bool) (keys : List L) : Prop :=
  keys.Pairwise fun x y => lt (.inr y) (.inr x) = false

theorem picks_mem {lt : K ⊕ L → K ⊕ L → Bool} (hw : WeakOrder lt) (as : List (K × V)) (bs : List L)
    (ha : OrderedL lt as) (hb : SortedKeys lt bs) (e : K × V) :
    e ∈ picks lt as bs ↔ e ∈ as ∧ ∃ k ∈ bs, SameKey lt (.inl e.1) (.inr k) := by
  induction as, bs using picks.induct lt with
  | case1 a as b bs h ih =>
    have ha' := ha
    unfold OrderedL at ha'
    rw [List.pairwise_cons] at ha'
    have hb' := hb
    unfold SortedKeys at hb'
    rw [List.pairwise_cons] at hb'
    rw [picks, if_pos h, ih ha'.2 hb]
    constructor
    · rintro ⟨h1, h2⟩
      exact ⟨by simp [h1], h2⟩
    · rintro ⟨h1, k, hk, h2⟩
      rcases List.mem_cons.1 h1 with rfl | h1
      · exfalso
        rcases List.mem_cons.1 hk with rfl | hk
        · exact not_same_of_lt h h2
        · have := hw.same_lt (y := .inl e.1) (z := .inr b) (x := .inr k)
          rcases hw.cotrans _ (.inr k) _ h with e1 | e1
          · exact not_same_of_lt e1 h2
          · rw [hb'.1 k hk] at e1; exact absurd e1 (by simp)
      · exact ⟨h1, k, hk, h2⟩
  | case2 a as b bs h1 h2 ih =>
    have ha' := ha
    unfold OrderedL at ha'
    rw [List.pairwise_cons] at ha'
    have hb' := hb
    unfold SortedKeys at hb'
    rw [List.pairwise_cons] at hb'
    rw [picks, if_neg h1, if_pos h2, ih ha hb'.2]
    constructor
    · rintro ⟨h3, k, hk, h4⟩
      exact ⟨h3, k, by simp [hk], h4⟩
    · rintro ⟨h3, k, hk, h4⟩
      rcases List.mem_cons.1 hk with rfl | hk
      · exfalso
        refine not_same_of_gt ?_ h4
        rcases List.mem_cons.1 h3 with rfl | h3
        · exact h2
        · exact hw.trans _ _ _ h2 (ha'.1 e h3)
      · exact ⟨h3, k, hk, h4⟩
  | case3 a as b bs h1 h2 ih =>
    have hs : SameKey lt (.inl a.1) (.inr b) := ⟨by simpa using h1, by simpa using h2⟩
    have ha' := ha
    unfold OrderedL at ha'
    rw [List.pairwise_cons] at ha'
    have hb' := hb
    unfold SortedKeys at hb'
    rw [List.pairwise_cons] at hb'
    rw [picks, if_neg h1, if_neg h2, List.mem_cons, ih ha'.2 hb'.2]
    constructor
    · rintro (rfl | ⟨h3, k, hk, h4⟩)
      · exact ⟨by simp, b, by simp, hs⟩
      · exact ⟨by simp [h3], k, by simp [hk], h4⟩
    · rintro ⟨h3, k, hk, h4⟩
      rcases List.mem_cons.1 h3 with rfl | h3
      · exact Or.inl rfl
      · rcases List.mem_cons.1 hk with rfl | hk
        · exact absurd h4 (not_same_of_gt (hw.lt_of_same hs.symm (ha'.1 e h3)))
        · exact Or.inr ⟨h3, k, hk, h4⟩
  | case4 as => rw [picks]; simp
  | case5 bs h =>
    cases bs with
    | nil => exact absurd rfl h
    | cons b bs => rw [picks] <;> simp

/-- **C114**: `map_subset` holds the entries whose keys are the same as one of the given ones, which may be of another
type and may come more than once. -/
theorem C114_subset_partial {cmp : Comparing C K L} {a : CMap C K V} (h : Comparable cmp a) (keys : List L)
    (hk : SortedKeys (cmp.lt a.comp) keys) :
    HoldsExactly cmp (cmapSubset cmp a keys) fun e =>
      e ∈ a.entries ∧ ∃ k ∈ keys, SameKey (cmp.lt a.comp) (.inl e.1) (.inr k) := by
  rw [cmapSubset, subsetBy_picks]
  have hsep : Separated (cmp.lt cmp.init) (picks (cmp.lt a.comp) a.entries keys) := by
    have : (picks (cmp.lt a.comp) a.entries keys).Pairwise fun e f => cmp.lt a.comp (.inl e.1) (.inl f.1) = true :=
      h.ordered.sublist (picks_sublist _ _ _)
    exact this.imp fun hlt hsame => not_same_of_lt hlt (h.finer _ _ hsame)
  obtain ⟨t1, t2, t3⟩ := emplaceAll_spec cmp h.weakInit (picks (cmp.lt a.comp) a.entries keys) (CMap.empty cmp) rfl
    List.Pairwise.nil (by simpa [CMap.empty] using hsep)
  refine ⟨t1, t2, fun e => (t3 e).trans ?_⟩
  simp only [CMap.empty, List.not_mem_nil, false_or]
  exact picks_mem h.weak a.entries keys h.ordered hk e

theorem sortedBy_iff {lt : L → L → Bool} (hw : WeakOrder lt) (keys : List L) :
    sortedBy lt keys = true ↔ keys.Pairwise fun x y => lt y x = false := by
  induction keys with
  | nil => simp [sortedBy]
  | cons x t ih =>
    cases t with
    | nil => simp [sortedBy]
    | cons y t =>
      rw [sortedBy, Bool.and_eq_true, Bool.not_eq_true', ih, List.pairwise_cons (a := x)]
      constructor
      · rintro ⟨h1, h2⟩
        refine ⟨fun z hz => ?_, h2⟩
        rcases List.mem_cons.1 hz with rfl | hz
        · exact h1
        · rw [List.pairwise_cons] at h2
          cases e : lt z x with
          | false => rfl
          | true =>
            rcases hw.cotrans z y x e with e' | e'
            · rw [h2.1 z hz] at e'; exact absurd e' (by simp)
            · rw [h1] at e'; exact absurd e' (by simp)
      · rintro ⟨h1, h2⟩
        exact ⟨h1 y (by simp), h2⟩

/-- **C114**: `map_subset_sorted` does the same for keys sorted by the comparator of the map, and in a debug build
stops with an assertion exactly when they are not. -/
theorem C114_subset_sorted_partial {cmp : Comparing C K L} {a : CMap C K V} (h : Comparable cmp a) (b : Build)
    (keys : List L) :
    (SortedKeys (cmp.lt a.comp) keys → cmapSubsetSorted cmp b a keys = .ok (cmapSubset cmp a keys)) ∧
      (¬ SortedKeys (cmp.lt a.comp) keys → cmapSubsetSorted cmp .debug a keys = .error .assertFail) := by
  have hw : WeakOrder fun x y : L => cmp.lt a.comp (.inr x) (.inr y) :=
    ⟨fun _ => h.weak.irrefl _, fun _ _ _ => h.weak.trans _ _ _, fun _ _ _ => h.weak.cotrans _ _ _⟩
  have hs := sortedBy_iff hw keys
  constructor
  · intro hk
    rw [cmapSubsetSorted, hs.2 hk, albatrossAssert_true]
    rfl
  · intro hk
    have : sortedBy (fun x y : L => cmp.lt a.comp (.inr x) (.inr y)) keys = false := by
      cases e : sortedBy (fun x y : L => cmp.lt a.comp (.inr x) (.inr y)) keys with
      | false => rfl
      | true => exact absurd (hs.1 e) hk
    rw [cmapSubsetSorted, this]
    rfl

/-! ## Joins -/

theorem emplaceBy_general {lt : K → K → Bool} (h : WeakOrder lt) (k : K) (v : V) (l : List (K × V))
    (hl : l.Pairwise fun e f => lt e.1 f.1 = true) (hk : ∃ e ∈ l, SameKey lt e.1 k) : emplaceBy lt l k v = l := by
  induction l with
  | nil => simp at hk
  | cons x l ih =>
    rw [List.pairwise_cons] at hl
    obtain ⟨e, he, hs⟩ := hk
    rw [emplaceBy]
    have h1 : ¬ lt k x.1 = true := by
      intro h1
      refine not_same_of_gt ?_ hs
      rcases List.mem_cons.1 he with rfl | he
      · exact h1
      · exact h.trans _ _ _ h1 (hl.1 e he)
    rw [if_neg h1]
    by_cases h2 : lt x.1 k = true
    · rw [if_pos h2]
      rcases List.mem_cons.1 he with rfl | he
      · exact absurd hs (not_same_of_lt h2)
      · rw [ih hl.2 ⟨e, he, hs⟩]
    · rw [if_neg h2]

/-- **C114**: `map_join` keeps the comparator: the result is a copy of the second map, to which the entries of the first
are added whose keys it does not have — whatever state the comparators have. -/
theorem C114_join (cmp : Comparing C K L) (m other : CMap C K V) (hw : WeakOrder (cmp.lt other.comp))
    (hm : Separated (cmp.lt other.comp) m.entries) (ho : OrderedL (cmp.lt other.comp) other.entries) :
    (cmapJoin cmp m other).comp = other.comp ∧
      OrderedL (cmp.lt other.comp) (cmapJoin cmp m other).entries ∧
      ∀ e, e ∈ (cmapJoin cmp m other).entries ↔ e ∈ other.entries ∨
        (e ∈ m.entries ∧ ∀ f ∈ other.entries, ¬ SameKey (cmp.lt other.comp) (.inl f.1) (.inl e.1)) := by
  unfold cmapJoin
  generalize hes : m.entries = es at *
  clear hes
  induction es generalizing other with
  | nil => exact ⟨rfl, ho, by simp⟩
  | cons x es ih =>
    unfold Separated at hm
    rw [List.pairwise_cons] at hm
    rw [List.foldl_cons]
    have ent : (other.emplace cmp x.1 x.2).entries =
        emplaceBy (fun x y => cmp.lt other.comp (.inl x) (.inl y)) other.entries x.1 x.2 := rfl
    by_cases hk : ∃ f ∈ other.entries, SameKey (cmp.lt other.comp) (.inl f.1) (.inl x.1)
    · have hsame : other.emplace cmp x.1 x.2 = other := by
        have := emplaceBy_general hw.left x.1 x.2 other.entries ho hk
        rw [← ent] at this
        cases other
        simp only [CMap.emplace] at this ⊢
        rw [this]
      rw [hsame]
      obtain ⟨t1, t2, t3⟩ := ih other hw ho hm.2
      refine ⟨t1, t2, fun e => (t3 e).trans ?_⟩
      constructor
      · rintro (h | ⟨h1, h2⟩)
        · exact Or.inl h
        · exact Or.inr ⟨by simp [h1], h2⟩
      · rintro (h | ⟨h1, h2⟩)
        · exact Or.inl h
        · rcases List.mem_cons.1 h1 with rfl | h1
          · obtain ⟨f, hf, h3⟩ := hk
            exact absurd h3 (h2 f hf)
          · exact Or.inr ⟨h1, h2⟩
    · have hk' : ∀ f ∈ other.entries, ¬ SameKey (cmp.lt other.comp) (.inl f.1) (.inl x.1) :=
        fun f hf h => hk ⟨f, hf, h⟩
      obtain ⟨s1, s2⟩ := emplaceBy_spec hw.left x.1 x.2 other.entries ho hk'
      obtain ⟨t1, t2, t3⟩ := ih (other.emplace cmp x.1 x.2) hw s1 hm.2
      refine ⟨t1, t2, fun e => (t3 e).trans ?_⟩
      rw [ent, s2]
      constructor
      · rintro ((h | rfl) | ⟨h1, h2⟩)
        · exact Or.inl h
        · exact Or.inr ⟨by simp, hk'⟩
        · exact Or.inr ⟨by simp [h1], fun f hf => h2 f ((s2 f).2 (Or.inl hf))⟩
      · rintro (h | ⟨h1, h2⟩)
        · exact Or.inl (Or.inl h)
        · rcases List.mem_cons.1 h1 with rfl | h1
          · exact Or.inl (Or.inr rfl)
          · refine Or.inr ⟨h1, fun f hf => ?_⟩
            rcases (s2 f).1 hf with hf | rfl
            · exact h2 f hf
            · exact hm.1 e h1

/-! ## Where the claims fail -/

/-- The number in a key of either type. -/
def anyKey : ℕ ⊕ ℕ → ℕ
  | .inl n => n
  | .inr n => n

/-- `struct { int unit = 10; bool operator()(int x, int y) const { return x / unit < y / unit; } }`. -/
def byUnit : Comparing ℕ ℕ ℕ := ⟨fun unit x y => decide (anyKey x / unit < anyKey y / unit), 10⟩

/-- `struct { bool descending = false; ... }`. -/
def byDirection : Comparing Bool ℕ ℕ :=
  ⟨fun descending x y => if descending then decide (anyKey y < anyKey x) else decide (anyKey x < anyKey y), false⟩

theorem weakOrder_by {α : Type} (f : α → ℕ) : WeakOrder fun x y => decide (f x < f y) :=
  ⟨fun x => by simp, fun x y z => by simp only [decide_eq_true_eq]; omega,
    fun x y z => by simp only [decide_eq_true_eq]; omega⟩

theorem byUnit_weak (unit : ℕ) : WeakOrder (byUnit.lt unit) := weakOrder_by fun x => anyKey x / unit

theorem byDirection_weak (d : Bool) : WeakOrder (byDirection.lt d) := by
  cases d with
  | false => exact weakOrder_by anyKey
  | true =>
    exact ⟨fun x => by simp [byDirection], fun x y z => by simp only [byDirection, if_true, decide_eq_true_eq]; omega,
      fun x y z => by simp only [byDirection, if_true, decide_eq_true_eq]; omega⟩

/-- **C114**: the claim is false for comparators with a state of their own, also when both maps have the same: the
result is made with a default comparator, which may take keys for the same that are not, and entries are lost. -/
theorem C114_state_false : ¬ ∀ a b : CMap ℕ ℕ ℕ, a.comp = b.comp → OrderedL (byUnit.lt a.comp) a.entries →
    OrderedR (byUnit.lt b.comp) b.entries → ∀ e, e ∈ (cmapDifference byUnit a b).entries ↔
      e ∈ a.entries ∧ ∀ f ∈ b.entries, ¬ SameKey (byUnit.lt a.comp) (.inl e.1) (.inr f.1) := by
  intro h
  have := (h ⟨1, [(1, 5), (2, 6)]⟩ ⟨1, []⟩ rfl (by simp [OrderedL, byUnit, anyKey]) List.Pairwise.nil (2, 6)).2
    ⟨by simp, by simp⟩
  simp [cmapDifference, mergeBy, CMap.empty, CMap.emplace, emplaceBy, byUnit, anyKey] at this

/-- **C114**: nor can the result be used with the map it comes from: taking nothing away from a map in descending order
and then intersecting with it loses entries. -/
theorem C114_requery_false : ¬ ∀ a : CMap Bool ℕ ℕ, OrderedL (byDirection.lt a.comp) a.entries →
    (cmapIntersect byDirection (fun _ v _ => v) a
      (cmapDifference byDirection a (⟨a.comp, []⟩ : CMap Bool ℕ ℕ))).entries = a.entries := by
  intro h
  have := h ⟨true, [(3, 0), (2, 0), (1, 0)]⟩ (by simp [OrderedL, byDirection, anyKey])
  simp [cmapIntersect, cmapDifference, mergeBy, CMap.empty, CMap.emplace, emplaceBy, byDirection, anyKey] at this

/-- A comparator for two key types, for which a key of the second type comes directly after the equal key of the first. -/
def byType : Comparing Unit ℕ ℕ :=
  ⟨fun _ x y => decide ((match x with
    | .inl n => 2 * n
    | .inr n => 2 * n + 1) < match y with
    | .inl n => 2 * n
    | .inr n => 2 * n + 1), ()⟩

/-- **C114**: it is not enough that the conversion of keys is one to one, as the comments say (lines 308-314, 403-408):
if a converted key need not be the same as the original for the comparator, `map_union` loses entries. -/
theorem C114_conversion_false : WeakOrder (byType.lt ()) ∧
    ¬ ∀ (conv : ℕ → ℕ), conv.Bijective → ∀ a b : CMap Unit ℕ ℕ, OrderedL (byType.lt ()) a.entries →
      OrderedR (byType.lt ()) b.entries → ∀ y ∈ b.entries,
        (∀ x ∈ a.entries, ¬ SameKey (byType.lt ()) (.inl x.1) (.inr y.1)) →
        (conv y.1, y.2) ∈ (cmapUnion byType conv (fun _ v _ => v) a b).entries := by
  refine ⟨weakOrder_by fun x : ℕ ⊕ ℕ => match x with
    | .inl n => 2 * n
    | .inr n => 2 * n + 1, fun h => ?_⟩
  have := h id Function.bijective_id ⟨(), [(0, 5)]⟩ ⟨(), [(0, 6)]⟩ (List.pairwise_singleton _ _)
    (List.pairwise_singleton _ _) (0, 6) (by simp) (by simp [SameKey, byType])
  simp [cmapUnion, mergeBy, CMap.empty, CMap.emplace, emplaceBy, byType] at this

/-- Maps in descending order, with the results in ascending order. -/
example : Comparable byDirection ⟨true, [(3, 0), (2, 0), (1, 0)]⟩ where
  weak := byDirection_weak true
  weakInit := byDirection_weak false
  finer x y h := by
    simp only [SameKey, byDirection, anyKey, if_true, Bool.false_eq_true, if_false] at h ⊢
    exact ⟨h.2, h.1⟩
  ordered := by simp [OrderedL, byDirection, anyKey]

example : OrderedR (byDirection.lt true) [(5, 1), (2, 1)] ∧ SortedKeys (byDirection.lt true) [4, 4, 2] ∧
    ∀ k, SameKey (byDirection.lt true) (.inl (id k)) (.inr k) := by
  refine ⟨by simp [OrderedR, byDirection, anyKey], by simp [SortedKeys, byDirection, anyKey], fun k => ?_⟩
  simp [SameKey, byDirection, anyKey]

example : Separated (byUnit.lt 5) [(1, 0), (7, 0)] ∧ OrderedL (byUnit.lt 5) [(3, 0), (11, 0)] := by
  simp [Separated, SameKey, OrderedL, byUnit, anyKey]

end Albatross
