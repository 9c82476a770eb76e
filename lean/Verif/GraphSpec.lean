import Verif.Graph
import Mathlib.Logic.Relation
import Mathlib.LinearAlgebra.Finsupp.LinearCombination
import Mathlib.LinearAlgebra.FiniteDimensional.Lemmas
import Mathlib.LinearAlgebra.Dimension.Constructions
import Mathlib.Algebra.Order.BigOperators.Group.List
import Mathlib.Data.Rat.Cast.Defs
import Mathlib.Algebra.Field.Rat

/-! # Specification of spanning forests and the matroid facts used to prove optimality

Nothing here mentions the algorithms.  An edge set is a list of edges; `Conn E x y` says that `x`
and `y` are joined by a path of edges of `E`; `Acyclic E` says that no edge of `E` joins two vertices
that the remaining edges already join. -/

namespace Albatross

variable {V C : Type}

/-- `x` and `y` are joined by a path of edges (in either direction). -/
def Conn (E : List (Edge V C)) : V → V → Prop :=
  Relation.EqvGen fun x y => ∃ e ∈ E, e.a = x ∧ e.b = y

/-- No edge closes a cycle with the others. -/
def Acyclic (E : List (Edge V C)) : Prop :=
  ∀ pre e post, E = pre ++ e :: post → ¬ Conn (pre ++ post) e.a e.b

/-- `T` consists of edges of `G`, has no cycle and joins the same vertices. -/
structure IsSpanningForest (G T : List (Edge V C)) : Prop where
  subset : ∀ e ∈ T, e ∈ G
  acyclic : Acyclic T
  spans : ∀ x y, Conn T x y ↔ Conn G x y

/-- Total cost. -/
def totalCost [AddCommMonoid C] (T : List (Edge V C)) : C := (T.map Edge.cost).sum

/-! ## Facts about `Conn` -/

theorem Conn.refl (E : List (Edge V C)) (x : V) : Conn E x x := Relation.EqvGen.refl x
theorem Conn.symm {E : List (Edge V C)} {x y : V} (h : Conn E x y) : Conn E y x :=
  Relation.EqvGen.symm _ _ h
theorem Conn.trans {E : List (Edge V C)} {x y z : V} (h : Conn E x y) (h' : Conn E y z) :
    Conn E x z := Relation.EqvGen.trans _ _ _ h h'
theorem Conn.edge {E : List (Edge V C)} {e : Edge V C} (h : e ∈ E) : Conn E e.a e.b :=
  Relation.EqvGen.rel _ _ ⟨e, h, rfl, rfl⟩

/-- `Conn` is the least equivalence joining the endpoints of each edge. -/
theorem Conn.least {E : List (Edge V C)} {R : V → V → Prop} (hr : Equivalence R)
    (he : ∀ e ∈ E, R e.a e.b) {x y : V} (h : Conn E x y) : R x y := by
  induction h with
  | rel x y h => obtain ⟨e, h, rfl, rfl⟩ := h; exact he e h
  | refl x => exact hr.refl x
  | symm x y _ ih => exact hr.symm ih
  | trans x y z _ _ ih1 ih2 => exact hr.trans ih1 ih2

theorem conn_equivalence (E : List (Edge V C)) : Equivalence (Conn E) :=
  ⟨Conn.refl E, Conn.symm, Conn.trans⟩

theorem Conn.mono' {E F : List (Edge V C)} (h : ∀ e ∈ E, Conn F e.a e.b) {x y : V}
    (hc : Conn E x y) : Conn F x y := hc.least (conn_equivalence F) h

theorem Conn.mono {E F : List (Edge V C)} (h : ∀ e ∈ E, e ∈ F) {x y : V}
    (hc : Conn E x y) : Conn F x y := hc.mono' fun e he => Conn.edge (h e he)

theorem Conn.congr {E F : List (Edge V C)} (h : ∀ e, e ∈ E ↔ e ∈ F) {x y : V} :
    Conn E x y ↔ Conn F x y :=
  ⟨Conn.mono fun e => (h e).1, Conn.mono fun e => (h e).2⟩

/-- What one more edge adds. -/
theorem conn_cons {E : List (Edge V C)} {e : Edge V C} {x y : V} :
    Conn (e :: E) x y ↔ Conn E x y ∨ (Conn E x e.a ∧ Conn E e.b y) ∨
      (Conn E x e.b ∧ Conn E e.a y) := by
  constructor
  · intro h
    let R : V → V → Prop := fun x y => Conn E x y ∨ (Conn E x e.a ∧ Conn E e.b y) ∨
      (Conn E x e.b ∧ Conn E e.a y)
    have hR : Equivalence R := by
      refine ⟨fun x => Or.inl (Conn.refl E x), ?_, ?_⟩
      · rintro x y (h | ⟨h, h'⟩ | ⟨h, h'⟩)
        · exact .inl h.symm
        · exact .inr (.inr ⟨h'.symm, h.symm⟩)
        · exact .inr (.inl ⟨h'.symm, h.symm⟩)
      · rintro x y z (h | ⟨h, h'⟩ | ⟨h, h'⟩) (k | ⟨k, k'⟩ | ⟨k, k'⟩)
        · exact .inl (h.trans k)
        · exact .inr (.inl ⟨h.trans k, k'⟩)
        · exact .inr (.inr ⟨h.trans k, k'⟩)
        · exact .inr (.inl ⟨h, h'.trans k⟩)
        · exact .inr (.inl ⟨h, k'⟩)
        · exact .inl (h.trans k')
        · exact .inr (.inr ⟨h, h'.trans k⟩)
        · exact .inl (h.trans k')
        · exact .inr (.inr ⟨h, k'⟩)
    refine h.least hR ?_
    intro f hf
    rcases List.mem_cons.1 hf with rfl | hf
    · exact .inr (.inl ⟨Conn.refl E _, Conn.refl E _⟩)
    · exact .inl (Conn.edge hf)
  · have hm : ∀ {x y}, Conn E x y → Conn (e :: E) x y :=
      Conn.mono fun f hf => List.mem_cons_of_mem _ hf
    have he : Conn (e :: E) e.a e.b := Conn.edge List.mem_cons_self
    rintro (h | ⟨h, h'⟩ | ⟨h, h'⟩)
    · exact hm h
    · exact (hm h).trans (he.trans (hm h'))
    · exact (hm h).trans (he.symm.trans (hm h'))

theorem acyclic_nil : Acyclic ([] : List (Edge V C)) := by
  intro pre e post h; simp at h

theorem Acyclic.tail {e : Edge V C} {t : List (Edge V C)} (h : Acyclic (e :: t)) : Acyclic t := by
  intro pre f post hf hc
  refine h (e :: pre) f post (by simp [hf]) (hc.mono ?_)
  intro g hg; simp only [List.cons_append, List.mem_cons]; exact .inr hg

theorem Acyclic.head {e : Edge V C} {t : List (Edge V C)} (h : Acyclic (e :: t)) :
    ¬ Conn t e.a e.b := h [] e t rfl

/-- Adding an edge between two components keeps the set acyclic. -/
theorem Acyclic.snoc {e : Edge V C} {t : List (Edge V C)} (h : Acyclic t)
    (he : ¬ Conn t e.a e.b) : Acyclic (t ++ [e]) := by
  intro pre f post hf hc
  rcases List.eq_nil_or_concat post with rfl | ⟨post', g, rfl⟩
  · obtain ⟨h1, h2⟩ := List.append_inj' hf (by simp)
    subst h1
    simp at h2; subst h2
    rw [List.append_nil] at hc
    exact he hc
  · have h2 : t ++ [e] = (pre ++ f :: post') ++ [g] := by simpa [List.concat_eq_append] using hf
    obtain ⟨h3, h4⟩ := List.append_inj' h2 (by simp)
    simp at h4; subst h4
    have h5 : Conn (e :: (pre ++ post')) f.a f.b :=
      hc.mono (by intro g hg; simp at hg ⊢; tauto)
    have hsub : ∀ {x y}, Conn (pre ++ post') x y → Conn t x y :=
      Conn.mono (by intro g hg; rw [h3]; simp at hg ⊢; tauto)
    have hf' : Conn t f.a f.b := Conn.edge (by rw [h3]; simp)
    rcases conn_cons.1 h5 with h6 | ⟨h6, h7⟩ | ⟨h6, h7⟩
    · exact h pre f post' h3 h6
    · exact he ((hsub h6).symm.trans (hf'.trans (hsub h7).symm))
    · exact he ((hsub h7).trans (hf'.symm.trans (hsub h6)))

theorem Acyclic.sublist {s t : List (Edge V C)} (hs : List.Sublist s t) (ht : Acyclic t) :
    Acyclic s := by
  intro pre e post h hc
  subst h
  obtain ⟨r1, r2, rfl, h1, h2⟩ := List.append_sublist_iff.1 hs
  obtain ⟨r3, r4, rfl, h3, h4⟩ := List.cons_sublist_iff.1 h2
  obtain ⟨u, v, rfl⟩ := List.append_of_mem h3
  refine ht (r1 ++ u) e (v ++ r4) (by simp) (hc.mono ?_)
  intro f hf
  rcases List.mem_append.1 hf with hf | hf
  · have := h1.subset hf; simp [this]
  · have := h4.subset hf; simp [this]

theorem Acyclic.filter (p : Edge V C → Bool) {t : List (Edge V C)} (ht : Acyclic t) :
    Acyclic (t.filter p) := ht.sublist List.filter_sublist

/-! ## Rank: an acyclic set is no larger than any set joining the same vertices

The vector of an edge is the difference of the indicators of its endpoints. -/

/-- Incidence vector of an edge. -/
noncomputable def incidence (e : Edge V C) : V →₀ ℚ := Finsupp.single e.a 1 - Finsupp.single e.b 1

/-- The span of the incidence vectors. -/
noncomputable def cutSpan (E : List (Edge V C)) : Submodule ℚ (V →₀ ℚ) :=
  Submodule.span ℚ {v | ∃ e ∈ E, incidence e = v}

theorem conn_mem_span {E : List (Edge V C)} {x y : V} (h : Conn E x y) :
    Finsupp.single x (1 : ℚ) - Finsupp.single y 1 ∈ cutSpan E := by
  refine h.least (R := fun x y => Finsupp.single x (1 : ℚ) - Finsupp.single y 1 ∈ cutSpan E)
    ⟨?_, ?_, ?_⟩ ?_
  · intro x; simp
  · intro x y h; simpa using (cutSpan E).neg_mem h
  · intro x y z h h'; simpa using (cutSpan E).add_mem h h'
  · intro e he; exact Submodule.subset_span ⟨e, he, rfl⟩

theorem not_mem_span {E : List (Edge V C)} {x y : V} (h : ¬ Conn E x y) :
    Finsupp.single x (1 : ℚ) - Finsupp.single y 1 ∉ cutSpan E := by
  classical
  intro hm
  let φ : (V →₀ ℚ) →ₗ[ℚ] ℚ := Finsupp.linearCombination ℚ fun v => if Conn E x v then (1 : ℚ) else 0
  have hk : cutSpan E ≤ LinearMap.ker φ := by
    refine Submodule.span_le.2 ?_
    rintro v ⟨e, he, rfl⟩
    have : Conn E x e.a ↔ Conn E x e.b :=
      ⟨fun h => h.trans (Conn.edge he), fun h => h.trans (Conn.edge he).symm⟩
    simp [φ, incidence, this]
  have := hk hm
  simp [φ, h, Conn.refl] at this

theorem cutSpan_finite (E : List (Edge V C)) : {v | ∃ e ∈ E, incidence e = v}.Finite := by
  have : {v | ∃ e ∈ E, incidence e = v} = incidence '' {e | e ∈ E} := by
    ext v; simp
  rw [this]
  exact (List.finite_toSet E).image _

instance (E : List (Edge V C)) : FiniteDimensional ℚ (cutSpan E) :=
  FiniteDimensional.span_of_finite ℚ (cutSpan_finite E)

theorem cutSpan_cons (e : Edge V C) (E : List (Edge V C)) :
    cutSpan (e :: E) = Submodule.span ℚ {incidence e} ⊔ cutSpan E := by
  unfold cutSpan
  rw [← Submodule.span_union]
  congr 1
  ext v; simp [eq_comm]

theorem cutSpan_nil : cutSpan ([] : List (Edge V C)) = ⊥ := by
  unfold cutSpan
  rw [Submodule.span_eq_bot]
  rintro x ⟨e, he, -⟩
  simp at he

theorem cutSpan_finrank_le (E : List (Edge V C)) : Module.finrank ℚ (cutSpan E) ≤ E.length := by
  induction E with
  | nil => simp [cutSpan_nil]
  | cons e E ih =>
    rw [cutSpan_cons]
    have h1 := Submodule.finrank_add_le_finrank_add_finrank (Submodule.span ℚ {incidence e})
      (cutSpan E)
    have h2 : Module.finrank ℚ (Submodule.span ℚ {incidence e}) ≤ 1 :=
      (finrank_span_le_card {incidence e}).trans (by simp)
    simp only [List.length_cons]
    omega

theorem cutSpan_finrank_acyclic (E : List (Edge V C)) (h : Acyclic E) :
    Module.finrank ℚ (cutSpan E) = E.length := by
  induction E with
  | nil => simp [cutSpan_nil]
  | cons e E ih =>
    have hlt : cutSpan E < cutSpan (e :: E) := by
      refine lt_of_le_of_ne ?_ ?_
      · rw [cutSpan_cons]; exact le_sup_right
      · intro heq
        have : incidence e ∈ cutSpan (e :: E) := Submodule.subset_span ⟨e, by simp, rfl⟩
        rw [← heq] at this
        exact not_mem_span h.head this
    have h1 := Submodule.finrank_lt_finrank_of_lt hlt
    have h2 := cutSpan_finrank_le (e :: E)
    have h3 := ih h.tail
    simp only [List.length_cons] at h2 ⊢
    omega

/-- Exchange property: an acyclic set whose edges all lie inside the components of `O` has at most
as many edges as `O`. -/
theorem acyclic_length_le {F O : List (Edge V C)} (hF : Acyclic F)
    (h : ∀ e ∈ F, Conn O e.a e.b) : F.length ≤ O.length := by
  rw [← cutSpan_finrank_acyclic F hF]
  refine le_trans (Submodule.finrank_mono ?_) (cutSpan_finrank_le O)
  refine Submodule.span_le.2 ?_
  rintro v ⟨e, he, rfl⟩
  exact conn_mem_span (h e he)

/-! ## Comparison of sums by counting -/

theorem sum_le_of_sorted_count [AddCommMonoid C] [LinearOrder C] [IsOrderedAddMonoid C] :
    ∀ (A B : List C), A.Pairwise (· ≥ ·) → B.Pairwise (· ≥ ·) → A.length = B.length →
      (∀ t, B.countP (· ≤ t) ≤ A.countP (· ≤ t)) → A.sum ≤ B.sum
  | [], [], _, _, _, _ => le_rfl
  | [], _ :: _, _, _, h, _ => by simp at h
  | _ :: _, [], _, _, h, _ => by simp at h
  | a :: A, b :: B, hA, hB, hl, hc => by
    simp only [List.length_cons, Nat.add_right_cancel_iff] at hl
    have hab : a ≤ b := by
      have h1 := hc b
      have h2 : (b :: B).countP (· ≤ b) = (b :: B).length := by
        rw [List.countP_eq_length]
        intro x hx
        rcases List.mem_cons.1 hx with rfl | hx
        · simp
        · simpa using (List.pairwise_cons.1 hB).1 x hx
      rw [h2] at h1
      have h3 : (a :: A).countP (· ≤ b) = (a :: A).length :=
        le_antisymm List.countP_le_length (by simpa [hl] using h1)
      simpa using List.countP_eq_length.1 h3 a (by simp)
    have := sum_le_of_sorted_count A B (List.pairwise_cons.1 hA).2 (List.pairwise_cons.1 hB).2 hl ?_
    · simpa using add_le_add hab this
    · intro t
      by_cases hat : a ≤ t
      · have h3 : A.countP (· ≤ t) = A.length := by
          rw [List.countP_eq_length]
          intro x hx
          simpa using le_trans ((List.pairwise_cons.1 hA).1 x hx) hat
        rw [h3, hl]; exact List.countP_le_length
      · have hbt : ¬ b ≤ t := fun h => hat (hab.trans h)
        simpa [hat, hbt] using hc t

theorem sum_le_of_count [AddCommMonoid C] [LinearOrder C] [IsOrderedAddMonoid C] (A B : List C)
    (hl : A.length = B.length) (hc : ∀ t, B.countP (· ≤ t) ≤ A.countP (· ≤ t)) :
    A.sum ≤ B.sum := by
  have pA := List.mergeSort_perm A (fun x y => decide (x ≥ y))
  have pB := List.mergeSort_perm B (fun x y => decide (x ≥ y))
  have sorted : ∀ l : List C, (l.mergeSort fun x y => decide (x ≥ y)).Pairwise (· ≥ ·) := by
    intro l
    have := List.pairwise_mergeSort (le := fun x y : C => decide (x ≥ y))
      (by intro x y z h1 h2; simp at *; exact h2.trans h1)
      (by intro x y; simp; exact le_total y x) l
    simpa using this
  rw [← pA.sum_eq, ← pB.sum_eq]
  refine sum_le_of_sorted_count _ _ (sorted A) (sorted B) ?_ ?_
  · rw [pA.length_eq, pB.length_eq, hl]
  · intro t; rw [pA.countP_eq, pB.countP_eq]; exact hc t

/-- Optimality criterion: an acyclic `O` in which the endpoints of every edge of `G` are joined by
edges no dearer than that edge has the least total cost of all spanning forests. -/
theorem min_of_bottleneck [AddCommMonoid C] [LinearOrder C] [IsOrderedAddMonoid C]
    {G O T : List (Edge V C)} (hO : Acyclic O) (hOG : ∀ e ∈ O, Conn G e.a e.b)
    (hb : ∀ e ∈ G, Conn (O.filter fun f => f.cost ≤ e.cost) e.a e.b)
    (hT : IsSpanningForest G T) : totalCost O ≤ totalCost T := by
  unfold totalCost
  apply sum_le_of_count
  · simp only [List.length_map]
    refine le_antisymm ?_ ?_
    · exact acyclic_length_le hO fun e he => (hT.spans _ _).2 (hOG e he)
    · refine acyclic_length_le hT.acyclic fun e he => ?_
      exact (hb e (hT.subset e he)).mono fun f hf => (List.mem_filter.1 hf).1
  · intro t
    rw [List.countP_map, List.countP_map, List.countP_eq_length_filter,
      List.countP_eq_length_filter]
    refine acyclic_length_le (hT.acyclic.filter _) fun e he => ?_
    obtain ⟨he, het⟩ := List.mem_filter.1 he
    refine (hb e (hT.subset e he)).mono fun f hf => ?_
    obtain ⟨hf, hfe⟩ := List.mem_filter.1 hf
    refine List.mem_filter.2 ⟨hf, ?_⟩
    simp at hfe het ⊢
    exact hfe.trans het

end Albatross
