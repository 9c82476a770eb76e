import Verif.GraphSpec
import Verif.IndexingLemmas
import Mathlib.Algebra.Order.Group.Defs
import Mathlib.Algebra.Order.Ring.Int

/-! # Kruskal's algorithm: C13, C14 -/

namespace Albatross

variable {V C : Type}

/-- A graph as the API builds it: the vertices are a set and contain all endpoints. -/
structure Graph.Valid [LT V] (g : Graph V C) : Prop where
  sorted : g.vertices.Pairwise (· < ·)
  mem : ∀ e ∈ g.edges, e.a ∈ g.vertices ∧ e.b ∈ g.vertices

section helpers

theorem findTree_ok_iff [DecidableEq V] {b : Build} {table : List (V × Nat)} {x : V} {t : Nat} :
    findTree b table x = .ok t ↔ ∃ p, table.find? (fun p => decide (p.1 = x)) = some p ∧ p.2 = t := by
  unfold findTree
  cases h : table.find? (fun p => decide (p.1 = x)) with
  | none => cases b <;> simp
  | some p => simp

theorem findTree_isOk [DecidableEq V] {b : Build} {table : List (V × Nat)} {x : V}
    (h : x ∈ table.map Prod.fst) : ∃ t, findTree b table x = .ok t := by
  obtain ⟨p, hp, rfl⟩ := List.mem_map.1 h
  have : (table.find? (fun q => decide (q.1 = p.1))).isSome := by
    rw [List.find?_isSome]; exact ⟨p, hp, by simp⟩
  obtain ⟨q, hq⟩ := Option.isSome_iff_exists.1 this
  exact ⟨q.2, findTree_ok_iff.2 ⟨q, hq, rfl⟩⟩

theorem findTree_merge [DecidableEq V] {b : Build} {table : List (V × Nat)} {x : V} {o n t : Nat}
    (h : findTree b table x = .ok t) :
    findTree b (mergeTrees o n table) x = .ok (if t = o then n else t) := by
  obtain ⟨p, hp, rfl⟩ := findTree_ok_iff.1 h
  refine findTree_ok_iff.2 ⟨if p.2 = o then (p.1, n) else p, ?_, ?_⟩
  · unfold mergeTrees
    rw [List.find?_map]
    have : ((fun p : V × Nat => decide (p.1 = x)) ∘ fun p => if p.2 = o then (p.1, n) else p) =
        fun p => decide (p.1 = x) := by
      funext q; simp only [Function.comp]; split <;> rfl
    rw [this, hp]; rfl
  · split <;> rfl

theorem mergeTrees_keys (o n : Nat) (table : List (V × Nat)) :
    (mergeTrees o n table).map Prod.fst = table.map Prod.fst := by
  unfold mergeTrees
  rw [List.map_map]
  apply List.map_congr_left
  intro p _; simp only [Function.comp]; split <;> rfl

theorem findTree_zipIdx [DecidableEq V] {b : Build} {vs : List V} {x : V} {t : Nat}
    (h : findTree b vs.zipIdx x = .ok t) : vs[t]? = some x := by
  obtain ⟨p, hp, rfl⟩ := findTree_ok_iff.1 h
  have h1 := List.mem_of_find?_eq_some hp
  have h2 := List.find?_some hp
  simp at h2
  have := List.mem_zipIdx_iff_getElem?.1 h1
  rw [this, h2]

/-- The table is right for the edges chosen so far. -/
def TableOK [DecidableEq V] (b : Build) (table : List (V × Nat)) (O : List (Edge V C)) : Prop :=
  ∀ x y tx ty, findTree b table x = .ok tx → findTree b table y = .ok ty →
    (tx = ty ↔ Conn O x y)

theorem tableOK_merge [DecidableEq V] {b : Build} {table : List (V × Nat)} {O : List (Edge V C)}
    (h : TableOK b table O) {e : Edge V C} {ta tb : Nat}
    (ha : findTree b table e.a = .ok ta) (hb : findTree b table e.b = .ok tb)
    (hsome : ∀ x, (∃ t, findTree b (mergeTrees ta tb table) x = .ok t) →
      ∃ t, findTree b table x = .ok t) :
    TableOK b (mergeTrees ta tb table) (O ++ [e]) := by
  intro x y tx ty hx hy
  obtain ⟨sx, hsx⟩ := hsome x ⟨_, hx⟩
  obtain ⟨sy, hsy⟩ := hsome y ⟨_, hy⟩
  rw [findTree_merge hsx] at hx
  rw [findTree_merge hsy] at hy
  cases hx; cases hy
  have hc : Conn (O ++ [e]) x y ↔ Conn (e :: O) x y :=
    Conn.congr fun f => by simp [or_comm]
  rw [hc, conn_cons, ← h _ _ _ _ hsx hsy, ← h _ _ _ _ hsx ha, ← h _ _ _ _ hb hsy,
    ← h _ _ _ _ hsx hb, ← h _ _ _ _ ha hsy]
  by_cases h1 : sx = ta <;> by_cases h2 : sy = ta <;> simp [h1, h2] <;> grind

theorem findTree_some_merge [DecidableEq V] {b : Build} {table : List (V × Nat)} {o n : Nat} {x : V}
    (h : ∃ t, findTree b (mergeTrees o n table) x = .ok t) : ∃ t, findTree b table x = .ok t := by
  obtain ⟨t, h⟩ := h
  obtain ⟨p, hp, -⟩ := findTree_ok_iff.1 h
  apply findTree_isOk
  rw [← mergeTrees_keys o n]
  refine List.mem_map.2 ⟨p, List.mem_of_find?_eq_some hp, ?_⟩
  simpa using List.find?_some hp

theorem kruskalLoop_spec [LinearOrder V] [LinearOrder C] (b : Build) :
    ∀ (es : List (Edge V C)) (table : List (V × Nat)) (out : Graph V C),
      (∀ e ∈ es, e.a ∈ table.map Prod.fst ∧ e.b ∈ table.map Prod.fst) →
      es.Pairwise (fun x y => x.cost ≤ y.cost) →
      (∀ f ∈ out.edges, ∀ e ∈ es, f.cost ≤ e.cost) →
      TableOK b table out.edges → Acyclic out.edges →
      ∃ out', kruskalLoop b es table out = .ok out' ∧
        (∃ chosen, out'.edges = out.edges ++ chosen ∧ chosen.Sublist es ∧
          ∀ v, v ∈ out'.vertices ↔ v ∈ out.vertices ∨ ∃ e ∈ chosen, v = e.a ∨ v = e.b) ∧
        Acyclic out'.edges ∧
        ∀ e ∈ es, Conn (out'.edges.filter fun f => f.cost ≤ e.cost) e.a e.b
  | [], table, out, _, _, _, _, ha => ⟨out, rfl, ⟨[], by simp⟩, ha, by simp⟩
  | e :: es, table, out, hm, hs, hle, ht, ha => by
    obtain ⟨ta, hta⟩ := findTree_isOk (b := b) (hm e (by simp)).1
    obtain ⟨tb, htb⟩ := findTree_isOk (b := b) (hm e (by simp)).2
    have hs' := List.pairwise_cons.1 hs
    by_cases hne : ta = tb
    · obtain ⟨out', h1, ⟨ch, h2, h3, h4⟩, h5, h6⟩ := kruskalLoop_spec b es table out
        (fun f hf => hm f (List.mem_cons_of_mem _ hf)) hs'.2
        (fun f hf g hg => hle f hf g (List.mem_cons_of_mem _ hg)) ht ha
      refine ⟨out', ?_, ⟨ch, h2, h3.trans (List.sublist_cons_self _ _), h4⟩, h5, ?_⟩
      · rw [kruskalLoop]
        simp only [hta, htb, except_ok_bind, hne, ne_eq, not_true_eq_false, if_false, h1]
      · intro f hf
        rcases List.mem_cons.1 hf with rfl | hf
        · have hc : Conn out.edges f.a f.b := (ht _ _ _ _ hta htb).1 hne
          refine hc.mono fun g hg => List.mem_filter.2 ⟨?_, ?_⟩
          · rw [h2]; exact List.mem_append_left _ hg
          · simpa using hle g hg f (by simp)
        · exact h6 f hf
    · have hnc : ¬ Conn out.edges e.a e.b := fun h => hne ((ht _ _ _ _ hta htb).2 h)
      obtain ⟨out', h1, ⟨ch, h2, h3, h4⟩, h5, h6⟩ := kruskalLoop_spec b es (mergeTrees ta tb table)
        (addEdge e out)
        (fun f hf => by rw [mergeTrees_keys]; exact hm f (List.mem_cons_of_mem _ hf)) hs'.2
        (by
          intro f hf g hg
          rcases List.mem_append.1 hf with hf | hf
          · exact hle f hf g (List.mem_cons_of_mem _ hg)
          · simp at hf; subst hf; exact hs'.1 g hg)
        (tableOK_merge ht hta htb fun x => findTree_some_merge) (ha.snoc hnc)
      refine ⟨out', ?_, ⟨e :: ch, ?_, h3.cons_cons e, ?_⟩, h5, ?_⟩
      · rw [kruskalLoop]
        simp only [hta, htb, except_ok_bind, ne_eq, hne, not_false_eq_true, if_true, h1]
      · rw [h2]; simp [addEdge]
      · intro v
        rw [h4]
        simp only [addEdge, mem_setInsert, List.mem_cons, exists_eq_or_imp]
        generalize (∃ f ∈ ch, v = f.a ∨ v = f.b) = P
        tauto
      · intro f hf
        rcases List.mem_cons.1 hf with rfl | hf
        · apply Conn.edge
          refine List.mem_filter.2 ⟨?_, by simp⟩
          rw [h2]; simp [addEdge]
        · exact h6 f hf

theorem conn_nil {x y : V} : Conn ([] : List (Edge V C)) x y ↔ x = y :=
  ⟨fun h => h.least eq_equivalence (by simp), fun h => h ▸ Conn.refl _ _⟩

end helpers

/-- C13: for every valid graph (parallel edges, self loops and several components allowed), every
way `std::sort` may order ties and either build, `minimum_spanning_forest` returns; the edges it
returns are edges of the graph, have no cycle, join exactly the vertices the graph joins, and their
total cost is at most that of any other spanning forest; the returned vertices are the endpoints. -/
theorem C13_minimum_spanning_forest [LinearOrder V] [LinearOrder C] [AddCommMonoid C]
    [IsOrderedAddMonoid C] (b : Build) (s : EdgeSort V C) (g : Graph V C) (hg : g.Valid) :
    ∃ out, minimumSpanningForest b s g = .ok out ∧
      out.edges.Subperm g.edges ∧
      IsSpanningForest g.edges out.edges ∧
      (∀ T, IsSpanningForest g.edges T → totalCost out.edges ≤ totalCost T) ∧
      (∀ v, v ∈ out.vertices ↔ ∃ e ∈ out.edges, v = e.a ∨ v = e.b) := by
  unfold minimumSpanningForest
  by_cases h0 : g.edges.length = 0
  · have hn : g.edges = [] := List.length_eq_zero_iff.1 h0
    refine ⟨{ edges := [], vertices := [] }, by rw [if_pos h0], by simp, ?_, ?_, by simp⟩
    · rw [hn]; exact ⟨by simp, acyclic_nil, fun _ _ => Iff.rfl⟩
    · intro T hT
      have : T = [] := by
        rw [List.eq_nil_iff_forall_not_mem]
        intro e he
        have := hT.subset e he
        simp [hn] at this
      rw [this]
  · have hperm := s.perm g.edges
    obtain ⟨out, h1, ⟨ch, h2, h3, h4⟩, h5, h6⟩ := kruskalLoop_spec b (s.sort g.edges)
      g.vertices.zipIdx { edges := [], vertices := [] }
      (by
        intro e he
        rw [List.zipIdx_map_fst]
        exact hg.mem e (hperm.mem_iff.1 he))
      ((s.sorted g.edges).imp fun {x y} h => by
        unfold edgeLt at h; push Not at h; exact h.1)
      (by simp)
      (by
        intro x y tx ty hx hy
        rw [conn_nil]
        constructor
        · rintro rfl
          exact Option.some.inj ((findTree_zipIdx hx).symm.trans (findTree_zipIdx hy))
        · rintro rfl; rw [hx] at hy; cases hy; rfl)
      acyclic_nil
    simp only [List.nil_append] at h2
    subst h2
    have hsub : ∀ e ∈ out.edges, e ∈ g.edges := fun e he => hperm.mem_iff.1 (h3.subset he)
    have hb : ∀ e ∈ g.edges, Conn (out.edges.filter fun f => f.cost ≤ e.cost) e.a e.b :=
      fun e he => h6 e (hperm.mem_iff.2 he)
    refine ⟨out, by rw [if_neg h0, h1], h3.subperm.trans hperm.subperm, ⟨hsub, h5, ?_⟩, ?_, ?_⟩
    · intro x y
      refine ⟨Conn.mono hsub, Conn.mono' fun e he => ?_⟩
      exact (hb e he).mono fun f hf => (List.mem_filter.1 hf).1
    · intro T hT
      exact min_of_bottleneck h5 (fun e he => Conn.edge (hsub e he)) hb hT
    · intro v; rw [h4]; simp

theorem foldl_vertices [LinearOrder V] (es : List (Edge V C)) : ∀ (vs : List V),
    vs.Pairwise (· < ·) →
    (es.foldl (fun vs e => setInsert e.b (setInsert e.a vs)) vs).Pairwise (· < ·) ∧
    ∀ v, v ∈ es.foldl (fun vs e => setInsert e.b (setInsert e.a vs)) vs ↔
      v ∈ vs ∨ ∃ e ∈ es, v = e.a ∨ v = e.b := by
  induction es with
  | nil => intro vs h; simp [h]
  | cons e es ih =>
    intro vs h
    have := ih _ (sorted_setInsert (k := e.b) (sorted_setInsert (k := e.a) h))
    refine ⟨this.1, fun v => ?_⟩
    rw [List.foldl_cons, this.2]
    simp only [mem_setInsert, List.mem_cons, exists_eq_or_imp]
    generalize (∃ f ∈ es, v = f.a ∨ v = f.b) = P
    tauto

/-- Every graph made by `create_graph` is valid, and its vertices are the endpoints. -/
theorem C13_create_graph_valid [LinearOrder V] (es : List (Edge V C)) :
    (createGraph es).Valid ∧ (createGraph es).edges = es ∧
    ∀ v, v ∈ (createGraph es).vertices ↔ ∃ e ∈ es, v = e.a ∨ v = e.b := by
  have := foldl_vertices es [] List.Pairwise.nil
  refine ⟨⟨this.1, ?_⟩, rfl, ?_⟩
  · intro e he
    exact ⟨(this.2 _).2 (.inr ⟨e, he, .inl rfl⟩), (this.2 _).2 (.inr ⟨e, he, .inr rfl⟩)⟩
  · intro v; unfold createGraph computeVertices; simpa using this.2 v

/-- What a violated assertion before an invalid dereference turns into. -/
def missingFault : Build → Fault
  | .debug => .assertFail
  | .ndebug => .ub

/-- An endpoint missing from the vertex set is an assertion failure in a debug build and undefined
behaviour when assertions are compiled out: validity is really needed. -/
theorem C13_missing_vertex_faults [LinearOrder V] [LinearOrder C] (b : Build) (s : EdgeSort V C)
    (g : Graph V C) (e : Edge V C) (he : e ∈ g.edges) (hv : e.a ∉ g.vertices ∨ e.b ∉ g.vertices) :
    minimumSpanningForest b s g =
      .error (missingFault b) := by
  have key : ∀ (es : List (Edge V C)) (table : List (V × Nat)) (out : Graph V C), e ∈ es →
      (e.a ∉ table.map Prod.fst ∨ e.b ∉ table.map Prod.fst) →
      kruskalLoop b es table out = .error (missingFault b) := by
    have hmiss : ∀ (table : List (V × Nat)) x, x ∉ table.map Prod.fst →
        findTree b table x = .error (missingFault b) := by
      intro table x hx
      have : table.find? (fun p => decide (p.1 = x)) = none := by
        rw [List.find?_eq_none]
        intro p hp h
        exact hx (List.mem_map.2 ⟨p, hp, by simpa using h⟩)
      unfold findTree; rw [this]; cases b <;> rfl
    have hcase : ∀ (table : List (V × Nat)) x, (∃ t, findTree b table x = .ok t) ∨
        findTree b table x = .error (missingFault b) := by
      intro table x
      by_cases h : x ∈ table.map Prod.fst
      · exact .inl (findTree_isOk h)
      · exact .inr (hmiss table x h)
    intro es
    induction es with
    | nil => intro _ _ h; simp at h
    | cons f es ih =>
      intro table out hm hn
      rw [kruskalLoop]
      rcases hcase table f.a with ⟨ta, hta⟩ | hta
      · rcases hcase table f.b with ⟨tb, htb⟩ | htb
        · simp only [hta, htb, except_ok_bind]
          have hmem : e ∈ es := by
            rcases List.mem_cons.1 hm with rfl | hm
            · rcases hn with hn | hn
              · rw [hmiss _ _ hn] at hta; cases hta
              · rw [hmiss _ _ hn] at htb; cases htb
            · exact hm
          split
          · exact ih _ _ hmem (by rwa [mergeTrees_keys])
          · exact ih _ _ hmem hn
        · simp only [hta, htb, except_ok_bind, except_error_bind]
      · simp only [hta, except_error_bind]
  unfold minimumSpanningForest
  rw [if_neg (by rw [List.length_eq_zero_iff]; rintro h; simp [h] at he)]
  exact key _ _ _ ((s.perm g.edges).mem_iff.2 he) (by rwa [List.zipIdx_map_fst])

/-! ## Negated costs -/

/-- An edge with its cost negated. -/
def Edge.negate [Neg C] (e : Edge V C) : Edge V C := { e with cost := -e.cost }

theorem negateCosts_edges [Neg C] (g : Graph V C) :
    (negateCosts g).edges = g.edges.map Edge.negate := rfl

theorem Edge.negate_negate [InvolutiveNeg C] (e : Edge V C) : e.negate.negate = e := by
  simp [Edge.negate]

theorem map_negate_negate [InvolutiveNeg C] (E : List (Edge V C)) :
    (E.map Edge.negate).map Edge.negate = E := by
  rw [List.map_map]
  conv_rhs => rw [← List.map_id E]
  apply List.map_congr_left
  intro e _; simp [Edge.negate_negate]

theorem conn_negate [Neg C] (E : List (Edge V C)) (x y : V) :
    Conn (E.map Edge.negate) x y ↔ Conn E x y := by
  constructor
  · intro h
    refine h.least (conn_equivalence E) ?_
    intro f hf
    obtain ⟨e, he, rfl⟩ := List.mem_map.1 hf
    exact Conn.edge (e := e) he
  · intro h
    refine h.least (conn_equivalence _) ?_
    intro e he
    exact Conn.edge (e := e.negate) (List.mem_map_of_mem he)

theorem Acyclic.negate [InvolutiveNeg C] {E : List (Edge V C)} (h : Acyclic E) :
    Acyclic (E.map Edge.negate) := by
  intro pre e post hE hc
  have : E = pre.map Edge.negate ++ e.negate :: post.map Edge.negate := by
    rw [← map_negate_negate E, hE]; simp
  refine h _ _ _ this ?_
  rw [← List.map_append, conn_negate]
  exact hc

theorem IsSpanningForest.negate [InvolutiveNeg C] {G T : List (Edge V C)}
    (h : IsSpanningForest G T) :
    IsSpanningForest (G.map Edge.negate) (T.map Edge.negate) := by
  refine ⟨?_, h.acyclic.negate, ?_⟩
  · intro e he
    obtain ⟨f, hf, rfl⟩ := List.mem_map.1 he
    exact List.mem_map_of_mem (h.subset f hf)
  · intro x y; rw [conn_negate, conn_negate]; exact h.spans x y

theorem totalCost_negate [AddCommGroup C] (E : List (Edge V C)) :
    totalCost (E.map Edge.negate) = - totalCost E := by
  induction E with
  | nil => simp [totalCost]
  | cons e t ih =>
    unfold totalCost at ih ⊢
    simp only [List.map_cons, List.sum_cons, ih, Edge.negate]
    rw [neg_add]

theorem negateCosts_valid [LT V] [Neg C] {g : Graph V C} (h : g.Valid) : (negateCosts g).Valid := by
  refine ⟨h.sorted, ?_⟩
  intro e he
  obtain ⟨f, hf, rfl⟩ := List.mem_map.1 he
  exact h.mem f hf

/-- C14: `maximum_spanning_forest` returns, for every valid graph, edges of the graph with their
original costs that form a spanning forest of the largest total cost. -/
theorem C14_maximum_spanning_forest [LinearOrder V] [LinearOrder C] [AddCommGroup C]
    [IsOrderedAddMonoid C] (b : Build) (s : EdgeSort V C) (g : Graph V C) (hg : g.Valid) :
    ∃ out, maximumSpanningForest b s g = .ok out ∧
      out.edges.Subperm g.edges ∧
      IsSpanningForest g.edges out.edges ∧
      (∀ T, IsSpanningForest g.edges T → totalCost T ≤ totalCost out.edges) ∧
      (∀ v, v ∈ out.vertices ↔ ∃ e ∈ out.edges, v = e.a ∨ v = e.b) := by
  obtain ⟨o, h1, h2, h3, h4, h5⟩ := C13_minimum_spanning_forest b s _ (negateCosts_valid hg)
  refine ⟨negateCosts o, ?_, ?_, ?_, ?_, ?_⟩
  · unfold maximumSpanningForest; rw [h1]; rfl
  · obtain ⟨l, hl, hs⟩ := h2
    have : (o.edges.map Edge.negate).Subperm ((negateCosts g).edges.map Edge.negate) :=
      ⟨l.map Edge.negate, hl.map _, hs.map _⟩
    rw [negateCosts_edges, map_negate_negate] at this
    exact this
  · have := h3.negate
    rw [negateCosts_edges, map_negate_negate] at this
    exact this
  · intro T hT
    have := h4 _ hT.negate
    rw [totalCost_negate] at this
    rw [negateCosts_edges, totalCost_negate]
    exact le_neg_of_le_neg this
  · intro v
    show v ∈ o.vertices ↔ _
    rw [h5, negateCosts_edges]
    simp [Edge.negate]

/-! ## Non-vacuity: a concrete sort, a graph with a cycle, a self loop and two components -/

/-- A concrete sort meeting the contract. -/
def insertionEdgeSort : EdgeSort Nat Int where
  sort l := l.insertionSort fun x y => ¬ edgeLt y x
  perm l := List.perm_insertionSort _ l
  sorted l := by
    have : Std.Total (fun x y : Edge Nat Int => ¬ edgeLt y x) :=
      ⟨fun x y => by unfold edgeLt; omega⟩
    have : IsTrans (Edge Nat Int) (fun x y : Edge Nat Int => ¬ edgeLt y x) :=
      ⟨fun x y z => by unfold edgeLt; omega⟩
    exact List.pairwise_insertionSort _ l

def sampleGraph : Graph Nat Int :=
  createGraph [⟨1, 2, 3, 0⟩, ⟨2, 3, 1, 1⟩, ⟨1, 3, 2, 2⟩, ⟨3, 3, -5, 3⟩, ⟨7, 8, 4, 4⟩]

example : sampleGraph.Valid := (C13_create_graph_valid _).1

example : minimumSpanningForest .debug insertionEdgeSort sampleGraph =
    .ok ⟨[⟨2, 3, 1, 1⟩, ⟨1, 3, 2, 2⟩, ⟨7, 8, 4, 4⟩], [1, 2, 3, 7, 8]⟩ := by decide +kernel

example : maximumSpanningForest .debug insertionEdgeSort sampleGraph =
    .ok ⟨[⟨7, 8, 4, 4⟩, ⟨1, 2, 3, 0⟩, ⟨1, 3, 2, 2⟩], [1, 2, 3, 7, 8]⟩ := by decide +kernel

example : minimumSpanningForest .ndebug insertionEdgeSort ⟨[⟨1, 2, 3, 0⟩], [1]⟩ = .error .ub := by
  decide +kernel

end Albatross
