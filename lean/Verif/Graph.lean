import Verif.Basic

/-! # Model of `graph/minimum_spanning_tree.hpp`

The vertex type is any linearly ordered type and costs any linearly ordered type (with a negation
where costs are negated); NaN costs, for which `operator<` is not a strict weak order, are not
modelled.  `std::sort` (which is not stable) and `std::priority_queue` (which breaks ties in an
unspecified way) are parameters with their standard contracts, so that theorems hold for every
implementation of them. -/

namespace Albatross

/-- `Edge` (graph/minimum_spanning_tree.hpp lines 17-38). -/
structure Edge (V C : Type) where
  a : V
  b : V
  cost : C
  id : Nat
  deriving DecidableEq, Repr

variable {V C : Type}

/-- `Edge::operator<` (lines 21-24): lexicographic on cost, a, b. -/
def edgeLt [LT V] [LT C] (e f : Edge V C) : Prop :=
  e.cost < f.cost ∨ (e.cost = f.cost ∧ (e.a < f.a ∨ (e.a = f.a ∧ e.b < f.b)))

instance [LT V] [LT C] [DecidableLT V] [DecidableLT C] [DecidableEq V] [DecidableEq C]
    (e f : Edge V C) : Decidable (edgeLt e f) := by unfold edgeLt; infer_instance

/-- `Graph` (lines 51-54). -/
structure Graph (V C : Type) where
  edges : List (Edge V C)
  vertices : List V
  deriving DecidableEq, Repr

/-- `compute_vertices` (lines 40-49). -/
def computeVertices [LT V] [DecidableLT V] [DecidableEq V] (edges : List (Edge V C)) : List V :=
  edges.foldl (fun vs e => setInsert e.b (setInsert e.a vs)) []

/-- `create_graph` (lines 56-62). -/
def createGraph [LT V] [DecidableLT V] [DecidableEq V] (edges : List (Edge V C)) : Graph V C :=
  { edges := edges, vertices := computeVertices edges }

/-- `add_edge` (lines 64-69). -/
def addEdge [LT V] [DecidableLT V] [DecidableEq V] (e : Edge V C) (g : Graph V C) : Graph V C :=
  { edges := g.edges ++ [e], vertices := setInsert e.b (setInsert e.a g.vertices) }

/-- `contains_vertex` (lines 71-74). -/
def containsVertex [DecidableEq V] (g : Graph V C) (v : V) : Bool := decide (v ∈ g.vertices)

/-- An edge with its endpoints swapped (lines 92-93). -/
def Edge.flip (e : Edge V C) : Edge V C := { e with a := e.b, b := e.a }

/-- The local `construct_or_push` (lines 79-86). -/
def constructOrPush [LT V] [DecidableLT V] [DecidableEq V] (m : SMap V (List (Edge V C))) (k : V)
    (e : Edge V C) : SMap V (List (Edge V C)) :=
  SMap.alter (fun o => match o with | none => [e] | some l => l ++ [e]) k m

/-- One step of the loop of `adjacency_map` (lines 88-96). -/
def adjacencyStep [LT V] [DecidableLT V] [DecidableEq V] (out : SMap V (List (Edge V C)))
    (e : Edge V C) : SMap V (List (Edge V C)) :=
  constructOrPush (constructOrPush out e.a e) e.b e.flip

/-- `adjacency_map` (lines 76-98). -/
def adjacencyMap [LT V] [DecidableLT V] [DecidableEq V] (g : Graph V C) :
    SMap V (List (Edge V C)) :=
  g.edges.foldl adjacencyStep []

/-! ## Kruskal -/

/-- Contract of `std::sort` with `Edge::operator<`. -/
structure EdgeSort (V C : Type) [LT V] [LT C] where
  sort : List (Edge V C) → List (Edge V C)
  perm : ∀ l, (sort l).Perm l
  sorted : ∀ l, (sort l).Pairwise fun x y => ¬ edgeLt y x

/-- `find_vertex_or_assert` (lines 206-211): dereferencing `end()` when the assertion is compiled
out is undefined behaviour. -/
def findTree [DecidableEq V] (b : Build) (table : List (V × Nat)) (x : V) : Outcome Nat :=
  match table.find? (fun p => decide (p.1 = x)) with
  | some p => .ok p.2
  | none => match b with
    | .debug => .error .assertFail
    | .ndebug => .error .ub

/-- `merge_trees` (lines 213-219). -/
def mergeTrees (oldTree newTree : Nat) (table : List (V × Nat)) : List (V × Nat) :=
  table.map fun p => if p.2 = oldTree then (p.1, newTree) else p

/-- `KruskalAlgoRunner::run` (lines 187-198). -/
def kruskalLoop [LT V] [DecidableLT V] [DecidableEq V] (b : Build) :
    List (Edge V C) → List (V × Nat) → Graph V C → Outcome (Graph V C)
  | [], _, out => .ok out
  | e :: es, table, out => do
    let ta ← findTree b table e.a
    let tb ← findTree b table e.b
    if ta ≠ tb then kruskalLoop b es (mergeTrees ta tb table) (addEdge e out)
    else kruskalLoop b es table out

/-- `minimum_spanning_forest` (lines 227-235) with the constructor of the runner (lines 177-185). -/
def minimumSpanningForest [LT V] [LT C] [DecidableLT V] [DecidableEq V] (b : Build)
    (s : EdgeSort V C) (g : Graph V C) : Outcome (Graph V C) :=
  if g.edges.length = 0 then .ok { edges := [], vertices := [] }
  else kruskalLoop b (s.sort g.edges) g.vertices.zipIdx { edges := [], vertices := [] }

/-- Negate all costs (lines 243-246, 257-260). -/
def negateCosts [Neg C] (g : Graph V C) : Graph V C :=
  { g with edges := g.edges.map fun e => { e with cost := -e.cost } }

/-- `maximum_spanning_forest` (lines 255-267). -/
def maximumSpanningForest [LT V] [LT C] [Neg C] [DecidableLT V] [DecidableEq V] (b : Build)
    (s : EdgeSort V C) (g : Graph V C) : Outcome (Graph V C) := do
  let out ← minimumSpanningForest b s (negateCosts g)
  pure (negateCosts out)

/-! ## Prim -/

/-- Contract of `std::priority_queue<Edge>`: `pop` yields an element that no other exceeds and
removes it. -/
structure MaxQueue (V C : Type) [LT V] [LT C] where
  pop : List (Edge V C) → Option (Edge V C × List (Edge V C))
  pop_nil : pop [] = none
  pop_some : ∀ l, l ≠ [] → ∃ e r, pop l = some (e, r)
  pop_perm : ∀ l e r, pop l = some (e, r) → l.Perm (e :: r)
  pop_max : ∀ l e r, pop l = some (e, r) → ∀ x ∈ l, ¬ edgeLt e x

/-- `std::max_element`: the first element that no later one exceeds. -/
def maxEdge [LT V] [LT C] [DecidableLT V] [DecidableLT C] [DecidableEq V] [DecidableEq C]
    (e : Edge V C) (l : List (Edge V C)) : Edge V C :=
  l.foldl (fun m x => if edgeLt m x then x else m) e

/-- The main loop of `maximum_spanning_tree` (lines 140-157). -/
def primLoop [LT V] [LT C] [DecidableLT V] [DecidableEq V] (q : MaxQueue V C)
    (adj : SMap V (List (Edge V C))) (maxEdges : Nat) (queue : List (Edge V C)) (out : Graph V C) :
    Outcome (Graph V C) :=
  if out.edges.length < maxEdges then
    match _h : q.pop queue with
    | none => .ok out
    | some (e, rest) =>
      if containsVertex out e.b then primLoop q adj maxEdges rest out
      else
        match adj.at? e.b with
        | .error f => .error f
        | .ok es =>
          primLoop q adj maxEdges
            (rest ++ es.filter fun x => !containsVertex (addEdge e out) x.b) (addEdge e out)
  else .ok out
termination_by (maxEdges - out.edges.length, queue.length)
decreasing_by
  · have := (q.pop_perm queue e rest _h).length_eq
    simp at this
    exact Prod.Lex.right _ (by omega)
  · refine Prod.Lex.left _ _ ?_
    simp [addEdge]; omega

/-- `maximum_spanning_tree` (lines 119-159).  `graph.vertices.size() - 1` is computed in
`std::size_t` and wraps for a graph with edges but no vertices. -/
def maximumSpanningTree [LT V] [LT C] [DecidableLT V] [DecidableLT C] [DecidableEq V]
    [DecidableEq C] (q : MaxQueue V C) (g : Graph V C) : Outcome (Graph V C) :=
  match g.edges with
  | [] => .ok { edges := [], vertices := [] }
  | e :: es =>
    let adj := adjacencyMap g
    let first := maxEdge e es
    match adj.at? first.a with
    | .error f => .error f
    | .ok start => primLoop q adj ((g.vertices.length + 2 ^ 64 - 1) % 2 ^ 64) start
        { edges := [], vertices := [] }

/-- `minimum_spanning_tree` (lines 241-253). -/
def minimumSpanningTree [LT V] [LT C] [Neg C] [DecidableLT V] [DecidableLT C] [DecidableEq V]
    [DecidableEq C] (q : MaxQueue V C) (g : Graph V C) : Outcome (Graph V C) := do
  let out ← maximumSpanningTree q (negateCosts g)
  pure (negateCosts out)

end Albatross
