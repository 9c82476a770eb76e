import Verif.KruskalProps

/-! # Prim's algorithm: C15 -/

namespace Albatross

variable {V C : Type}

section helpers

theorem Edge.flip_flip (e : Edge V C) : e.flip.flip = e := rfl

/-- An edge of the graph read in either direction. -/
def Oriented (G : List (Edge V C)) (e : Edge V C) : Prop := e ∈ G ∨ e.flip ∈ G

theorem Oriented.flip {G : List (Edge V C)} {e : Edge V C} (h : Oriented G e) :
    Oriented G e.flip := by
  rcases h with h | h
  · right; rwa [Edge.flip_flip]
  · left; exact h

theorem Oriented.conn {G : List (Edge V C)} {e : Edge V C} (h : Oriented G e) :
    Conn G e.a e.b := by
  rcases h with h | h
  · exact Conn.edge h
  · exact (Conn.edge h).symm

theorem find?_constructOrPush [LinearOrder V] {m : SMap V (List (Edge V C))} (hm : SMap.WF m)
    (k : V) (f : Edge V C) (v : V) :
    (constructOrPush m k f).find? v =
      if v = k then some ((m.find? k).getD [] ++ [f]) else m.find? v := by
  unfold constructOrPush
  rw [SMap.find?_alter hm]
  split
  · cases m.find? k <;> simp
  · rfl

theorem adjacencyStep_spec [LinearOrder V] {m : SMap V (List (Edge V C))} (hm : SMap.WF m)
    (f : Edge V C) : SMap.WF (adjacencyStep m f) ∧
    ∀ v e, e ∈ ((adjacencyStep m f).find? v).getD [] ↔
      e ∈ (m.find? v).getD [] ∨ (e = f ∧ v = f.a) ∨ (e = f.flip ∧ v = f.b) := by
  have hw : SMap.WF (constructOrPush m f.a f) := SMap.wf_alter hm
  refine ⟨SMap.wf_alter hw, fun v e => ?_⟩
  unfold adjacencyStep
  rw [find?_constructOrPush hw, find?_constructOrPush hm, find?_constructOrPush hm]
  by_cases hb : v = f.b <;> by_cases ha : v = f.a
  · have hba : f.b = f.a := hb.symm.trans ha
    simp [hb, hba]
  · have hba : f.b ≠ f.a := fun h => ha (hb.trans h)
    simp [hb, hba]
  · have hba : f.a ≠ f.b := fun h => hb (ha.trans h)
    simp [ha, hba]
  · simp [ha, hb]

theorem adjacencyMap_getD [LinearOrder V] (g : Graph V C) :
    SMap.WF (adjacencyMap g) ∧
    ∀ v e, e ∈ ((adjacencyMap g).find? v).getD [] ↔ e.a = v ∧ Oriented g.edges e := by
  suffices h : ∀ (es : List (Edge V C)) (m : SMap V (List (Edge V C))) (G : List (Edge V C)),
      SMap.WF m → (∀ v e, e ∈ (m.find? v).getD [] ↔ e.a = v ∧ Oriented G e) →
      SMap.WF (es.foldl adjacencyStep m) ∧
      ∀ v e, e ∈ ((es.foldl adjacencyStep m).find? v).getD [] ↔ e.a = v ∧ Oriented (G ++ es) e by
    have := h g.edges [] [] SMap.wf_nil (by simp [SMap.find?, Oriented])
    simpa [adjacencyMap] using this
  intro es
  induction es with
  | nil => intro m G h1 h2; simpa using ⟨h1, h2⟩
  | cons f es ih =>
    intro m G h1 h2
    have hs := adjacencyStep_spec h1 f
    have := ih (adjacencyStep m f) (G ++ [f]) hs.1 ?_
    · simpa using this
    · intro v e
      rw [hs.2, h2]
      have hfl : e.flip = f ↔ e = f.flip :=
        ⟨fun h => by rw [← h, Edge.flip_flip], fun h => by rw [h, Edge.flip_flip]⟩
      simp only [Oriented, List.mem_append, List.mem_singleton, hfl]
      constructor
      · rintro (⟨h, h'⟩ | ⟨rfl, rfl⟩ | ⟨rfl, rfl⟩)
        · exact ⟨h, by tauto⟩
        · exact ⟨rfl, by tauto⟩
        · exact ⟨rfl, by tauto⟩
      · rintro ⟨rfl, h⟩
        rcases h with (h | h) | (h | h)
        · exact .inl ⟨rfl, .inl h⟩
        · subst h; exact .inr (.inl ⟨rfl, rfl⟩)
        · exact .inl ⟨rfl, .inr h⟩
        · subst h; exact .inr (.inr ⟨rfl, rfl⟩)

theorem adjacencyMap_spec [LinearOrder V] (g : Graph V C) :
    SMap.WF (adjacencyMap g) ∧
    (∀ v l, (adjacencyMap g).find? v = some l → ∀ e, e ∈ l ↔ e.a = v ∧ Oriented g.edges e) ∧
    (∀ e, Oriented g.edges e → ((adjacencyMap g).find? e.a).isSome) := by
  have h := adjacencyMap_getD g
  refine ⟨h.1, ?_, ?_⟩
  · intro v l hl e
    rw [← h.2 v e, hl]; rfl
  · intro e he
    have := (h.2 e.a e).2 ⟨rfl, he⟩
    cases hf : (adjacencyMap g).find? e.a with
    | none => simp [hf] at this
    | some l => rfl

/-- Invariant of the main loop: `T` are the chosen edges, `S` the vertices reached. -/
structure PrimInv [LinearOrder V] [LinearOrder C] (G queue T : List (Edge V C)) (S : List V) :
    Prop where
  sorted : S.Pairwise (· < ·)
  queue_mem : ∀ e ∈ queue, Oriented G e ∧ e.a ∈ S
  crossing : ∀ e, Oriented G e → e.a ∈ S → e.b ∉ S → e ∈ queue
  oriented : ∀ e ∈ T, Oriented G e
  acyclic : Acyclic T
  inside : ∀ e ∈ T, e.a ∈ S ∧ e.b ∈ S
  joined : ∀ x ∈ S, ∀ y ∈ S, Conn T x y
  count : S.length = T.length + 1
  bottleneck : ∀ c : C, ∃ A : V → Prop,
    (∀ x y, A x → A y → Conn (T.filter fun f => c ≤ f.cost) x y) ∧
    (∀ e, Oriented G e → e.a ∈ S → e.b ∉ S → c ≤ e.cost → A e.a) ∧
    (∀ e, Oriented G e → e.a ∈ S → e.b ∈ S → c ≤ e.cost →
      Conn (T.filter fun f => c ≤ f.cost) e.a e.b)

theorem primInv_init [LinearOrder V] [LinearOrder C] {G queue : List (Edge V C)} {s : V}
    (hq : ∀ e, e ∈ queue ↔ e.a = s ∧ Oriented G e) : PrimInv G queue [] [s] where
  sorted := by simp
  queue_mem e he := ⟨((hq e).1 he).2, by simp [((hq e).1 he).1]⟩
  crossing e ho ha _ := (hq e).2 ⟨by simpa using ha, ho⟩
  oriented := by simp
  acyclic := acyclic_nil
  inside := by simp
  joined x hx y hy := by
    simp at hx hy; subst hx; subst hy; exact Conn.refl _ _
  count := rfl
  bottleneck c := by
    refine ⟨fun x => x = s, ?_, ?_, ?_⟩
    · rintro x y rfl rfl; exact Conn.refl _ _
    · intro e _ ha _ _; simpa using ha
    · intro e _ ha hb _
      simp at ha hb; rw [ha, hb]; exact Conn.refl _ _

theorem conn_inside {T : List (Edge V C)} {S : List V} (h : ∀ e ∈ T, e.a ∈ S ∧ e.b ∈ S) {x y : V}
    (hc : Conn T x y) : x = y ∨ (x ∈ S ∧ y ∈ S) := by
  refine hc.least (R := fun x y => x = y ∨ (x ∈ S ∧ y ∈ S)) ⟨fun x => .inl rfl, ?_, ?_⟩ ?_
  · rintro x y (rfl | ⟨h1, h2⟩)
    · exact .inl rfl
    · exact .inr ⟨h2, h1⟩
  · rintro x y z (rfl | ⟨h1, h2⟩) (rfl | ⟨h3, h4⟩)
    · exact .inl rfl
    · exact .inr ⟨h3, h4⟩
    · exact .inr ⟨h1, h2⟩
    · exact .inr ⟨h1, h4⟩
  · intro e he; exact .inr (h e he)

theorem primInv_skip [LinearOrder V] [LinearOrder C] {G queue rest T : List (Edge V C)} {S : List V}
    {e : Edge V C} (h : PrimInv G queue T S) (hp : queue.Perm (e :: rest)) (hb : e.b ∈ S) :
    PrimInv G rest T S where
  sorted := h.sorted
  queue_mem f hf := h.queue_mem f (hp.mem_iff.2 (List.mem_cons_of_mem _ hf))
  crossing f ho ha hb' := by
    rcases List.mem_cons.1 (hp.mem_iff.1 (h.crossing f ho ha hb')) with rfl | hf
    · exact absurd hb hb'
    · exact hf
  oriented := h.oriented
  acyclic := h.acyclic
  inside := h.inside
  joined := h.joined
  count := h.count
  bottleneck := h.bottleneck

theorem primInv_step [LinearOrder V] [LinearOrder C] {G queue rest T es : List (Edge V C)}
    {S : List V} {e : Edge V C} (h : PrimInv G queue T S) (hp : queue.Perm (e :: rest))
    (hmax : ∀ f ∈ queue, f.cost ≤ e.cost) (hb : e.b ∉ S)
    (hes : ∀ f, f ∈ es ↔ f.a = e.b ∧ Oriented G f) :
    PrimInv G (rest ++ es.filter fun x => !decide (x.b ∈ setInsert e.b S)) (T ++ [e])
      (setInsert e.b S) := by
  have hq : e ∈ queue := hp.mem_iff.2 (by simp)
  have ⟨hoe, hea⟩ := h.queue_mem e hq
  have hTm : ∀ {x y}, Conn T x y → Conn (T ++ [e]) x y :=
    Conn.mono fun f hf => List.mem_append_left _ hf
  have hce : Conn (T ++ [e]) e.a e.b := Conn.edge (by simp)
  refine ⟨sorted_setInsert h.sorted, ?_, ?_, ?_, ?_, ?_, ?_, ?_, ?_⟩
  · intro f hf
    rcases List.mem_append.1 hf with hf | hf
    · have := h.queue_mem f (hp.mem_iff.2 (List.mem_cons_of_mem _ hf))
      exact ⟨this.1, mem_setInsert.2 (.inr this.2)⟩
    · have := (hes f).1 (List.mem_filter.1 hf).1
      exact ⟨this.2, mem_setInsert.2 (.inl this.1)⟩
  · intro f ho ha hfb
    have hfb' := hfb
    rw [mem_setInsert] at ha hfb
    push Not at hfb
    rcases ha with ha | ha
    · refine List.mem_append_right _ (List.mem_filter.2 ⟨(hes f).2 ⟨ha, ho⟩, ?_⟩)
      simp [hfb']
    · refine List.mem_append_left _ ?_
      rcases List.mem_cons.1 (hp.mem_iff.1 (h.crossing f ho ha hfb.2)) with rfl | hf
      · exact absurd rfl hfb.1
      · exact hf
  · intro f hf
    rcases List.mem_append.1 hf with hf | hf
    · exact h.oriented f hf
    · simp at hf; subst hf; exact hoe
  · refine h.acyclic.snoc fun hc => ?_
    rcases conn_inside h.inside hc with heq | ⟨_, h2⟩
    · exact hb (heq ▸ hea)
    · exact hb h2
  · intro f hf
    rcases List.mem_append.1 hf with hf | hf
    · have := h.inside f hf
      exact ⟨mem_setInsert.2 (.inr this.1), mem_setInsert.2 (.inr this.2)⟩
    · simp at hf; subst hf
      exact ⟨mem_setInsert.2 (.inr hea), mem_setInsert.2 (.inl rfl)⟩
  · have hto : ∀ x ∈ setInsert e.b S, Conn (T ++ [e]) x e.a := by
      intro x hx
      rcases mem_setInsert.1 hx with rfl | hx
      · exact hce.symm
      · exact hTm (h.joined x hx _ hea)
    intro x hx y hy
    exact (hto x hx).trans (hto y hy).symm
  · rw [length_setInsert hb, h.count]; simp
  · intro c
    obtain ⟨A, h1, h2, h3⟩ := h.bottleneck c
    have hmono : ∀ {x y}, Conn (T.filter fun f => c ≤ f.cost) x y →
        Conn ((T ++ [e]).filter fun f => c ≤ f.cost) x y := by
      refine Conn.mono ?_
      intro f hf; rw [List.filter_append]; exact List.mem_append_left _ hf
    by_cases hc : c ≤ e.cost
    · have hAe : A e.a := h2 e hoe hea hb hc
      have hedge : Conn ((T ++ [e]).filter fun f => c ≤ f.cost) e.a e.b :=
        Conn.edge (List.mem_filter.2 ⟨by simp, by simpa using hc⟩)
      have hto : ∀ x, (A x ∨ x = e.b) →
          Conn ((T ++ [e]).filter fun f => c ≤ f.cost) x e.a := by
        rintro x (hx | rfl)
        · exact hmono (h1 x _ hx hAe)
        · exact hedge.symm
      refine ⟨fun x => A x ∨ x = e.b, ?_, ?_, ?_⟩
      · intro x y hx hy; exact (hto x hx).trans (hto y hy).symm
      · intro f ho ha hfb hfc
        rw [mem_setInsert] at ha hfb
        push Not at hfb
        rcases ha with ha | ha
        · exact .inr ha
        · exact .inl (h2 f ho ha hfb.2 hfc)
      · intro f ho ha hfb hfc
        rw [mem_setInsert] at ha hfb
        rcases ha with ha | ha <;> rcases hfb with hfb | hfb
        · rw [ha, hfb]; exact Conn.refl _ _
        · have : A f.b := h2 f.flip ho.flip hfb (by show f.a ∉ S; rw [ha]; exact hb) hfc
          exact (hto _ (.inr ha)).trans (hto _ (.inl this)).symm
        · have : A f.a := h2 f ho ha (by rw [hfb]; exact hb) hfc
          exact (hto _ (.inl this)).trans (hto _ (.inr hfb)).symm
        · exact hmono (h3 f ho ha hfb hfc)
    · have hlt : ∀ f, Oriented G f → f.a ∈ S → f.b ∉ S → ¬ c ≤ f.cost := fun f ho ha hfb hfc =>
        hc (hfc.trans (hmax f (h.crossing f ho ha hfb)))
      refine ⟨fun x => x = e.b, ?_, ?_, ?_⟩
      · rintro x y rfl rfl; exact Conn.refl _ _
      · intro f ho ha hfb hfc
        rw [mem_setInsert] at ha hfb
        push Not at hfb
        rcases ha with ha | ha
        · exact ha
        · exact absurd hfc (hlt f ho ha hfb.2)
      · intro f ho ha hfb hfc
        rw [mem_setInsert] at ha hfb
        rcases ha with ha | ha <;> rcases hfb with hfb | hfb
        · rw [ha, hfb]; exact Conn.refl _ _
        · exact absurd hfc (hlt f.flip ho.flip hfb (by show f.a ∉ S; rw [ha]; exact hb))
        · exact absurd hfc (hlt f ho ha (by rw [hfb]; exact hb))
        · exact hmono (h3 f ho ha hfb hfc)

theorem primLoop_spec [LinearOrder V] [LinearOrder C] (q : MaxQueue V C) (g : Graph V C)
    (n : Nat) (queue : List (Edge V C)) (out : Graph V C)
    (h : PrimInv g.edges queue out.edges out.vertices) :
    ∃ out' queue', primLoop q (adjacencyMap g) n queue out = .ok out' ∧
      PrimInv g.edges queue' out'.edges out'.vertices ∧
      (queue' = [] ∨ n ≤ out'.edges.length) ∧ ∀ v ∈ out.vertices, v ∈ out'.vertices := by
  have ⟨hw, hadj, hsome⟩ := adjacencyMap_spec g
  fun_induction primLoop q (adjacencyMap g) n queue out with
  | case1 queue out hlt hpop =>
    refine ⟨out, queue, rfl, h, .inl ?_, fun _ => id⟩
    by_contra hne
    obtain ⟨e, r, hr⟩ := q.pop_some queue hne
    rw [hr] at hpop; cases hpop
  | case2 queue out hlt e rest hpop hc ih =>
    simp [containsVertex] at hc
    exact ih (primInv_skip h (q.pop_perm _ _ _ hpop) hc)
  | case3 queue out hlt e rest hpop hc f hat =>
    exfalso
    have hq := h.queue_mem e ((q.pop_perm _ _ _ hpop).mem_iff.2 (by simp))
    have := hsome e.flip hq.1.flip
    obtain ⟨l, hl⟩ := Option.isSome_iff_exists.1 this
    have hl' : (adjacencyMap g).find? e.b = some l := hl
    simp [SMap.at?, hl'] at hat
  | case4 queue out hlt e rest hpop hc es hat ih =>
    simp [containsVertex] at hc
    have hq := h.queue_mem e ((q.pop_perm _ _ _ hpop).mem_iff.2 (by simp))
    have hv : (addEdge e out).vertices = setInsert e.b out.vertices := by
      show setInsert e.b (setInsert e.a out.vertices) = _
      rw [setInsert_of_mem h.sorted hq.2]
    have hes : (adjacencyMap g).find? e.b = some es := by
      unfold SMap.at? at hat
      cases h : (adjacencyMap g).find? e.b with
      | none => simp [h] at hat
      | some l => simp [h] at hat; rw [hat]
    have hstep := primInv_step h (q.pop_perm _ _ _ hpop)
      (fun f hf => by
        have := q.pop_max _ _ _ hpop f hf
        unfold edgeLt at this; push Not at this; exact this.1) hc (hadj _ _ hes)
    obtain ⟨out', queue', h1, h2, h3, h4⟩ := ih (by
      rw [hv]
      have : (fun x : Edge V C => !containsVertex (addEdge e out) x.b) =
          fun x => !decide (x.b ∈ setInsert e.b out.vertices) := by
        funext x; unfold containsVertex; rw [hv]
      rw [this]
      exact hstep)
    refine ⟨out', queue', h1, h2, h3, fun v hvv => h4 v ?_⟩
    rw [hv]; exact mem_setInsert.2 (.inr hvv)
  | case5 queue out hlt =>
    exact ⟨out, queue, rfl, h, .inr (by omega), fun _ => id⟩

theorem maxEdge_spec [LinearOrder V] [LinearOrder C] (l : List (Edge V C)) : ∀ e : Edge V C,
    maxEdge e l ∈ e :: l ∧ ∀ x ∈ e :: l, x.cost ≤ (maxEdge e l).cost := by
  induction l with
  | nil => intro e; simp [maxEdge]
  | cons x t ih =>
    intro e
    have h := ih (if edgeLt e x then x else e)
    have heq : maxEdge e (x :: t) = maxEdge (if edgeLt e x then x else e) t := rfl
    rw [heq]
    constructor
    · rcases List.mem_cons.1 h.1 with h' | h'
      · rw [h']; split <;> simp
      · simp [h']
    · have h0 := h.2 _ List.mem_cons_self
      have h1 : e.cost ≤ (if edgeLt e x then x else e).cost ∧
          x.cost ≤ (if edgeLt e x then x else e).cost := by
        split
        · next hlt =>
          unfold edgeLt at hlt
          refine ⟨?_, le_rfl⟩
          rcases hlt with h | h
          · exact h.le
          · exact h.1.le
        · next hlt =>
          unfold edgeLt at hlt; push Not at hlt
          exact ⟨le_rfl, hlt.1⟩
      intro y hy
      rcases List.mem_cons.1 hy with rfl | hy
      · exact h1.1.trans h0
      · rcases List.mem_cons.1 hy with rfl | hy
        · exact h1.2.trans h0
        · exact h.2 y (List.mem_cons_of_mem _ hy)

/-- The result of Prim's algorithm in terms of the loop invariant. -/
theorem maximumSpanningTree_inv [LinearOrder V] [LinearOrder C] (q : MaxQueue V C) (g : Graph V C)
    (hg : g.Valid) (hsize : g.vertices.length < 2 ^ 64) (hne : g.edges ≠ [])
    (hloop : ∀ e ∈ g.edges, e.a = e.b → ∃ f ∈ g.edges, e.cost < f.cost) :
    ∃ first ∈ g.edges, (∀ e ∈ g.edges, e.cost ≤ first.cost) ∧ ∃ out queue,
      maximumSpanningTree q g = .ok out ∧ PrimInv g.edges queue out.edges out.vertices ∧
      first.a ∈ out.vertices ∧
      (queue = [] ∨ g.vertices.length - 1 ≤ out.edges.length) := by
  have ⟨hw, hadj, hsome⟩ := adjacencyMap_spec g
  cases hE : g.edges with
  | nil => exact absurd hE hne
  | cons e0 es0 =>
    have ⟨hm1, hm2⟩ := maxEdge_spec es0 e0
    rw [← hE] at hm1 hm2
    rw [← hE]
    set first := maxEdge e0 es0 with hfirst
    refine ⟨first, hm1, hm2, ?_⟩
    obtain ⟨start, hstart⟩ := Option.isSome_iff_exists.1 (hsome first (.inl hm1))
    have hst := hadj _ _ hstart
    have hns : ∀ e, Oriented g.edges e → first.cost ≤ e.cost → e.a ≠ e.b := by
      intro e ho hc hab
      rcases ho with ho | ho
      · obtain ⟨f, hf, hlt⟩ := hloop e ho hab
        exact absurd (hm2 f hf) (not_le.2 (lt_of_le_of_lt hc hlt))
      · obtain ⟨f, hf, hlt⟩ := hloop e.flip ho hab.symm
        exact absurd (hm2 f hf) (not_le.2 (lt_of_le_of_lt hc hlt))
    have hV : 2 ≤ g.vertices.length := by
      have hab := hns first (.inl hm1) le_rfl
      have ⟨ha, hb⟩ := hg.mem first hm1
      by_contra hlt
      match hvs : g.vertices, ha, hb, hlt with
      | [], ha, _, _ => simp at ha
      | [x], ha, hb, _ => simp at ha hb; exact hab (ha.trans hb.symm)
      | _ :: _ :: _, _, _, hlt => simp at hlt
    have hn : (g.vertices.length + 2 ^ 64 - 1) % 2 ^ 64 = g.vertices.length - 1 := by omega
    have hfs : first ∈ start := (hst first).2 ⟨rfl, .inl hm1⟩
    obtain ⟨e, rest, hpop⟩ := q.pop_some start (List.ne_nil_of_mem hfs)
    have hperm := q.pop_perm _ _ _ hpop
    have hmax : ∀ f ∈ start, f.cost ≤ e.cost := fun f hf => by
      have := q.pop_max _ _ _ hpop f hf
      unfold edgeLt at this; push Not at this; exact this.1
    have hes := (hst e).1 (hperm.mem_iff.2 (by simp))
    have hab : e.a ≠ e.b := hns e hes.2 (hmax first hfs)
    obtain ⟨es, hes'⟩ := Option.isSome_iff_exists.1 (hsome e.flip hes.2.flip)
    have hes'' : (adjacencyMap g).find? e.b = some es := hes'
    have hinv := primInv_step (primInv_init hst) hperm hmax
      (by rw [← hes.1]; simpa using fun h => hab h.symm) (hadj _ _ hes'')
    have hv : (addEdge e ({ edges := [], vertices := [] } : Graph V C)).vertices =
        setInsert e.b [first.a] := by
      show setInsert e.b (setInsert e.a []) = _
      rw [hes.1]; rfl
    have hq2 : (fun x : Edge V C => !containsVertex (addEdge e
        ({ edges := [], vertices := [] } : Graph V C)) x.b) =
          fun x => !decide (x.b ∈ setInsert e.b [first.a]) := by
      funext x; unfold containsVertex; rw [hv]
    obtain ⟨out, queue, h1, h2, h3, h4⟩ := primLoop_spec q g (g.vertices.length - 1) _
      (addEdge e { edges := [], vertices := [] }) (by rw [hv]; exact hinv)
    refine ⟨out, queue, ?_, h2, ?_, h3⟩
    · unfold maximumSpanningTree
      rw [hE]
      simp only
      rw [← hfirst]
      simp only [SMap.at?, hstart]
      rw [hn, primLoop, if_pos (by simp; omega)]
      split
      · next hnone => rw [hpop] at hnone; cases hnone
      · next e' rest' hp' =>
        rw [hpop] at hp'; cases hp'
        rw [if_neg (by simp [containsVertex])]
        simp only [SMap.at?, hes'']
        rw [hq2, h1]
    · exact h4 _ (by rw [hv]; exact mem_setInsert.2 (.inr (by simp)))

theorem max_of_bottleneck [AddCommGroup C] [LinearOrder C] [IsOrderedAddMonoid C]
    {G O T : List (Edge V C)} (hO : Acyclic O) (hOG : ∀ e ∈ O, Conn G e.a e.b)
    (hb : ∀ e ∈ G, Conn (O.filter fun f => e.cost ≤ f.cost) e.a e.b)
    (hT : IsSpanningForest G T) : totalCost T ≤ totalCost O := by
  have := min_of_bottleneck (G := G.map Edge.negate) (O := O.map Edge.negate) hO.negate ?_ ?_
    hT.negate
  · rw [totalCost_negate, totalCost_negate] at this
    exact neg_le_neg_iff.1 this
  · intro e he
    obtain ⟨f, hf, rfl⟩ := List.mem_map.1 he
    exact (conn_negate _ _ _).2 (hOG f hf)
  · intro e he
    obtain ⟨f, hf, rfl⟩ := List.mem_map.1 he
    have h1 := (conn_negate _ _ _).2 (hb f hf)
    refine h1.mono fun k hk => ?_
    obtain ⟨k', hk', rfl⟩ := List.mem_map.1 hk
    obtain ⟨hk1, hk2⟩ := List.mem_filter.1 hk'
    refine List.mem_filter.2 ⟨List.mem_map_of_mem hk1, ?_⟩
    simp [Edge.negate] at hk2 ⊢
    exact hk2

end helpers

/-- What a spanning tree of maximal cost is, for the edges `G` between the vertices `vs`: the edges
are edges of `G` (possibly written in the other direction), they have no cycle, there is one fewer
than vertices, any two vertices are joined, and no spanning forest of `G` costs more. -/
structure IsMaxSpanningTree [AddCommMonoid C] [LE C] (G : List (Edge V C)) (vs : List V)
    (T : List (Edge V C)) : Prop where
  subset : ∀ e ∈ T, e ∈ G ∨ e.flip ∈ G
  acyclic : Acyclic T
  count : T.length + 1 = vs.length
  joined : ∀ x ∈ vs, ∀ y ∈ vs, Conn T x y
  maximal : ∀ T', IsSpanningForest G T' → totalCost T' ≤ totalCost T

/-- The same with minimal cost. -/
structure IsMinSpanningTree [AddCommMonoid C] [LE C] (G : List (Edge V C)) (vs : List V)
    (T : List (Edge V C)) : Prop where
  subset : ∀ e ∈ T, e ∈ G ∨ e.flip ∈ G
  acyclic : Acyclic T
  count : T.length + 1 = vs.length
  joined : ∀ x ∈ vs, ∀ y ∈ vs, Conn T x y
  minimal : ∀ T', IsSpanningForest G T' → totalCost T ≤ totalCost T'

/-- C15 (partial): on every connected graph in which no self loop attains the maximal cost,
`maximum_spanning_tree` returns a spanning tree of maximal cost, whichever maximal element the
priority queue yields among ties.  Missing from the full statement: graphs in which a self loop has
the maximal cost, for which the claim is false (`C15_self_loop_breaks_tree`). -/
theorem C15_maximum_spanning_tree_partial [LinearOrder V] [LinearOrder C] [AddCommGroup C]
    [IsOrderedAddMonoid C] (q : MaxQueue V C) (g : Graph V C) (hg : g.Valid)
    (hsize : g.vertices.length < 2 ^ 64) (hne : g.edges ≠ [])
    (hconn : ∀ x ∈ g.vertices, ∀ y ∈ g.vertices, Conn g.edges x y)
    (hloop : ∀ e ∈ g.edges, e.a = e.b → ∃ f ∈ g.edges, e.cost < f.cost) :
    ∃ out, maximumSpanningTree q g = .ok out ∧ out.vertices = g.vertices ∧
      IsMaxSpanningTree g.edges g.vertices out.edges := by
  obtain ⟨first, hf, -, out, queue, h1, h2, h3, h4⟩ := maximumSpanningTree_inv q g hg hsize hne hloop
  have hsub : ∀ v ∈ out.vertices, v ∈ g.vertices := by
    intro v hv
    rcases conn_inside (T := g.edges) (S := g.vertices) hg.mem
      ((h2.joined _ h3 _ hv).mono' fun e he => (h2.oriented e he).conn) with heq | ⟨_, h⟩
    · exact heq ▸ (hg.mem first hf).1
    · exact h
  have hnd : out.vertices.Nodup := h2.sorted.imp fun h => ne_of_lt h
  have hnd' : g.vertices.Nodup := hg.sorted.imp fun h => ne_of_lt h
  have hall : ∀ v ∈ g.vertices, v ∈ out.vertices := by
    rcases h4 with h4 | h4
    · intro v hv
      have hR : Equivalence fun x y : V => x ∈ out.vertices ↔ y ∈ out.vertices :=
        ⟨fun _ => Iff.rfl, fun h => h.symm, fun h h' => h.trans h'⟩
      refine ((hconn _ (hg.mem first hf).1 v hv).least hR ?_).1 h3
      intro e he
      constructor
      · intro ha; by_contra hb
        have := h2.crossing e (.inl he) ha hb
        simp [h4] at this
      · intro hb; by_contra ha
        have := h2.crossing e.flip (Oriented.flip (.inl he)) hb ha
        simp [h4] at this
    · have hc := h2.count
      have hperm : out.vertices.Perm g.vertices :=
        (List.subperm_of_subset hnd hsub).perm_of_length_le (by omega)
      intro v hv; exact hperm.mem_iff.2 hv
  have hV : out.vertices = g.vertices :=
    sorted_ext h2.sorted hg.sorted fun v => ⟨hsub v, hall v⟩
  refine ⟨out, h1, hV, ?_⟩
  rw [hV] at h2
  refine ⟨h2.oriented, h2.acyclic, h2.count.symm, h2.joined, ?_⟩
  intro T' hT'
  refine max_of_bottleneck h2.acyclic (fun e he => (h2.oriented e he).conn) ?_ hT'
  intro e he
  obtain ⟨A, -, -, h⟩ := h2.bottleneck e.cost
  exact h e (.inl he) (hg.mem e he).1 (hg.mem e he).2 le_rfl

/-- C15 (partial): the same for `minimum_spanning_tree`; here the excluded graphs are those in which
a self loop attains the minimal cost. -/
theorem C15_minimum_spanning_tree_partial [LinearOrder V] [LinearOrder C] [AddCommGroup C]
    [IsOrderedAddMonoid C] (q : MaxQueue V C) (g : Graph V C) (hg : g.Valid)
    (hsize : g.vertices.length < 2 ^ 64) (hne : g.edges ≠ [])
    (hconn : ∀ x ∈ g.vertices, ∀ y ∈ g.vertices, Conn g.edges x y)
    (hloop : ∀ e ∈ g.edges, e.a = e.b → ∃ f ∈ g.edges, f.cost < e.cost) :
    ∃ out, minimumSpanningTree q g = .ok out ∧ out.vertices = g.vertices ∧
      IsMinSpanningTree g.edges g.vertices out.edges := by
  obtain ⟨out, h1, h2, h3⟩ := C15_maximum_spanning_tree_partial q (negateCosts g)
    (negateCosts_valid hg) hsize (by rw [negateCosts_edges]; simpa using hne)
    (by intro x hx y hy; rw [negateCosts_edges, conn_negate]; exact hconn x hx y hy)
    (by
      intro e he hab
      obtain ⟨f, hf, rfl⟩ := List.mem_map.1 he
      obtain ⟨k, hk, hlt⟩ := hloop f hf hab
      exact ⟨k.negate, List.mem_map_of_mem hk, by simpa [Edge.negate] using hlt⟩)
  refine ⟨negateCosts out, ?_, h2, ?_⟩
  · unfold minimumSpanningTree; rw [h1]; rfl
  · rw [negateCosts_edges]
    refine ⟨?_, h3.acyclic.negate, by rw [List.length_map]; exact h3.count, ?_, ?_⟩
    · intro e he
      obtain ⟨f, hf, rfl⟩ := List.mem_map.1 he
      rcases h3.subset f hf with h | h
      · left
        obtain ⟨k, hk, rfl⟩ := List.mem_map.1 h
        rw [show (({ k with cost := -k.cost } : Edge V C)).negate = k from k.negate_negate]
        exact hk
      · right
        obtain ⟨k, hk, hkf⟩ := List.mem_map.1 h
        have : f.negate.flip = k := by
          have h5 : f.negate.flip = f.flip.negate := rfl
          rw [h5, ← hkf]; exact k.negate_negate
        rw [this]; exact hk
    · intro x hx y hy; rw [conn_negate]; exact h3.joined x hx y hy
    · intro T' hT'
      have := h3.maximal _ hT'.negate
      rw [totalCost_negate] at this ⊢
      exact neg_le_of_neg_le this

/-- A graph without edges gives an empty result. -/
theorem C15_no_edges [LinearOrder V] [LinearOrder C] (q : MaxQueue V C) (vs : List V) :
    maximumSpanningTree q ⟨[], vs⟩ = .ok ⟨[], []⟩ := rfl

/-- A queue meeting the contract: extract the last maximum. -/
def listMaxQueue : MaxQueue Nat Int where
  pop l := match l with
    | [] => none
    | e :: es => some (maxEdge e es, (e :: es).erase (maxEdge e es))
  pop_nil := rfl
  pop_some l hl := by
    cases l with
    | nil => exact absurd rfl hl
    | cons e es => exact ⟨_, _, rfl⟩
  pop_perm l e r h := by
    cases l with
    | nil => simp at h
    | cons x es =>
      simp only [Option.some.injEq, Prod.mk.injEq] at h
      obtain ⟨rfl, rfl⟩ := h
      exact List.perm_cons_erase (maxEdge_spec es x).1
  pop_max l e r h := by
    cases l with
    | nil => simp at h
    | cons x es =>
      simp only [Option.some.injEq, Prod.mk.injEq] at h
      obtain ⟨rfl, rfl⟩ := h
      induction es generalizing x with
      | nil => intro y hy; simp at hy; subst hy; simp [maxEdge, edgeLt]
      | cons z t ih =>
        have heq : maxEdge x (z :: t) = maxEdge (if edgeLt x z then z else x) t := rfl
        rw [heq]
        have hi := ih (if edgeLt x z then z else x)
        intro y hy
        have h0 := hi _ List.mem_cons_self
        generalize maxEdge (if edgeLt x z then z else x) t = m at *
        rcases List.mem_cons.1 hy with rfl | hy
        · split at h0
          · next hlt => unfold edgeLt at *; omega
          · exact h0
        · rcases List.mem_cons.1 hy with rfl | hy
          · split at h0
            · exact h0
            · next hlt => unfold edgeLt at *; omega
          · exact hi y (List.mem_cons_of_mem _ hy)

/-- The loop with a step counter, used to evaluate concrete cases. -/
def primFuel [LT V] [LT C] [DecidableLT V] [DecidableEq V] (q : MaxQueue V C)
    (adj : SMap V (List (Edge V C))) (n : Nat) : Nat → List (Edge V C) → Graph V C →
    Option (Outcome (Graph V C))
  | 0, _, _ => none
  | k + 1, queue, out =>
    if out.edges.length < n then
      match q.pop queue with
      | none => some (.ok out)
      | some (e, rest) =>
        if containsVertex out e.b then primFuel q adj n k rest out
        else
          match adj.at? e.b with
          | .error f => some (.error f)
          | .ok es => primFuel q adj n k
              (rest ++ es.filter fun x => !containsVertex (addEdge e out) x.b) (addEdge e out)
    else some (.ok out)

theorem primFuel_sound [LT V] [LT C] [DecidableLT V] [DecidableEq V] (q : MaxQueue V C)
    (adj : SMap V (List (Edge V C))) (n : Nat) : ∀ (k : Nat) (queue : List (Edge V C))
    (out : Graph V C) (r : Outcome (Graph V C)), primFuel q adj n k queue out = some r →
    primLoop q adj n queue out = r := by
  intro k
  induction k with
  | zero => intro _ _ _ h; simp [primFuel] at h
  | succ k ih =>
    intro queue out r h
    rw [primFuel] at h
    rw [primLoop]
    split
    · next hlt =>
      rw [if_pos hlt] at h
      split
      · next hp => rw [hp] at h; simpa using h
      · next e rest hp =>
        rw [hp] at h
        simp only at h
        split
        · next hc => rw [if_pos hc] at h; exact ih _ _ _ h
        · next hc =>
          rw [if_neg hc] at h
          cases ha : adj.at? e.b with
          | error f => rw [ha] at h; simpa using h
          | ok es => rw [ha] at h; exact ih _ _ _ h
    · next hlt => rw [if_neg hlt] at h; simpa using h

/-- `maximum_spanning_tree` with a step counter. -/
def primTreeFuel (k : Nat) (q : MaxQueue Nat Int) (g : Graph Nat Int) :
    Option (Outcome (Graph Nat Int)) :=
  match g.edges with
  | [] => some (.ok { edges := [], vertices := [] })
  | e :: es =>
    match (adjacencyMap g).at? (maxEdge e es).a with
    | .error f => some (.error f)
    | .ok start => primFuel q (adjacencyMap g) ((g.vertices.length + 2 ^ 64 - 1) % 2 ^ 64) k start
        { edges := [], vertices := [] }

theorem primTreeFuel_sound (k : Nat) (q : MaxQueue Nat Int) (g : Graph Nat Int)
    (r : Outcome (Graph Nat Int)) (h : primTreeFuel k q g = some r) :
    maximumSpanningTree q g = r := by
  unfold primTreeFuel at h
  unfold maximumSpanningTree
  split at h
  · next hE => rw [hE]; simpa using h
  · next e es hE =>
    rw [hE]
    simp only
    cases ha : (adjacencyMap g).at? (maxEdge e es).a with
    | error f => rw [ha] at h; simpa using h
    | ok st => rw [ha] at h; exact primFuel_sound _ _ _ _ _ _ _ h

/-- C15 is violated: a connected graph on vertices 1 and 2 whose most expensive edge is a self loop.
The returned "tree" is the self loop; vertex 2 is not reached. -/
theorem C15_self_loop_breaks_tree :
    ∃ (q : MaxQueue Nat Int) (g : Graph Nat Int), g.Valid ∧
      (∀ x ∈ g.vertices, ∀ y ∈ g.vertices, Conn g.edges x y) ∧
      ∃ out, maximumSpanningTree q g = .ok out ∧ out.vertices ≠ g.vertices ∧
        ¬ Acyclic out.edges ∧ ¬ Conn out.edges 1 2 := by
  refine ⟨listMaxQueue, createGraph [⟨1, 1, 5, 0⟩, ⟨1, 2, 1, 1⟩], (C13_create_graph_valid _).1, ?_,
    ⟨[⟨1, 1, 5, 0⟩], [1]⟩, primTreeFuel_sound 10 _ _ _ (by decide +kernel), by decide, ?_, ?_⟩
  · have h12 : Conn (createGraph [⟨1, 1, 5, 0⟩, (⟨1, 2, 1, 1⟩ : Edge Nat Int)]).edges 1 2 :=
      Conn.edge (e := ⟨1, 2, 1, 1⟩) (by simp [createGraph])
    have hv : (createGraph [⟨1, 1, 5, 0⟩, (⟨1, 2, 1, 1⟩ : Edge Nat Int)]).vertices = [1, 2] := by
      decide
    rw [hv]
    intro x hx y hy
    simp at hx hy
    rcases hx with rfl | rfl <;> rcases hy with rfl | rfl
    · exact Conn.refl _ _
    · exact h12
    · exact h12.symm
    · exact Conn.refl _ _
  · intro h
    exact h [] ⟨1, 1, 5, 0⟩ [] rfl (Conn.refl _ _)
  · intro h
    rcases conn_inside (S := [1]) (by simp) h with h | ⟨_, h⟩ <;> simp at h

example : maximumSpanningTree listMaxQueue
    (createGraph [⟨1, 2, 3, 0⟩, ⟨2, 3, 1, 1⟩, ⟨1, 3, 2, 2⟩, ⟨3, 4, 9, 3⟩, ⟨4, 4, 8, 4⟩]) =
    .ok ⟨[⟨3, 4, 9, 3⟩, ⟨3, 1, 2, 2⟩, ⟨1, 2, 3, 0⟩], [1, 2, 3, 4]⟩ := primTreeFuel_sound 20 _ _ _ (by decide +kernel)

example : minimumSpanningTree listMaxQueue
    (createGraph [⟨1, 2, 3, 0⟩, ⟨2, 3, 1, 1⟩, ⟨1, 3, 2, 2⟩]) =
    .ok ⟨[⟨2, 3, 1, 1⟩, ⟨3, 1, 2, 2⟩], [1, 2, 3]⟩ := by
  unfold minimumSpanningTree
  rw [primTreeFuel_sound 20 _ _ (.ok ⟨[⟨2, 3, -1, 1⟩, ⟨3, 1, -2, 2⟩], [1, 2, 3]⟩) (by decide +kernel)]
  rfl

end Albatross
