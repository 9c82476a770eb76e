import Verif.MapUtils
import Verif.IndexingLemmas

/-! # Properties C11, C12: set algebra on maps -/

namespace Albatross

variable {K V W X S : Type}

/-! ## Helper: the merge pass as a list of events -/

/-- What the merge pass reports for one key. -/
inductive Ev (V W : Type)
  | onlyA (v : V)
  | onlyB (w : W)
  | both (v : V) (w : W)

/-- The event list of the merge pass. -/
def events [LT K] [DecidableLT K] : SMap K V → SMap K W → List (K × Ev V W)
  | (ak, av) :: as, (bk, bv) :: bs =>
    if ak < bk then (ak, .onlyA av) :: events as ((bk, bv) :: bs)
    else if bk < ak then (bk, .onlyB bv) :: events ((ak, av) :: as) bs
    else (ak, .both av bv) :: events as bs
  | as, [] => as.map fun kv => (kv.1, .onlyA kv.2)
  | [], bs => bs.map fun kv => (kv.1, .onlyB kv.2)
termination_by a b => a.length + b.length

/-- Apply the matching callback. -/
def Ev.run (onlyA : K → V → S → S) (onlyB : K → W → S → S) (merge : K → V → W → S → S) (s : S) :
    K × Ev V W → S
  | (k, .onlyA v) => onlyA k v s
  | (k, .onlyB w) => onlyB k w s
  | (k, .both v w) => merge k v w s

theorem mapMerge_eq_events [LT K] [DecidableLT K] (onlyA : K → V → S → S) (onlyB : K → W → S → S)
    (merge : K → V → W → S → S) (a : SMap K V) (b : SMap K W) (s : S) :
    mapMerge onlyA onlyB merge a b s = (events a b).foldl (Ev.run onlyA onlyB merge) s := by
  fun_induction mapMerge onlyA onlyB merge a b s with
  | case1 s ak av as bk bv bs h ih => rw [ih, events, if_pos h]; rfl
  | case2 s ak av as bk bv bs h1 h2 ih => rw [ih, events, if_neg h1, if_pos h2]; rfl
  | case3 s ak av as bk bv bs h1 h2 ih => rw [ih, events, if_neg h1, if_neg h2]; rfl
  | case4 as s => rw [events, List.foldl_map]; rfl
  | case5 bs s h => cases bs with
    | nil => simp [events]
    | cons b bs => rw [events]; · rw [List.foldl_map]; rfl
                   · simp

/-- Specification of an event in terms of the two lookups. -/
def evSpec : Option V → Option W → Option (Ev V W)
  | some v, some w => some (.both v w)
  | some v, none => some (.onlyA v)
  | none, some w => some (.onlyB w)
  | none, none => none

theorem events_spec [LinearOrder K] (a : SMap K V) (b : SMap K W) (ha : SMap.WF a)
    (hb : SMap.WF b) :
    SMap.WF (events a b) ∧ ∀ k, SMap.find? (events a b) k = evSpec (a.find? k) (b.find? k) := by
  have keyA : ∀ (e : List (K × Ev V W)) (a' : SMap K V) (b' : SMap K W) (k : K),
      (∀ k, SMap.find? e k = evSpec (a'.find? k) (b'.find? k)) →
      (∀ x ∈ a', k < x.1) → (∀ x ∈ b', k < x.1) → ∀ x ∈ e, k < x.1 := by
    intro e a' b' k h h1 h2 x hx
    have hs : (SMap.find? e x.1).isSome := SMap.mem_keys.1 (List.mem_map_of_mem hx)
    rw [h] at hs
    cases h3 : a'.find? x.1 with
    | some v => exact h1 _ (SMap.mem_of_find? h3)
    | none =>
      cases h4 : b'.find? x.1 with
      | some w => exact h2 _ (SMap.mem_of_find? h4)
      | none => rw [h3, h4] at hs; simp [evSpec] at hs
  fun_induction events a b with
  | case1 ak av as bk bv bs h ih =>
    have ⟨a1, a2⟩ := SMap.wf_cons.1 ha
    have ⟨b1, b2⟩ := SMap.wf_cons.1 hb
    have ⟨i1, i2⟩ := ih a2 hb
    have hblt : ∀ x ∈ (bk, bv) :: bs, ak < x.1 := by
      intro x hx
      rcases List.mem_cons.1 hx with rfl | hx
      · exact h
      · exact h.trans (b1 x hx)
    refine ⟨SMap.wf_cons.2 ⟨keyA _ _ _ _ i2 a1 hblt, i1⟩, fun k => ?_⟩
    by_cases e : k = ak
    · subst e
      have hbn : SMap.find? ((bk, bv) :: bs) k = none := SMap.find?_none_of_lt hblt
      rw [hbn]; simp [SMap.find?, evSpec]
    · rw [SMap.find?, if_neg e, i2]
      conv_rhs => rw [SMap.find?, if_neg e]
  | case2 ak av as bk bv bs h1 h2 ih =>
    have ⟨a1, a2⟩ := SMap.wf_cons.1 ha
    have ⟨b1, b2⟩ := SMap.wf_cons.1 hb
    have ⟨i1, i2⟩ := ih ha b2
    have halt : ∀ x ∈ (ak, av) :: as, bk < x.1 := by
      intro x hx
      rcases List.mem_cons.1 hx with rfl | hx
      · exact h2
      · exact h2.trans (a1 x hx)
    refine ⟨SMap.wf_cons.2 ⟨keyA _ _ _ _ i2 halt b1, i1⟩, fun k => ?_⟩
    by_cases e : k = bk
    · subst e
      have han : SMap.find? ((ak, av) :: as) k = none := SMap.find?_none_of_lt halt
      rw [han]; simp [SMap.find?, evSpec]
    · rw [SMap.find?, if_neg e, i2]
      have : SMap.find? ((bk, bv) :: bs) k = SMap.find? bs k := by rw [SMap.find?, if_neg e]
      rw [this]
  | case3 ak av as bk bv bs h1 h2 ih =>
    have ⟨a1, a2⟩ := SMap.wf_cons.1 ha
    have ⟨b1, b2⟩ := SMap.wf_cons.1 hb
    have ⟨i1, i2⟩ := ih a2 b2
    have e : ak = bk := le_antisymm (not_lt.1 h2) (not_lt.1 h1)
    subst e
    refine ⟨SMap.wf_cons.2 ⟨keyA _ _ _ _ i2 a1 b1, i1⟩, fun k => ?_⟩
    by_cases e : k = ak
    · subst e; simp [SMap.find?, evSpec]
    · simp only [SMap.find?, if_neg e, i2]
  | case4 as =>
    refine ⟨SMap.wf_map_values (fun kv => Ev.onlyA kv.2) ha, fun k => ?_⟩
    rw [SMap.find?_map_values as fun kv => Ev.onlyA kv.2]
    cases as.find? k <;> simp [SMap.find?, evSpec]
  | case5 bs h =>
    refine ⟨SMap.wf_map_values (fun kv => Ev.onlyB kv.2) hb, fun k => ?_⟩
    rw [SMap.find?_map_values bs fun kv => Ev.onlyB kv.2]
    cases bs.find? k <;> simp [SMap.find?, evSpec]

/-- Selecting entries of a well formed map. -/
theorem SMap.filterMap_spec [LinearOrder K] (m : SMap K V) (hm : SMap.WF m) (f : K → V → Option W) :
    SMap.WF (m.filterMap fun kv => (f kv.1 kv.2).map fun w => (kv.1, w) : SMap K W) ∧
    ∀ k, SMap.find? (m.filterMap fun kv => (f kv.1 kv.2).map fun w => (kv.1, w)) k =
      (m.find? k).bind (f k) := by
  induction m with
  | nil => simp [SMap.find?]
  | cons a t ih =>
    obtain ⟨k₀, v₀⟩ := a
    have ⟨h1, h2⟩ := SMap.wf_cons.1 hm
    have ⟨i1, i2⟩ := ih h2
    have hlt : ∀ x ∈ (t.filterMap fun kv => (f kv.1 kv.2).map fun w => (kv.1, w)), k₀ < x.1 := by
      intro x hx
      obtain ⟨kv, hkv, e⟩ := List.mem_filterMap.1 hx
      obtain ⟨w, -, rfl⟩ := Option.map_eq_some_iff.1 e
      exact h1 kv hkv
    cases hf : f k₀ v₀ with
    | none =>
      rw [List.filterMap_cons_none (by simp [hf])]
      refine ⟨i1, fun k => ?_⟩
      by_cases e : k = k₀
      · subst e
        rw [SMap.find?_none_of_lt hlt]; simp [SMap.find?, hf]
      · rw [i2]; simp [SMap.find?, e]
    | some w =>
      rw [List.filterMap_cons_some (b := (k₀, w)) (by simp [hf])]
      refine ⟨SMap.wf_cons.2 ⟨hlt, i1⟩, fun k => ?_⟩
      by_cases e : k = k₀
      · subst e; simp [SMap.find?, hf]
      · simp [SMap.find?, e, i2]

/-- Folding `emplace` over the events kept by `f` is `filterMap`. -/
theorem foldl_emplace_events [LinearOrder K] (l : List (K × Ev V W)) (hl : SMap.WF l)
    (f : K → Ev V W → Option X) (step : SMap K X → K × Ev V W → SMap K X)
    (hstep : ∀ d e, step d e = match f e.1 e.2 with
      | some x => SMap.emplace d e.1 x
      | none => d) :
    l.foldl step [] = l.filterMap fun kv => (f kv.1 kv.2).map fun w => (kv.1, w) := by
  have h1 : ∀ d, l.foldl step d =
      (l.filterMap fun kv => (f kv.1 kv.2).map fun w => (kv.1, w)).foldl
        (fun m kv => SMap.emplace m kv.1 kv.2) d := by
    clear hl
    induction l with
    | nil => intro d; rfl
    | cons a t ih =>
      intro d
      rw [List.foldl_cons, hstep]
      cases hf : f a.1 a.2 with
      | none => rw [List.filterMap_cons_none (by simp [hf])]; exact ih d
      | some x => rw [List.filterMap_cons_some (b := (a.1, x)) (by simp [hf])]; exact ih _
  rw [h1]
  exact SMap.ofList_of_wf (SMap.filterMap_spec l hl f).1

theorem merge_into_map [LinearOrder K] (a : SMap K V) (b : SMap K W) (ha : SMap.WF a)
    (hb : SMap.WF b) (f : K → Ev V W → Option X) (onlyA : K → V → SMap K X → SMap K X)
    (onlyB : K → W → SMap K X → SMap K X) (merge : K → V → W → SMap K X → SMap K X)
    (hstep : ∀ d e, Ev.run onlyA onlyB merge d e = match f e.1 e.2 with
      | some x => SMap.emplace d e.1 x
      | none => d) :
    SMap.WF (mapMerge onlyA onlyB merge a b []) ∧
    ∀ k, (mapMerge onlyA onlyB merge a b []).find? k =
      (evSpec (a.find? k) (b.find? k)).bind (f k) := by
  have ⟨h1, h2⟩ := events_spec a b ha hb
  rw [mapMerge_eq_events, foldl_emplace_events _ h1 f _ hstep]
  have ⟨h3, h4⟩ := SMap.filterMap_spec (events a b) h1 f
  refine ⟨h3, fun k => ?_⟩
  rw [h4, h2]

/-! ## C11 -/

/-- C11, union: keys of either map; the value is the merged one for common keys. -/
theorem C11_map_union [LinearOrder K] (merge : K → V → V → V) (a b : SMap K V) (ha : SMap.WF a)
    (hb : SMap.WF b) :
    SMap.WF (mapUnion merge a b) ∧ ∀ k, (mapUnion merge a b).find? k =
      match a.find? k, b.find? k with
      | some v, some w => some (merge k v w)
      | some v, none => some v
      | none, r => r := by
  have := merge_into_map a b ha hb
    (fun k e => match e with | .onlyA v => some v | .onlyB w => some w | .both v w => some (merge k v w))
    (fun k v d => SMap.emplace d k v) (fun k v d => SMap.emplace d k v)
    (fun k v w d => SMap.emplace d k (merge k v w)) (by rintro d ⟨k, e⟩; cases e <;> rfl)
  refine ⟨this.1, fun k => ?_⟩
  unfold mapUnion
  rw [this.2]
  cases a.find? k <;> cases b.find? k <;> rfl

/-- C11, intersection: exactly the common keys, with the merged value. -/
theorem C11_map_intersect [LinearOrder K] (merge : K → V → W → X) (a : SMap K V) (b : SMap K W)
    (ha : SMap.WF a) (hb : SMap.WF b) :
    SMap.WF (mapIntersect merge a b) ∧ ∀ k, (mapIntersect merge a b).find? k =
      match a.find? k, b.find? k with
      | some v, some w => some (merge k v w)
      | _, _ => none := by
  have := merge_into_map a b ha hb
    (fun k e => match e with | .onlyA _ => none | .onlyB _ => none | .both v w => some (merge k v w))
    (fun _ _ d => d) (fun _ _ d => d)
    (fun k v w d => SMap.emplace d k (merge k v w)) (by rintro d ⟨k, e⟩; cases e <;> rfl)
  refine ⟨this.1, fun k => ?_⟩
  unfold mapIntersect
  rw [this.2]
  cases a.find? k <;> cases b.find? k <;> rfl

/-- C11, difference: the entries of `a` whose key is not in `b`. -/
theorem C11_map_difference [LinearOrder K] (a : SMap K V) (b : SMap K W) (ha : SMap.WF a)
    (hb : SMap.WF b) :
    SMap.WF (mapDifference a b) ∧ ∀ k, (mapDifference a b).find? k =
      if (b.find? k).isSome then none else a.find? k := by
  have := merge_into_map a b ha hb
    (fun _ e => match e with | .onlyA v => some v | .onlyB _ => none | .both _ _ => none)
    (fun k v d => SMap.emplace d k v) (fun _ _ d => d)
    (fun _ _ _ d => d) (by rintro d ⟨k, e⟩; cases e <;> rfl)
  refine ⟨this.1, fun k => ?_⟩
  unfold mapDifference
  rw [this.2]
  cases a.find? k <;> cases b.find? k <;> rfl

/-- C11, symmetric difference: the entries whose key is in exactly one of the maps. -/
theorem C11_map_symmetric_difference [LinearOrder K] (a b : SMap K V) (ha : SMap.WF a)
    (hb : SMap.WF b) :
    SMap.WF (mapSymmetricDifference a b) ∧ ∀ k, (mapSymmetricDifference a b).find? k =
      match a.find? k, b.find? k with
      | some v, none => some v
      | none, some w => some w
      | _, _ => none := by
  have := merge_into_map a b ha hb
    (fun _ e => match e with | .onlyA v => some v | .onlyB w => some w | .both _ _ => none)
    (fun k v d => SMap.emplace d k v) (fun k v d => SMap.emplace d k v)
    (fun _ _ _ d => d) (by rintro d ⟨k, e⟩; cases e <;> rfl)
  refine ⟨this.1, fun k => ?_⟩
  unfold mapSymmetricDifference
  rw [this.2]
  cases a.find? k <;> cases b.find? k <;> rfl

theorem keysFold [LinearOrder K] (l : List (K × Ev V W)) (hl : SMap.WF l)
    (f : Ev V W → Bool) (step : List K → K × Ev V W → List K)
    (hstep : ∀ d e, step d e = if f e.2 then d ++ [e.1] else d) :
    (l.foldl step []).Pairwise (· < ·) ∧
    ∀ k, k ∈ l.foldl step [] ↔ ∃ e, SMap.find? l k = some e ∧ f e = true := by
  have h1 : ∀ d, l.foldl step d = d ++ (l.filter fun e => f e.2).map Prod.fst := by
    clear hl
    induction l with
    | nil => simp
    | cons a t ih =>
      intro d
      rw [List.foldl_cons, hstep, ih, List.filter_cons]
      cases hf : f a.2 <;> simp
  rw [h1]
  simp only [List.nil_append]
  refine ⟨?_, fun k => ?_⟩
  · rw [List.pairwise_map]
    exact List.Pairwise.filter _ hl
  · simp only [List.mem_map, List.mem_filter]
    constructor
    · rintro ⟨⟨k', e⟩, ⟨h2, h3⟩, rfl⟩
      exact ⟨e, SMap.find?_of_mem hl h2, h3⟩
    · rintro ⟨e, h2, h3⟩
      exact ⟨(k, e), ⟨SMap.mem_of_find? h2, h3⟩, rfl⟩

/-- C11, key versions: sorted vectors of the keys only in `a`, respectively in both. -/
theorem C11_map_keys [LinearOrder K] (a : SMap K V) (b : SMap K W) (ha : SMap.WF a)
    (hb : SMap.WF b) :
    ((mapDifferenceKeys a b).Pairwise (· < ·) ∧
      ∀ k, k ∈ mapDifferenceKeys a b ↔ k ∈ a.keys ∧ k ∉ b.keys) ∧
    ((mapIntersectKeys a b).Pairwise (· < ·) ∧
      ∀ k, k ∈ mapIntersectKeys a b ↔ k ∈ a.keys ∧ k ∈ b.keys) := by
  have ⟨h1, h2⟩ := events_spec a b ha hb
  constructor
  · unfold mapDifferenceKeys
    rw [mapMerge_eq_events]
    have := keysFold (events a b) h1 (fun e => match e with | .onlyA _ => true | _ => false)
      (Ev.run (fun k _ d => d ++ [k]) (fun _ _ d => d) (fun _ _ _ d => d))
      (by rintro d ⟨k, e⟩; cases e <;> simp [Ev.run])
    refine ⟨this.1, fun k => ?_⟩
    rw [this.2, h2, SMap.mem_keys, SMap.mem_keys]
    cases a.find? k <;> cases b.find? k <;> simp [evSpec]
  · unfold mapIntersectKeys
    rw [mapMerge_eq_events]
    have := keysFold (events a b) h1 (fun e => match e with | .both _ _ => true | _ => false)
      (Ev.run (fun _ _ d => d) (fun _ _ d => d) (fun k _ _ d => d ++ [k]))
      (by rintro d ⟨k, e⟩; cases e <;> simp [Ev.run])
    refine ⟨this.1, fun k => ?_⟩
    rw [this.2, h2, SMap.mem_keys, SMap.mem_keys]
    cases a.find? k <;> cases b.find? k <;> simp [evSpec]

/-- C11, join: `map_join(m, other)` has all keys of both, values of `other` win. -/
theorem C11_map_join [LinearOrder K] (m other : SMap K V) (hm : SMap.WF m) (ho : SMap.WF other) :
    SMap.WF (mapJoin m other) ∧
    ∀ k, (mapJoin m other).find? k = (other.find? k).or (m.find? k) := by
  unfold mapJoin
  induction m generalizing other with
  | nil => exact ⟨ho, fun k => by simp [SMap.find?]⟩
  | cons a t ih =>
    obtain ⟨k₀, v₀⟩ := a
    have ⟨h1, h2⟩ := SMap.wf_cons.1 hm
    have ⟨i1, i2⟩ := ih _ h2 (SMap.wf_emplace ho k₀ v₀)
    refine ⟨i1, fun k => ?_⟩
    rw [List.foldl_cons, i2, SMap.find?_emplace ho]
    by_cases e : k = k₀
    · subst e
      have : SMap.find? t k = none := SMap.find?_none_of_lt h1
      cases other.find? k <;> simp [SMap.find?]
    · simp [SMap.find?, e]

/-- C11, strict join: with disjoint keys it is the union; with a common key a debug build asserts,
and a release build keeps the value of the *first* argument (the opposite of `map_join`). -/
theorem C11_map_join_strict [LinearOrder K] (b : Build) (m other : SMap K V) (hm : SMap.WF m)
    (ho : SMap.WF other) :
    ((∀ k, k ∈ m.keys → k ∉ other.keys) →
      mapJoinStrict b m other = .ok (mapJoin m other)) ∧
    ((∃ k, k ∈ m.keys ∧ k ∈ other.keys) → mapJoinStrict .debug m other = .error .assertFail) ∧
    (∃ j, mapJoinStrict .ndebug m other = .ok j ∧ SMap.WF j ∧
      ∀ k, j.find? k = (m.find? k).or (other.find? k)) := by
  unfold mapJoinStrict mapJoin
  induction m generalizing other with
  | nil =>
    refine ⟨fun _ => rfl, ?_, other, rfl, ho, fun k => by simp [SMap.find?]⟩
    rintro ⟨k, hk, -⟩; simp [SMap.keys] at hk
  | cons a t ih =>
    obtain ⟨k₀, v₀⟩ := a
    have ⟨h1, h2⟩ := SMap.wf_cons.1 hm
    have hput := SMap.wf_put ho k₀ v₀
    have ⟨i1, i2, j, i3, i4, i5⟩ := ih _ h2 hput
    have hk₀ : ∀ k ∈ SMap.keys t, k ≠ k₀ := by
      rintro k hk rfl
      obtain ⟨x, hx, e⟩ := List.mem_map.1 hk
      have := h1 x hx
      rw [e] at this
      exact lt_irrefl _ this
    have hmemput : ∀ k, k ∈ (other.put k₀ v₀).keys ↔ k = k₀ ∨ k ∈ other.keys := by
      intro k
      rw [SMap.mem_keys, SMap.find?_put ho, SMap.mem_keys]
      by_cases e : k = k₀ <;> simp [e]
    have hcontains : SMap.contains other k₀ = true ↔ k₀ ∈ other.keys := by
      rw [SMap.mem_keys]; rfl
    refine ⟨fun hd => ?_, ?_, ?_⟩
    · have hn : k₀ ∉ other.keys := hd k₀ (by simp [SMap.keys])
      have hc : SMap.contains other k₀ = false := by
        cases h : SMap.contains other k₀
        · rfl
        · exact absurd (hcontains.1 h) hn
      rw [List.foldlM_cons, List.foldl_cons]
      simp only [hc, Bool.false_eq_true, if_false, except_pure, except_ok_bind]
      have e : other.emplace k₀ v₀ = other.put k₀ v₀ := by
        refine SMap.ext (SMap.wf_emplace ho _ _) hput fun k => ?_
        have : other.find? k₀ = none := by simpa [SMap.contains] using hc
        rw [SMap.find?_emplace ho, SMap.find?_put ho, this]; rfl
      rw [e]
      exact i1 fun k hk hk2 => by
        rcases (hmemput k).1 hk2 with e | h
        · exact hk₀ k hk e
        · exact hd k (by simp only [SMap.keys, List.map_cons, List.mem_cons]; exact Or.inr hk) h
    · rintro ⟨k, hk, hko⟩
      rw [List.foldlM_cons]
      by_cases hc : SMap.contains other k₀ = true
      · simp [hc, albatrossAssert]
      · simp only [hc, Bool.false_eq_true, if_false, except_pure, except_ok_bind]
        refine i2 ⟨k, ?_, (hmemput k).2 (Or.inr hko)⟩
        simp only [SMap.keys, List.map_cons, List.mem_cons] at hk
        rcases hk with rfl | hk
        · exact absurd (hcontains.2 hko) hc
        · exact hk
    · refine ⟨j, ?_, i4, fun k => ?_⟩
      · rw [List.foldlM_cons]
        by_cases hc : SMap.contains other k₀ = true
        · simp only [hc, if_true, albatrossAssert, except_pure, except_ok_bind]
          exact i3
        · simp only [hc, Bool.false_eq_true, if_false, except_pure, except_ok_bind]
          exact i3
      · rw [i5, SMap.find?_put ho]
        by_cases e : k = k₀
        · subst e
          have : SMap.find? t k = none := SMap.find?_none_of_lt h1
          simp [SMap.find?, this]
        · simp [SMap.find?, e]

example : mapUnion (fun _ v _ => v) [(1, 10), (3, 30)] [(1, 11), (2, 20)] =
    [(1, 10), (2, 20), (3, 30)] := by decide +kernel
example : mapJoin [(1, 10), (3, 30)] [(1, 11), (2, 20)] = [(1, 11), (2, 20), (3, 30)] := by decide
example : SMap.WF [(1, 10), (3, 30)] := by simp [SMap.WF]

/-! ## C12 -/

theorem mapSubsetSequence_spec [LinearOrder K] (m : SMap K V) (keys : List K) (hm : SMap.WF m)
    (hk : keys.Pairwise (· ≤ ·)) (d : SMap K V) :
    mapSubsetSequence (fun k v d => SMap.emplace d k v) m keys d =
      (m.filter fun kv => decide (kv.1 ∈ keys)).foldl (fun d kv => SMap.emplace d kv.1 kv.2) d := by
  fun_induction mapSubsetSequence (fun (k : K) (v : V) d => SMap.emplace d k v) m keys d with
  | case1 ak av as bk bs s h ih =>
    have ⟨b1, b2⟩ := List.pairwise_cons.1 hk
    rw [ih hm.tail hk, List.filter_cons]
    have : ak ∉ bk :: bs := by
      simp only [List.mem_cons, not_or]
      exact ⟨h.ne, fun hmem => absurd (b1 ak hmem) (not_le.2 h)⟩
    simp [this]
  | case2 ak av as bk bs s h1 h2 ih =>
    have ⟨b1, b2⟩ := List.pairwise_cons.1 hk
    rw [ih hm b2]
    congr 1
    apply List.filter_congr
    intro kv hkv
    have : bk < kv.1 := by
      rcases List.mem_cons.1 hkv with rfl | hkv
      · exact h2
      · exact h2.trans ((SMap.wf_cons.1 hm).1 kv hkv)
    simp [this.ne']
  | case3 ak av as bk bs s h1 h2 ih =>
    have ⟨b1, b2⟩ := List.pairwise_cons.1 hk
    have e : ak = bk := le_antisymm (not_lt.1 h2) (not_lt.1 h1)
    subst e
    rw [ih hm.tail b2, List.filter_cons]
    simp only [List.mem_cons, true_or, decide_true, if_true, List.foldl_cons]
    congr 1
    apply List.filter_congr
    intro kv hkv
    have : ak < kv.1 := (SMap.wf_cons.1 hm).1 kv hkv
    simp [this.ne']
  | case4 as s => simp
  | case5 bs s h => simp

/-- C12. `map_subset(m, keys)` with a sorted key container returns exactly the entries of `m` whose
key is listed (repeated keys are harmless), in order. -/
theorem C12_map_subset [LinearOrder K] (m : SMap K V) (keys : List K) (hm : SMap.WF m)
    (hk : keys.Pairwise (· ≤ ·)) :
    mapSubset m keys = m.filter (fun kv => decide (kv.1 ∈ keys)) ∧ SMap.WF (mapSubset m keys) ∧
    ∀ k, (mapSubset m keys).find? k = if k ∈ keys then m.find? k else none := by
  have hw : SMap.WF (m.filter fun kv => decide (kv.1 ∈ keys)) := List.Pairwise.filter _ hm
  have e : mapSubset m keys = m.filter (fun kv => decide (kv.1 ∈ keys)) := by
    unfold mapSubset
    rw [mapSubsetSequence_spec m keys hm hk]
    exact SMap.ofList_of_wf hw
  refine ⟨e, by rw [e]; exact hw, fun k => ?_⟩
  rw [e]
  by_cases h : k ∈ keys
  · rw [if_pos h]
    cases hf : m.find? k with
    | none =>
      rw [SMap.find?_eq_none] at hf ⊢
      exact fun x hx => hf x (List.mem_filter.1 hx).1
    | some v =>
      rw [← SMap.mem_iff_find? hw, List.mem_filter]
      exact ⟨SMap.mem_of_find? hf, by simpa using h⟩
  · rw [if_neg h, SMap.find?_eq_none]
    intro x hx e
    have := (List.mem_filter.1 hx).2
    rw [e] at this
    exact h (by simpa using this)

theorem isSorted_iff [LinearOrder K] (l : List K) : isSorted l = true ↔ l.Pairwise (· ≤ ·) := by
  rw [← List.isChain_iff_pairwise]
  induction l with
  | nil => simp [isSorted]
  | cons a t ih =>
    cases t with
    | nil => simp [isSorted]
    | cons b t => simp [isSorted, ih]

/-- C12. `map_subset_sorted(m, keys)`: on sorted keys it is `map_subset`; unsorted keys are an
assertion failure in debug builds. -/
theorem C12_map_subset_sorted [LinearOrder K] (b : Build) (m : SMap K V) (keys : List K)
    (hm : SMap.WF m) :
    (keys.Pairwise (· ≤ ·) →
      mapSubsetSorted b m keys = .ok (m.filter fun kv => decide (kv.1 ∈ keys))) ∧
    (¬ keys.Pairwise (· ≤ ·) → mapSubsetSorted .debug m keys = .error .assertFail) := by
  constructor
  · intro hk
    have : isSorted keys = true := (isSorted_iff keys).2 hk
    simp only [mapSubsetSorted, this, albatrossAssert_true, except_ok_bind, except_pure]
    rw [← (C12_map_subset m keys hm hk).1]
    rfl
  · intro hk
    have : isSorted keys = false := by
      cases h : isSorted keys
      · rfl
      · exact absurd ((isSorted_iff keys).1 h) hk
    simp [mapSubsetSorted, this, albatrossAssert]

example : mapSubset [(1, 10), (2, 20), (5, 50)] [0, 2, 2, 5, 7] = [(2, 20), (5, 50)] := by
  decide +kernel

end Albatross
