import Verif.MlCallback
import Verif.PrettyParamsProps

/-! # The callback that tracks the maximum likelihood: C100 -/

namespace Albatross

/-! ## Specification vocabulary -/

/-- A state that beats the starting value and every earlier state.  A NaN beats nothing. -/
def IsRecord (start : Dbl) (pre : List (Nat × SamplerState)) (x : SamplerState) : Prop :=
  start < x.logProb ∧ ∀ y ∈ pre, ¬ x.logProb ≤ y.2.logProb

open Classical in
/-- The records among the states of `rest`, which come after those of `pre`. -/
noncomputable def recordsFrom (start : Dbl) : (pre rest : List (Nat × SamplerState)) → List (Nat × SamplerState)
  | _, [] => []
  | pre, x :: rest =>
    if IsRecord start pre x.2 then x :: recordsFrom start (pre ++ [x]) rest else recordsFrom start (pre ++ [x]) rest

/-- All states with the iteration they belong to, in the order they are visited. -/
def visited (history : List (Nat × List SamplerState)) : List (Nat × SamplerState) :=
  history.flatMap fun h => h.2.map fun s => (h.1, s)

/-- What is written for a record. -/
def IsBlock (ex : Dbl → Dbl) (b : Build) (store : ParameterStore) (r : Nat × SamplerState) (t : List Char) : Prop :=
  ∃ ps, setTunableParamsValues ex b store r.2.params true = .ok ps ∧
    t = List.replicate 19 '=' ++ ['\n', 'I', 't', 'e', 'r', 'a', 't', 'i', 'o', 'n', ':', ' '] ++ sizeToString r.1 ++
      ['\n', 'L', 'L', ':', ' '] ++ defaultText r.2.logProb ++ ['\n'] ++ prettyParams ps ++ ['\n']

/-! ## Setting parameters twice -/

theorem assigned_twice (ex : Dbl → Dbl) (fb : Bool) (ps l : ParameterStore) (x y : List Dbl)
    (h : assigned ex fb ps x = some l) :
    assigned ex fb l y = assigned ex fb ps y ∧ (tunable l).length = (tunable ps).length ∧ l.keys = ps.keys := by
  induction ps generalizing x l y with
  | nil =>
    simp only [assigned, Option.some.injEq] at h
    subst h
    exact ⟨rfl, rfl, rfl⟩
  | cons kv ps ih =>
    obtain ⟨k, p⟩ := kv
    by_cases hf : p.isFixed = true
    · simp only [assigned, hf, if_true, Option.map_eq_some_iff] at h
      obtain ⟨l', h', rfl⟩ := h
      obtain ⟨h1, h2, h3⟩ := ih _ _ y h'
      refine ⟨by simp only [assigned, hf, if_true, h1], ?_, ?_⟩
      · simp only [tunable] at h2 ⊢
        simp [hf, h2]
      · simp only [SMap.keys, List.map_cons] at h3 ⊢
        rw [h3]
    · have hf' : p.isFixed = false := by simpa using hf
      cases x with
      | nil => simp [assigned, hf'] at h
      | cons v x =>
        simp only [assigned, hf', Bool.false_eq_true, if_false, Option.map_eq_some_iff] at h
        obtain ⟨l', h', rfl⟩ := h
        have hfix : ({ p with value := tunedValue ex fb p v } : Parameter).isFixed = false := hf'
        refine ⟨?_, ?_, ?_⟩
        · cases y with
          | nil => simp [assigned, hf', hfix]
          | cons w y =>
            simp only [assigned, hf', hfix, Bool.false_eq_true, if_false]
            rw [(ih _ _ y h').1]
            rfl
        · have h2 := (ih _ _ y h').2.1
          simp only [tunable] at h2 ⊢
          simp [hf', hfix, h2]
        · have h3 := (ih _ _ y h').2.2
          simp only [SMap.keys, List.map_cons] at h3 ⊢
          rw [h3]

theorem setTunable_ok {ex : Dbl → Dbl} {b : Build} {ps l : ParameterStore} {x : List Dbl} (hw : SMap.WF ps)
    (h : setTunableParamsValues ex b ps x true = .ok l) : assigned ex true ps x = some l := by
  rw [setTunable_eq ex b ps x true hw] at h
  cases ha : assigned ex true ps x with
  | none => rw [ha] at h; simp at h
  | some m =>
    rw [ha] at h
    simp only at h
    cases hb : albatrossAssert b (x.length == (tunable ps).length) with
    | error e => rw [hb] at h; simp [Except.bind] at h
    | ok u =>
      rw [hb] at h
      simp only [Except.bind, Except.ok.injEq] at h
      rw [h]

theorem setTunable_twice {ex : Dbl → Dbl} {b : Build} {ps l : ParameterStore} {x : List Dbl} (hw : SMap.WF ps)
    (h : setTunableParamsValues ex b ps x true = .ok l) (y : List Dbl) :
    setTunableParamsValues ex b l y true = setTunableParamsValues ex b ps y true ∧ SMap.WF l := by
  obtain ⟨h1, h2, h3⟩ := assigned_twice ex true ps l x y (setTunable_ok hw h)
  have hl : SMap.WF l := by rw [SMap.wf_iff_keys, h3, ← SMap.wf_iff_keys]; exact hw
  exact ⟨by rw [setTunable_eq ex b l y true hl, setTunable_eq ex b ps y true hw, h1, h2], hl⟩

theorem setTunable_exists (ex : Dbl → Dbl) (b : Build) {ps : ParameterStore} {x : List Dbl} (hw : SMap.WF ps)
    (h : x.length = (tunable ps).length) : ∃ l, setTunableParamsValues ex b ps x true = .ok l := by
  obtain ⟨l, hl⟩ := Option.isSome_iff_exists.1 ((assigned_isSome ex true ps x).2 h.ge)
  refine ⟨l, ?_⟩
  rw [setTunable_eq ex b ps x true hw, hl]
  simp only
  rw [show (x.length == (tunable ps).length) = true by simp [h], albatrossAssert_true]
  rfl

/-! ## The loop -/

theorem dbl_not_le {m x z : Dbl} (h1 : m < x) (h2 : m < z) (h : ¬ z ≤ x) : x < z := by
  cases m <;> cases x <;> cases z <;> simp_all

theorem dbl_lt_trans' {a b c : Dbl} (h1 : a < b) (h2 : b < c) : a < c := by
  cases a <;> cases b <;> cases c <;> simp_all
  linarith

theorem dbl_lt_le {a b c : Dbl} (h1 : a < b) (h2 : b ≤ c) : a < c := by
  cases a <;> cases b <;> cases c <;> simp_all
  linarith

theorem dbl_lt_not_le {a b : Dbl} (h : a < b) : ¬ b ≤ a := by
  cases a <;> cases b <;> simp_all

/-- What the callback knows after the states of `pre`. -/
structure MlInv (ex : Dbl → Dbl) (b : Build) (cb : MlCallback) (pre : List (Nat × SamplerState)) (cur : MlCallback) :
    Prop where
  beats : ∀ x : SamplerState, cur.maxLl < x.logProb ↔ IsRecord cb.maxLl pre x
  wf : SMap.WF cur.store
  same : ∀ y, setTunableParamsValues ex b cur.store y true = setTunableParamsValues ex b cb.store y true
  source : (cur.maxLl = cb.maxLl ∧ cur.store = cb.store ∧ ∀ x ∈ pre, ¬ cb.maxLl < x.2.logProb) ∨
    ∃ before r after, pre = before ++ r :: after ∧ IsRecord cb.maxLl before r.2 ∧ cur.maxLl = r.2.logProb ∧
      setTunableParamsValues ex b cb.store r.2.params true = .ok cur.store

theorem ml_step {ex : Dbl → Dbl} {b : Build} {cb cur next : MlCallback} {pre : List (Nat × SamplerState)}
    (hi : MlInv ex b cb pre cur) (x : Nat × SamplerState) (h : MlCallback.visit ex b x.1 cur x.2 = .ok next) :
    MlInv ex b cb (pre ++ [x]) next ∧
      ((IsRecord cb.maxLl pre x.2 ∧ ∃ t, IsBlock ex b cb.store x t ∧
          next.stream = if cur.stream.fail then cur.stream else { cur.stream with text := cur.stream.text ++ t }) ∨
        (¬ IsRecord cb.maxLl pre x.2 ∧ next.stream = cur.stream)) := by
  rw [MlCallback.visit] at h
  by_cases hlt : cur.maxLl < x.2.logProb
  · rw [if_pos hlt, hi.same] at h
    cases hs : setTunableParamsValues ex b cb.store x.2.params true with
    | error e => rw [hs] at h; simp [bind, Except.bind] at h
    | ok l =>
      rw [hs] at h
      have hs' := hs
      rw [← hi.same] at hs'
      have hrec := (hi.beats x.2).1 hlt
      injection h with h
      subst h
      refine ⟨⟨fun z => ?_, (setTunable_twice hi.wf hs' []).2, fun y => ?_, ?_⟩, .inl ⟨hrec, ?_⟩⟩
      · show x.2.logProb < z.logProb ↔ _
        constructor
        · intro hz
          obtain ⟨h1, h2⟩ := (hi.beats z).1 (dbl_lt_trans' hlt hz)
          refine ⟨h1, fun y hy => ?_⟩
          rcases List.mem_append.1 hy with hy | hy
          · exact h2 y hy
          · rw [List.mem_singleton.1 hy]; exact dbl_lt_not_le hz
        · rintro ⟨h1, h2⟩
          have hz := (hi.beats z).2 ⟨h1, fun y hy => h2 y (by simp [hy])⟩
          exact dbl_not_le hlt hz (h2 x (by simp))
      · rw [(setTunable_twice hi.wf hs' y).1, hi.same]
      · exact .inr ⟨pre, x, [], rfl, hrec, rfl, hs⟩
      · refine ⟨_, ⟨l, hs, rfl⟩, ?_⟩
        cases hf : cur.stream.fail <;> simp [OStream.put, hf]
  · rw [if_neg hlt] at h
    injection h with h
    subst h
    have hnr : ¬ IsRecord cb.maxLl pre x.2 := fun hr => hlt ((hi.beats x.2).2 hr)
    refine ⟨⟨fun z => ?_, hi.wf, hi.same, ?_⟩, .inr ⟨hnr, rfl⟩⟩
    · rw [hi.beats z]
      constructor
      · rintro ⟨h1, h2⟩
        refine ⟨h1, fun y hy => ?_⟩
        rcases List.mem_append.1 hy with hy | hy
        · exact h2 y hy
        · rw [List.mem_singleton.1 hy]
          exact fun hle => hlt (dbl_lt_le ((hi.beats z).2 ⟨h1, h2⟩) hle)
      · rintro ⟨h1, h2⟩
        exact ⟨h1, fun y hy => h2 y (by simp [hy])⟩
    · rcases hi.source with ⟨h1, h2, h3⟩ | ⟨before, r, after, h1, h2, h3, h4⟩
      · refine .inl ⟨h1, h2, fun y hy => ?_⟩
        rcases List.mem_append.1 hy with hy | hy
        · exact h3 y hy
        · rw [List.mem_singleton.1 hy, ← h1]; exact hlt
      · exact .inr ⟨before, r, after ++ [x], by rw [h1]; simp, h2, h3, h4⟩

theorem ml_visit_ok {ex : Dbl → Dbl} {b : Build} {cb cur : MlCallback} {pre : List (Nat × SamplerState)}
    (hi : MlInv ex b cb pre cur) (hw : SMap.WF cb.store) (x : Nat × SamplerState)
    (h : IsRecord cb.maxLl pre x.2 → x.2.params.length = (tunable cb.store).length) :
    ∃ next, MlCallback.visit ex b x.1 cur x.2 = .ok next := by
  rw [MlCallback.visit]
  by_cases hlt : cur.maxLl < x.2.logProb
  · obtain ⟨l, hl⟩ := setTunable_exists ex b hw (h ((hi.beats x.2).1 hlt))
    rw [if_pos hlt, hi.same, hl]
    exact ⟨_, rfl⟩
  · rw [if_neg hlt]
    exact ⟨_, rfl⟩

theorem ml_loop {ex : Dbl → Dbl} {b : Build} {cb : MlCallback} (hw : SMap.WF cb.store)
    (rest : List (Nat × SamplerState)) {pre : List (Nat × SamplerState)} {cur : MlCallback}
    (hi : MlInv ex b cb pre cur)
    (h : ∀ r ∈ recordsFrom cb.maxLl pre rest, r.2.params.length = (tunable cb.store).length) :
    ∃ (last : MlCallback) (blocks : List (List Char)),
      rest.foldlM (fun cb x => MlCallback.visit ex b x.1 cb x.2) cur = .ok last ∧ MlInv ex b cb (pre ++ rest) last ∧
      List.Forall₂ (IsBlock ex b cb.store) (recordsFrom cb.maxLl pre rest) blocks ∧
      last.stream = if cur.stream.fail then cur.stream
        else { cur.stream with text := cur.stream.text ++ blocks.flatten } := by
  induction rest generalizing pre cur with
  | nil => exact ⟨cur, [], rfl, by simpa using hi, .nil, by simp⟩
  | cons x rest ih =>
    have hx : IsRecord cb.maxLl pre x.2 → x.2.params.length = (tunable cb.store).length := fun hr =>
      h x (by rw [recordsFrom, if_pos hr]; simp)
    obtain ⟨next, hn⟩ := ml_visit_ok hi hw x hx
    obtain ⟨hi', hcase⟩ := ml_step hi x hn
    have h' : ∀ r ∈ recordsFrom cb.maxLl (pre ++ [x]) rest, r.2.params.length = (tunable cb.store).length := by
      intro r hr
      refine h r ?_
      rw [recordsFrom]
      split
      · exact List.mem_cons_of_mem _ hr
      · exact hr
    obtain ⟨last, blocks, h1, h2, h3, h4⟩ := ih hi' h'
    have hfold : (x :: rest).foldlM (fun cb x => MlCallback.visit ex b x.1 cb x.2) cur = .ok last := by
      rw [List.foldlM_cons, hn]; exact h1
    rw [List.append_assoc] at h2
    rcases hcase with ⟨hr, t, ht, hst⟩ | ⟨hr, hst⟩
    · refine ⟨last, t :: blocks, hfold, h2, by rw [recordsFrom, if_pos hr]; exact .cons ht h3, ?_⟩
      rw [h4, hst]
      cases hf : cur.stream.fail <;> simp [hf]
    · exact ⟨last, blocks, hfold, h2, by rw [recordsFrom, if_neg hr]; exact h3, by rw [h4, hst]⟩

theorem run_visited (ex : Dbl → Dbl) (b : Build) (cb : MlCallback) (history : List (Nat × List SamplerState)) :
    cb.run ex b history = (visited history).foldlM (fun cb x => MlCallback.visit ex b x.1 cb x.2) cb := by
  rw [MlCallback.run, visited]
  induction history generalizing cb with
  | nil => rfl
  | cons h history ih =>
    rw [List.foldlM_cons, List.flatMap_cons, List.foldlM_append, MlCallback.call]
    have e : ∀ (l : List SamplerState) (cb : MlCallback), l.foldlM (MlCallback.visit ex b h.1) cb =
        (l.map fun s => (h.1, s)).foldlM (fun cb x => MlCallback.visit ex b x.1 cb x.2) cb := by
      intro l
      induction l with
      | nil => intro cb; rfl
      | cons s l ihl =>
        intro cb
        rw [List.map_cons, List.foldlM_cons, List.foldlM_cons]
        exact bind_congr fun cb => ihl cb
    rw [e]
    exact bind_congr fun cb => ih cb

theorem ml_start (ex : Dbl → Dbl) (b : Build) (cb : MlCallback) (hw : SMap.WF cb.store) : MlInv ex b cb [] cb :=
  ⟨fun x => by simp [IsRecord], hw, fun _ => rfl, .inl ⟨rfl, rfl, by simp⟩⟩

/-- C100: over a whole run the callback writes one block for every record, in order, and no other text. -/
theorem C100_text (ex : Dbl → Dbl) (b : Build) (cb : MlCallback) (history : List (Nat × List SamplerState))
    (hw : SMap.WF cb.store) (hs : cb.stream.fail = false)
    (h : ∀ r ∈ recordsFrom cb.maxLl [] (visited history), r.2.params.length = (tunable cb.store).length) :
    ∃ (last : MlCallback) (blocks : List (List Char)), cb.run ex b history = .ok last ∧
      List.Forall₂ (IsBlock ex b cb.store) (recordsFrom cb.maxLl [] (visited history)) blocks ∧
      last.stream.text = cb.stream.text ++ blocks.flatten ∧ last.stream.fail = false := by
  obtain ⟨last, blocks, h1, -, h3, h4⟩ := ml_loop hw (visited history) (ml_start ex b cb hw) h
  rw [hs] at h4
  exact ⟨last, blocks, by rw [run_visited]; exact h1, h3, by rw [h4]; rfl, by rw [h4]; exact hs⟩

/-- C100: after a run the tracked likelihood is that of the first best state and the tracked parameters are those of
the same state; if no state beats the starting value nothing changes.  NaN is never tracked. -/
theorem C100_best (ex : Dbl → Dbl) (b : Build) (cb : MlCallback) (history : List (Nat × List SamplerState))
    (hw : SMap.WF cb.store)
    (h : ∀ r ∈ recordsFrom cb.maxLl [] (visited history), r.2.params.length = (tunable cb.store).length) :
    ∃ last, cb.run ex b history = .ok last ∧
      (∀ x ∈ visited history, ¬ last.maxLl < x.2.logProb) ∧
      ((last = cb ∧ ∀ x ∈ visited history, ¬ cb.maxLl < x.2.logProb) ∨
        ∃ before r after, visited history = before ++ r :: after ∧ cb.maxLl < r.2.logProb ∧
          (∀ y ∈ before, ¬ r.2.logProb ≤ y.2.logProb) ∧ last.maxLl = r.2.logProb ∧
          setTunableParamsValues ex b cb.store r.2.params true = .ok last.store) := by
  obtain ⟨last, blocks, h1, h2, h3, h4⟩ := ml_loop hw (visited history) (ml_start ex b cb hw) h
  rw [List.nil_append] at h2
  refine ⟨last, by rw [run_visited]; exact h1, fun x hx hlt => ?_, ?_⟩
  · have hr := (h2.beats x.2).1 hlt
    have hne : x.2.logProb ≤ x.2.logProb := by
      cases hx : x.2.logProb <;> simp [hx] at hlt ⊢
    exact hr.2 x hx hne
  · rcases h2.source with ⟨e1, e2, e3⟩ | ⟨before, r, after, e1, e2, e3, e4⟩
    · refine .inl ⟨?_, e3⟩
      have hnone : ∀ (rest pre : List (Nat × SamplerState)), (∀ x ∈ rest, ¬ cb.maxLl < x.2.logProb) →
          recordsFrom cb.maxLl pre rest = [] := by
        intro rest
        induction rest with
        | nil => intro pre _; rfl
        | cons x rest ih =>
          intro pre hx
          rw [recordsFrom, if_neg fun hr => hx x (by simp) hr.1]
          exact ih _ fun y hy => hx y (by simp [hy])
      rw [hnone _ _ e3] at h3
      cases h3
      have e4 : last.stream = cb.stream := by rw [h4]; simp
      obtain ⟨m, s, st⟩ := last
      obtain ⟨m', s', st'⟩ := cb
      simp only at e1 e2 e4
      rw [e1, e2, e4]
    · exact .inr ⟨before, r, after, e1, e2.1, e2.2, e3, e4⟩

/-- C100: a state whose log likelihood is NaN or minus infinity leaves the callback alone. -/
theorem C100_never (ex : Dbl → Dbl) (b : Build) (n : Nat) (cb : MlCallback) (x : SamplerState)
    (h : x.logProb = .nan ∨ x.logProb = .ninf) : cb.visit ex b n x = .ok cb := by
  rw [MlCallback.visit, if_neg (by rcases h with h | h <;> simp [h])]
  rfl

/-- C100: a better state with too few parameters is read past its end; with too many it stops a debug build. -/
theorem C100_wrong_length (ex : Dbl → Dbl) (n : Nat) (cb : MlCallback) (x : SamplerState) (hw : SMap.WF cb.store)
    (hlt : cb.maxLl < x.logProb) :
    (x.params.length < (tunable cb.store).length → ∀ b, cb.visit ex b n x = .error .ub) ∧
      ((tunable cb.store).length < x.params.length → cb.visit ex .debug n x = .error .assertFail) := by
  constructor
  · intro hlen b
    have ha : assigned ex true cb.store x.params = none := by
      rw [← Option.not_isSome_iff_eq_none, assigned_isSome]; omega
    rw [MlCallback.visit, if_pos hlt, setTunable_eq ex b _ _ true hw, ha]
    rfl
  · intro hlen
    obtain ⟨l, hl⟩ := Option.isSome_iff_exists.1 ((assigned_isSome ex true cb.store x.params).2 hlen.le)
    have hne : (x.params.length == (tunable cb.store).length) = false := by simp; omega
    rw [MlCallback.visit, if_pos hlt, setTunable_eq ex .debug _ _ true hw, hl]
    simp only [hne]
    rfl

/-- Two iterations of two walkers: the second and the fourth state are records. -/
example : ∃ (cb : MlCallback) (history : List (Nat × List SamplerState)), SMap.WF cb.store ∧
    cb.stream.fail = false ∧ cb.maxLl = .ninf ∧ (recordsFrom cb.maxLl [] (visited history)).length = 2 ∧
    ∀ r ∈ recordsFrom cb.maxLl [] (visited history), r.2.params.length = (tunable cb.store).length := by
  have ht : tunable [("a", (⟨.fin 1, .uninformative⟩ : Parameter))] = [("a", ⟨.fin 1, .uninformative⟩)] := by
    simp [tunable, Parameter.isFixed, Prior.isFixed]
  have hrec : recordsFrom .ninf [] (visited
      [(0, [⟨[.fin 0], .nan, true⟩, ⟨[.fin 1], .fin (-3), true⟩]),
        (1, [⟨[.fin 2], .fin (-3), true⟩, ⟨[.fin 3], .fin (-2), true⟩])]) =
      [(0, ⟨[.fin 1], .fin (-3), true⟩), (1, ⟨[.fin 3], .fin (-2), true⟩)] := by
    simp [visited, recordsFrom, IsRecord]
    norm_num
  refine ⟨{ store := [("a", ⟨.fin 1, .uninformative⟩)] }, _, by simp [SMap.WF], rfl, rfl,
    by rw [hrec]; rfl, ?_⟩
  intro r hr
  rw [hrec] at hr
  rw [ht]
  simp only [List.mem_cons, List.not_mem_nil, or_false] at hr
  rcases hr with rfl | rfl <;> rfl

end Albatross
