import Verif.ParametersProps

/-! # Parameters of composed objects: C25 -/

namespace Albatross
namespace Handler

/-! ## Specification vocabulary -/

/-- No two parts of the object have a parameter with the same name (and every map is a map). -/
def Separate : Handler → Prop
  | store ps => SMap.WF ps
  | declared ms => (ms.map Prod.fst).Nodup
  | wrapped h => h.Separate
  | both l r => l.Separate ∧ r.Separate ∧ ∀ k, k ∈ l.getParams.keys → k ∉ r.getParams.keys
  | gp ps mean cov => SMap.WF ps ∧ mean.Separate ∧ cov.Separate ∧
      (∀ k, k ∈ ps.keys → k ∉ mean.getParams.keys ∧ k ∉ cov.getParams.keys) ∧
      ∀ k, k ∈ mean.getParams.keys → k ∉ cov.getParams.keys
  | sparse _ _ mean cov => mean.Separate ∧ cov.Separate ∧
      (∀ k, k ∈ mean.getParams.keys → k ∉ cov.getParams.keys) ∧
      ∀ k, k = measurementNuggetName ∨ k = inducingNuggetName →
        k ∉ mean.getParams.keys ∧ k ∉ cov.getParams.keys

/-- Every map inside is a map; names may be shared between parts. -/
def Proper : Handler → Prop
  | store ps => SMap.WF ps
  | declared ms => (ms.map Prod.fst).Nodup
  | wrapped h => h.Proper
  | both l r => l.Proper ∧ r.Proper
  | gp ps mean cov => SMap.WF ps ∧ mean.Proper ∧ cov.Proper
  | sparse _ _ mean cov => mean.Proper ∧ cov.Proper

/-! ## Lemmas -/

theorem Separate.proper {h : Handler} (hs : h.Separate) : h.Proper := by
  induction h with
  | store ps => exact hs
  | declared ms => exact hs
  | wrapped h ih => exact ih hs
  | both l r il ir => exact ⟨il hs.1, ir hs.2.1⟩
  | gp ps mean cov im ic => exact ⟨hs.1, im hs.2.1, ic hs.2.2.1⟩
  | sparse m i mean cov im ic => exact ⟨im hs.1, ic hs.2.1⟩

theorem getParams_wf {h : Handler} (hp : h.Proper) : SMap.WF h.getParams := by
  induction h with
  | store ps => exact hp
  | declared ms => exact SMap.wf_ofList ms
  | wrapped h ih => exact ih hp
  | both l r il ir => exact (C11_map_join _ _ (il hp.1) (ir hp.2)).1
  | gp ps mean cov im ic =>
    exact (C11_map_join _ _ hp.1 (C11_map_join _ _ (im hp.2.1) (ic hp.2.2)).1).1
  | sparse m i mean cov im ic =>
    exact SMap.wf_put (SMap.wf_put (C11_map_join _ _ (im hp.1) (ic hp.2)).1 _ _) _ _

theorem find?_foldl_emplace (ms : List (String × Parameter)) (m : ParameterStore)
    (hw : SMap.WF m) (k : String) :
    (ms.foldl (fun m kv => SMap.emplace m kv.1 kv.2) m).find? k =
      (m.find? k).or (SMap.find? ms k) := by
  induction ms generalizing m with
  | nil => simp [SMap.find?]
  | cons a ms ih =>
    obtain ⟨n, p⟩ := a
    rw [List.foldl_cons, ih _ (SMap.wf_emplace hw _ _), SMap.find?_emplace hw]
    by_cases e : k = n
    · subst e; cases h : m.find? k <;> simp [SMap.find?]
    · simp [SMap.find?, e]

theorem find?_declared (ms : List (String × Parameter)) (k : String) :
    (getParams (declared ms)).find? k = SMap.find? ms k := by
  have := find?_foldl_emplace ms [] SMap.wf_nil k
  simp only [SMap.find?, Option.none_or] at this
  exact this

theorem wf_declared (ms : List (String × Parameter)) : SMap.WF (getParams (declared ms)) :=
  SMap.wf_ofList ms

theorem find?_both {l r : Handler} (hl : l.Proper) (hr : r.Proper) (k : String) :
    (both l r).getParams.find? k = (r.getParams.find? k).or (l.getParams.find? k) :=
  (C11_map_join _ _ (getParams_wf hl) (getParams_wf hr)).2 k

theorem find?_gp {ps : ParameterStore} {mean cov : Handler} (hp : SMap.WF ps) (hm : mean.Proper)
    (hc : cov.Proper) (k : String) : (gp ps mean cov).getParams.find? k =
      ((cov.getParams.find? k).or (mean.getParams.find? k)).or (ps.find? k) := by
  have h := C11_map_join _ _ (getParams_wf hm) (getParams_wf hc)
  show (mapJoin ps (mapJoin mean.getParams cov.getParams)).find? k = _
  rw [(C11_map_join _ _ hp h.1).2, h.2]

theorem setDeclared_spec (b : Build) (name : String) (p : Parameter)
    (ms : List (String × Parameter)) (hm : (SMap.find? ms name).isSome) :
    ∃ ms', setDeclared b name p ms = .ok ms' ∧ ms'.map Prod.fst = ms.map Prod.fst ∧
      ∀ k, SMap.find? ms' k = if k = name then some p else SMap.find? ms k := by
  induction ms with
  | nil => simp [SMap.find?] at hm
  | cons a ms ih =>
    obtain ⟨n, q⟩ := a
    by_cases e : name = n
    · subst e
      refine ⟨(name, p) :: ms, by simp [setDeclared], by simp, fun k => ?_⟩
      by_cases hk : k = name <;> simp [SMap.find?, hk]
    · obtain ⟨ms', h1, h2, h3⟩ := ih (by simpa [SMap.find?, e] using hm)
      refine ⟨(n, q) :: ms', by simp [setDeclared, e, h1], by simp [h2], fun k => ?_⟩
      simp only [SMap.find?, h3]
      by_cases hk : k = n
      · subst hk; simp [Ne.symm e]
      · simp [hk]

theorem ifExists_missing (b : Build) (name : String) (p : Parameter) (h : Handler)
    (set : String → Parameter → Outcome Handler) (hn : h.getParams.find? name = none) :
    ifExists b name p h set = .ok (false, h) := by
  simp [ifExists, setParamIfExists, modifyParam, hn]

theorem ifExists_found (b : Build) (name : String) (p : Parameter) (h : Handler)
    (set : String → Parameter → Outcome Handler) (hw : SMap.WF h.getParams) (hne : name ≠ "")
    (hs : (h.getParams.find? name).isSome) {h' : Handler} (hset : set name p = .ok h') :
    ifExists b name p h set = .ok (true, h') := by
  obtain ⟨old, ho⟩ := Option.isSome_iff_exists.1 hs
  have hlen : decide (0 < name.length) = true := by
    rw [decide_eq_true_iff, Nat.pos_iff_ne_zero]
    intro h0
    apply hne
    rwa [← String.length_eq_zero_iff]
  simp [ifExists, setParamIfExists, modifyParam, ho, SMap.at?, SMap.find?_put hw, hset, hlen]

theorem length_pos_of_ne {name : String} (hne : name ≠ "") : decide (0 < name.length) = true := by
  rw [decide_eq_true_iff, Nat.pos_iff_ne_zero]
  intro h0
  apply hne
  rwa [← String.length_eq_zero_iff]

theorem isSome_of_eq_none_or {o q : Option Parameter} (h : (o.or q).isSome) (ho : o = none) :
    q.isSome := by subst ho; simpa using h

theorem keys_of_find {m m' : ParameterStore} {name : String} {p : Parameter}
    (hm : (m.find? name).isSome)
    (h : ∀ k, m'.find? k = if k = name then some p else m.find? k) (k : String) :
    k ∈ m'.keys ↔ k ∈ m.keys := by
  rw [SMap.mem_keys, SMap.mem_keys, h]
  by_cases hk : k = name
  · subst hk; simp [hm]
  · simp [hk]

theorem notMem_keys {m : ParameterStore} {k : String} : k ∉ m.keys ↔ m.find? k = none := by
  rw [SMap.mem_keys]; cases m.find? k <;> simp

/-! ## The property -/

/-- On an object whose parts have no parameter name in common, setting an existing parameter works
in either build, and afterwards `get_params` reports the new parameter for that name and the old one
for every other name; names stay separate. -/
theorem C25_set_then_get_partial (b : Build) (h : Handler) (hs : h.Separate) (name : String)
    (hne : name ≠ "") (p : Parameter) (hex : name ∈ h.getParams.keys) :
    ∃ h', set b h name p = .ok h' ∧ h'.Separate ∧
      ∀ k, h'.getParams.find? k = if k = name then some p else h.getParams.find? k := by
  rw [SMap.mem_keys] at hex
  induction h with
  | store ps =>
    obtain ⟨old, ho⟩ := Option.isSome_iff_exists.1 hex
    obtain ⟨⟨out, h1, h2, h3⟩, -⟩ := C26_set_existing b ps hs name old p .nan .fixed ho
    exact ⟨store out, by simp [set, h1], h2, h3⟩
  | declared ms =>
    rw [find?_declared] at hex
    obtain ⟨ms', h1, h2, h3⟩ := setDeclared_spec b name p ms hex
    refine ⟨declared ms', by simp [set, h1], ?_, fun k => ?_⟩
    · show (ms'.map Prod.fst).Nodup
      rw [h2]; exact hs
    · rw [find?_declared, find?_declared, h3]
  | wrapped h ih =>
    obtain ⟨h', h1, h2, h3⟩ := ih hs hex
    exact ⟨wrapped h', by simp [set, h1], h2, h3⟩
  | both l r il ir =>
    obtain ⟨sl, sr, hd⟩ := hs
    have wl := getParams_wf sl.proper
    have wr := getParams_wf sr.proper
    have hj : ∀ {l r : Handler}, SMap.WF l.getParams → SMap.WF r.getParams → ∀ k,
        (both l r).getParams.find? k = (r.getParams.find? k).or (l.getParams.find? k) :=
      fun wl wr k => (C11_map_join _ _ wl wr).2 k
    rw [hj wl wr] at hex
    cases hl : l.getParams.find? name with
    | some old =>
      obtain ⟨l', h1, h2, h3⟩ := il sl (by rw [hl]; rfl)
      have hr : r.getParams.find? name = none :=
        notMem_keys.1 (hd name (by rw [SMap.mem_keys, hl]; rfl))
      refine ⟨both l' r, ?_, ⟨h2, sr, fun k hk => hd k ?_⟩, fun k => ?_⟩
      · simp only [set]
        rw [ifExists_found b name p l _ wl hne (by rw [hl]; rfl) h1]
        simp
      · exact (keys_of_find (by rw [hl]; rfl) h3 k).1 hk
      · rw [hj (getParams_wf h2.proper) wr, hj wl wr, h3]
        by_cases hk : k = name
        · subst hk; simp [hr]
        · simp [hk]
    | none =>
      have hr : (r.getParams.find? name).isSome := by simpa [hl] using hex
      obtain ⟨r', h1, h2, h3⟩ := ir sr hr
      refine ⟨both l r', ?_, ⟨sl, h2, fun k hk hk' => hd k hk ((keys_of_find hr h3 k).1 hk')⟩,
        fun k => ?_⟩
      · simp only [set]
        rw [ifExists_missing b name p l _ hl]
        simp only [except_ok_bind, Bool.false_eq_true, if_false]
        rw [ifExists_found b name p r _ wr hne hr h1]
        simp
      · rw [hj wl (getParams_wf h2.proper), hj wl wr, h3]
        by_cases hk : k = name
        · subst hk; simp
        · simp [hk]
  | gp ps mean cov im ic =>
    obtain ⟨sp, sm, sc, hd1, hd2⟩ := hs
    have wm := getParams_wf sm.proper
    have wc := getParams_wf sc.proper
    have hj : ∀ {ps : ParameterStore} {mean cov : Handler}, SMap.WF ps → SMap.WF mean.getParams →
        SMap.WF cov.getParams → ∀ k, (gp ps mean cov).getParams.find? k =
          ((cov.getParams.find? k).or (mean.getParams.find? k)).or (ps.find? k) := by
      intro ps mean cov wp wm wc k
      have h := C11_map_join _ _ wm wc
      show (mapJoin ps (mapJoin mean.getParams cov.getParams)).find? k = _
      rw [(C11_map_join _ _ wp h.1).2, h.2]
    rw [hj sp wm wc] at hex
    cases hp : ps.find? name with
    | some old =>
      obtain ⟨d1, d2⟩ := hd1 name (by rw [SMap.mem_keys, hp]; rfl)
      have hput := SMap.find?_put sp name p
      refine ⟨gp (ps.put name p) mean cov, ?_, ⟨SMap.wf_put sp _ _, sm, sc, fun k hk => ?_, hd2⟩,
        fun k => ?_⟩
      · simp [set, setParamIfExists, modifyParam, hp]
      · exact hd1 k ((keys_of_find (by rw [hp]; rfl) hput k).1 hk)
      · rw [hj (SMap.wf_put sp _ _) wm wc, hj sp wm wc, hput]
        by_cases hk : k = name
        · subst hk; simp [notMem_keys.1 d1, notMem_keys.1 d2]
        · simp [hk]
    | none =>
      have hstep : setParamIfExists b name p ps = .ok (false, ps) := by
        simp [setParamIfExists, modifyParam, hp]
      cases hc : cov.getParams.find? name with
      | some old =>
        have hcs : (cov.getParams.find? name).isSome := by rw [hc]; rfl
        obtain ⟨cov', h1, h2, h3⟩ := ic sc hcs
        have hkeys := keys_of_find hcs h3
        refine ⟨gp ps mean cov', ?_, ⟨sp, sm, h2, fun k hk => ⟨(hd1 k hk).1, fun hk' =>
          (hd1 k hk).2 ((hkeys k).1 hk')⟩, fun k hk hk' => hd2 k hk ((hkeys k).1 hk')⟩, fun k => ?_⟩
        · simp only [set, hstep, except_ok_bind, Bool.false_eq_true, if_false]
          rw [ifExists_found b name p cov _ wc hne hcs h1]
          simp
        · rw [hj sp wm (getParams_wf h2.proper), hj sp wm wc, h3]
          by_cases hk : k = name
          · subst hk; simp
          · simp [hk]
      | none =>
        have hm : (mean.getParams.find? name).isSome := by simpa [hc, hp] using hex
        obtain ⟨mean', h1, h2, h3⟩ := im sm hm
        have hkeys := keys_of_find hm h3
        refine ⟨gp ps mean' cov, ?_, ⟨sp, h2, sc, fun k hk => ⟨fun hk' =>
          (hd1 k hk).1 ((hkeys k).1 hk'), (hd1 k hk).2⟩, fun k hk => hd2 k ((hkeys k).1 hk)⟩,
          fun k => ?_⟩
        · simp only [set, hstep, except_ok_bind, Bool.false_eq_true, if_false]
          rw [ifExists_missing b name p cov _ hc]
          simp only [except_ok_bind, Bool.false_eq_true, if_false]
          rw [ifExists_found b name p mean _ wm hne hm h1]
          simp
        · rw [hj sp (getParams_wf h2.proper) wc, hj sp wm wc, h3]
          by_cases hk : k = name
          · subst hk; simp [hc]
          · simp [hk]
  | sparse m i mean cov im ic =>
    obtain ⟨sm, sc, hd, hd'⟩ := hs
    have wm := getParams_wf sm.proper
    have wc := getParams_wf sc.proper
    have hj : ∀ {m i : Parameter} {mean cov : Handler}, SMap.WF mean.getParams →
        SMap.WF cov.getParams → ∀ k, (sparse m i mean cov).getParams.find? k =
          if k = inducingNuggetName then some i else if k = measurementNuggetName then some m else
          ((cov.getParams.find? k).or (mean.getParams.find? k)) := by
      intro m i mean cov wm wc k
      have h := C11_map_join _ _ wm wc
      show (((mapJoin mean.getParams cov.getParams).put measurementNuggetName m).put
        inducingNuggetName i).find? k = _
      rw [SMap.find?_put (SMap.wf_put h.1 _ _), SMap.find?_put h.1, h.2]
    rw [hj wm wc] at hex
    have hmi : measurementNuggetName ≠ inducingNuggetName := by decide
    by_cases h1 : name = measurementNuggetName
    · refine ⟨sparse p i mean cov, by simp [set, h1], ⟨sm, sc, hd, hd'⟩, fun k => ?_⟩
      rw [hj wm wc, hj wm wc, h1]
      by_cases hk : k = measurementNuggetName
      · subst hk; simp [hmi]
      · simp [hk]
    · by_cases h2 : name = inducingNuggetName
      · refine ⟨sparse m p mean cov, by simp [set, h2, hmi.symm], ⟨sm, sc, hd, hd'⟩, fun k => ?_⟩
        rw [hj wm wc, hj wm wc, h2]
        by_cases hk : k = inducingNuggetName
        · subst hk; simp
        · simp [hk]
      · simp only [h1, h2, if_false] at hex
        cases hc : cov.getParams.find? name with
        | some old =>
          have hcs : (cov.getParams.find? name).isSome := by rw [hc]; rfl
          obtain ⟨cov', e1, e2, e3⟩ := ic sc hcs
          have hkeys := keys_of_find hcs e3
          refine ⟨sparse m i mean cov', ?_, ⟨sm, e2, fun k hk hk' => hd k hk ((hkeys k).1 hk'),
            fun k hk => ⟨(hd' k hk).1, fun hk' => (hd' k hk).2 ((hkeys k).1 hk')⟩⟩, fun k => ?_⟩
          · simp only [set, h1, h2, if_false]
            rw [ifExists_found b name p cov _ wc hne hcs e1]
            simp
          · rw [hj wm (getParams_wf e2.proper), hj wm wc, e3]
            by_cases hk : k = name
            · subst hk; simp [h1, h2]
            · simp [hk]
        | none =>
          have hm : (mean.getParams.find? name).isSome := by simpa [hc] using hex
          obtain ⟨mean', e1, e2, e3⟩ := im sm hm
          have hkeys := keys_of_find hm e3
          refine ⟨sparse m i mean' cov, ?_, ⟨e2, sc, fun k hk => hd k ((hkeys k).1 hk),
            fun k hk => ⟨fun hk' => (hd' k hk).1 ((hkeys k).1 hk'), (hd' k hk).2⟩⟩, fun k => ?_⟩
          · simp only [set, h1, h2, if_false]
            rw [ifExists_missing b name p cov _ hc]
            simp only [except_ok_bind, Bool.false_eq_true, if_false]
            rw [ifExists_found b name p mean _ wm hne hm e1]
            simp
          · rw [hj (getParams_wf e2.proper) wc, hj wm wc, e3]
            by_cases hk : k = name
            · subst hk; simp [h1, h2, hc]
            · simp [hk]

/-- The user-facing calls `set_param(name, value)` and `set_prior(name, prior)` on such an object
change the value, respectively the prior, of that parameter and nothing else. -/
theorem C25_set_value_partial (b : Build) (h : Handler) (hs : h.Separate) (name : String)
    (hne : name ≠ "") (v : Dbl) (prior : Prior) (old : Parameter)
    (hold : h.getParams.find? name = some old) :
    (∃ h', setValue b h name v = .ok h' ∧ h'.Separate ∧
      ∀ k, h'.getParams.find? k =
        if k = name then some ⟨v, old.prior⟩ else h.getParams.find? k) ∧
    (∃ h', setPrior b h name prior = .ok h' ∧ h'.Separate ∧
      ∀ k, h'.getParams.find? k =
        if k = name then some ⟨old.value, prior⟩ else h.getParams.find? k) := by
  have hw := getParams_wf hs.proper
  have hk : name ∈ h.getParams.keys := by rw [SMap.mem_keys, hold]; rfl
  obtain ⟨-, ⟨o1, a1, a2, a3⟩, ⟨o2, b1, b2, b3⟩⟩ :=
    C26_set_existing b h.getParams hw name old old v prior hold
  constructor
  · obtain ⟨h', e1, e2, e3⟩ := C25_set_then_get_partial b h hs name hne ⟨v, old.prior⟩ hk
    refine ⟨h', ?_, e2, e3⟩
    simp [setValue, a1, SMap.at?, a3, uncheckedSet, length_pos_of_ne hne, e1]
  · obtain ⟨h', e1, e2, e3⟩ := C25_set_then_get_partial b h hs name hne ⟨old.value, prior⟩ hk
    refine ⟨h', ?_, e2, e3⟩
    simp [setPrior, b1, SMap.at?, b3, uncheckedSet, length_pos_of_ne hne, e1]

/-- Setting a parameter which does not exist: a debug build aborts, a release build throws
(`params.at(name)`); the object is not modified either way. -/
theorem C25_set_missing (h : Handler) (name : String) (v : Dbl)
    (hmiss : name ∉ h.getParams.keys) :
    setValue .debug h name v = .error .assertFail ∧ setValue .ndebug h name v = .error .thrown := by
  rw [notMem_keys] at hmiss
  obtain ⟨⟨-, h1, -⟩, ⟨-, h2, -⟩⟩ := C26_set_missing h.getParams name ⟨v, .fixed⟩ v .fixed hmiss
  constructor
  · simp [setValue, h1]
  · simp [setValue, h2, SMap.at?, hmiss]

theorem uncheckedSetAll_spec (b : Build) (params : ParameterStore) (h : Handler) (hs : h.Separate)
    (hp : SMap.WF params) (hne : ∀ k ∈ params.keys, k ≠ "")
    (hsub : ∀ k ∈ params.keys, k ∈ h.getParams.keys) :
    ∃ h', uncheckedSetAll b h params = .ok h' ∧ h'.Separate ∧
      ∀ k, h'.getParams.find? k = (params.find? k).or (h.getParams.find? k) := by
  unfold uncheckedSetAll
  induction params generalizing h with
  | nil => exact ⟨h, by simp, hs, fun k => by simp [SMap.find?]⟩
  | cons kv rest ih =>
    obtain ⟨n, p⟩ := kv
    have hn : n ≠ "" := hne n (by simp [SMap.keys])
    have hin : n ∈ h.getParams.keys := hsub n (by simp [SMap.keys])
    obtain ⟨h1, e1, e2, e3⟩ := C25_set_then_get_partial b h hs n hn p hin
    have hkeys := keys_of_find (SMap.mem_keys.1 hin) e3
    obtain ⟨h2, f1, f2, f3⟩ := ih h1 e2 hp.tail
      (fun k hk => hne k (by simp [SMap.keys] at hk ⊢; exact Or.inr hk))
      (fun k hk => (hkeys k).2 (hsub k (by simp [SMap.keys] at hk ⊢; exact Or.inr hk)))
    refine ⟨h2, ?_, f2, fun k => ?_⟩
    · rw [List.foldlM_cons]
      simp only [uncheckedSet, length_pos_of_ne hn, albatrossAssert_true, except_ok_bind, e1]
      exact f1
    · rw [f3, e3]
      have hnone : SMap.find? rest n = none := SMap.find?_none_of_lt (SMap.wf_cons.1 hp).1
      by_cases hk : k = n
      · subst hk; simp [SMap.find?, hnone]
      · simp [SMap.find?, hk]

/-- `set_params` with existing names sets exactly those. -/
theorem C25_set_params_partial (b : Build) (h : Handler) (hs : h.Separate) (input : ParameterStore)
    (hi : SMap.WF input) (hne : ∀ k ∈ h.getParams.keys, k ≠ "")
    (hsub : ∀ k ∈ input.keys, k ∈ h.getParams.keys) :
    ∃ h', setAll b h input = .ok h' ∧ h'.Separate ∧
      ∀ k, h'.getParams.find? k = (input.find? k).or (h.getParams.find? k) := by
  have hw := getParams_wf hs.proper
  obtain ⟨out, h1, h2, h3⟩ := (C26_set_params b input h.getParams hi hw).1 hsub
  have hkeys : ∀ k, k ∈ SMap.keys out → k ∈ h.getParams.keys := by
    intro k hk
    rw [SMap.mem_keys, h3] at hk
    rw [SMap.mem_keys]; simpa using hk
  obtain ⟨h', e1, e2, e3⟩ := uncheckedSetAll_spec b out h hs h2 (fun k hk => hne k (hkeys k hk)) hkeys
  refine ⟨h', by simp [setAll, h1, e1], e2, fun k => ?_⟩
  rw [e3, h3]
  cases hk : h.getParams.find? k with
  | some old => cases input.find? k <;> simp
  | none =>
    have : input.find? k = none := notMem_keys.1 fun hk' => by
      have := SMap.mem_keys.1 (hsub k hk'); rw [hk] at this; cases this
    simp [this]

/-- `set_params_if_exists` on such an object sets the parameters it has and reports whether it had
all of them. -/
theorem C25_set_params_if_exists_partial (b : Build) (h : Handler) (hs : h.Separate)
    (input : ParameterStore) (hi : SMap.WF input) (hne : ∀ k ∈ h.getParams.keys, k ≠ "") :
    ∃ flag h', setAllIfExists b h input = .ok (flag, h') ∧ h'.Separate ∧
      (∀ k, h'.getParams.find? k =
        (h.getParams.find? k).map fun old => (input.find? k).getD old) ∧
      (flag = true ↔ input ≠ [] ∧ ∀ k ∈ input.keys, k ∈ h.getParams.keys) := by
  have hw := getParams_wf hs.proper
  obtain ⟨flag, out, h1, h2, h3, h4⟩ := C26_set_params_if_exists b input h.getParams hi hw
  have hkeys : ∀ k, k ∈ SMap.keys out → k ∈ h.getParams.keys := by
    intro k hk
    rw [SMap.mem_keys, h3] at hk
    rw [SMap.mem_keys]; simpa using hk
  obtain ⟨h', e1, e2, e3⟩ := uncheckedSetAll_spec b out h hs h2 (fun k hk => hne k (hkeys k hk)) hkeys
  refine ⟨flag, h', by simp [setAllIfExists, h1, e1], e2, fun k => ?_, h4⟩
  rw [e3, h3]
  cases h.getParams.find? k <;> simp

/-- Reading the tunable vector of such an object and setting it back leaves all parameters as they
were. -/
theorem C23_round_trip_object (b : Build) (fb : Bool) (h : Handler) (hs : h.Separate)
    (hne : ∀ k ∈ h.getParams.keys, k ≠ "")
    (hin : ∀ kv ∈ tunable h.getParams,
      kv.2.prior.lower ≤ kv.2.value ∧ kv.2.value ≤ kv.2.prior.upper)
    (hpos : ∀ kv ∈ tunable h.getParams, kv.2.prior.isLogScale = true →
      Dbl.fin 0 < kv.2.prior.lower) :
    ∃ h', (do let t ← getTunableParameters Dbl.log b h.getParams
              setTunable Dbl.exp b h t.values fb) = .ok h' ∧ h'.getParams = h.getParams := by
  have hw := getParams_wf hs.proper
  have hr := C23_round_trip_real b fb h.getParams hw hin hpos
  rw [C23_get_tunable Dbl.log b _ hin, except_ok_bind] at hr ⊢
  obtain ⟨h', e1, e2, e3⟩ := C25_set_params_partial b h hs h.getParams hw hne fun k hk => hk
  refine ⟨h', by simp only [setTunable, hr, except_ok_bind, e1], ?_⟩
  refine SMap.ext (getParams_wf e2.proper) hw fun k => ?_
  rw [e3]; cases h.getParams.find? k <;> simp

/-- Setting a tunable vector of the right length on such an object: the parameters end as the vector says, that is as
`set_tunable_params_values` leaves the object's parameter store. -/
theorem C24_set_tunable_object (ex : Dbl → Dbl) (b : Build) (fb : Bool) (h : Handler) (hs : h.Separate)
    (hne : ∀ k ∈ h.getParams.keys, k ≠ "") (x : List Dbl) (hlen : x.length = (tunable h.getParams).length) :
    ∃ h', setTunable ex b h x fb = .ok h' ∧ h'.Separate ∧ h'.getParams.keys = h.getParams.keys ∧
      (∀ name p, h.getParams.find? name = some p → p.isFixed = true → h'.getParams.find? name = some p) ∧
      (∀ (j : Nat) (name : String) (p : Parameter) (v : Dbl),
        (tunable h.getParams)[j]? = some (name, p) → x[j]? = some v →
        ∃ w, h'.getParams.find? name = some ⟨w, p.prior⟩ ∧
          (fb = false → w = toScale ex p v) ∧
          (fb = true → IsClamp p.prior.lower p.prior.upper (toScale ex p v) w)) := by
  have hw := getParams_wf hs.proper
  obtain ⟨out, h1, h2, h3, h4, h5⟩ := C24_entry_to_parameter ex b fb h.getParams x hw hlen
  obtain ⟨h', e1, e2, e3⟩ := C25_set_params_partial b h hs out h2 hne fun k hk => h3 ▸ hk
  have he : h'.getParams = out := by
    refine SMap.ext (getParams_wf e2.proper) h2 fun k => ?_
    rw [e3]
    cases ho : out.find? k with
    | some v => rfl
    | none =>
      have : k ∉ h.getParams.keys := by rw [← h3, SMap.mem_keys, ho]; simp
      rw [SMap.mem_keys] at this
      simpa using this
  refine ⟨h', by simp only [setTunable, h1, except_ok_bind, e1], e2, by rw [he, h3], ?_, ?_⟩
  · rw [he]; exact h4
  · rw [he]; exact h5

/-- No debug build sets a parameter with an empty name through an object. -/
theorem C25_empty_name (h : Handler) (hp : h.Proper) (v : Dbl) (prior : Prior) (p : Parameter) :
    uncheckedSet .debug h "" p = .error .assertFail ∧ setValue .debug h "" v = .error .assertFail ∧
      setPrior .debug h "" prior = .error .assertFail := by
  have hu : ∀ p, uncheckedSet .debug h "" p = .error .assertFail := fun p => rfl
  refine ⟨rfl, ?_, ?_⟩
  · unfold setValue setParamValue modifyParam
    cases hf : h.getParams.find? "" with
    | none => rfl
    | some q => simp [SMap.at?, SMap.find?_put (getParams_wf hp), hu]
  · unfold setPrior setParamPrior modifyParam
    cases hf : h.getParams.find? "" with
    | none => rfl
    | some q => simp [SMap.at?, SMap.find?_put (getParams_wf hp), hu]

/-! ## Shared names -/

theorem ifExists_proper {b : Build} {name : String} {p : Parameter} {h : Handler}
    {set : String → Parameter → Outcome Handler} {r : Bool × Handler} (hp : h.Proper)
    (hset : ∀ q h', set name q = .ok h' → h'.Proper) (hr : ifExists b name p h set = .ok r) :
    r.2.Proper := by
  unfold ifExists at hr
  rw [except_bind_eq_ok] at hr
  obtain ⟨⟨found, params⟩, -, hr⟩ := hr
  cases found
  · simp at hr; subst hr; exact hp
  · simp only [Bool.not_true, Bool.false_eq_true, if_false] at hr
    rw [except_bind_eq_ok] at hr
    obtain ⟨q, -, hr⟩ := hr
    rw [except_bind_eq_ok] at hr
    obtain ⟨-, -, hr⟩ := hr
    rw [except_bind_eq_ok] at hr
    obtain ⟨h', h1, hr⟩ := hr
    simp at hr; subst hr
    exact hset q h' h1

theorem setDeclared_names {b : Build} {name : String} {p : Parameter}
    {ms ms' : List (String × Parameter)} (h : setDeclared b name p ms = .ok ms') :
    ms'.map Prod.fst = ms.map Prod.fst := by
  induction ms generalizing ms' with
  | nil =>
    simp only [setDeclared, except_bind_eq_ok, except_pure] at h
    obtain ⟨-, -, h⟩ := h
    simp at h; simp [← h]
  | cons a ms ih =>
    simp only [setDeclared] at h
    split at h
    · simp at h; simp [← h]
    · simp only [except_bind_eq_ok, except_pure] at h
      obtain ⟨ms₁, h1, h2⟩ := h
      simp at h2; simp [← h2, ih h1]

theorem modifyParam_wf {b : Build} {name : String} {op : Parameter → Parameter}
    {params : ParameterStore} {f : Bool} {r : Bool × ParameterStore} (hw : SMap.WF params)
    (h : modifyParam b name op params f = .ok r) : SMap.WF r.2 := by
  unfold modifyParam at h
  split at h
  · simp at h; subst h; exact SMap.wf_put hw _ _
  · cases f
    · simp at h; subst h; exact hw
    · simp only [if_true, except_bind_eq_ok, except_pure] at h
      obtain ⟨-, -, h⟩ := h
      simp at h; subst h; exact hw

/-- Setting a parameter keeps an object well formed. -/
theorem set_proper {b : Build} {h h' : Handler} (hp : h.Proper) {name : String} {p : Parameter}
    (hset : set b h name p = .ok h') : h'.Proper := by
  induction h generalizing h' p with
  | store ps =>
    simp only [set, setParam, except_bind_eq_ok, except_pure] at hset
    obtain ⟨ps', ⟨r, h1, h2⟩, h3⟩ := hset
    simp at h2 h3; subst h2 h3
    exact modifyParam_wf hp h1
  | declared ms =>
    simp only [set, except_bind_eq_ok, except_pure] at hset
    obtain ⟨ms', h1, h2⟩ := hset
    simp at h2; subst h2
    show (ms'.map Prod.fst).Nodup
    rw [setDeclared_names h1]; exact hp
  | wrapped h ih =>
    simp only [set, except_bind_eq_ok, except_pure] at hset
    obtain ⟨h₁, h1, h2⟩ := hset
    simp at h2; subst h2
    show h₁.Proper
    exact ih hp h1
  | both l r il ir =>
    simp only [set] at hset
    rw [except_bind_eq_ok] at hset
    obtain ⟨⟨found, l'⟩, h1, hset⟩ := hset
    have hl' : l'.Proper := ifExists_proper hp.1 (fun q h' e => il hp.1 e) h1
    cases found
    · simp only [Bool.false_eq_true, if_false] at hset
      rw [except_bind_eq_ok] at hset
      obtain ⟨⟨found, r'⟩, h2, hset⟩ := hset
      have hr' : r'.Proper := ifExists_proper hp.2 (fun q h' e => ir hp.2 e) h2
      rw [except_bind_eq_ok] at hset
      obtain ⟨-, -, hset⟩ := hset
      simp at hset; subst hset
      exact ⟨hl', hr'⟩
    · simp at hset; subst hset
      exact ⟨hl', hp.2⟩
  | gp ps mean cov im ic =>
    simp only [set] at hset
    rw [except_bind_eq_ok] at hset
    obtain ⟨⟨found, ps'⟩, h1, hset⟩ := hset
    have hps' : SMap.WF ps' := modifyParam_wf hp.1 h1
    cases found
    · simp only [Bool.false_eq_true, if_false] at hset
      rw [except_bind_eq_ok] at hset
      obtain ⟨⟨found, cov'⟩, h2, hset⟩ := hset
      have hc' : cov'.Proper := ifExists_proper hp.2.2 (fun q h' e => ic hp.2.2 e) h2
      cases found
      · simp only [Bool.false_eq_true, if_false] at hset
        rw [except_bind_eq_ok] at hset
        obtain ⟨⟨found, mean'⟩, h3, hset⟩ := hset
        have hm' : mean'.Proper := ifExists_proper hp.2.1 (fun q h' e => im hp.2.1 e) h3
        rw [except_bind_eq_ok] at hset
        obtain ⟨-, -, hset⟩ := hset
        simp at hset; subst hset
        exact ⟨hp.1, hm', hp.2.2⟩
      · simp at hset; subst hset
        exact ⟨hp.1, hp.2.1, hc'⟩
    · simp at hset; subst hset
      exact ⟨hps', hp.2⟩
  | sparse m i mean cov im ic =>
    simp only [set] at hset
    split at hset
    · simp at hset; subst hset; exact hp
    · split at hset
      · simp at hset; subst hset; exact hp
      · rw [except_bind_eq_ok] at hset
        obtain ⟨⟨found, cov'⟩, h2, hset⟩ := hset
        have hc' : cov'.Proper := ifExists_proper hp.2 (fun q h' e => ic hp.2 e) h2
        cases found
        · simp only [Bool.false_eq_true, if_false] at hset
          rw [except_bind_eq_ok] at hset
          obtain ⟨⟨found, mean'⟩, h3, hset⟩ := hset
          have hm' : mean'.Proper := ifExists_proper hp.1 (fun q h' e => im hp.1 e) h3
          rw [except_bind_eq_ok] at hset
          obtain ⟨-, -, hset⟩ := hset
          simp at hset; subst hset
          exact ⟨hm', hp.2⟩
        · simp at hset; subst hset
          exact ⟨hp.1, hc'⟩

/-- The code does not satisfy the claim when the two sides of a sum or product share a name: whatever
is set, `get_params` keeps reporting the right hand side's old value for that name. -/
theorem C25_shared_name_set_is_invisible (b : Build) (l r : Handler) (hl : l.Proper) (hr : r.Proper)
    (name : String) (p : Parameter) (hinl : name ∈ l.getParams.keys)
    (hinr : name ∈ r.getParams.keys) (h' : Handler)
    (hset : set b (both l r) name p = .ok h') :
    h'.getParams.find? name = (both l r).getParams.find? name := by
  obtain ⟨old, ho⟩ := Option.isSome_iff_exists.1 (SMap.mem_keys.1 hinl)
  obtain ⟨old', ho'⟩ := Option.isSome_iff_exists.1 (SMap.mem_keys.1 hinr)
  have wl := getParams_wf hl
  have wr := getParams_wf hr
  have hj : ∀ {l : Handler}, SMap.WF l.getParams →
      (both l r).getParams.find? name = some old' := by
    intro l wl
    show (mapJoin _ _).find? name = _
    rw [(C11_map_join _ _ wl wr).2, ho']; rfl
  rw [hj wl]
  simp only [set, ifExists, setParamIfExists, modifyParam, ho, except_pure, except_ok_bind,
    SMap.at?, SMap.find?_put wl, if_true, Bool.not_true, Bool.false_eq_true, if_false] at hset
  cases ha : albatrossAssert b (decide (0 < name.length)) with
  | error e => simp [ha] at hset
  | ok u =>
    simp only [ha, except_ok_bind] at hset
    cases hs : set b l name p with
    | error e => simp [hs] at hset
    | ok l' =>
      simp [hs] at hset
      subst hset
      exact hj (getParams_wf (set_proper hl hs))

/-- Two length scales which both declare a parameter `"x"`. -/
noncomputable def sharedSum : Handler :=
  both (declared [("x", ⟨.fin 1, .positive⟩)])
    (declared [("x", ⟨.fin 2, .positive⟩), ("y", ⟨.fin 3, .positive⟩)])

/-- Witness: `sum.set_param("x", 5)` succeeds and `sum.get_param_value("x")` is still 2; what changed
is the left hand side's parameter, which `get_params` does not show. -/
theorem C25_shared_name_violates (b : Build) : ∃ h',
    setValue b sharedSum "x" (.fin 5) = .ok h' ∧
    h'.getParams.find? "x" = some ⟨.fin 2, .positive⟩ ∧
    h' = both (declared [("x", ⟨.fin 5, .positive⟩)])
      (declared [("x", ⟨.fin 2, .positive⟩), ("y", ⟨.fin 3, .positive⟩)]) := by
  refine ⟨_, ?_, ?_, rfl⟩
  · have hw : SMap.WF sharedSum.getParams := getParams_wf (by simp [sharedSum, Proper])
    have hx : sharedSum.getParams.find? "x" = some ⟨.fin 2, .positive⟩ := by
      rw [sharedSum, find?_both (by simp [Proper]) (by simp [Proper]), find?_declared]
      simp [SMap.find?]
    simp only [setValue, setParamValue, modifyParam, hx, except_pure, except_ok_bind, SMap.at?,
      SMap.find?_put hw, if_true, uncheckedSet, length_pos_of_ne (show "x" ≠ "" by decide),
      albatrossAssert_true]
    simp only [sharedSum, set]
    rw [ifExists_found b "x" _ _ _ (wf_declared _) (by decide) (by rw [find?_declared]; simp [SMap.find?])
      (h' := declared [("x", ⟨.fin 5, .positive⟩)])]
    · simp
    · simp [setDeclared]
  · rw [find?_both (by simp [Proper]) (by simp [Proper]), find?_declared]; simp [SMap.find?]

/-- Witness: with a shared name, setting a *different* parameter through `set_params` silently
changes the covariance function: the left `"x"` goes from 1 to 2. -/
theorem C25_shared_name_set_params_changes_others (b : Build) :
    setAll b sharedSum [("y", ⟨.fin 7, .positive⟩)] = .ok
      (both (declared [("x", ⟨.fin 2, .positive⟩)])
        (declared [("x", ⟨.fin 2, .positive⟩), ("y", ⟨.fin 7, .positive⟩)])) := by
  have hg : sharedSum.getParams = [("x", ⟨.fin 2, .positive⟩), ("y", ⟨.fin 3, .positive⟩)] := by
    refine SMap.ext (getParams_wf (by simp [sharedSum, Proper])) ?_ fun k => ?_
    · rw [SMap.wf_iff_keys]; show ["x", "y"].Pairwise (· < ·); decide
    · rw [sharedSum, find?_both (by simp [Proper]) (by simp [Proper]), find?_declared,
        find?_declared]
      by_cases h1 : k = "x" <;> by_cases h2 : k = "y" <;> simp [SMap.find?, h1, h2]
  have h1 : setParams b [("y", ⟨.fin 7, .positive⟩)] sharedSum.getParams =
      .ok [("x", ⟨.fin 2, .positive⟩), ("y", ⟨.fin 7, .positive⟩)] := by
    rw [hg]
    have : ¬ ("y" : String) < "x" := by decide
    simp only [setParams, List.foldlM_cons, List.foldlM_nil, setParam, modifyParam, SMap.find?,
      SMap.put, SMap.alter, this, show ("y" : String) ≠ "x" by decide, if_false, if_true,
      except_pure, except_ok_bind]
  unfold setAll
  rw [h1]
  simp only [except_ok_bind, uncheckedSetAll, List.foldlM_cons, List.foldlM_nil, uncheckedSet, length_pos_of_ne (show "x" ≠ "" by decide),
    length_pos_of_ne (show "y" ≠ "" by decide), albatrossAssert_true, sharedSum, set]
  rw [ifExists_found b "x" _ _ _ (wf_declared _) (by decide) (by rw [find?_declared]; simp [SMap.find?])
      (h' := declared [("x", ⟨.fin 2, .positive⟩)]) (by simp [setDeclared])]
  simp only [except_ok_bind, if_true, except_pure, set]
  rw [ifExists_missing b "y" _ _ _ (by rw [find?_declared]; simp [SMap.find?])]
  simp only [except_ok_bind, Bool.false_eq_true, if_false]
  rw [ifExists_found b "y" _ _ _ (wf_declared _) (by decide) (by rw [find?_declared]; simp [SMap.find?])
      (h' := declared [("x", ⟨.fin 2, .positive⟩), ("y", ⟨.fin 7, .positive⟩)])
      (by simp [setDeclared])]
  simp

/-! ## A concrete separate object -/

/-- A Gaussian process with a constant mean and the sum of two covariance functions, one scaled. -/
noncomputable def gpExample : Handler :=
  gp [("extra", ⟨.fin 0, .uninformative⟩)] (declared [("constant_mean", ⟨.fin 1, .uninformative⟩)])
    (both (declared [("length_scale", ⟨.fin 2, .positive⟩), ("sigma", ⟨.fin 3, .positive⟩)])
      (wrapped (store [("noise", ⟨.fin 4, .positive⟩)])))

theorem gpExample_separate : gpExample.Separate := by
  have k1 : (declared [("length_scale", ⟨.fin 2, .positive⟩), ("sigma", ⟨.fin 3, .positive⟩)]).getParams.keys
      = ["length_scale", "sigma"] := by
    simp only [getParams, SMap.ofList, List.foldl_cons, List.foldl_nil, SMap.emplace, SMap.alter,
      show ("sigma" : String) ≠ "length_scale" by decide,
      show ¬ ("sigma" : String) < "length_scale" by decide, if_false, SMap.keys, List.map_cons,
      List.map_nil]
  have k2 : (declared [("constant_mean", (⟨.fin 1, .uninformative⟩ : Parameter))]).getParams.keys
      = ["constant_mean"] := rfl
  have hd : ∀ k, k ∈ (both (declared [("length_scale", ⟨.fin 2, .positive⟩),
      ("sigma", ⟨.fin 3, .positive⟩)]) (wrapped (store [("noise", ⟨.fin 4, .positive⟩)]))).getParams.keys
      → k = "length_scale" ∨ k = "sigma" ∨ k = "noise" := by
    intro k hk
    rw [SMap.mem_keys] at hk
    rw [find?_both (by simp [Proper]) (by simp [Proper, SMap.WF]), find?_declared] at hk
    by_contra hc
    simp only [not_or] at hc
    simp [getParams, SMap.find?, hc.1, hc.2.1, hc.2.2] at hk
  refine ⟨by simp [SMap.WF], by simp [Separate], ⟨by simp [Separate], by simp [Separate, SMap.WF], ?_⟩,
    ?_, ?_⟩
  · rw [k1]; intro k hk hk'
    simp [getParams, SMap.keys] at hk hk'
    subst hk'; revert hk; decide
  · intro k hk
    simp [SMap.keys] at hk; subst hk
    exact ⟨by rw [k2]; decide, fun h => absurd (hd _ h) (by decide)⟩
  · intro k hk h
    rw [k2] at hk; simp at hk; subst hk
    exact absurd (hd _ h) (by decide)

example (b : Build) : ∃ h', setValue b gpExample "noise" (.fin 9) = .ok h' ∧
    h'.getParams.find? "noise" = some ⟨.fin 9, .positive⟩ := by
  have hn : gpExample.getParams.find? "noise" = some ⟨.fin 4, .positive⟩ := by
    unfold gpExample
    rw [find?_gp, find?_both]
    · simp [getParams, SMap.find?]
    all_goals simp [Proper, SMap.WF]
  obtain ⟨⟨h', h1, -, h2⟩, -⟩ := C25_set_value_partial b gpExample gpExample_separate "noise"
    (by decide) (.fin 9) .fixed _ hn
  exact ⟨h', h1, by rw [h2, if_pos rfl]⟩

/-- For `C24_set_tunable_object`: one tunable and one fixed parameter. -/
example : ∃ h : Handler, h.Separate ∧ (∀ k ∈ h.getParams.keys, k ≠ "") ∧
    ([.fin 3] : List Dbl).length = (tunable h.getParams).length := by
  refine ⟨.wrapped (.store [("a", ⟨.fin 1, .fixed⟩), ("b", ⟨.fin 2, .positive⟩)]), ?_, ?_, ?_⟩
  · exact SMap.wf_iff_keys.2 (by show ["a", "b"].Pairwise (· < ·); decide)
  · intro k hk
    simp [getParams, SMap.keys] at hk
    rcases hk with rfl | rfl <;> decide
  · simp [getParams, tunable, Parameter.isFixed, Prior.isFixed]

/-- For `C25_empty_name`. -/
example : gpExample.Proper := gpExample_separate.proper

end Handler
end Albatross
