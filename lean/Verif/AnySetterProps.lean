import Verif.AnySetter
import Verif.HandlersProps
import Verif.RemainingProps

/-! # Conditional setters of objects: C104 -/

namespace Albatross
namespace Handler

/-! ## One object -/

/-- C104: `set_param_value_if_exists` on an object without repeated names changes the value of that parameter and
nothing else and returns true, or changes nothing and returns false if there is no such parameter. -/
theorem C104_value_if_exists (b : Build) (h : Handler) (hs : h.Separate) (name : String) (hne : name ≠ "") (v : Dbl) :
    (∀ old, h.getParams.find? name = some old → ∃ h', setValueIfExists b h name v = .ok (true, h') ∧ h'.Separate ∧
      ∀ k, h'.getParams.find? k = if k = name then some ⟨v, old.prior⟩ else h.getParams.find? k) ∧
    (h.getParams.find? name = none → setValueIfExists b h name v = .ok (false, h)) := by
  have hw := getParams_wf hs.proper
  constructor
  · intro old hold
    have hk : name ∈ h.getParams.keys := by rw [SMap.mem_keys, hold]; rfl
    obtain ⟨h', e1, e2, e3⟩ := C25_set_then_get_partial b h hs name hne ⟨v, old.prior⟩ hk
    refine ⟨h', ?_, e2, e3⟩
    simp [setValueIfExists, setParamValueIfExists, modifyParam, hold, SMap.at?, SMap.find?_put hw, uncheckedSet,
      length_pos_of_ne hne, e1]
  · intro hn
    simp [setValueIfExists, setParamValueIfExists, modifyParam, hn]

/-- C104: `set_param_values_if_exists` on such an object sets the values of the parameters it has, keeps all priors,
and returns whether it had all of them (false for an empty input). -/
theorem C104_values_if_exists (b : Build) (h : Handler) (hs : h.Separate) (input : SMap String Dbl)
    (hi : SMap.WF input) (hne : ∀ k ∈ h.getParams.keys, k ≠ "") :
    ∃ flag h', setAllValuesIfExists b h input = .ok (flag, h') ∧ h'.Separate ∧
      (∀ k, h'.getParams.find? k =
        (h.getParams.find? k).map fun old => ⟨(input.find? k).getD old.value, old.prior⟩) ∧
      (flag = true ↔ input ≠ [] ∧ ∀ k ∈ input.keys, k ∈ h.getParams.keys) := by
  have hw := getParams_wf hs.proper
  obtain ⟨flag, out, h1, h2, h3, h4⟩ := C26_set_param_values_if_exists b input h.getParams hi hw
  have hkeys : ∀ k, k ∈ SMap.keys out → k ∈ h.getParams.keys := by
    intro k hk
    rw [SMap.mem_keys, h3] at hk
    rw [SMap.mem_keys]; simpa using hk
  obtain ⟨h', e1, e2, e3⟩ := uncheckedSetAll_spec b out h hs h2 (fun k hk => hne k (hkeys k hk)) hkeys
  refine ⟨flag, h', by simp [setAllValuesIfExists, h1, e1], e2, fun k => ?_, h4⟩
  rw [e3, h3]
  cases h.getParams.find? k <;> simp

theorem setParams_ndebug (input : ParameterStore) (params : ParameterStore) :
    ∀ flag, ∃ flag', input.foldlM (fun (acc : Bool × ParameterStore) kv => do
        let r ← setParamIfExists .ndebug kv.1 kv.2 acc.2
        pure (acc.1 && r.1, r.2)) (flag, params) =
      ((setParams .ndebug input params).map fun out => (flag', out) : Outcome _) := by
  unfold setParams
  induction input generalizing params with
  | nil => intro flag; exact ⟨flag, rfl⟩
  | cons kv rest ih =>
    intro flag
    rw [List.foldlM_cons, List.foldlM_cons]
    cases hf : params.find? kv.1 with
    | none =>
      obtain ⟨flag', h⟩ := ih params (flag && false)
      refine ⟨flag', ?_⟩
      have e1 : setParamIfExists .ndebug kv.1 kv.2 params = .ok (false, params) := by
        simp [setParamIfExists, modifyParam, hf]
      have e2 : setParam .ndebug kv.1 kv.2 params = .ok params := by
        simp [setParam, modifyParam, hf, albatrossAssert]
      rw [e1, e2]
      exact h
    | some old =>
      obtain ⟨flag', h⟩ := ih (params.put kv.1 kv.2) (flag && true)
      refine ⟨flag', ?_⟩
      have e1 : setParamIfExists .ndebug kv.1 kv.2 params = .ok (true, params.put kv.1 kv.2) := by
        simp [setParamIfExists, modifyParam, hf]
      have e2 : setParam .ndebug kv.1 kv.2 params = .ok (params.put kv.1 kv.2) := by
        simp [setParam, modifyParam, hf]
      rw [e1, e2]
      exact h

/-- C104: `set_params` with a name the object lacks aborts a debug build; a release build sets the parameters it has
and drops the others without a word, exactly as `set_params_if_exists` does, though there the caller is told. -/
theorem C104_set_params_unknown (h : Handler) (hs : h.Separate) (input : ParameterStore) (hi : SMap.WF input)
    (hne : ∀ k ∈ h.getParams.keys, k ≠ "") :
    ((∃ k ∈ input.keys, k ∉ h.getParams.keys) → setAll .debug h input = .error .assertFail) ∧
    ∃ h' flag, setAll .ndebug h input = .ok h' ∧ setAllIfExists .ndebug h input = .ok (flag, h') ∧ h'.Separate ∧
      ∀ k, h'.getParams.find? k = (h.getParams.find? k).map fun old => (input.find? k).getD old := by
  have hw := getParams_wf hs.proper
  constructor
  · intro hm
    rw [setAll, (C26_set_params .debug input h.getParams hi hw).2 hm]
    rfl
  · obtain ⟨flag, h', e1, e2, e3, -⟩ := C25_set_params_if_exists_partial .ndebug h hs input hi hne
    refine ⟨h', flag, ?_, e1, e2, e3⟩
    obtain ⟨flag', hp⟩ := setParams_ndebug input h.getParams (decide (0 < input.length))
    have hp' : setParamsIfExists .ndebug input h.getParams =
      (setParams .ndebug input h.getParams).map fun out => (flag', out) := hp
    rw [setAllIfExists, hp'] at e1
    rw [setAll]
    cases hq : setParams .ndebug input h.getParams with
    | error e => rw [hq] at e1; simp [Except.map, bind, Except.bind] at e1
    | ok out =>
      rw [hq] at e1
      simp only [Except.map, except_ok_bind] at e1 ⊢
      cases hu : uncheckedSetAll .ndebug h out with
      | error e => rw [hu] at e1; simp [bind, Except.bind] at e1
      | ok h2 =>
        rw [hu] at e1
        simp only [except_ok_bind, except_pure, Except.ok.injEq, Prod.mk.injEq] at e1
        rw [e1.2]

/-! ## Several objects -/

/-- C104: `set_param_if_exists_in_any` changes the first object that has the parameter and no other. -/
theorem C104_in_any_found (b : Build) (name : String) (hne : name ≠ "") (p : Parameter) (before after : List Handler)
    (h : Handler) (hs : h.Separate) (hbefore : ∀ g ∈ before, g.getParams.find? name = none)
    (hfound : name ∈ h.getParams.keys) :
    ∃ h', setInAny b name p (before ++ h :: after) = .ok (true, before ++ h' :: after) ∧ h'.Separate ∧
      ∀ k, h'.getParams.find? k = if k = name then some p else h.getParams.find? k := by
  obtain ⟨h', e1, e2, e3⟩ := C25_set_then_get_partial b h hs name hne p hfound
  refine ⟨h', ?_, e2, e3⟩
  have hf := ifExists_found b name p h (set b h) (getParams_wf hs.proper) hne (SMap.mem_keys.1 hfound) e1
  induction before with
  | nil => simp [setInAny, hf]
  | cons g before ih =>
    have hm := ifExists_missing b name p g (set b g) (hbefore g (by simp))
    rw [List.cons_append, setInAny, hm]
    simp only [except_ok_bind, Bool.false_eq_true, if_false]
    rw [ih fun g hg => hbefore g (by simp [hg])]
    rfl

/-- C104: if no object has it, nothing changes and the result is false. -/
theorem C104_in_any_missing (b : Build) (name : String) (p : Parameter) (hs : List Handler)
    (hmiss : ∀ g ∈ hs, g.getParams.find? name = none) : setInAny b name p hs = .ok (false, hs) := by
  induction hs with
  | nil => rfl
  | cons g hs ih =>
    have hm := ifExists_missing b name p g (set b g) (hmiss g (by simp))
    rw [setInAny, hm]
    simp only [except_ok_bind, Bool.false_eq_true, if_false]
    rw [ih fun g hg => hmiss g (by simp [hg])]
    rfl

/-- C104: so the answer is true exactly if some object has the parameter. -/
theorem C104_in_any_answer (b : Build) (name : String) (hne : name ≠ "") (p : Parameter) (hs : List Handler)
    (hsep : ∀ h ∈ hs, h.Separate) :
    ∃ flag hs', setInAny b name p hs = .ok (flag, hs') ∧ hs'.length = hs.length ∧
      (flag = true ↔ ∃ h ∈ hs, name ∈ h.getParams.keys) := by
  induction hs with
  | nil => exact ⟨false, [], rfl, rfl, by simp⟩
  | cons h hs ih =>
    by_cases hk : name ∈ h.getParams.keys
    · obtain ⟨h', e1, -, -⟩ := C104_in_any_found b name hne p [] hs h (hsep h (by simp)) (by simp) hk
      exact ⟨true, h' :: hs, e1, by simp, by simp [hk]⟩
    · obtain ⟨flag, hs', e1, e2, e3⟩ := ih fun g hg => hsep g (by simp [hg])
      refine ⟨flag, h :: hs', ?_, by simp [e2], by simp [hk, e3]⟩
      rw [setInAny, ifExists_missing b name p h (set b h) (notMem_keys.1 hk)]
      simp only [except_ok_bind, Bool.false_eq_true, if_false]
      rw [e1]
      rfl

/-- C104: the parameter setters of sums, products and Gaussian processes are this function on their parts, in this
order (covariance_functions/covariance_function.hpp lines 238-242, models/gp.hpp lines 261-268, models/sparse_gp.hpp
lines 297-308). -/
theorem C104_composites (b : Build) (name : String) (p : Parameter) :
    (∀ l r, set b (both l r) name p = do
      let s ← setInAny b name p [l, r]
      albatrossAssert b s.1
      match s.2 with
      | [l', r'] => pure (both l' r')
      | _ => .error .ub) ∧
    (∀ ps mean cov, ps.find? name = none → set b (gp ps mean cov) name p = do
      let s ← setInAny b name p [cov, mean]
      albatrossAssert b s.1
      match s.2 with
      | [cov', mean'] => pure (gp ps mean' cov')
      | _ => .error .ub) ∧
    (∀ m i mean cov, name ≠ measurementNuggetName → name ≠ inducingNuggetName →
      set b (sparse m i mean cov) name p = do
        let s ← setInAny b name p [cov, mean]
        albatrossAssert b s.1
        match s.2 with
        | [cov', mean'] => pure (sparse m i mean' cov')
        | _ => .error .ub) := by
  have hfalse : ∀ (h h' : Handler) (f : String → Parameter → Outcome Handler),
      ifExists b name p h f = .ok (false, h') → h' = h := by
    intro h h' f he
    unfold ifExists at he
    obtain ⟨⟨f, r⟩, h1, h2⟩ := except_bind_eq_ok.1 he
    cases f with
    | false => simpa using h2.symm
    | true =>
      simp only [Bool.not_true, Bool.false_eq_true, if_false] at h2
      obtain ⟨q, -, h3⟩ := except_bind_eq_ok.1 h2
      obtain ⟨u, -, h4⟩ := except_bind_eq_ok.1 h3
      obtain ⟨g, -, h5⟩ := except_bind_eq_ok.1 h4
      simp at h5
  refine ⟨fun l r => ?_, fun ps mean cov hn => ?_, fun m i mean cov h1 h2 => ?_⟩
  · simp only [set, setInAny]
    cases hl : ifExists b name p l (set b l) with
    | error e => rfl
    | ok x =>
      obtain ⟨f, l'⟩ := x
      simp only [except_ok_bind]
      cases f with
      | true => simp
      | false =>
        simp only [Bool.false_eq_true, if_false]
        cases hr : ifExists b name p r (set b r) with
        | error e => rfl
        | ok y =>
          obtain ⟨f, r'⟩ := y
          simp only [except_ok_bind]
          cases f <;> simp
  · have hp : setParamIfExists b name p ps = .ok (false, ps) := by simp [setParamIfExists, modifyParam, hn]
    simp only [set, setInAny]
    rw [hp]
    simp only [except_ok_bind, Bool.false_eq_true, if_false]
    cases hl : ifExists b name p cov (set b cov) with
    | error e => rfl
    | ok x =>
      obtain ⟨f, l'⟩ := x
      simp only [except_ok_bind]
      cases f with
      | true => simp
      | false =>
        simp only [Bool.false_eq_true, if_false]
        have := hfalse _ _ _ hl
        subst this
        cases hr : ifExists b name p mean (set b mean) with
        | error e => rfl
        | ok y =>
          obtain ⟨f, r'⟩ := y
          simp only [except_ok_bind]
          cases f <;> simp
  · simp only [set, setInAny, if_neg h1, if_neg h2]
    cases hl : ifExists b name p cov (set b cov) with
    | error e => rfl
    | ok x =>
      obtain ⟨f, l'⟩ := x
      simp only [except_ok_bind]
      cases f with
      | true => simp
      | false =>
        simp only [Bool.false_eq_true, if_false]
        have := hfalse _ _ _ hl
        subst this
        cases hr : ifExists b name p mean (set b mean) with
        | error e => rfl
        | ok y =>
          obtain ⟨f, r'⟩ := y
          simp only [except_ok_bind]
          cases f <;> simp

/-! ## Examples -/

theorem storeA_separate : (store [("a", ⟨.fin 1, .positive⟩)]).Separate :=
  SMap.wf_iff_keys.2 (by show ["a"].Pairwise (· < ·); decide)

/-- Two objects share a name: only the first is set, the second keeps its value. -/
example (b : Build) : ∃ h', setInAny b "a" ⟨.fin 9, .fixed⟩
    [store [("b", ⟨.fin 0, .positive⟩)], store [("a", ⟨.fin 1, .positive⟩)], store [("a", ⟨.fin 2, .positive⟩)]] =
      .ok (true, [store [("b", ⟨.fin 0, .positive⟩)], h', store [("a", ⟨.fin 2, .positive⟩)]]) ∧
    h'.getParams.find? "a" = some ⟨.fin 9, .fixed⟩ := by
  obtain ⟨h', e1, -, e3⟩ := C104_in_any_found b "a" (by decide) ⟨.fin 9, .fixed⟩ [store [("b", ⟨.fin 0, .positive⟩)]]
    [store [("a", ⟨.fin 2, .positive⟩)]] (store [("a", ⟨.fin 1, .positive⟩)]) storeA_separate
    (by intro g hg; simp at hg; subst hg; simp [getParams, SMap.find?])
    (by simp [getParams, SMap.keys])
  exact ⟨h', e1, by rw [e3, if_pos rfl]⟩

example (b : Build) : ∃ h', setValueIfExists b (store [("a", ⟨.fin 1, .positive⟩)]) "a" (.fin 3) = .ok (true, h') ∧
    h'.getParams.find? "a" = some ⟨.fin 3, .positive⟩ := by
  obtain ⟨h', e1, -, e3⟩ := (C104_value_if_exists b _ storeA_separate "a" (by decide) (.fin 3)).1 ⟨.fin 1, .positive⟩
    (by simp [getParams, SMap.find?])
  exact ⟨h', e1, by rw [e3, if_pos rfl]⟩

end Handler
end Albatross
