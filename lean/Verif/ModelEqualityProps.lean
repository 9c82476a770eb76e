import Verif.ModelEquality
import Verif.PrettyParamsProps
import Verif.HandlersProps
import Verif.RansacModelProps
import Verif.SparseGpProps

/-! # C112: models that compare equal are the same model -/

namespace Albatross

open Handler (measurementNuggetName inducingNuggetName)

/-! ## Specification -/

/-- The two objects have the same C++ type and, where the names of the parameters are not fixed by the type, the same
names. -/
def Handler.SameType : Handler → Handler → Prop
  | .store p, .store q => p.keys = q.keys
  | .declared ms, .declared ns => ms.map Prod.fst = ns.map Prod.fst
  | .wrapped a, .wrapped b => a.SameType b
  | .both a b, .both c d => a.SameType c ∧ b.SameType d
  | .gp p a b, .gp q c d => p.keys = q.keys ∧ a.SameType c ∧ b.SameType d
  | .sparse _ _ a b, .sparse _ _ c d => a.SameType c ∧ b.SameType d
  | _, _ => False

/-- Every part of the one object holds the same values as that part of the other. -/
def Handler.SameValues : Handler → Handler → Prop
  | .store p, .store q => ∀ k, (p.find? k).map Parameter.value = (q.find? k).map Parameter.value
  | .declared ms, .declared ns => ms.map (fun m => (m.1, m.2.value)) = ns.map fun m => (m.1, m.2.value)
  | .wrapped a, .wrapped b => a.SameValues b
  | .both a b, .both c d => a.SameValues c ∧ b.SameValues d
  | .gp p a b, .gp q c d => (∀ k, (p.find? k).map Parameter.value = (q.find? k).map Parameter.value) ∧
      a.SameValues c ∧ b.SameValues d
  | .sparse m i a b, .sparse m' i' c d => m.value = m'.value ∧ i.value = i'.value ∧ a.SameValues c ∧ b.SameValues d
  | _, _ => False

/-- No value and no argument of a prior is NaN. -/
def NanFree (ps : ParameterStore) : Prop := ∀ kv ∈ ps, kv.2.value ≠ .nan ∧ ∀ x ∈ kv.2.prior.args, x ≠ .nan

/-! ## Lemmas -/

theorem storesEqual_values {ps qs : ParameterStore} (h : storesEqual ps qs = true) (k : String) :
    (ps.find? k).map Parameter.value = (qs.find? k).map Parameter.value := by
  rw [C102_stores] at h
  induction h with
  | nil => rfl
  | @cons p q ps qs hpq _ ih =>
    obtain ⟨h1, h2⟩ := hpq
    obtain ⟨⟨h3, -⟩, -⟩ := (C102_parameters _ _).1.1 h2
    obtain ⟨a, b⟩ := p
    obtain ⟨c, d⟩ := q
    simp only at h1 h3
    subst h1
    simp only [SMap.find?]
    split_ifs
    · simp [h3]
    · exact ih

theorem find?_sparse {m i : Parameter} {mean cov : Handler} (hm : mean.Proper) (hc : cov.Proper) (k : String) :
    (Handler.sparse m i mean cov).getParams.find? k =
      if k = inducingNuggetName then some i else if k = measurementNuggetName then some m
      else (cov.getParams.find? k).or (mean.getParams.find? k) := by
  have h := C11_map_join _ _ (Handler.getParams_wf hm) (Handler.getParams_wf hc)
  show ((SMap.put (SMap.put (mapJoin _ _) _ _) _ _)).find? k = _
  rw [SMap.find?_put (SMap.wf_put h.1 _ _), SMap.find?_put h.1, h.2]

theorem find?_isSome_iff {ps : ParameterStore} (k : String) : (ps.find? k).isSome ↔ k ∈ ps.keys := by
  rw [SMap.mem_keys]

theorem keys_find {ps qs : ParameterStore} (h : ps.keys = qs.keys) (k : String) :
    (ps.find? k).isSome = (qs.find? k).isSome := by
  rw [Bool.eq_iff_iff, find?_isSome_iff, find?_isSome_iff, h]

theorem find?_names {ms ns : List (String × Parameter)} (h : ms.map Prod.fst = ns.map Prod.fst) (k : String) :
    (SMap.find? ms k).isSome = (SMap.find? ns k).isSome := keys_find (ps := ms) (qs := ns) h k

/-- Objects of the same type have the same names. -/
theorem sameType_names {h h' : Handler} (ht : h.SameType h') (hp : h.Proper) (hp' : h'.Proper) (k : String) :
    (h.getParams.find? k).isSome = (h'.getParams.find? k).isSome := by
  induction h generalizing h' with
  | store ps =>
    cases h' <;> simp only [Handler.SameType] at ht
    exact keys_find ht k
  | declared ms =>
    cases h' <;> simp only [Handler.SameType] at ht
    rw [Handler.find?_declared, Handler.find?_declared]
    exact find?_names ht k
  | wrapped h ih =>
    cases h' <;> simp only [Handler.SameType] at ht
    rename_i h'
    have := ih (h' := h') ht hp hp'
    exact this
  | both l r il ir =>
    cases h' <;> simp only [Handler.SameType] at ht
    rw [Handler.find?_both hp.1 hp.2, Handler.find?_both hp'.1 hp'.2, Option.isSome_or, Option.isSome_or,
      il ht.1 hp.1 hp'.1, ir ht.2 hp.2 hp'.2]
  | gp ps mean cov im ic =>
    cases h' <;> simp only [Handler.SameType] at ht
    rw [Handler.find?_gp hp.1 hp.2.1 hp.2.2, Handler.find?_gp hp'.1 hp'.2.1 hp'.2.2]
    simp only [Option.isSome_or]
    rw [im ht.2.1 hp.2.1 hp'.2.1, ic ht.2.2 hp.2.2 hp'.2.2, keys_find ht.1 k]
  | sparse m i mean cov im ic =>
    cases h' <;> simp only [Handler.SameType] at ht
    rw [find?_sparse hp.1 hp.2, find?_sparse hp'.1 hp'.2]
    split_ifs
    · rfl
    · rfl
    · rw [Option.isSome_or, Option.isSome_or, im ht.1 hp.1 hp'.1, ic ht.2 hp.2 hp'.2]

theorem map_or_left {a b : Option Parameter} (h : (a.or b).isSome → a.isSome) : a.or b = a := by
  cases a <;> cases b <;> simp_all

theorem declared_values {ms ns : List (String × Parameter)} (hm : (ms.map Prod.fst).Nodup)
    (hn : ms.map Prod.fst = ns.map Prod.fst)
    (h : ∀ k, (SMap.find? ms k).map Parameter.value = (SMap.find? ns k).map Parameter.value) :
    ms.map (fun m => (m.1, m.2.value)) = ns.map fun m => (m.1, m.2.value) := by
  induction ms generalizing ns with
  | nil =>
    cases ns with
    | nil => rfl
    | cons a t => simp at hn
  | cons a t ih =>
    cases ns with
    | nil => simp at hn
    | cons c s =>
      obtain ⟨k, p⟩ := a
      obtain ⟨k', q⟩ := c
      simp only [List.map_cons, List.cons.injEq] at hn
      obtain ⟨rfl, hn⟩ := hn
      simp only [List.map_cons, List.nodup_cons] at hm
      have h0 := h k
      simp only [SMap.find?, if_true, Option.map_some, Option.some.injEq] at h0
      simp only [List.map_cons, h0, List.cons.injEq, true_and]
      refine ih hm.2 hn fun j => ?_
      by_cases hj : j = k
      · subst hj
        have h1 : (SMap.find? t j).isSome = false := by
          rw [Bool.eq_false_iff]
          intro hc
          exact hm.1 ((find?_isSome_iff (ps := t) j).1 hc)
        have h2 : (SMap.find? s j).isSome = false := by rw [← find?_names hn]; exact h1
        rw [Option.isSome_eq_false_iff, Option.isNone_iff_eq_none] at h1 h2
        rw [h1, h2]
      · have := h j
        simpa only [SMap.find?, hj, if_false, Ne.symm hj] using this

theorem sameValues_of_find {h h' : Handler} (ht : h.SameType h') (hs : h.Separate) (hs' : h'.Separate)
    (hv : ∀ k, (h.getParams.find? k).map Parameter.value = (h'.getParams.find? k).map Parameter.value) :
    h.SameValues h' := by
  induction h generalizing h' with
  | store ps =>
    cases h' <;> simp only [Handler.SameType] at ht
    exact hv
  | declared ms =>
    cases h' <;> simp only [Handler.SameType] at ht
    refine declared_values hs ht fun k => ?_
    have := hv k
    rw [Handler.find?_declared, Handler.find?_declared] at this
    exact this
  | wrapped h ih =>
    cases h' <;> simp only [Handler.SameType] at ht
    exact ih ht hs hs' hv
  | both l r il ir =>
    cases h' <;> simp only [Handler.SameType] at ht
    rename_i l' r'
    have key : ∀ k, (l.getParams.find? k).map Parameter.value = (l'.getParams.find? k).map Parameter.value ∧
        (r.getParams.find? k).map Parameter.value = (r'.getParams.find? k).map Parameter.value := by
      intro k
      have h1 := hv k
      rw [Handler.find?_both hs.1.proper hs.2.1.proper, Handler.find?_both hs'.1.proper hs'.2.1.proper] at h1
      have n1 := sameType_names ht.1 hs.1.proper hs'.1.proper k
      have n2 := sameType_names ht.2 hs.2.1.proper hs'.2.1.proper k
      have d := hs.2.2 k
      rw [← find?_isSome_iff, ← find?_isSome_iff] at d
      generalize l.getParams.find? k = a at *
      generalize l'.getParams.find? k = a' at *
      generalize r.getParams.find? k = c at *
      generalize r'.getParams.find? k = c' at *
      cases a <;> cases a' <;> cases c <;> cases c' <;> simp_all
    exact ⟨il ht.1 hs.1 hs'.1 fun k => (key k).1, ir ht.2 hs.2.1 hs'.2.1 fun k => (key k).2⟩
  | gp ps mean cov im ic =>
    cases h' <;> simp only [Handler.SameType] at ht
    rename_i qs mean' cov'
    have key : ∀ k, (ps.find? k).map Parameter.value = (qs.find? k).map Parameter.value ∧
        (mean.getParams.find? k).map Parameter.value = (mean'.getParams.find? k).map Parameter.value ∧
        (cov.getParams.find? k).map Parameter.value = (cov'.getParams.find? k).map Parameter.value := by
      intro k
      have h1 := hv k
      rw [Handler.find?_gp hs.1 hs.2.1.proper hs.2.2.1.proper,
        Handler.find?_gp hs'.1 hs'.2.1.proper hs'.2.2.1.proper] at h1
      have n0 := keys_find ht.1 k
      have n1 := sameType_names ht.2.1 hs.2.1.proper hs'.2.1.proper k
      have n2 := sameType_names ht.2.2 hs.2.2.1.proper hs'.2.2.1.proper k
      have d := hs.2.2.2.1 k
      have d' := hs.2.2.2.2 k
      rw [← find?_isSome_iff, ← find?_isSome_iff, ← find?_isSome_iff] at d
      rw [← find?_isSome_iff, ← find?_isSome_iff] at d'
      generalize ps.find? k = e at *
      generalize qs.find? k = e' at *
      generalize mean.getParams.find? k = a at *
      generalize mean'.getParams.find? k = a' at *
      generalize cov.getParams.find? k = c at *
      generalize cov'.getParams.find? k = c' at *
      cases a <;> cases a' <;> cases c <;> cases c' <;> cases e <;> cases e' <;> simp_all
    exact ⟨fun k => (key k).1, im ht.2.1 hs.2.1 hs'.2.1 fun k => (key k).2.1,
      ic ht.2.2 hs.2.2.1 hs'.2.2.1 fun k => (key k).2.2⟩
  | sparse m i mean cov im ic =>
    cases h' <;> simp only [Handler.SameType] at ht
    rename_i m' i' mean' cov'
    have hne : measurementNuggetName ≠ inducingNuggetName := by decide
    have key : ∀ k,
        (mean.getParams.find? k).map Parameter.value = (mean'.getParams.find? k).map Parameter.value ∧
        (cov.getParams.find? k).map Parameter.value = (cov'.getParams.find? k).map Parameter.value := by
      intro k
      have h1 := hv k
      rw [find?_sparse hs.1.proper hs.2.1.proper, find?_sparse hs'.1.proper hs'.2.1.proper] at h1
      have n1 := sameType_names ht.1 hs.1.proper hs'.1.proper k
      have n2 := sameType_names ht.2 hs.2.1.proper hs'.2.1.proper k
      have d := hs.2.2.1 k
      have d' := hs.2.2.2 k
      rw [← find?_isSome_iff, ← find?_isSome_iff] at d d'
      by_cases hk : k = measurementNuggetName ∨ k = inducingNuggetName
      · have := d' hk
        generalize mean.getParams.find? k = a at *
        generalize mean'.getParams.find? k = a' at *
        generalize cov.getParams.find? k = c at *
        generalize cov'.getParams.find? k = c' at *
        cases a <;> cases a' <;> cases c <;> cases c' <;> simp_all
      · rw [not_or] at hk
        rw [if_neg hk.2, if_neg hk.1, if_neg hk.2, if_neg hk.1] at h1
        generalize mean.getParams.find? k = a at *
        generalize mean'.getParams.find? k = a' at *
        generalize cov.getParams.find? k = c at *
        generalize cov'.getParams.find? k = c' at *
        cases a <;> cases a' <;> cases c <;> cases c' <;> simp_all
    have e1 := hv measurementNuggetName
    have e2 := hv inducingNuggetName
    rw [find?_sparse hs.1.proper hs.2.1.proper, find?_sparse hs'.1.proper hs'.2.1.proper] at e1 e2
    rw [if_neg hne, if_pos rfl, if_neg hne, if_pos rfl] at e1
    rw [if_pos rfl, if_pos rfl] at e2
    simp only [Option.map_some, Option.some.injEq] at e1 e2
    exact ⟨e1, e2, im ht.1 hs.1 hs'.1 fun k => (key k).1, ic ht.2 hs.2.1 hs'.2.1 fun k => (key k).2⟩

/-! ## Properties -/

/-- What comparing two models says: the names, the insights and, parameter by parameter, names, values and priors (these
up to the digits which the names of uniform priors show, C102). -/
theorem C112_meaning (a b : ModelFace) :
    modelsEqual a b = true ↔ a.name = b.name ∧ a.insights = b.insights ∧
      List.Forall₂ (fun p q => p.1 = q.1 ∧ (p.2.value = q.2.value ∧ p.2.value ≠ .nan) ∧
        p.2.prior.equal q.2.prior = true) a.params b.params := by
  unfold modelsEqual
  rw [Bool.and_eq_true, Bool.and_eq_true, decide_eq_true_eq, decide_eq_true_eq, C102_stores]
  have : (fun p q : String × Parameter => p.1 = q.1 ∧ p.2.equal q.2 = true) =
      fun p q => p.1 = q.1 ∧ (p.2.value = q.2.value ∧ p.2.value ≠ .nan) ∧ p.2.prior.equal q.2.prior = true := by
    funext p q
    rw [(C102_parameters p.2 q.2).1]
  rw [this]
  tauto

/-- Comparison is symmetric and transitive; a model without NaN equals itself, one with a parameter that is NaN does
not. -/
theorem C112_equivalence (a b c : ModelFace) :
    (modelsEqual a b = true → modelsEqual b a = true) ∧
      (modelsEqual a b = true → modelsEqual b c = true → modelsEqual a c = true) ∧
      (NanFree a.params → modelsEqual a a = true) ∧
      ((∃ kv ∈ a.params, kv.2.value = .nan) → modelsEqual a a = false) := by
  refine ⟨fun h => ?_, fun h h' => ?_, fun h => ?_, fun h => ?_⟩
  · rw [C112_meaning] at h ⊢
    obtain ⟨h1, h2, h3⟩ := h
    refine ⟨h1.symm, h2.symm, ?_⟩
    rw [List.forall₂_iff_get] at h3 ⊢
    refine ⟨h3.1.symm, fun i hi hi' => ?_⟩
    obtain ⟨x, ⟨y, z⟩, w⟩ := h3.2 i hi' hi
    exact ⟨x.symm, ⟨y.symm, y ▸ z⟩, C102_symmetric _ _ w⟩
  · rw [C112_meaning] at h h' ⊢
    obtain ⟨h1, h2, h3⟩ := h
    obtain ⟨g1, g2, g3⟩ := h'
    refine ⟨h1.trans g1, h2.trans g2, ?_⟩
    rw [List.forall₂_iff_get] at h3 g3 ⊢
    refine ⟨h3.1.trans g3.1, fun i hi hi' => ?_⟩
    obtain ⟨x, ⟨y, z⟩, w⟩ := h3.2 i hi (h3.1 ▸ hi)
    obtain ⟨x', ⟨y', -⟩, w'⟩ := g3.2 i (h3.1 ▸ hi) hi'
    exact ⟨x.trans x', ⟨y.trans y', z⟩, C102_transitive _ _ _ w w'⟩
  · rw [C112_meaning]
    exact ⟨rfl, rfl, List.forall₂_same.2 fun kv hkv =>
      ⟨rfl, ⟨rfl, (h kv hkv).1⟩, C102_reflexive _ (h kv hkv).2⟩⟩
  · rw [Bool.eq_false_iff]
    intro hc
    rw [C112_meaning] at hc
    obtain ⟨kv, hkv, hn⟩ := h
    have := List.forall₂_same.1 hc.2.2 kv hkv
    exact this.2.1.2 hn

/-- Gaussian processes of one type, no two parts of which have a parameter of the same name: if they compare equal, every
part holds the same values, and they have the same name and insights. -/
theorem C112_gp_partial {S : Type} (a b : GpObject S) (ht : a.parts.SameType b.parts) (ha : a.parts.Separate)
    (hb : b.parts.Separate) (h : modelsEqual a.face b.face = true) :
    a.parts.SameValues b.parts ∧ a.modelName = b.modelName ∧ a.insights = b.insights := by
  have h' := (C112_meaning _ _).1 h
  unfold modelsEqual at h
  rw [Bool.and_eq_true, Bool.and_eq_true] at h
  exact ⟨sameValues_of_find ht ha hb fun k => storesEqual_values h.1.1 k, h'.1, h'.2.1⟩

example : ∃ a b : Handler, a.SameType b ∧ a.Separate ∧ b.Separate ∧ a ≠ b :=
  ⟨.gp [] (.declared [("c", ⟨.fin 1, .positive⟩)]) (.declared [("x", ⟨.fin 1, .positive⟩), ("y", ⟨.fin 2, .positive⟩)]),
    .gp [] (.declared [("c", ⟨.fin 1, .positive⟩)]) (.declared [("x", ⟨.fin 1, .positive⟩), ("y", ⟨.fin 3, .positive⟩)]),
    ⟨rfl, rfl, rfl⟩,
    ⟨by simp [SMap.WF], by simp [Handler.Separate], by simp [Handler.Separate], by simp [SMap.keys], by decide +kernel⟩,
    ⟨by simp [SMap.WF], by simp [Handler.Separate], by simp [Handler.Separate], by simp [SMap.keys], by decide +kernel⟩,
    by simp⟩

/-- The members that the class adds do not count, whatever they are: the grouper and the inducing point strategy of a
sparse Gaussian process, the thread pool. -/
theorem C112_rest {S : Type} (a : GpObject S) (ha : NanFree a.parts.getParams) (rest : S) :
    modelsEqual a.face { a with rest := rest }.face = true :=
  ((C112_equivalence a.face a.face a.face).2.2.1 ha)

/-- Ransac models compare by the model inside only: strategy and configuration do not count. -/
theorem C112_ransac {Sub F R K Fit : Type} (subFace : Sub → ModelFace) (insights : SMap String String) (sub : Sub)
    (hs : NanFree (subFace sub).params) (s t : RansacStrategy Sub F R K Fit) (c d : RansacConfig) :
    modelsEqual (RansacModel.face subFace insights ⟨sub, s, c⟩) (RansacModel.face subFace insights ⟨sub, t, d⟩) =
      true :=
  ((C112_equivalence (RansacModel.face subFace insights ⟨sub, s, c⟩) ⟨[], "", []⟩ ⟨[], "", []⟩).2.2.1 hs)

/-- Two `Ransac` models that compare equal: the one refuses every dataset, the other finds a consensus. -/
theorem C112_ransac_false :
    ∃ (subFace : Unit → ModelFace) (a b : RansacModel Unit Unit Unit ℕ Unit),
      modelsEqual (a.face subFace []) (b.face subFace []) = true ∧
      (∀ d raw, a.search (2 ^ 64) .debug modUniform d raw = .ok ⟨.invalidArguments, {}, []⟩) ∧
      ∃ out, b.search (2 ^ 64) .debug modUniform ⟨[], [], [], []⟩ [3, 0, 0] = .ok out ∧ out.returnCode = .success := by
  refine ⟨fun _ => ⟨[], "", []⟩, ⟨(), pickyStrategy, {}⟩, RansacModel.ofAll () pickyStrategy (.fin 1) 1 2 2 2, ?_, ?_, ?_⟩
  · exact C112_ransac _ [] () (by intro kv h; cases h) _ _ _ _
  · intro d raw
    unfold RansacModel.search ransacIndexer ransac ransacWith
    rw [if_pos (by simp)]
  · have hs3 : randomWithoutReplacementRest (2 ^ 64) .debug modUniform [0, 1, 2, 3] 1 [3, 0, 0] = .ok ([3], [0, 0]) := by
      decide +kernel
    have hs1 : randomWithoutReplacementRest (2 ^ 64) .debug modUniform [0, 1, 2, 3] 1 [0, 0] = .ok ([0], [0]) := by
      decide +kernel
    have hs0 : randomWithoutReplacementRest 18446744073709551616 .debug modUniform [0, 1, 2, 3] 1 [0] = .ok ([0], []) := by
      decide +kernel
    show ∃ out, ransacWith pickyFns [0, 1, 2, 3]
      (randomWithoutReplacementRest (2 ^ 64) .debug modUniform [0, 1, 2, 3] 1) [3, 0, 0] (.fin 1) 1 2 2 2 = .ok out ∧ _
    unfold ransacWith
    rw [if_neg (by simp), ransacLoop, if_pos (by omega), hs3]
    simp only [pickyFns, ne_eq, not_true_eq_false, decide_false, Bool.not_false, if_true]
    rw [if_neg (by omega), ransacLoop, if_pos (by omega), hs1]
    simp [classifyGroup, containsGroup, SMap.emplace, SMap.alter, RansacIteration.consensus, Dbl.isNan]
    rw [ransacLoop, if_pos (by omega), hs0]
    simp [classifyGroup, containsGroup, SMap.emplace, SMap.alter, RansacIteration.consensus, Dbl.isNan]
    rw [ransacLoop]
    simp [RansacIteration.consensus]

/-- Two Gaussian processes that compare equal although a length scale differs: both terms of the covariance function
declare a parameter of that name and only the second is seen. -/
theorem C112_shared_false :
    ∃ a b : GpObject Unit, modelsEqual a.face b.face = true ∧ a.parts.SameType b.parts ∧
      ¬ a.parts.SameValues b.parts := by
  let mk : Dbl → Handler := fun l => .gp [] (.store [])
    (.both (.declared [("x", ⟨l, .positive⟩)]) (.declared [("x", ⟨.fin 2, .positive⟩)]))
  have hp : ∀ l, (mk l).getParams = [("x", ⟨.fin 2, .positive⟩)] := fun l => rfl
  refine ⟨⟨mk (.fin 1), "gp", [], ()⟩, ⟨mk (.fin 5), "gp", [], ()⟩, ?_, ⟨rfl, rfl, rfl, rfl⟩, ?_⟩
  · have : (⟨mk (.fin 1), "gp", [], ()⟩ : GpObject Unit).face = (⟨mk (.fin 5), "gp", [], ()⟩ : GpObject Unit).face := by
      simp only [GpObject.face, hp]
    rw [this]
    refine (C112_equivalence _ ⟨[], "", []⟩ ⟨[], "", []⟩).2.2.1 ?_
    intro kv hkv
    simp only [GpObject.face, hp, List.mem_singleton] at hkv
    subst hkv
    exact ⟨by simp, by simp [Prior.args]⟩
  · intro h
    have := h.2.2.1
    simp [Handler.SameValues] at this

/-- Two sparse Gaussian processes that differ in the inducing point strategy only compare equal, and fits of them to the
same data have different inducing points, whatever routines are used. -/
theorem C112_sparse_false (rt : SparseRoutines) :
    ∃ (parts : Handler) (a b : SparseGp ℝ ℝ), a.gp = b.gp ∧
      modelsEqual (GpObject.face ⟨parts, "sparse", [], a.inducing⟩) (GpObject.face ⟨parts, "sparse", [], b.inducing⟩) =
        true ∧
      (∃ f, a.fit .debug rt (fun _ : Fin 1 => (0 : ℝ)) ⟨fun _ => 1, fun _ => 1⟩ = .ok f ∧ ∀ i, f.features i = 0) ∧
      ∃ f, b.fit .debug rt (fun _ : Fin 1 => (0 : ℝ)) ⟨fun _ => 1, fun _ => 1⟩ = .ok f ∧ ∀ i, f.features i = 1 := by
  have hg : ∀ c : ℝ, ∃ f,
      (⟨⟨fun x y => Real.exp (-(x - y) ^ 2), fun _ => 0, id⟩, id, fun _ => [c], 1, 1⟩ : SparseGp ℝ ℝ).fit .debug rt
        (fun _ : Fin 1 => (0 : ℝ)) ⟨fun _ => 1, fun _ => 1⟩ = .ok f ∧ ∀ i, f.features i = c := by
    intro c
    rw [C35_fit_uses_strategy _ _ _ _ _ (by simp)]
    have hi : buildIndexer (id : ℝ → ℝ) (List.ofFn fun _ : Fin 1 => (0 : ℝ)) = [(0, [0])] := by
      simp [buildIndexer, buildIndexerLoop, SMap.contains, SMap.put, SMap.alter, SMap.find?]
    have hr : groupRows 1 [0] = .ok ⟨1, fun j => ⟨[0][j], by simp⟩⟩ := by
      unfold groupRows
      rw [dif_pos (by simp)]
      rfl
    unfold SparseGp.fitWith SparseGp.components
    dsimp only
    rw [hi]
    simp only [List.mapM_cons, List.mapM_nil, hr, except_ok_bind, except_pure]
    exact ⟨_, rfl, fun i => by simp⟩
  obtain ⟨f, h1, h2⟩ := hg 0
  obtain ⟨f', h3, h4⟩ := hg 1
  refine ⟨.store [], _, _, ?_, ?_, ⟨f, h1, h2⟩, f', h3, h4⟩
  · rfl
  exact C112_rest ⟨.store [], "sparse", [], fun _ => [0]⟩ (by intro kv h; cases h) _

/-- The name of a Gaussian process without a given name shows the names of its functions; giving a name changes the
comparison and nothing else. -/
theorem C112_name {S : Type} (parts : Handler) (covName meanName modelName : String) (rest : S) (g : GpObject S) :
    (GpObject.make parts covName meanName rest).face.name.toList =
        ['m', 'e', 'a', 'n', ':'] ++ meanName.toList ++ ['c', 'o', 'v', ':'] ++ covName.toList ∧
      (GpObject.named parts modelName rest).face.name = modelName ∧
      (g.setName modelName).face.name = modelName ∧ (g.setName modelName).parts = g.parts ∧
      (g.setName modelName).rest = g.rest ∧ (g.setName modelName).insights = g.insights ∧
      (modelName ≠ g.modelName → modelsEqual (g.setName modelName).face g.face = false) := by
  refine ⟨by simp [GpObject.make, GpObject.face, defaultModelName, String.toList_append], rfl, rfl, rfl, rfl, rfl,
    fun h => ?_⟩
  rw [Bool.eq_false_iff]
  intro hc
  exact h ((C112_meaning _ _).1 hc).1

/-- The name is ambiguous: different pairs of functions can have it. -/
theorem C112_name_ambiguous : defaultModelName "b" "acov:a" = defaultModelName "acov:b" "a" := by decide

/-- Fitted models are equal if model and fit are. -/
theorem C112_fit_model {M F : Type} (face : M → ModelFace) (fitEqual : F → F → Bool) (a b : FittedModel M F) :
    fitModelsEqual face fitEqual a b = true ↔
      modelsEqual (face a.model) (face b.model) = true ∧ fitEqual a.fit b.fit = true := by
  unfold fitModelsEqual
  rw [Bool.and_eq_true]

end Albatross
