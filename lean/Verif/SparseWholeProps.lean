import Verif.SparseWhole
import Verif.WholeModelProps
import Verif.SparseGpProps
import Verif.ModelEqualityProps
import Verif.CovTreeProps
import Verif.UtilsProps

/-! # C116: the sparse Gaussian process from its factory and named parameters to predictions -/

namespace Albatross

open Matrix Handler

/-! ## Specification -/

section spec

variable (mt : MeanType) (ct : ModelCov) (env : String → ℝ) {n m : Nat} {κ q : Type} [DecidableEq κ]

/-- The covariance of the process at the inducing points, with the nugget of that name. -/
noncomputable def inducingCov (u : Fin m → ℝ) : Matrix (Fin m) (Fin m) ℝ :=
  of fun k l => ct.signal env (u k) (u l) + if k = l then env "inducing_nugget" else 0

/-- The covariance at two points that goes through the inducing points. -/
noncomputable def viaInducing (u : Fin m → ℝ) (x y : ℝ) : ℝ :=
  ∑ k, ∑ l, ct.signal env x (u k) * (inducingCov ct env u)⁻¹ k l * ct.signal env (u l) y

/-- The covariance of the measurements: exact within a group, through the inducing points between groups; independent
errors with variances `v` and the nugget of that name. -/
noncomputable def groupedCov (u : Fin m → ℝ) (group : ℝ → κ) (train v : Fin n → ℝ) : Matrix (Fin n) (Fin n) ℝ :=
  of fun i j =>
    (if group (train i) = group (train j) then ct.signal env (train i) (train j) + ct.error env (train i) (train j)
      else viaInducing ct env u (train i) (train j)) +
    if i = j then v i + env "measurement_nugget" else 0

/-- The posterior under the prior of Quiñonero-Candela and Rasmussen with partially independent training conditionals
(the comment of models/sparse_gp.hpp lines 121-231). -/
structure IsSparsePosterior (u : Fin m → ℝ) (group : ℝ → κ) (train : Fin n → ℝ) (t : Marginal (Fin n)) (xs : q → ℝ)
    (p : Joint q) : Prop where
  mean : ∀ j, p.mean j = mt.formula env (xs j) + ∑ i, viaInducing ct env u (xs j) (train i) *
    ((groupedCov ct env u group train t.variance)⁻¹ *ᵥ fun k => t.mean k - mt.formula env (train k)) i
  covariance : ∀ j j', p.covariance j j' = ct.signal env (xs j) (xs j') -
    ∑ i, ∑ k, viaInducing ct env u (xs j) (train i) * (groupedCov ct env u group train t.variance)⁻¹ i k *
      viaInducing ct env u (train k) (xs j')

end spec

/-- The functions in a covariance function that ask for inducing points: how many for a length scale, and the length
scale. -/
def CovType.scales (env : String → ℝ) : CovType → List (ℝ × ℝ)
  | .radial .squaredExponential => [(10, env "squared_exponential_length_scale")]
  | .radial .exponential => [(20, env "exponential_length_scale")]
  | .sum l r => l.scales env ++ r.scales env
  | .product l r => l.scales env ++ r.scales env
  | _ => []

@[inherit_doc CovType.scales]
def ModelCov.scales (env : String → ℝ) : ModelCov → List (ℝ × ℝ)
  | .plain t => t.scales env
  | .measOnly _ => []
  | .sum l r => l.scales env ++ r.scales env

/-- A sequence of regular grids over the training points, one for each function that asks for it, no coarser than one and
a half times the nominal spacing. -/
def GridsFor (train : List ℝ) (scales : List (ℝ × ℝ)) (points : List Dbl) : Prop :=
  ∃ grids : List (List Dbl), points = grids.flatten ∧
    List.Forall₂ (fun s g => Nonempty (IsInducingGrid train (3 / 2 * (s.2 / s.1)) g)) scales grids

/-- The inducing points of a strategy, for the values `env` of the parameters. -/
def InducingFor (ct : ModelCov) (env : String → ℝ) (train us : List ℝ) : InducingStrategy → Prop
  | .uniform n => ∃ mn ∈ train, ∃ mx ∈ train, (∀ x ∈ train, mn ≤ x ∧ x ≤ mx) ∧ IsLinspace mn mx n (us.map .fin)
  | .stateSpace => GridsFor train (ct.scales env) (us.map .fin)

/-- The length scales are positive and the number of points fits the machine. -/
def ScalesReady (train : List ℝ) (scales : List (ℝ × ℝ)) : Prop :=
  ∀ s ∈ scales, 0 < s.2 ∧ ∀ x ∈ train, ∀ y ∈ train, s.1 * (y - x) / s.2 ≤ 2 ^ 53

/-- The strategy can compute inducing points. -/
def StrategyReady (ct : ModelCov) (env : String → ℝ) (train : List ℝ) : InducingStrategy → Prop
  | .uniform n => 2 ≤ n ∧ n ≤ 2 ^ 53 + 1
  | .stateSpace => ct.scales env ≠ [] ∧ ScalesReady train (ct.scales env)

/-! ## Lemmas -/

theorem allFinite_map (us : List ℝ) : allFinite (us.map .fin) = some us := by
  induction us with
  | nil => rfl
  | cons a t ih => simp [allFinite, ih]

theorem IsLinspace.finite {a c : ℝ} {n : Nat} {g : List Dbl} (h : IsLinspace a c n g) : ∃ vs : List ℝ, g = vs.map .fin := by
  obtain ⟨hl, -, -, step, hs⟩ := h
  refine ⟨(List.range n).map fun i : Nat => a + i * step, ?_⟩
  refine List.ext_getElem? fun i => ?_
  rcases lt_or_ge i n with hi | hi
  · rw [hs i hi]
    simp [hi]
  · rw [List.getElem?_eq_none (by omega), List.getElem?_eq_none (by simpa using hi)]

/-- What is known of a function `f` that computes grids. -/
def SsrSpec (has : Handler → Prop) (scales : (String → ℝ) → List (ℝ × ℝ))
    (f : Option (Build → Handler → List Dbl → Outcome (List Dbl))) : Prop :=
  (f = none ∧ ∀ env, scales env = []) ∨ ∃ g, f = some g ∧ (∀ env, scales env ≠ []) ∧
    ∀ b h env train, has h → h.Separate → Names env h.getParams → train ≠ [] → ScalesReady train (scales env) →
      ∃ points, g b h (train.map .fin) = .ok points ∧ GridsFor train (scales env) points

theorem GridsFor.append {train : List ℝ} {s s' : List (ℝ × ℝ)} {p p' : List Dbl} (h : GridsFor train s p)
    (h' : GridsFor train s' p') : GridsFor train (s ++ s') (p ++ p') := by
  obtain ⟨g, rfl, hg⟩ := h
  obtain ⟨g', rfl, hg'⟩ := h'
  exact ⟨g ++ g', by simp, List.rel_append hg hg'⟩

theorem radialSsr_spec (k : ℝ) (hk : 0 < k) (kind : RadialKind) :
    SsrSpec (CovType.radial kind).Has (fun env => [(k, env kind.lengthName)]) (some (radialSsr k kind.lengthName)) := by
  refine Or.inr ⟨_, rfl, fun _ => by simp, fun b h env train ht hs he hne hr => ?_⟩
  cases h <;> simp only [CovType.Has] at ht
  clear hs
  rename_i ms
  obtain ⟨hl, hsz⟩ := hr _ List.mem_cons_self
  have : (SMap.find? ms kind.lengthName).isSome := SMap.mem_keys.1 (by
    show kind.lengthName ∈ ms.map Prod.fst
    rw [ht]; exact List.mem_cons_self)
  obtain ⟨p, hp⟩ := Option.isSome_iff_exists.1 this
  have hv : p.value = .fin (env kind.lengthName) := he _ p (by rw [find?_declared, hp])
  obtain ⟨g, h1, h2⟩ := C81_grid_partial k hk b (env kind.lengthName) hl train hne hsz
  refine ⟨g, by simp only [radialSsr, hp, hv, h1], [g], by simp, ?_⟩
  exact List.Forall₂.cons h2 List.Forall₂.nil

theorem bothSsr_spec {ha hb : Handler → Prop} {sa sb : (String → ℝ) → List (ℝ × ℝ)}
    {f g : Option (Build → Handler → List Dbl → Outcome (List Dbl))} (hf : SsrSpec ha sa f) (hg : SsrSpec hb sb g)
    {has : Handler → Prop} (hh : ∀ h, has h → ∃ l r, h = .both l r ∧ ha l ∧ hb r) :
    SsrSpec has (fun env => sa env ++ sb env) (bothSsr f g) := by
  rcases hf with ⟨rfl, ea⟩ | ⟨f, rfl, na, hf⟩ <;> rcases hg with ⟨rfl, eb⟩ | ⟨g, rfl, nb, hg⟩
  · exact Or.inl ⟨rfl, fun env => by simp only [ea, eb, List.append_nil]⟩
  · refine Or.inr ⟨_, rfl, fun env => by simp [nb env], fun b h env train ht hs he hne hr => ?_⟩
    obtain ⟨l, r, rfl, h1, h2⟩ := hh h ht
    obtain ⟨el, er⟩ := names_left hs he
    simp only [ea, List.nil_append] at hr ⊢
    exact hg b r env train h2 hs.2.1 er hne hr
  · refine Or.inr ⟨_, rfl, fun env => by simp [na env], fun b h env train ht hs he hne hr => ?_⟩
    obtain ⟨l, r, rfl, h1, h2⟩ := hh h ht
    obtain ⟨el, er⟩ := names_left hs he
    simp only [eb, List.append_nil] at hr ⊢
    exact hf b l env train h1 hs.1 el hne hr
  · refine Or.inr ⟨_, rfl, fun env => by simp [na env], fun b h env train ht hs he hne hr => ?_⟩
    obtain ⟨l, r, rfl, h1, h2⟩ := hh h ht
    obtain ⟨el, er⟩ := names_left hs he
    obtain ⟨p, e1, g1⟩ := hf b l env train h1 hs.1 el hne fun s hs => hr s (List.mem_append_left _ hs)
    obtain ⟨p', e2, g2⟩ := hg b r env train h2 hs.2.1 er hne fun s hs => hr s (List.mem_append_right _ hs)
    exact ⟨p ++ p', by simp only [e1, e2, except_ok_bind, except_pure], g1.append g2⟩

theorem covType_ssr (t : CovType) : SsrSpec t.Has (fun env => t.scales env) t.ssr := by
  induction t with
  | radial k =>
    cases k
    · exact radialSsr_spec 10 (by norm_num) .squaredExponential
    · exact radialSsr_spec 20 (by norm_num) .exponential
    · exact Or.inl ⟨rfl, fun _ => rfl⟩
    · exact Or.inl ⟨rfl, fun _ => rfl⟩
  | constant | noise | nugget | polynomial => exact Or.inl ⟨rfl, fun _ => rfl⟩
  | sum a b ia ib | product a b ia ib =>
    refine bothSsr_spec ia ib fun h ht => ?_
    cases h <;> simp only [CovType.Has] at ht
    exact ⟨_, _, rfl, ht.1, ht.2⟩

theorem modelCov_ssr (t : ModelCov) : SsrSpec t.Has (fun env => t.scales env) t.ssr := by
  induction t with
  | plain t => exact covType_ssr t
  | measOnly t => exact Or.inl ⟨rfl, fun _ => rfl⟩
  | sum a b ia ib =>
    refine bothSsr_spec ia ib fun h ht => ?_
    cases h <;> simp only [ModelCov.Has] at ht
    exact ⟨_, _, rfl, ht.1, ht.2⟩

theorem GridsFor.finite {train : List ℝ} {s : List (ℝ × ℝ)} {p : List Dbl} (h : GridsFor train s p) :
    (∃ vs : List ℝ, p = vs.map .fin) ∧ (s ≠ [] → p ≠ []) := by
  obtain ⟨g, rfl, hg⟩ := h
  induction hg with
  | nil => exact ⟨⟨[], rfl⟩, fun h => absurd rfl h⟩
  | @cons a g _ gs h _ ih =>
    obtain ⟨vs, hv⟩ := ih.1
    obtain ⟨hi⟩ := h
    obtain ⟨ws, hw⟩ := hi.regular.finite
    refine ⟨⟨ws ++ vs, by rw [List.flatten_cons, hv, List.map_append, ← hw]⟩, fun _ he => ?_⟩
    rw [List.flatten_cons, List.append_eq_nil_iff] at he
    have := hi.count
    simp [he.1] at this

/-- The strategies compute their points from the parameters the covariance function shows. -/
theorem strategy_points (s : InducingStrategy) (b : Build) (ct : ModelCov) (c : Handler) (hc : ct.Has c) (hs : c.Separate)
    (env : String → ℝ) (he : Names env c.getParams) (train : List ℝ) (hne : train ≠ []) (hr : StrategyReady ct env train s) :
    ∃ us : List ℝ, s.points b ct c (train.map .fin) = some (.ok (us.map .fin)) ∧ us ≠ [] ∧ InducingFor ct env train us s := by
  cases s with
  | uniform n =>
    obtain ⟨mn, h1, mx, h2, h3, g, h4, h5, -⟩ := C96_uniform_points b n hr.1 hr.2 train hne
    obtain ⟨us, rfl⟩ := h5.finite
    refine ⟨us, by simp only [InducingStrategy.points, h4], ?_, mn, h1, mx, h2, h3, h5⟩
    rintro rfl
    have h6 : 0 = n := h5.1
    have h7 := hr.1
    omega
  | stateSpace =>
    rcases modelCov_ssr ct with ⟨-, h⟩ | ⟨f, hf, -, h⟩
    · exact absurd (h env) hr.1
    · obtain ⟨p, h1, h2⟩ := h b c env train hc hs he hne hr.2
      obtain ⟨⟨us, rfl⟩, h3⟩ := h2.finite
      refine ⟨us, by simp only [InducingStrategy.points, hf, Option.map_some, h1], ?_, h2⟩
      rintro rfl
      exact h3 hr.1 rfl

/-- A sparse model of these types. -/
structure SparseModelOf (mt : MeanType) (ct : ModelCov) (model : Handler) : Prop where
  is : ∃ mn inn m c, model = sparse mn inn m c ∧ mt.Has m ∧ ct.Has c
  separate : model.Separate

theorem SparseModelOf.names_ne {mt : MeanType} {ct : ModelCov} {model : Handler} (h : SparseModelOf mt ct model) :
    ∀ k ∈ model.getParams.keys, k ≠ "" := by
  obtain ⟨⟨mn, inn, m, c, rfl, hm, hc⟩, hs⟩ := h
  intro k hk
  rw [SMap.mem_keys, find?_sparse hm.proper hc.proper] at hk
  split_ifs at hk with h1 h2
  · subst h1; decide
  · subst h2; decide
  · rw [Option.isSome_or, Bool.or_eq_true, ← SMap.mem_keys, ← SMap.mem_keys] at hk
    exact hk.elim (hc.names_ne k) (hm.names_ne k)

theorem SparseModelOf.set {mt : MeanType} {ct : ModelCov} {model : Handler} (h : SparseModelOf mt ct model) (b : Build)
    (input : ParameterStore) (hi : SMap.WF input) (hsub : ∀ k ∈ input.keys, k ∈ model.getParams.keys) :
    ∃ model', setAll b model input = .ok model' ∧ SparseModelOf mt ct model' ∧
      ∀ k, model'.getParams.find? k = (input.find? k).or (model.getParams.find? k) := by
  obtain ⟨model', h1, h2, h3⟩ := C25_set_params_partial b model h.separate input hi h.names_ne hsub
  obtain ⟨h4, h5⟩ := setAll_sameType h.separate.proper h1
  obtain ⟨⟨mn, inn, m, c, rfl, hm, hc⟩, hs⟩ := h
  refine ⟨model', h1, ⟨?_, h2⟩, h3⟩
  cases model' <;> simp only [Handler.SameType] at h4
  rename_i mn' inn' m' c'
  exact ⟨mn', inn', m', c', rfl, hm.sameType h4.1 h5.1, hc.sameType h4.2 h5.2⟩

theorem names_sparse {env : String → ℝ} {mn inn : Parameter} {m c : Handler} (hs : (sparse mn inn m c).Separate)
    (he : Names env (sparse mn inn m c).getParams) :
    Names env m.getParams ∧ Names env c.getParams ∧ mn.value = .fin (env "measurement_nugget") ∧
      inn.value = .fin (env "inducing_nugget") := by
  obtain ⟨sm, sc, d1, d2⟩ := hs
  have hf := fun k => find?_sparse (m := mn) (i := inn) sm.proper sc.proper k
  have hnot : ∀ k (h : Handler), k ∈ h.getParams.keys → (h = m ∨ h = c) → k ≠ inducingNuggetName ∧ k ≠ measurementNuggetName := by
    rintro k h hk (rfl | rfl)
    · exact ⟨fun e => (d2 k (Or.inr e)).1 hk, fun e => (d2 k (Or.inl e)).1 hk⟩
    · exact ⟨fun e => (d2 k (Or.inr e)).2 hk, fun e => (d2 k (Or.inl e)).2 hk⟩
  refine ⟨fun k p hk => he k p ?_, fun k p hk => he k p ?_, he "measurement_nugget" mn ?_, he "inducing_nugget" inn ?_⟩
  · have hkk : k ∈ m.getParams.keys := SMap.mem_keys.2 (by simp [hk])
    obtain ⟨n1, n2⟩ := hnot k m hkk (Or.inl rfl)
    have : c.getParams.find? k = none := by
      have := d1 k hkk
      rw [SMap.mem_keys] at this
      simpa using this
    rw [hf, if_neg n1, if_neg n2, this, Option.none_or, hk]
  · obtain ⟨n1, n2⟩ := hnot k c (SMap.mem_keys.2 (by simp [hk])) (Or.inr rfl)
    rw [hf, if_neg n1, if_neg n2, hk, Option.some_or]
  · rw [hf, if_neg (by decide), if_pos (by decide)]
  · rw [hf, if_pos (by decide)]

/-- What a model that shows the parameters `env` computes with. -/
noncomputable def envGp (mt : MeanType) (ct : ModelCov) (env : String → ℝ) : Gp MeasDouble :=
  ⟨fun x y => ct.signal env x.value y.value + if x.meas && y.meas then ct.error env x.value y.value else 0,
    fun x => mt.formula env x.value, fun x => ⟨true, x.value⟩⟩

@[inherit_doc envGp]
noncomputable def envSparse {κ : Type} (mt : MeanType) (ct : ModelCov) (env : String → ℝ) (group : ℝ → κ) (us : List ℝ) :
    SparseGp MeasDouble κ :=
  ⟨envGp mt ct env, fun x => group x.value, fun _ => us.map fun u => ⟨false, u⟩, env "measurement_nugget",
    env "inducing_nugget"⟩

theorem sparseSetup_ok {κ : Type} {n : Nat} (b : Build) {mt : MeanType} {ct : ModelCov} {model : Handler}
    (h : SparseModelOf mt ct model) (env : String → ℝ) (he : Names env model.getParams) (s : InducingStrategy)
    (group : ℝ → κ) (train : Fin n → ℝ) (hn : 0 < n) (hr : StrategyReady ct env (List.ofFn train) s) :
    ∃ us : List ℝ, us ≠ [] ∧ InducingFor ct env (List.ofFn train) us s ∧
      sparseSetup b mt ct s group train model = .ok (some (envSparse mt ct env group us)) := by
  obtain ⟨⟨⟨mv, mp⟩, ⟨iv, ip⟩, m, c, rfl, hm, hc⟩, hs⟩ := h
  obtain ⟨em, ec, e1, e2⟩ := names_sparse hs he
  simp only at e1 e2
  subst e1; subst e2
  have h1 := modelCov_computes ct c hc hs.2.1 env ec
  have h2 := C113_mean_computes_partial mt m hm hs.1 env em
  have hd : CallsDefined mt ct m c := ⟨fun x y => by rw [h1]; rfl, fun x => by rw [h2]; rfl⟩
  have hne : List.ofFn train ≠ [] := by
    intro h0
    have := congrArg List.length h0
    simp at this
    omega
  obtain ⟨us, p1, p2, p3⟩ := strategy_points s b ct c hc hs.2.1 env ec (List.ofFn train) hne hr
  refine ⟨us, p2, p3, ?_⟩
  have hmap : (List.ofFn fun i => Dbl.fin (train i)) = (List.ofFn train).map .fin := by
    rw [List.map_ofFn]; rfl
  simp only [sparseSetup, if_pos hd, hmap, p1, except_ok_bind, except_pure, allFinite_map, Option.map_some]
  congr 2
  simp only [sparseModelGp, envSparse, envGp, modelGp, h1, h2, Option.getD_some]

section values

variable {mt : MeanType} {ct : ModelCov} {env : String → ℝ} {n m : Nat} {κ q : Type} [LinearOrder κ]

omit [LinearOrder κ] in
theorem sparseK_env (group : ℝ → κ) (us : List ℝ) (L : Fin m → MeasDouble) (hL : ∀ i, (L i).meas = false) :
    sparseK (envSparse mt ct env group us) L = inducingCov ct env fun i => (L i).value := by
  ext k l
  simp [sparseK, envSparse, envGp, inducingCov, hL]

omit [LinearOrder κ] in
theorem sparseQ_env (group : ℝ → κ) (us : List ℝ) (L : Fin m → MeasDouble) (hL : ∀ i, (L i).meas = false)
    {a c : Type} (xs : a → MeasDouble) (ys : c → MeasDouble) (i : a) (j : c) :
    sparseQ (envSparse mt ct env group us) L xs ys i j =
      viaInducing ct env (fun i => (L i).value) (xs i).value (ys j).value := by
  rw [sparseQ, sparseK_env group us L hL, Matrix.mul_apply]
  simp only [Matrix.mul_apply, Gp.covMat, of_apply, envSparse, envGp, hL, Bool.and_false, Bool.false_and,
    Bool.false_eq_true, if_false, add_zero, viaInducing, Finset.sum_mul]
  rw [Finset.sum_comm]

theorem sparsePrior_env (group : ℝ → κ) (us : List ℝ) (L : Fin m → MeasDouble) (hL : ∀ i, (L i).meas = false)
    (train v : Fin n → ℝ) :
    sparsePrior (envSparse mt ct env group us) L (fun i => ⟨false, train i⟩) v =
      groupedCov ct env (fun i => (L i).value) group train v := by
  ext i j
  simp only [sparsePrior, sparseA, Matrix.add_apply, of_apply, sparseQ_env group us L hL, groupedCov]
  simp only [envSparse, envGp, Bool.and_self, if_true]
  split_ifs <;> ring

theorem viaInducing_comm (u : Fin m → ℝ) (x y : ℝ) : viaInducing ct env u x y = viaInducing ct env u y x := by
  have hs := (signal_psd ct env).1
  have hK : (inducingCov ct env u)ᵀ = inducingCov ct env u := by
    ext k l
    simp only [inducingCov, transpose_apply, of_apply, hs (u l) (u k), eq_comm]
  have hI : ∀ k l, (inducingCov ct env u)⁻¹ k l = (inducingCov ct env u)⁻¹ l k := by
    intro k l
    conv_lhs => rw [← hK, ← transpose_nonsing_inv]
    rfl
  unfold viaInducing
  rw [Finset.sum_comm]
  refine Finset.sum_congr rfl fun k _ => Finset.sum_congr rfl fun l _ => ?_
  rw [hI l k, hs x (u l), hs (u k) y]
  ring

/-- Fitting a model that shows the parameters `env`, and predicting. -/
theorem envSparse_fit [Fintype q] (b : Build) (mt : MeanType) (ct : ModelCov) (env : String → ℝ) (group : ℝ → κ)
    (us : List ℝ) (hus : us ≠ []) (rt : SparseRoutines) (hrt : rt.Meets) (train : Fin n → ℝ) (t : Marginal (Fin n))
    (hv : ∀ i, 0 ≤ t.variance i) (hmn : 0 < env "measurement_nugget") (hin : 0 < env "inducing_nugget") (xs : q → ℝ) :
    ∃ (m : Nat) (u : Fin m → ℝ) (f : SparseFit MeasDouble _), us = List.ofFn u ∧
      (envSparse mt ct env group us).fit b rt (fun i => ⟨false, train i⟩) t = .ok f ∧
      us = (List.ofFn fun i => (f.features i).value) ∧
      (groupedCov ct env u group train t.variance).PosDef ∧
      IsSparsePosterior mt ct env u group train
        ⟨fun i => t.mean i + mt.formula env (train i), t.variance⟩ xs
        ((envSparse mt ct env group us).predictJoint f fun j => ⟨false, xs j⟩) ∧
      ((envSparse mt ct env group us).predictJoint f fun j => ⟨false, xs j⟩).covariance.PosSemidef ∧
      ((of fun j j' => ct.signal env (xs j) (xs j')) -
        ((envSparse mt ct env group us).predictJoint f fun j => ⟨false, xs j⟩).covariance).PosSemidef ∧
      (envSparse mt ct env group us).logLikelihood rt 0
        ((envSparse mt ct env group us).inducing (List.ofFn fun i => ⟨false, train i⟩)).get
        (fun i => ⟨false, train i⟩) t =
        .ok (gaussianLogPdf 0 (groupedCov ct env u group train t.variance) t.mean) := by
  classical
  set g := envSparse mt ct env group us with hg
  set z : Fin n → MeasDouble := fun i => ⟨false, train i⟩ with hz
  set L := (g.inducing (List.ofFn z)).get with hLdef
  have hLm : ∀ i, (L i).meas = false := by
    intro i
    have : (us.map fun u => (⟨false, u⟩ : MeasDouble)).get i ∈ us.map fun u => (⟨false, u⟩ : MeasDouble) := List.get_mem _ _
    obtain ⟨u, -, hu⟩ := List.mem_map.1 this
    show ((us.map fun u => (⟨false, u⟩ : MeasDouble)).get i).meas = false
    rw [← hu]
  have hLv : us = List.ofFn fun i => (L i).value := by
    have h1 : (List.ofFn fun i => (L i).value) = (List.ofFn L).map MeasDouble.value := by rw [List.map_ofFn]; rfl
    rw [h1, hLdef, List.ofFn_get]
    simp [hg, envSparse, Function.comp_def]
  have hk : IsPSD g.gp.cov := modelGp_psd ct env
  have hsym := hk.1
  have hne : g.inducing (List.ofFn z) ≠ [] := by simpa [hg, envSparse] using hus
  obtain ⟨hK, hA⟩ := C35_applies g hk hsym hin hmn L z t.variance hv
  obtain ⟨f, hf, hh⟩ := fitWith_ok g hsym hrt L z t hK hA
  have hcond := holds_conditional hsym hK hA hh fun j : q => (⟨false, xs j⟩ : MeasDouble)
  have hprior : sparsePrior g L z t.variance = groupedCov ct env (fun i => (L i).value) group train t.variance :=
    sparsePrior_env group us L hLm train t.variance
  have hKT : ∀ {a b : Type} (xs : a → MeasDouble) (ys : b → MeasDouble), (g.gp.covMat xs ys)ᵀ = g.gp.covMat ys xs :=
    fun xs ys => covMat_transpose g.gp hsym xs ys
  have hS : (groupedCov ct env (fun i => (L i).value) group train t.variance).PosDef := by
    rw [← hprior, sparsePrior, add_comm]
    refine hA.add_posSemidef ?_
    have h := hK.inv.posSemidef.conjTranspose_mul_mul_same (g.gp.covMat L fun i => g.gp.asMeas (z i))
    rw [conjTranspose_eq_transpose_of_trivial, hKT] at h
    exact h
  rw [hprior, isGaussianConditional_iff (PosDef.transpose_eq' hS) (PosDef.isUnit_det' hS)] at hcond
  obtain ⟨c1, c2⟩ := hcond
  have hQ : ∀ (j : q) (i : Fin n), sparseQ g L (fun j : q => (⟨false, xs j⟩ : MeasDouble)) (fun i => g.gp.asMeas (z i)) j i =
      viaInducing ct env (fun i => (L i).value) (xs j) (train i) := fun j i => sparseQ_env group us L hLm _ _ j i
  refine ⟨_, fun i => (L i).value, f, hLv, ?_, ?_, hS, ⟨fun j => ?_, fun j j' => ?_⟩, ?_, ?_, ?_⟩
  · rw [C35_fit_uses_strategy b g rt z t hne]; exact hf
  · have : f.features = L := hh.features
    rw [this]; exact hLv
  · rw [c1, Pi.add_apply, ← mulVec_mulVec, sub_zero]
    simp only [mulVec, dotProduct, hQ, add_sub_cancel_right]
    rfl
  · rw [c2]
    simp only [Matrix.sub_apply, Matrix.mul_apply, transpose_apply, hQ, Finset.sum_mul]
    rw [Finset.sum_comm]
    congr 1
    · simp [Gp.covMat, hg, envSparse, envGp]
    · refine Finset.sum_congr rfl fun i _ => Finset.sum_congr rfl fun k _ => ?_
      rw [viaInducing_comm _ (train k) (xs j')]
  · rw [hh.predictJoint hsym hK]
    refine Matrix.PosSemidef.add ?_ ?_
    · have h := hk.matrix_fintype (Sum.elim L fun j : q => (⟨false, xs j⟩ : MeasDouble))
      have h2 : (of fun i j => g.gp.cov (Sum.elim L (fun j : q => (⟨false, xs j⟩ : MeasDouble)) i)
            (Sum.elim L (fun j : q => (⟨false, xs j⟩ : MeasDouble)) j) : Matrix (_ ⊕ q) (_ ⊕ q) ℝ) =
          fromBlocks (g.gp.covMat L L) (g.gp.covMat L fun j : q => ⟨false, xs j⟩)
            (g.gp.covMat L fun j : q => ⟨false, xs j⟩)ᵀ (g.gp.covMat (fun j : q => ⟨false, xs j⟩) fun j => ⟨false, xs j⟩) := by
        rw [hKT]
        ext (i | i) (j | j) <;> rfl
      rw [h2] at h
      have hnug : (diagonal fun _ : Fin (g.inducing (List.ofFn z)).length => g.inducingNugget).PosDef :=
        Matrix.PosDef.diagonal fun _ => hin
      have := (posterior_psd (A := sparseK g L) h (by
        rw [← sparseK_eq, add_sub_cancel_left]; exact hnug.posSemidef) hK).1
      rwa [hKT] at this
    · have h := hh.posDef.inv.posSemidef.conjTranspose_mul_mul_same (g.gp.covMat L fun j : q => ⟨false, xs j⟩)
      rw [conjTranspose_eq_transpose_of_trivial, hKT, Matrix.mul_assoc] at h
      exact h
  · rw [c2]
    have h := hS.inv.posSemidef.mul_mul_conjTranspose_same
      (sparseQ g L (fun j : q => (⟨false, xs j⟩ : MeasDouble)) (fun i => g.gp.asMeas (z i)))
    rw [conjTranspose_eq_transpose_of_trivial] at h
    have e : (of fun j j' => ct.signal env (xs j) (xs j') : Matrix q q ℝ) =
        g.gp.covMat (fun j : q => ⟨false, xs j⟩) fun j => ⟨false, xs j⟩ := by
      ext j j'
      simp [Gp.covMat, hg, envSparse, envGp]
    rw [e, sub_sub_cancel]
    exact h
  · rw [C38_log_likelihood g hsym rt hrt 0 L z t hK hA, hprior, add_zero]

end values

theorem nugget_names_polynomial (i : Nat) : polynomialName i ≠ measurementNuggetName ∧ polynomialName i ≠ inducingNuggetName := by
  constructor <;>
  · intro h
    have := congrArg (fun s => s.toList.head?) h
    simp [polynomialName, measurementNuggetName, inducingNuggetName] at this

/-- No provided function has a parameter with the name of a nugget. -/
theorem CovType.Has.no_nugget {t : CovType} {h : Handler} (ht : t.Has h) :
    ∀ k ∈ h.getParams.keys, k ≠ measurementNuggetName ∧ k ≠ inducingNuggetName := by
  induction t generalizing h with
  | radial k =>
    cases h <;> simp only [CovType.Has] at ht
    intro j hj
    rw [SMap.mem_keys, find?_declared, ← SMap.mem_keys] at hj
    have : j ∈ [k.lengthName, k.sigmaName] := by rw [← ht]; exact hj
    cases k <;> (simp only [List.mem_cons, List.not_mem_nil, or_false] at this; rcases this with rfl | rfl <;> decide)
  | constant | noise | nugget =>
    cases h <;> simp only [CovType.Has] at ht
    intro j hj
    rw [SMap.mem_keys, find?_declared, ← SMap.mem_keys] at hj
    change j ∈ List.map Prod.fst _ at hj
    rw [ht] at hj
    simp only [List.mem_cons, List.not_mem_nil, or_false] at hj
    subst hj; decide
  | polynomial order =>
    cases h <;> simp only [CovType.Has] at ht
    intro j hj
    obtain ⟨i, -, rfl⟩ := (ht.2 j).1 hj
    exact nugget_names_polynomial i
  | sum a b ia ib | product a b ia ib =>
    cases h <;> simp only [CovType.Has] at ht
    intro j hj
    rw [SMap.mem_keys, find?_both ht.1.proper ht.2.proper, Option.isSome_or, Bool.or_eq_true, ← SMap.mem_keys,
      ← SMap.mem_keys] at hj
    exact hj.elim (ib ht.2 j) (ia ht.1 j)

@[inherit_doc CovType.Has.no_nugget]
theorem ModelCov.Has.no_nugget {t : ModelCov} {h : Handler} (ht : t.Has h) :
    ∀ k ∈ h.getParams.keys, k ≠ measurementNuggetName ∧ k ≠ inducingNuggetName := by
  induction t generalizing h with
  | plain t => exact CovType.Has.no_nugget ht
  | measOnly t =>
    cases h <;> simp only [ModelCov.Has] at ht
    have := CovType.Has.no_nugget ht
    exact this
  | sum a b ia ib =>
    cases h <;> simp only [ModelCov.Has] at ht
    intro j hj
    rw [SMap.mem_keys, find?_both ht.1.proper ht.2.proper, Option.isSome_or, Bool.or_eq_true, ← SMap.mem_keys,
      ← SMap.mem_keys] at hj
    exact hj.elim (ib ht.2 j) (ia ht.1 j)

@[inherit_doc CovType.Has.no_nugget]
theorem MeanType.Has.no_nugget {t : MeanType} {h : Handler} (ht : t.Has h) :
    ∀ k ∈ h.getParams.keys, k ≠ measurementNuggetName ∧ k ≠ inducingNuggetName := by
  induction t generalizing h with
  | zero =>
    cases h <;> simp only [MeanType.Has] at ht
    subst ht
    intro k hk
    simp [Handler.getParams, SMap.keys] at hk
  | linear =>
    cases h <;> simp only [MeanType.Has] at ht
    intro j hj
    rw [SMap.mem_keys, find?_declared, ← SMap.mem_keys] at hj
    have : j ∈ ["slope", "offset"] := by rw [← ht]; exact hj
    simp only [List.mem_cons, List.not_mem_nil, or_false] at this
    rcases this with rfl | rfl <;> decide
  | sum a b ia ib | product a b ia ib =>
    cases h <;> simp only [MeanType.Has] at ht
    intro j hj
    rw [SMap.mem_keys, find?_both ht.1.proper ht.2.proper, Option.isSome_or, Bool.or_eq_true, ← SMap.mem_keys,
      ← SMap.mem_keys] at hj
    exact hj.elim (ib ht.2 j) (ia ht.1 j)

/-! ## Theorems -/

/-- C116: a factory's model shows the parameters of the functions handed to it and two positive nuggets; with provided
functions it is a model for the theorems below unless the mean and the covariance function share a name. -/
theorem C116_factory (mt : MeanType) (ct : ModelCov) (mean cov : Handler) (hm : mt.Has mean) (hc : ct.Has cov)
    (sm : mean.Separate) (sc : cov.Separate) (hd : ∀ k ∈ mean.getParams.keys, k ∉ cov.getParams.keys) :
    SparseModelOf mt ct (sparseFromCovarianceAndMean cov mean) ∧
    (∀ k, (sparseFromCovarianceAndMean cov mean).getParams.find? k =
      if k = "measurement_nugget" ∨ k = "inducing_nugget" then
        some ⟨.fin (10⁻¹ ^ 8), .logScaleUniform (.fin (2⁻¹ ^ 52)) (.fin ((2 - 2⁻¹ ^ 52) * 2 ^ 1023))⟩
      else (cov.getParams.find? k).or (mean.getParams.find? k)) ∧
    SparseModelOf .zero ct (sparseFromCovariance cov) ∧
    ∀ k, (sparseFromCovariance cov).getParams.find? k =
      if k = "measurement_nugget" ∨ k = "inducing_nugget" then
        some ⟨.fin (10⁻¹ ^ 8), .logScaleUniform (.fin (2⁻¹ ^ 52)) (.fin ((2 - 2⁻¹ ^ 52) * 2 ^ 1023))⟩
      else cov.getParams.find? k := by
  have key : ∀ (mt : MeanType) (mean : Handler), mt.Has mean → mean.Separate →
      (∀ k ∈ mean.getParams.keys, k ∉ cov.getParams.keys) →
      SparseModelOf mt ct (sparseFromCovarianceAndMean cov mean) ∧
      ∀ k, (sparseFromCovarianceAndMean cov mean).getParams.find? k =
      if k = "measurement_nugget" ∨ k = "inducing_nugget" then
        some ⟨.fin (10⁻¹ ^ 8), .logScaleUniform (.fin (2⁻¹ ^ 52)) (.fin ((2 - 2⁻¹ ^ 52) * 2 ^ 1023))⟩
      else (cov.getParams.find? k).or (mean.getParams.find? k) := by
    intro mt mean hm sm hd
    refine ⟨⟨⟨_, _, _, _, rfl, hm, hc⟩, sm, sc, hd, fun k hk => ⟨fun h => ?_, fun h => ?_⟩⟩, fun k => ?_⟩
    · obtain ⟨h1, h2⟩ := hm.no_nugget k h
      exact hk.elim h1 h2
    · obtain ⟨h1, h2⟩ := hc.no_nugget k h
      exact hk.elim h1 h2
    · rw [sparseFromCovarianceAndMean, find?_sparse sm.proper sc.proper]
      by_cases h1 : k = inducingNuggetName
      · rw [if_pos h1, if_pos (show k = "measurement_nugget" ∨ k = "inducing_nugget" from Or.inr h1)]; rfl
      · rw [if_neg h1]
        by_cases h2 : k = measurementNuggetName
        · rw [if_pos h2, if_pos (show k = "measurement_nugget" ∨ k = "inducing_nugget" from Or.inl h2)]; rfl
        · rw [if_neg h2, if_neg (show ¬ (k = "measurement_nugget" ∨ k = "inducing_nugget") from fun h => h.elim h2 h1)]
  obtain ⟨k1, k2⟩ := key mt mean hm sm hd
  have hz : MeanType.zero.Has MeanType.zero.default := rfl
  have hs : MeanType.zero.default.Separate := SMap.wf_nil
  obtain ⟨k3, k4⟩ := key .zero MeanType.zero.default hz hs (fun k hk => by
    simp [MeanType.default, Handler.getParams, SMap.keys] at hk)
  refine ⟨k1, k2, k3, fun k => ?_⟩
  rw [sparseFromCovariance, k4]
  have : MeanType.zero.default.getParams.find? k = none := rfl
  rw [this, Option.or_none]

section run

variable {n : Nat} {κ q : Type} [LinearOrder κ] [Fintype q] (b : Build) (mt : MeanType) (ct : ModelCov) (model : Handler)
  (h : SparseModelOf mt ct model) (env : String → ℝ) (he : Names env model.getParams)
  (input : ParameterStore) (hi : SMap.WF input) (new : String → ℝ) (hnew : Names new input)
  (hsub : ∀ k ∈ input.keys, k ∈ model.getParams.keys) (s : InducingStrategy) (group : ℝ → κ)
  (rt : SparseRoutines) (hrt : rt.Meets) (train : Fin n → ℝ) (hn : 0 < n) (t : Marginal (Fin n))
  (hv : ∀ i, 0 ≤ t.variance i) (xs : q → ℝ)

include h he hi hnew hsub hrt hn hv in
/-- C116, what the code computes for any mean function: the predictions for targets which the mean function is added to
once more. -/
theorem C116_code_value (cur : String → ℝ) (hcur : cur = fun k => if k ∈ input.keys then new k else env k)
    (hmn : 0 < cur "measurement_nugget") (hin : 0 < cur "inducing_nugget") (hr : StrategyReady ct cur (List.ofFn train) s) :
    ∃ (m : Nat) (u : Fin m → ℝ) (p : Joint q), 0 < m ∧
      setSparseFitPredict b mt ct s group rt train t xs model input = .ok (some (List.ofFn u, p)) ∧
      InducingFor ct cur (List.ofFn train) (List.ofFn u) s ∧
      (groupedCov ct cur u group train t.variance).PosDef ∧
      IsSparsePosterior mt ct cur u group train ⟨fun i => t.mean i + mt.formula cur (train i), t.variance⟩ xs p ∧
      p.covariance.PosSemidef ∧ ((of fun j j' => ct.signal cur (xs j) (xs j')) - p.covariance).PosSemidef ∧
      ∃ store : ParameterStore, (∀ k, store.find? k = (input.find? k).or (model.getParams.find? k)) ∧
        setSparseLogLikelihood b mt ct s group rt train t model input =
          .ok (some (.fin (gaussianLogPdf 0 (groupedCov ct cur u group train t.variance) t.mean) +
            parameterPriorLogLikelihood store)) := by
  obtain ⟨model', h1, h2, h3⟩ := h.set b input hi hsub
  have he' : Names cur model'.getParams := by
    intro k p hk
    rw [h3] at hk
    simp only [hcur, SMap.mem_keys]
    cases hf : input.find? k with
    | none =>
      rw [hf, Option.none_or] at hk
      simpa using he k p hk
    | some q =>
      rw [hf, Option.some_or] at hk
      cases hk
      simpa using hnew k _ hf
  obtain ⟨us, u1, u2, u3⟩ := sparseSetup_ok b h2 cur he' s group train hn hr
  obtain ⟨m, u, f, f1, f2, f3, f4, f5, f6, f7, f8⟩ := envSparse_fit b mt ct cur group us u1 rt hrt train t hv hmn hin xs
  refine ⟨m, u, _, ?_, ?_, f1 ▸ u2, f4, f5, f6, f7, model'.getParams, h3, ?_⟩
  · rcases Nat.eq_zero_or_pos m with rfl | hm
    · exact absurd f1 u1
    · exact hm
  · simp only [setSparseFitPredict, sparseFitPredict, h1, u3, except_ok_bind, f2, except_pure]
    rw [← f3, ← f1]
  · simp only [setSparseLogLikelihood, h1, u3, except_ok_bind, f8, except_pure]

include h he hi hnew hsub hrt hn hv in
/-- C116.  Full claim: for every sparse model of provided functions, `set_params` followed by fitting and predicting uses
the inducing points of the strategy and gives the posterior of the sparse prior for the named values just set and, for the
others, the values shown before; and the log likelihood is the log density of the targets under that prior.  Proved for
models without a name used twice, and mean functions that are zero at the training points (it is false for others:
`C116_mean_false`). -/
theorem C116_predict_partial (cur : String → ℝ) (hcur : cur = fun k => if k ∈ input.keys then new k else env k)
    (hmn : 0 < cur "measurement_nugget") (hin : 0 < cur "inducing_nugget") (hr : StrategyReady ct cur (List.ofFn train) s)
    (hz : ∀ i, mt.formula cur (train i) = 0) :
    ∃ (m : Nat) (u : Fin m → ℝ) (p : Joint q), 0 < m ∧
      setSparseFitPredict b mt ct s group rt train t xs model input = .ok (some (List.ofFn u, p)) ∧
      InducingFor ct cur (List.ofFn train) (List.ofFn u) s ∧
      IsSparsePosterior mt ct cur u group train t xs p ∧
      p.covariance.PosSemidef ∧ ((of fun j j' => ct.signal cur (xs j) (xs j')) - p.covariance).PosSemidef ∧
      ∃ store : ParameterStore, (∀ k, store.find? k = (input.find? k).or (model.getParams.find? k)) ∧
        setSparseLogLikelihood b mt ct s group rt train t model input =
          .ok (some (.fin (gaussianLogPdf (fun i => mt.formula cur (train i))
            (groupedCov ct cur u group train t.variance) t.mean) + parameterPriorLogLikelihood store)) := by
  obtain ⟨m, u, p, h0, h1, h2, h3, h4, h5, h6, h7⟩ := C116_code_value b mt ct model h env he input hi new hnew hsub s group
    rt hrt train hn t hv xs cur hcur hmn hin hr
  have e : (⟨fun i => t.mean i + mt.formula cur (train i), t.variance⟩ : Marginal (Fin n)) = t := by
    simp only [hz, add_zero]
  have e' : (fun i => mt.formula cur (train i)) = 0 := by funext i; exact hz i
  rw [e] at h4
  rw [e']
  exact ⟨m, u, p, h0, h1, h2, h4, h5, h6, h7⟩

end run

/-- The model of the example: a squared exponential and measurement noise. -/
noncomputable def demoWholeSparse : Handler :=
  sparseFromCovariance (.both (CovType.radial .squaredExponential).default (.wrapped CovType.noise.default))

theorem find?_squaredExponential (k : String) (v w : Dbl) :
    (RadialKind.squaredExponential.make v w).getParams.find? k =
      if k = "squared_exponential_length_scale" then some ⟨v, .positive⟩
      else if k = "sigma_squared_exponential" then some ⟨w, .nonNegative⟩ else none := by
  rw [RadialKind.make, find?_declared]
  rfl

theorem demoWholeSparse_is :
    SparseModelOf .zero (.sum (.plain (.radial .squaredExponential)) (.measOnly .noise)) demoWholeSparse ∧
    ∀ k, demoWholeSparse.getParams.find? k =
      if k = "measurement_nugget" ∨ k = "inducing_nugget" then
        some ⟨.fin (10⁻¹ ^ 8), .logScaleUniform (.fin (2⁻¹ ^ 52)) (.fin ((2 - 2⁻¹ ^ 52) * 2 ^ 1023))⟩
      else if k = "sigma_independent_noise" then some ⟨.fin (1 / 10), .positive⟩
      else if k = "squared_exponential_length_scale" then some ⟨.fin 100000, .positive⟩
      else if k = "sigma_squared_exponential" then some ⟨.fin 10, .nonNegative⟩ else none := by
  have hl : ((CovType.radial .squaredExponential).default).Separate := by
    simp [CovType.default, RadialKind.make, Handler.Separate, RadialKind.lengthName, RadialKind.sigmaName]
  have hr : (Handler.wrapped CovType.noise.default).Separate := by
    simp [CovType.default, makeNoise, Handler.Separate]
  have fl : ∀ k, ((CovType.radial .squaredExponential).default).getParams.find? k =
      if k = "squared_exponential_length_scale" then some ⟨.fin 100000, .positive⟩
      else if k = "sigma_squared_exponential" then some ⟨.fin 10, .nonNegative⟩ else none := by
    exact fun k => find?_squaredExponential k _ _
  have fr : ∀ k, (Handler.wrapped CovType.noise.default).getParams.find? k =
      if k = "sigma_independent_noise" then some ⟨.fin (1 / 10), .positive⟩ else none := by
    intro k
    show (CovType.noise.default).getParams.find? k = _
    rw [CovType.default, makeNoise, find?_declared]
    rfl
  have hs : (Handler.both (CovType.radial .squaredExponential).default (.wrapped CovType.noise.default)).Separate := by
    refine ⟨hl, hr, fun k hk hk' => ?_⟩
    rw [SMap.mem_keys, fl] at hk
    rw [SMap.mem_keys, fr] at hk'
    split_ifs at hk' with h1
    · subst h1; revert hk; simp
    · simp at hk'
  have hh : (ModelCov.sum (.plain (.radial .squaredExponential)) (.measOnly .noise)).Has
      (.both (CovType.radial .squaredExponential).default (.wrapped CovType.noise.default)) := ⟨rfl, rfl⟩
  obtain ⟨-, -, h3, h4⟩ := C116_factory .zero _ MeanType.zero.default _ rfl hh SMap.wf_nil hs
    (fun k hk => by simp [MeanType.default, Handler.getParams, SMap.keys] at hk)
  refine ⟨h3, fun k => ?_⟩
  rw [demoWholeSparse, h4, find?_both hl.proper hr.proper, fl, fr]
  split_ifs <;> simp_all

/-- A run: the length scale is set to two and the nugget of the measurements to one, three points in two groups. -/
example : ∃ (rt : SparseRoutines) (env new : String → ℝ) (input : ParameterStore) (train : Fin 3 → ℝ) (t : Marginal (Fin 3)),
    rt.Meets ∧ Names env demoWholeSparse.getParams ∧ Names new input ∧ SMap.WF input ∧
    (∀ k ∈ input.keys, k ∈ demoWholeSparse.getParams.keys) ∧ (∀ i, 0 ≤ t.variance i) ∧ t.mean 0 ≠ 0 ∧
    ⌊train 0⌋ = ⌊train 1⌋ ∧ ⌊train 1⌋ ≠ ⌊train 2⌋ ∧
    (let cur := fun k => if k ∈ input.keys then new k else env k
     cur "squared_exponential_length_scale" ≠ env "squared_exponential_length_scale" ∧
     0 < cur "measurement_nugget" ∧ 0 < cur "inducing_nugget" ∧
     StrategyReady (.sum (.plain (.radial .squaredExponential)) (.measOnly .noise)) cur (List.ofFn train) .stateSpace ∧
     ∀ i, MeanType.zero.formula cur (train i) = 0) := by
  obtain ⟨rt, hrt⟩ := exists_routines
  obtain ⟨-, hf⟩ := demoWholeSparse_is
  let env : String → ℝ := fun k => if k = "sigma_independent_noise" then 1 / 10
    else if k = "squared_exponential_length_scale" then 100000 else if k = "sigma_squared_exponential" then 10 else 10⁻¹ ^ 8
  let new : String → ℝ := fun k => if k = "measurement_nugget" then 1 else 2
  let input : ParameterStore := [("measurement_nugget", ⟨.fin 1, .positive⟩),
    ("squared_exponential_length_scale", ⟨.fin 2, .positive⟩)]
  refine ⟨rt, env, new, input, ![0, 1 / 2, 5 / 2], ⟨![3, 4, 5], ![0, 1, 2]⟩, hrt, ?_, ?_, ?_, ?_, ?_, by norm_num, ?_, ?_, ?_⟩
  · intro k p hk
    rw [hf] at hk
    simp only [env]
    split_ifs at hk ⊢ <;> simp_all
    all_goals (rw [← hk])
  · intro k p hk
    simp only [input, SMap.find?] at hk
    simp only [new]
    split_ifs at hk ⊢ <;> simp_all
    all_goals (rw [← hk])
  · have : "measurement_nugget" < "squared_exponential_length_scale" := by decide +kernel
    simpa [input, SMap.WF] using this
  · intro k hk
    simp only [input, SMap.keys, List.map_cons, List.map_nil, List.mem_cons, List.not_mem_nil, or_false] at hk
    rw [SMap.mem_keys, hf]
    rcases hk with rfl | rfl <;> simp
  · intro i; fin_cases i <;> norm_num
  · norm_num
  · show ⌊(1 / 2 : ℝ)⌋ ≠ ⌊(5 / 2 : ℝ)⌋
    norm_num
  · intro cur
    refine ⟨by simp [cur, input, SMap.keys, new, env], by simp [cur, input, SMap.keys, new],
      by simp [cur, input, SMap.keys, env], ⟨by simp [ModelCov.scales, CovType.scales], ?_⟩, fun i => rfl⟩
    intro s hs
    simp only [ModelCov.scales, CovType.scales, List.append_nil, List.mem_singleton] at hs
    subst hs
    have : cur "squared_exponential_length_scale" = 2 := by simp [cur, input, SMap.keys, new]
    rw [this]
    refine ⟨by norm_num, fun x hx y hy => ?_⟩
    simp only [List.mem_ofFn] at hx hy
    obtain ⟨i, rfl⟩ := hx
    obtain ⟨j, rfl⟩ := hy
    fin_cases i <;> fin_cases j <;> norm_num

/-- C116 for every mean function. -/
def SparseHonoursMean : Prop :=
  ∀ (b : Build) (mt : MeanType) (ct : ModelCov) (model : Handler), SparseModelOf mt ct model →
    ∀ env : String → ℝ, Names env model.getParams → 0 < env "measurement_nugget" → 0 < env "inducing_nugget" →
    ∀ (s : InducingStrategy) (rt : SparseRoutines), rt.Meets → ∀ (n : Nat) (train : Fin n → ℝ), 0 < n →
    StrategyReady ct env (List.ofFn train) s → ∀ t : Marginal (Fin n), (∀ i, 0 ≤ t.variance i) → ∀ xs : Fin 1 → ℝ,
    ∃ (m : Nat) (u : Fin m → ℝ) (p : Joint (Fin 1)),
      setSparseFitPredict b mt ct s (fun _ => ()) rt train t xs model [] = .ok (some (List.ofFn u, p)) ∧
      IsSparsePosterior mt ct env u (fun _ => ()) train t xs p

/-- The model of the counterexample: a constant covariance and a mean that is one everywhere. -/
noncomputable def offsetSparse : Handler :=
  sparseFromCovarianceAndMean (makeConstant (.fin 1)) (.declared [("slope", ⟨.fin 0, .fixed⟩), ("offset", ⟨.fin 1, .fixed⟩)])

@[inherit_doc offsetSparse]
noncomputable def offsetEnv (k : String) : ℝ :=
  if k = "slope" then 0 else if k = "offset" ∨ k = "sigma_constant" then 1 else 10⁻¹ ^ 8

theorem offsetSparse_is : SparseModelOf .linear (.plain .constant) offsetSparse ∧ Names offsetEnv offsetSparse.getParams := by
  have hm : MeanType.linear.Has (.declared [("slope", ⟨.fin 0, .fixed⟩), ("offset", ⟨.fin 1, .fixed⟩)]) := rfl
  have hc : (ModelCov.plain .constant).Has (makeConstant (.fin 1)) := rfl
  obtain ⟨h1, h2, -⟩ := C116_factory .linear (.plain .constant) _ _ hm hc
    (by simp [Handler.Separate]) (by simp [Handler.Separate, makeConstant])
    (by
      intro k hk hk'
      rw [SMap.mem_keys, find?_declared, ← SMap.mem_keys] at hk
      rw [makeConstant, SMap.mem_keys, find?_declared, ← SMap.mem_keys] at hk'
      simp [SMap.keys] at hk hk'
      subst hk'
      revert hk; decide)
  refine ⟨h1, fun k p hk => ?_⟩
  rw [offsetSparse, h2] at hk
  split_ifs at hk with hn
  · cases hk
    rcases hn with rfl | rfl <;> simp [offsetEnv]
  · rw [makeConstant, find?_declared, find?_declared] at hk
    simp only [SMap.find?] at hk
    unfold offsetEnv
    split_ifs at hk ⊢ <;> simp_all
    all_goals (rw [← hk])

/-- C116 is false for a mean function that is not zero at the training points: the targets are not centred. -/
theorem C116_mean_false : ¬ SparseHonoursMean := by
  intro hall
  obtain ⟨rt, hrt⟩ := exists_routines
  obtain ⟨hm, hN⟩ := offsetSparse_is
  have p1 : 0 < offsetEnv "measurement_nugget" := by simp [offsetEnv]
  have p2 : 0 < offsetEnv "inducing_nugget" := by simp [offsetEnv]
  let train : Fin 1 → ℝ := fun _ => 0
  let t : Marginal (Fin 1) := ⟨fun _ => 0, fun _ => 0⟩
  have hr : StrategyReady (.plain .constant) offsetEnv (List.ofFn train) (.uniform 2) := ⟨le_rfl, by norm_num⟩
  have hcur : offsetEnv = fun k => if k ∈ SMap.keys ([] : ParameterStore) then offsetEnv k else offsetEnv k := by
    funext k; simp
  obtain ⟨m, u, p, e1, e2⟩ := hall .debug _ _ _ hm _ hN p1 p2 (.uniform 2) rt hrt 1 train one_pos hr t (fun _ => le_rfl) fun _ => 0
  obtain ⟨m', u', p', f0, f1, -, f3, f4, -⟩ := C116_code_value .debug _ _ _ hm _ hN [] SMap.wf_nil offsetEnv
    (fun k p h => by cases h) (fun k h => by cases h) (.uniform 2) (fun _ => ()) rt hrt train one_pos t (fun _ => le_rfl)
    (fun _ : Fin 1 => (0 : ℝ)) offsetEnv hcur p1 p2 hr
  rw [e1] at f1
  simp only [Except.ok.injEq, Option.some.injEq, Prod.mk.injEq] at f1
  obtain ⟨hu, rfl⟩ := f1
  have hs := List.ofFn_inj'.1 hu
  cases hs
  have g1 := e2.mean 0
  have g2 := f4.mean 0
  rw [g1] at g2
  set S := groupedCov (.plain .constant) offsetEnv u (fun _ => ()) train t.variance with hS
  have hSpos : 0 < S⁻¹ 0 0 := f3.inv.diag_pos
  have hv : 0 < viaInducing (.plain .constant) offsetEnv u 0 0 := by
    have hK : (inducingCov (.plain .constant) offsetEnv u).PosDef := by
      have h1 : (of fun k l => (ModelCov.plain .constant).signal offsetEnv (u k) (u l) : Matrix (Fin m) (Fin m) ℝ).PosSemidef :=
        (signal_psd _ _).matrix_fintype u
      have h2 : inducingCov (.plain .constant) offsetEnv u = (diagonal fun _ => offsetEnv "inducing_nugget") +
          of fun k l => (ModelCov.plain .constant).signal offsetEnv (u k) (u l) := by
        ext k l
        simp only [inducingCov, of_apply, Matrix.add_apply, diagonal_apply]
        ring
      rw [h2]
      exact (Matrix.PosDef.diagonal fun _ => p2).add_posSemidef h1
    have hne : (fun _ : Fin m => (1 : ℝ)) ≠ 0 := by
      intro h
      have := congrFun h ⟨0, f0⟩
      simp at this
    have := hK.inv.dotProduct_mulVec_pos hne
    have e : viaInducing (.plain .constant) offsetEnv u 0 0 =
        star (fun _ : Fin m => (1 : ℝ)) ⬝ᵥ (inducingCov (.plain .constant) offsetEnv u)⁻¹ *ᵥ fun _ => 1 := by
      simp [viaInducing, ModelCov.signal, CovType.formula, offsetEnv, dotProduct, mulVec]
    rw [e]; exact this
  have hf : MeanType.linear.formula offsetEnv 0 = 1 := by simp [MeanType.formula, offsetEnv]
  simp only [Finset.univ_unique, Fin.default_eq_zero, Finset.sum_singleton, mulVec, dotProduct, train, t, hf] at g2
  have := mul_pos hv hSpos
  nlinarith

theorem allFinite_eq_some {l : List Dbl} {us : List ℝ} (h : allFinite l = some us) : l = us.map .fin := by
  induction l generalizing us with
  | nil => simp only [allFinite, Option.some.injEq] at h; subst h; rfl
  | cons a t ih =>
    cases a with
    | fin v =>
      simp only [allFinite, Option.map_eq_some_iff] at h
      obtain ⟨us', h1, rfl⟩ := h
      rw [ih h1]; rfl
    | _ => simp [allFinite] at h

/-- C116. The model is fitted with all the inducing points the strategy computes, none is dropped; they and the nuggets are
finite. -/
theorem C116_inducing_points {κ : Type} {n : Nat} (b : Build) (mt : MeanType) (ct : ModelCov) (s : InducingStrategy)
    (group : ℝ → κ) (train : Fin n → ℝ) (model : Handler) (g : SparseGp MeasDouble κ)
    (h : sparseSetup b mt ct s group train model = .ok (some g)) :
    ∃ (mn inn : Parameter) (m c : Handler) (us : List ℝ), model = .sparse mn inn m c ∧
      s.points b ct c (List.ofFn fun i => .fin (train i)) = some (.ok (us.map .fin)) ∧
      mn.value = .fin g.measurementNugget ∧ inn.value = .fin g.inducingNugget ∧
      ∀ xs, g.inducing xs = us.map fun u => ⟨false, u⟩ := by
  unfold sparseSetup at h
  split at h
  · rename_i mn pm inn pin m c
    split_ifs at h with hd
    · split at h
      · exact nomatch Except.ok.inj h
      · rename_i points hp
        cases points with
        | error e => exact nomatch h
        | ok l =>
          have h' := Except.ok.inj h
          obtain ⟨us, h1, h2⟩ := Option.map_eq_some_iff.1 h'
          refine ⟨_, _, m, c, us, rfl, ?_, ?_, ?_, ?_⟩
          · rw [hp, allFinite_eq_some h1]
          · rw [← h2]; rfl
          · rw [← h2]; rfl
          · rw [← h2]; intro xs; rfl
    · exact nomatch Except.ok.inj h
  · exact nomatch Except.ok.inj h

/-- The model of the counterexample, two inducing points. -/
example : ∃ g, sparseSetup .debug .linear (.plain .constant) (.uniform 2) (fun x => x) (fun i : Fin 3 => (i : ℝ))
    offsetSparse = .ok (some g) := by
  obtain ⟨us, -, -, h⟩ := sparseSetup_ok .debug offsetSparse_is.1 offsetEnv offsetSparse_is.2 (.uniform 2) (fun x => x)
    (fun i : Fin 3 => (i : ℝ)) (by norm_num) (by simp [StrategyReady])
  exact ⟨_, h⟩

end Albatross
