import Verif.WholeModel
import Verif.ProvidedFunctionsProps
import Verif.GpProps
import Verif.TuneRunProps
import Mathlib.Analysis.Complex.ExponentialBounds

/-! # C115: from named parameters to predictions -/

namespace Albatross

open Matrix Handler

/-! ## Specification -/

/-- The covariance of the process at two points, and the covariance of the measurement errors. -/
noncomputable def ModelCov.signal (env : String → ℝ) : ModelCov → ℝ → ℝ → ℝ
  | .plain t, x, y => t.formula env x y
  | .measOnly _, _, _ => 0
  | .sum a b, x, y => a.signal env x y + b.signal env x y

@[inherit_doc ModelCov.signal]
noncomputable def ModelCov.error (env : String → ℝ) : ModelCov → ℝ → ℝ → ℝ
  | .plain _, _, _ => 0
  | .measOnly t, x, y => t.formula env x y
  | .sum a b, x, y => a.error env x y + b.error env x y

/-- The covariance of measurements at `train` that have independent further errors with variances `v`. -/
noncomputable def measuredCov {n : Type} [DecidableEq n] (ct : ModelCov) (env : String → ℝ) (train : n → ℝ) (v : n → ℝ) :
    Matrix n n ℝ :=
  of fun i j => ct.signal env (train i) (train j) + ct.error env (train i) (train j) + if i = j then v i else 0

/-- The textbook posterior of the process at `xs`, from measurements at `train`. -/
structure IsPosterior {n q : Type} [Fintype n] [DecidableEq n] (mt : MeanType) (ct : ModelCov) (env : String → ℝ)
    (train : n → ℝ) (t : Marginal n) (xs : q → ℝ) (p : Joint q) : Prop where
  mean : ∀ j, p.mean j = mt.formula env (xs j) + ∑ i, ct.signal env (xs j) (train i) *
    ((measuredCov ct env train t.variance)⁻¹ *ᵥ fun k => t.mean k - mt.formula env (train k)) i
  covariance : ∀ j j', p.covariance j j' = ct.signal env (xs j) (xs j') -
    ∑ i, ∑ k, ct.signal env (xs j) (train i) * (measuredCov ct env train t.variance)⁻¹ i k *
      ct.signal env (train k) (xs j')

/-- The object is one of this type. -/
def ModelCov.Has : ModelCov → Handler → Prop
  | .plain t, h => t.Has h
  | .measOnly t, .wrapped h => t.Has h
  | .sum a b, .both l r => a.Has l ∧ b.Has r
  | _, _ => False

/-! ## Lemmas -/

theorem formula_psd (t : CovType) (env : String → ℝ) : IsPSD (t.formula env) := by
  induction t with
  | radial k =>
    have : (CovType.radial k).formula env =
        fun x y => k.cov (euclideanDistance x y) (env k.lengthName) (env k.sigmaName) := by
      funext x y; rw [RadialKind.cov_formula]
    rw [this]
    cases k
    · exact C22_squared_exponential_real_psd _ _
    · exact C22_exponential_real_psd _ _
    · exact C22_matern_32_real_psd _ _
    · exact C22_matern_52_real_psd _ _
  | constant =>
    have : CovType.constant.formula env = constantCov (env "sigma_constant") := by
      funext x y; simp only [CovType.formula, sq]; rfl
    rw [this]; exact C22_constant_psd _
  | noise =>
    have : CovType.noise.formula env = noiseCov (env "sigma_independent_noise") := by
      funext x y; simp only [CovType.formula, sq]; rfl
    rw [this]; exact C22_noise_psd _
  | nugget =>
    have : CovType.nugget.formula env = noiseCov (env "nugget_sigma") := by
      funext x y; simp only [CovType.formula, sq]; rfl
    rw [this]; exact C22_noise_psd _
  | polynomial order =>
    have : (CovType.polynomial order).formula env = polynomialCov order fun i => env (polynomialName i) := by
      funext x y
      rw [polynomialCov_eq]
      simp only [CovType.formula]
      refine Finset.sum_congr rfl fun i _ => ?_
      show env (polynomialName i) ^ 2 * (x * y) ^ i = env (polynomialName i) * x ^ i * (env (polynomialName i) * y ^ i)
      rw [mul_pow]; ring
    rw [this]; exact C22_polynomial_psd _ _
  | sum a b ia ib => exact ia.add ib
  | product a b ia ib => exact ia.mul ib

theorem signal_psd (ct : ModelCov) (env : String → ℝ) : IsPSD (ct.signal env) := by
  induction ct with
  | plain t => exact formula_psd t env
  | measOnly t => exact IsPSD.const le_rfl
  | sum a b ia ib => exact ia.add ib

theorem error_psd (ct : ModelCov) (env : String → ℝ) : IsPSD (ct.error env) := by
  induction ct with
  | plain t => exact IsPSD.const le_rfl
  | measOnly t => exact formula_psd t env
  | sum a b ia ib => exact ia.add ib

theorem ModelCov.Has.proper {t : ModelCov} {h : Handler} (hh : t.Has h) : h.Proper := by
  induction t generalizing h with
  | plain t => exact CovType.Has.proper hh
  | measOnly t =>
    cases h <;> simp only [ModelCov.Has] at hh
    have := CovType.Has.proper hh
    exact this
  | sum a b ia ib =>
    cases h <;> simp only [ModelCov.Has] at hh
    exact ⟨ia hh.1, ib hh.2⟩

theorem ModelCov.Has.sameType {t : ModelCov} {h h' : Handler} (hh : t.Has h) (hs : h.SameType h') (hp : h'.Proper) :
    t.Has h' := by
  induction t generalizing h h' with
  | plain t => exact CovType.Has.sameType hh hs hp
  | measOnly t =>
    cases h <;> simp only [ModelCov.Has] at hh
    cases h' <;> simp only [Handler.SameType] at hs
    exact CovType.Has.sameType hh hs hp
  | sum a b ia ib =>
    cases h <;> simp only [ModelCov.Has] at hh
    cases h' <;> simp only [Handler.SameType] at hs
    exact ⟨ia hh.1 hs.1 hp.1, ib hh.2 hs.2 hp.2⟩

theorem ModelCov.Has.names_ne {t : ModelCov} {h : Handler} (ht : t.Has h) : ∀ k ∈ h.getParams.keys, k ≠ "" := by
  induction t generalizing h with
  | plain t => exact CovType.Has.names_ne ht
  | measOnly t =>
    cases h <;> simp only [ModelCov.Has] at ht
    have := CovType.Has.names_ne ht
    exact this
  | sum a b ia ib =>
    cases h <;> simp only [ModelCov.Has] at ht
    intro j hj
    rw [SMap.mem_keys, find?_both ht.1.proper ht.2.proper, Option.isSome_or, Bool.or_eq_true, ← SMap.mem_keys,
      ← SMap.mem_keys] at hj
    exact hj.elim (ib ht.2 j) (ia ht.1 j)

theorem MeanType.Has.names_ne {t : MeanType} {h : Handler} (ht : t.Has h) : ∀ k ∈ h.getParams.keys, k ≠ "" := by
  induction t generalizing h with
  | zero =>
    cases h <;> simp only [MeanType.Has] at ht
    subst ht
    intro k hk
    simp [Handler.getParams, SMap.keys] at hk
  | linear =>
    cases h <;> simp only [MeanType.Has] at ht
    intro j hj
    rw [SMap.mem_keys, find?_declared, ← SMap.mem_keys] at hj
    have : j ∈ ["slope", "offset"] := by rw [← ht]; exact hj
    simp only [List.mem_cons, List.not_mem_nil, or_false] at this
    rcases this with rfl | rfl <;> decide
  | sum a b ia ib | product a b ia ib =>
    cases h <;> simp only [MeanType.Has] at ht
    intro j hj
    rw [SMap.mem_keys, find?_both ht.1.proper ht.2.proper, Option.isSome_or, Bool.or_eq_true, ← SMap.mem_keys,
      ← SMap.mem_keys] at hj
    exact hj.elim (ib ht.2 j) (ia ht.1 j)

/-- What the covariance function of a model computes. -/
theorem modelCov_computes (t : ModelCov) (h : Handler) (ht : t.Has h) (hs : h.Separate) (env : String → ℝ)
    (he : Names env h.getParams) (x y : MeasDouble) :
    t.call h x y = some (t.signal env x.value y.value + if x.meas && y.meas then t.error env x.value y.value else 0) := by
  induction t generalizing h with
  | plain t =>
    simp only [ModelCov.call, C113_computes_partial t h ht hs env he, ModelCov.signal, ModelCov.error, ite_self, add_zero]
  | measOnly t =>
    cases h <;> simp only [ModelCov.Has] at ht
    simp only [ModelCov.call, C113_computes_partial t _ ht hs env he, ModelCov.signal, ModelCov.error, zero_add]
    split_ifs <;> rfl
  | sum a b ia ib =>
    cases h <;> simp only [ModelCov.Has] at ht
    obtain ⟨el, er⟩ := names_left hs he
    simp only [ModelCov.call, ia _ ht.1 hs.1 el, ib _ ht.2 hs.2.1 er, ModelCov.signal, ModelCov.error]
    simp only [Option.bind_eq_bind, Option.bind_some, Option.pure_def, Option.some.injEq]
    split_ifs <;> ring

theorem names_gp {env : String → ℝ} {ps : ParameterStore} {m c : Handler} (hs : (gp ps m c).Separate)
    (he : Names env (gp ps m c).getParams) : Names env m.getParams ∧ Names env c.getParams := by
  obtain ⟨w, sm, sc, d1, d2⟩ := hs
  constructor
  · intro k p hk
    refine he k p ?_
    have : c.getParams.find? k = none := by
      have := d2 k (SMap.mem_keys.2 (by simp [hk]))
      rw [SMap.mem_keys] at this
      simpa using this
    rw [find?_gp w sm.proper sc.proper, this, Option.none_or, hk, Option.some_or]
  · intro k p hk
    refine he k p ?_
    rw [find?_gp w sm.proper sc.proper, hk, Option.some_or, Option.some_or]

/-- A model of these types. -/
structure ModelOf (mt : MeanType) (ct : ModelCov) (model : Handler) : Prop where
  is : ∃ ps m c, model = gp ps m c ∧ mt.Has m ∧ ct.Has c ∧ ∀ k ∈ ps.keys, k ≠ ""
  separate : model.Separate

theorem ModelOf.names_ne {mt : MeanType} {ct : ModelCov} {model : Handler} (h : ModelOf mt ct model) :
    ∀ k ∈ model.getParams.keys, k ≠ "" := by
  obtain ⟨⟨ps, m, c, rfl, hm, hc, hn⟩, hs⟩ := h
  intro k hk
  rw [SMap.mem_keys, find?_gp hs.1 hm.proper hc.proper, Option.isSome_or, Option.isSome_or, Bool.or_eq_true,
    Bool.or_eq_true, ← SMap.mem_keys, ← SMap.mem_keys, ← SMap.mem_keys] at hk
  rcases hk with (hk | hk) | hk
  · exact hc.names_ne k hk
  · exact hm.names_ne k hk
  · exact hn k hk

/-- Setting parameters gives a model of the same types. -/
theorem ModelOf.set {mt : MeanType} {ct : ModelCov} {model : Handler} (h : ModelOf mt ct model) (b : Build)
    (input : ParameterStore) (hi : SMap.WF input) (hsub : ∀ k ∈ input.keys, k ∈ model.getParams.keys) :
    ∃ model', setAll b model input = .ok model' ∧ ModelOf mt ct model' ∧
      ∀ k, model'.getParams.find? k = (input.find? k).or (model.getParams.find? k) := by
  obtain ⟨model', h1, h2, h3⟩ := C25_set_params_partial b model h.separate input hi h.names_ne hsub
  obtain ⟨h4, h5⟩ := setAll_sameType h.separate.proper h1
  obtain ⟨⟨ps, m, c, rfl, hm, hc, hn⟩, hs⟩ := h
  refine ⟨model', h1, ⟨?_, h2⟩, h3⟩
  cases model' <;> simp only [Handler.SameType] at h4
  rename_i ps' m' c'
  refine ⟨ps', m', c', rfl, hm.sameType h4.2.1 h5.2.1, hc.sameType h4.2.2 h5.2.2, fun k hk => hn k ?_⟩
  rw [h4.1]; exact hk

theorem ModelOf.computes {mt : MeanType} {ct : ModelCov} {ps : ParameterStore} {m c : Handler}
    (h : ModelOf mt ct (gp ps m c)) (env : String → ℝ) (he : Names env (gp ps m c).getParams) :
    CallsDefined mt ct m c ∧ modelGp mt ct m c =
      ⟨fun x y => ct.signal env x.value y.value + if x.meas && y.meas then ct.error env x.value y.value else 0,
        fun x => mt.formula env x.value, fun x => ⟨true, x.value⟩⟩ := by
  obtain ⟨⟨ps', m', c', e, hm, hc, -⟩, hs⟩ := h
  cases e
  obtain ⟨em, ec⟩ := names_gp hs he
  have h1 := modelCov_computes ct c hc hs.2.2.1 env ec
  have h2 := C113_mean_computes_partial mt m hm hs.2.1 env em
  refine ⟨⟨fun x y => by rw [h1]; rfl, fun x => by rw [h2]; rfl⟩, ?_⟩
  simp only [modelGp, h1, h2, Option.getD_some]

theorem obsCovariance_model {n : Type} [DecidableEq n] [Fintype n] (mt : MeanType) (ct : ModelCov) (env : String → ℝ)
    (train v : n → ℝ) :
    obsCovariance (⟨fun x y => ct.signal env x.value y.value + if x.meas && y.meas then ct.error env x.value y.value else 0,
        fun x => mt.formula env x.value, fun x => ⟨true, x.value⟩⟩ : Gp MeasDouble) (fun i => ⟨false, train i⟩) v =
      measuredCov ct env train v := by
  ext i j
  simp [obsCovariance, measuredCov]

theorem modelGp_psd (ct : ModelCov) (env : String → ℝ) : IsPSD fun x y : MeasDouble =>
    ct.signal env x.value y.value + if x.meas && y.meas then ct.error env x.value y.value else 0 := by
  have h1 : IsPSD fun x y : MeasDouble => ct.signal env x.value y.value := (signal_psd ct env).comp MeasDouble.value
  have h2 : IsPSD fun x y : MeasDouble => ct.error env x.value y.value := (error_psd ct env).comp MeasDouble.value
  have h3 : IsPSD fun x y : MeasDouble => (if x.meas then (1 : ℝ) else 0) * if y.meas then (1 : ℝ) else 0 :=
    IsPSD.rank_one _
  refine cast (congrArg IsPSD ?_) (h1.add (h3.mul h2))
  funext x y
  cases x.meas <;> cases y.meas <;> simp

/-- Fitting and predicting with a model that shows the parameters `env`. -/
theorem fitPredict_ok {n q : Type} [Fintype n] [DecidableEq n] [Fintype q] {mt : MeanType} {ct : ModelCov}
    {model : Handler} (h : ModelOf mt ct model) (env : String → ℝ) (he : Names env model.getParams)
    (ldlt : Matrix n n ℝ → Ldlt n) (hl : ∀ A, A.PosDef → (ldlt A).Factors A) (train : n → ℝ) (t : Marginal n)
    (hv : ∀ i, 0 ≤ t.variance i) (hpd : (measuredCov ct env train t.variance).PosDef) (xs : q → ℝ) :
    ∃ p, fitPredict mt ct ldlt train t xs model = some p ∧ IsPosterior mt ct env train t xs p ∧
      p.covariance.PosSemidef ∧
      ((of fun j j' => ct.signal env (xs j) (xs j')) - p.covariance).PosSemidef := by
  obtain ⟨ps, m, c, rfl, -⟩ := h.is
  obtain ⟨h1, h2⟩ := h.computes env he
  simp only [fitPredict, if_pos h1, h2]
  refine ⟨_, rfl, ?_⟩
  set g : Gp MeasDouble :=
    ⟨fun x y => ct.signal env x.value y.value + if x.meas && y.meas then ct.error env x.value y.value else 0,
        fun x => mt.formula env x.value, fun x => ⟨true, x.value⟩⟩ with hg
  have hobs : obsCovariance g (fun i => ⟨false, train i⟩) t.variance = measuredCov ct env train t.variance :=
    obsCovariance_model mt ct env train t.variance
  have hF : (ldlt (obsCovariance g (fun i => ⟨false, train i⟩) t.variance)).Factors
      (obsCovariance g (fun i => ⟨false, train i⟩) t.variance) := by rw [hobs]; exact hl _ hpd
  have hA : IsUnit (obsCovariance g (fun i => ⟨false, train i⟩) t.variance).det := by
    rw [hobs]; exact (Matrix.isUnit_iff_isUnit_det _).1 hpd.isUnit
  have hk : IsPSD g.cov := modelGp_psd ct env
  obtain ⟨f1, f2⟩ := C27_prediction_formulas g hk.1 ldlt (fun i => ⟨false, train i⟩) t hF hA fun j => ⟨false, xs j⟩
  obtain ⟨p1, p2⟩ := C27_covariance_psd g hk (fun x y => ct.error env x.value y.value)
    ((error_psd ct env).comp MeasDouble.value) ldlt (fun i => ⟨false, train i⟩) (by intro i j; simp [hg]) t hv hF hA
    fun j => ⟨false, xs j⟩
  rw [hobs] at f1 f2
  have hs := (signal_psd ct env).1
  refine ⟨⟨fun j => ?_, fun j j' => ?_⟩, p1, ?_⟩
  · rw [f1]
    simp only [hg, Matrix.mulVec, dotProduct, transpose_apply, of_apply, Bool.and_self, Bool.false_eq_true, if_false,
      add_zero, hs (train _) (xs j)]
  · rw [f2]
    simp only [hg, Matrix.sub_apply, Matrix.mul_apply, transpose_apply, of_apply, Bool.and_self, Bool.false_eq_true,
      if_false, add_zero, hs (train _) (xs j), Finset.sum_mul]
    rw [Finset.sum_comm]
  · simpa [hg] using p2

/-! ## Theorems -/

/-- C115.  Full claim: for every model of provided functions, `set_params` followed by fitting and predicting gives the
textbook posterior for the named values just set and, for the others, the values shown before; for all data.  Proved for
models without a name used twice (`C113_shared_false`).  The posterior covariance is positive semi-definite and never above
the prior covariance. -/
theorem C115_predict_partial {n q : Type} [Fintype n] [DecidableEq n] [Fintype q] (b : Build) (mt : MeanType)
    (ct : ModelCov) (model : Handler) (h : ModelOf mt ct model) (env : String → ℝ) (he : Names env model.getParams)
    (input : ParameterStore) (hi : SMap.WF input) (new : String → ℝ) (hnew : Names new input)
    (hsub : ∀ k ∈ input.keys, k ∈ model.getParams.keys)
    (ldlt : Matrix n n ℝ → Ldlt n) (hl : ∀ A, A.PosDef → (ldlt A).Factors A) (train : n → ℝ) (t : Marginal n)
    (hv : ∀ i, 0 ≤ t.variance i)
    (hpd : (measuredCov ct (fun k => if k ∈ input.keys then new k else env k) train t.variance).PosDef) (xs : q → ℝ) :
    ∃ p, setFitPredict b mt ct ldlt train t xs model input = .ok (some p) ∧
      IsPosterior mt ct (fun k => if k ∈ input.keys then new k else env k) train t xs p ∧
      p.covariance.PosSemidef ∧
      ((of fun j j' => ct.signal (fun k => if k ∈ input.keys then new k else env k) (xs j) (xs j')) -
        p.covariance).PosSemidef := by
  obtain ⟨model', h1, h2, h3⟩ := h.set b input hi hsub
  have he' : Names (fun k => if k ∈ input.keys then new k else env k) model'.getParams := by
    intro k p hk
    rw [h3] at hk
    simp only [SMap.mem_keys]
    cases hf : input.find? k with
    | none =>
      rw [hf, Option.none_or] at hk
      simpa using he k p hk
    | some q =>
      rw [hf, Option.some_or] at hk
      cases hk
      simpa using hnew k _ hf
  obtain ⟨p, e1, e2⟩ := fitPredict_ok h2 _ he' ldlt hl train t hv hpd xs
  exact ⟨p, by simp only [setFitPredict, h1, except_ok_bind, e1]; rfl, e2⟩

/-- C115: the measurements have an invertible covariance whenever every target has a positive variance, whatever the
parameters are; and with errors of the same positive variance at different points. -/
theorem C115_invertible {n : Type} [Fintype n] [DecidableEq n] (ct : ModelCov) (env : String → ℝ) (train : n → ℝ)
    (v : n → ℝ) :
    ((∀ i, 0 < v i) → (measuredCov ct env train v).PosDef) ∧
    (Function.Injective train → (∀ i, 0 ≤ v i) → env "sigma_independent_noise" ≠ 0 →
      (measuredCov (.sum ct (.measOnly .noise)) env train v).PosDef) := by
  have h1 : (of fun i j => ct.signal env (train i) (train j) : Matrix n n ℝ).PosSemidef :=
    (signal_psd ct env).matrix_fintype train
  have h2 : (of fun i j => ct.error env (train i) (train j) : Matrix n n ℝ).PosSemidef :=
    (error_psd ct env).matrix_fintype train
  constructor
  · intro hv
    have : measuredCov ct env train v = (of fun i j => ct.signal env (train i) (train j)) +
        (of fun i j => ct.error env (train i) (train j)) + diagonal v := by
      ext i j; simp [measuredCov, diagonal_apply]
    rw [this]
    exact Matrix.PosDef.posSemidef_add (h1.add h2) (Matrix.PosDef.diagonal hv)
  · intro hi hv hs
    have : measuredCov (.sum ct (.measOnly .noise)) env train v = (of fun i j => ct.signal env (train i) (train j)) +
        (of fun i j => ct.error env (train i) (train j)) +
        diagonal fun i => env "sigma_independent_noise" ^ 2 + v i := by
      ext i j
      simp only [measuredCov, ModelCov.signal, ModelCov.error, CovType.formula, of_apply, Matrix.add_apply,
        diagonal_apply, hi.eq_iff]
      split_ifs <;> ring
    rw [this]
    refine Matrix.PosDef.posSemidef_add (h1.add h2) (Matrix.PosDef.diagonal fun i => ?_)
    have := hv i
    positivity

/-! ### Tuning -/

/-- What the tuner should minimise: the negative log density of the measurements, less the log density of the parameters. -/
noncomputable def textbookObjective {k : Nat} (mt : MeanType) (ct : ModelCov) (env : String → ℝ) (train : Fin k → ℝ)
    (v y : Fin k → ℝ) (store : ParameterStore) : Dbl :=
  -(.fin (gaussianLogPdf (fun i => mt.formula env (train i)) (measuredCov ct env train v) y) +
    parameterPriorLogLikelihood store)

theorem meanAggregator_singleton (x : Dbl) : meanAggregator [x] = x := by
  show (Dbl.fin 0 + x) / .fin ((1 : Nat) : ℝ) = x
  cases x with
  | fin x =>
    show Dbl.div (.fin (0 + x)) (.fin ((1 : Nat) : ℝ)) = _
    simp [Dbl.div]
  | pinf =>
    show Dbl.div .pinf (.fin ((1 : Nat) : ℝ)) = _
    norm_num [Dbl.div]
  | ninf =>
    show Dbl.div .ninf (.fin ((1 : Nat) : ℝ)) = _
    norm_num [Dbl.div]
  | nan => rfl

theorem TunedFrom.keys {a c : ParameterStore} (h : TunedFrom a c) : c.keys = a.keys := by
  have := h.1
  clear h
  induction this with
  | nil => rfl
  | cons h _ ih =>
    simp only [SMap.keys, List.map_cons] at ih ⊢
    rw [ih, h.1]

theorem ModelOf.getParams_wf {mt : MeanType} {ct : ModelCov} {model : Handler} (h : ModelOf mt ct model) :
    SMap.WF model.getParams := Handler.getParams_wf h.separate.proper

/-- Setting all the parameters. -/
theorem ModelOf.setTuned {mt : MeanType} {ct : ModelCov} {model : Handler} (h : ModelOf mt ct model) (b : Build)
    {store : ParameterStore} (ht : TunedFrom model.getParams store) :
    ∃ model', setAll b model store = .ok model' ∧ ModelOf mt ct model' ∧ model'.getParams = store := by
  have hw : SMap.WF store := by
    rw [SMap.wf_iff_keys, ht.keys, ← SMap.wf_iff_keys]; exact h.getParams_wf
  obtain ⟨model', h1, h2, h3⟩ := h.set b store hw (by rw [ht.keys]; exact fun _ hk => hk)
  refine ⟨model', h1, h2, SMap.ext h2.getParams_wf hw fun k => ?_⟩
  rw [h3]
  cases hf : store.find? k with
  | some p => rfl
  | none =>
    rw [Option.none_or]
    cases hg : model.getParams.find? k with
    | none => rfl
    | some p =>
      have : k ∈ store.keys := by rw [ht.keys, SMap.mem_keys, hg]; rfl
      rw [SMap.mem_keys, hf] at this
      cases this

/-- The objective of the tuner, at parameters of the tuner: the textbook value without the variances of the targets. -/
theorem nllObjective_value {k : Nat} (b : Build) {mt : MeanType} {ct : ModelCov} {model : Handler}
    (h : ModelOf mt ct model) (ldlt : Matrix (Fin k) (Fin k) ℝ → Ldlt (Fin k))
    (hl : ∀ A, A.PosDef → (ldlt A).Factors A) (train : Fin k → ℝ) (t : Marginal (Fin k)) {store : ParameterStore}
    (ht : TunedFrom model.getParams store) (env : String → ℝ) (he : Names env store)
    (hpd : (measuredCov ct env train 0).PosDef) :
    nllObjective b mt ct ldlt train t model store = textbookObjective mt ct env train 0 t.mean store := by
  obtain ⟨model', h1, h2, h3⟩ := h.setTuned b ht
  simp only [nllObjective, modelObjective, h1, except_ok_bind, except_pure, List.map_cons, List.map_nil,
    meanAggregator_singleton]
  obtain ⟨ps, m, c, rfl, -⟩ := h2.is
  obtain ⟨g1, g2⟩ := h2.computes env (by rw [h3]; exact he)
  simp only [gpNll, if_pos g1, g2, h3, textbookObjective]
  have hobs := obsCovariance_model mt ct env train (0 : Fin k → ℝ)
  rw [C39_code_value _ ldlt 0 (fun i => (⟨false, train i⟩ : MeasDouble)) t (by rw [hobs]; exact hpd) (by rw [hobs]; exact hl _ hpd),
    hobs, add_zero]

/-- C115.  Full claim: tuning a model and then fitting and predicting with the tuned parameters gives the textbook posterior
at parameters that are within their bounds and, of all the parameters tried, make the measurements most probable.  Proved:
the posterior, the bounds, and the best of all tried as far as the density of the measurements without the variances of the
targets goes; with the variances the claim is false (`C115_variance_false`).  NLopt is any process that ends without a
failure and reports its best point. -/
theorem C115_tune_partial {k : Nat} {q : Type} [Fintype q] (b : Build) (mt : MeanType) (ct : ModelCov) (model : Handler)
    (h : ModelOf mt ct model) (ht : Tunable model.getParams) (ldlt : Matrix (Fin k) (Fin k) ℝ → Ldlt (Fin k))
    (hl : ∀ A, A.PosDef → (ldlt A).Factors A) (train : Fin k → ℝ) (t : Marginal (Fin k)) (hv : ∀ i, 0 ≤ t.variance i)
    (xs : q → ℝ) (run : NloptOpt → List Dbl → NloptRun)
    (hr : ∀ opt x, (run opt x).Regular (tunable model.getParams).length) (hb : ∀ opt x, (run opt x).ReportsBest []) :
    ∃ r pred, tuneFitPredict b mt ct ldlt train t xs run model = .ok (r, pred) ∧
      TunedFrom model.getParams r.output ∧ (∃ e ∈ r.evaluations, e.store = r.output) ∧
      (∀ new, Names new r.output → (measuredCov ct new train t.variance).PosDef →
        ∃ p, pred = some p ∧ IsPosterior mt ct new train t xs p) ∧
      ∀ e ∈ r.evaluations, TunedFrom model.getParams e.store ∧
        ∀ new other, Names new r.output → Names other e.store → (measuredCov ct new train 0).PosDef →
          (measuredCov ct other train 0).PosDef →
          ¬ textbookObjective mt ct other train 0 t.mean e.store < textbookObjective mt ct new train 0 t.mean r.output := by
  obtain ⟨r, minf, code, h1, h2, h3, h4, -⟩ := C110_run_partial b (nllObjective b mt ct ldlt train t model)
    model.getParams ht run hr []
  obtain ⟨-, h5, h6⟩ := h4 hb
  have h7 := C110_model_tuner b Handler.getParams (nllObjective b mt ct ldlt train t) model run [] ht.inside
  rw [h1] at h7
  obtain ⟨model', m1, m2, m3⟩ := h.setTuned b h2
  refine ⟨r, fitPredict mt ct ldlt train t xs model', ?_, h2, h5, fun new hn hpd => ?_, fun e he => ⟨(h3 e he).1, ?_⟩⟩
  · unfold tuneFitPredict
    cases ho : mkModelTuner Dbl.log b Handler.getParams model with
    | error f => rw [ho] at h7; cases h7
    | ok tuner =>
      rw [ho, except_ok_bind] at h7
      simp only [except_ok_bind, h7, setFitPredict, m1]
      rfl
  · obtain ⟨p, p1, p2, -⟩ := fitPredict_ok m2 new (by rw [m3]; exact hn) ldlt hl train t hv hpd xs
    exact ⟨p, p1, p2⟩
  · intro new other hn ho pn po hlt
    refine h6 e he ?_
    rw [nllObjective_value b h ldlt hl train t h2 new hn pn,
      nllObjective_value b h ldlt hl train t (h3 e he).1 other ho po]
    exact hlt

/-- A process with constant covariance and no mean. -/
noncomputable def constantModel (v : ℝ) : Handler := gp [] (.store []) (makeConstant (.fin v))

/-- Its parameters. -/
noncomputable def constantStore (v : ℝ) : ParameterStore := [("sigma_constant", ⟨.fin v, .nonNegative⟩)]

theorem constantModel_params (v : ℝ) : (constantModel v).getParams = constantStore v := by
  have hp : (Handler.store []).Proper := SMap.wf_nil
  refine SMap.ext (getParams_wf ⟨SMap.wf_nil, SMap.wf_nil, by simp [Proper, makeConstant]⟩) (by rw [constantStore, SMap.wf_cons]; simp)
    fun k => ?_
  rw [constantModel, find?_gp SMap.wf_nil hp (by simp [Proper, makeConstant]), makeConstant,
    find?_declared]
  simp [SMap.find?, Handler.getParams, constantStore]

theorem constantModel_of (v : ℝ) : ModelOf .zero (.plain .constant) (constantModel v) :=
  ⟨⟨[], .store [], makeConstant (.fin v), rfl, rfl, rfl, by simp [SMap.keys]⟩,
    SMap.wf_nil, SMap.wf_nil, by simp [Separate, makeConstant], by simp [SMap.keys],
    by simp [Handler.getParams, SMap.keys]⟩

theorem constantStore_names (v : ℝ) : Names (fun _ => v) (constantStore v) := by
  intro k p hk
  simp only [constantStore, SMap.find?] at hk
  split_ifs at hk
  cases hk
  rfl

theorem constantStore_tuned {u v : ℝ} (h0 : 0 ≤ v) :
    TunedFrom (constantModel u).getParams (constantStore v) := by
  rw [constantModel_params]
  refine ⟨.cons ⟨rfl, rfl, fun h => ?_⟩ .nil, ?_⟩
  · simp [Parameter.isFixed, Prior.isFixed] at h
  · intro kv hkv
    simp only [constantStore, List.mem_singleton] at hkv
    subst hkv
    exact ⟨by simp [Prior.lower]; exact h0, trivial⟩

theorem constantStore_tunable {v : ℝ} (h0 : 0 ≤ v) : Tunable (constantStore v) := by
  have ht : tunable (constantStore v) = constantStore v := by
    simp [tunable, constantStore, Parameter.isFixed, Prior.isFixed]
  refine ⟨by rw [constantStore, SMap.wf_cons]; simp, ?_, ?_, ?_, by rw [ht]; simp [constantStore]⟩
  · intro kv hkv
    simp only [constantStore, List.mem_singleton] at hkv
    subst hkv; exact fun h => h
  · unfold NotOutside; rw [ht]
    intro kv hkv
    simp only [constantStore, List.mem_singleton] at hkv
    subst hkv
    exact ⟨by simpa [Prior.lower] using h0, fun h => h⟩
  · intro kv hkv
    simp only [constantStore, List.mem_singleton] at hkv
    subst hkv; simp [Prior.upper, Prior.lower]

theorem gaussianLogPdf_single (s y : ℝ) (hs : 0 < s) (S : Matrix (Fin 1) (Fin 1) ℝ) (hS : S = diagonal fun _ => s) :
    gaussianLogPdf 0 S (fun _ => y) = -(1 / 2) * (y ^ 2 / s + Real.log s + Real.log (2 * Real.pi)) := by
  have hi : S⁻¹ = diagonal fun _ => s⁻¹ := by
    refine Matrix.inv_eq_right_inv ?_
    rw [hS, diagonal_mul_diagonal]
    simp [hs.ne']
  unfold gaussianLogPdf
  rw [hi, hS]
  simp [dotProduct, Matrix.mulVec, diagonal]
  ring

/-- The textbook value for one measurement `y` with variance `v`. -/
theorem constantStore_objective (σ v y : ℝ) (h0 : 0 ≤ σ) (h : 0 < σ ^ 2 + v) (train : Fin 1 → ℝ) :
    textbookObjective .zero (.plain .constant) (fun _ => σ) train (fun _ => v) (fun _ => y) (constantStore σ) =
      .fin (1 / 2 * (y ^ 2 / (σ ^ 2 + v) + Real.log (σ ^ 2 + v) + Real.log (2 * Real.pi))) ∧
    (measuredCov (.plain .constant) (fun _ => σ) train (fun _ => v)).PosDef := by
  have hS : measuredCov (.plain .constant) (fun _ => σ) train (fun _ => v) = diagonal fun _ => σ ^ 2 + v := by
    ext i j
    have : i = j := Subsingleton.elim _ _
    subst this
    simp [measuredCov, ModelCov.signal, ModelCov.error, CovType.formula]
  have hp : parameterPriorLogLikelihood (constantStore σ) = .fin 0 := by
    simp [parameterPriorLogLikelihood, constantStore, Parameter.priorLogLikelihood, Prior.logPdf, h0]
  refine ⟨?_, ?_⟩
  · unfold textbookObjective
    rw [hp, show (fun i => MeanType.zero.formula (fun _ => σ) (train i)) = (0 : Fin 1 → ℝ) from rfl,
      gaussianLogPdf_single _ y h _ hS]
    show Dbl.fin _ = _
    congr 1
    ring
  · rw [hS]; exact Matrix.PosDef.diagonal fun _ => h

/-- C115 is false for targets with variances: for one measurement of a constant, with value 2 and variance 2, the standard
deviation 1 makes it more probable than the standard deviation 2, but the objective of the tuner prefers 2, and no run of
the tuner that tries both returns 1. -/
theorem C115_variance_false (b : Build) (ldlt : Matrix (Fin 1) (Fin 1) ℝ → Ldlt (Fin 1))
    (hl : ∀ A, A.PosDef → (ldlt A).Factors A) : ∃ (train : Fin 1 → ℝ) (t : Marginal (Fin 1)),
    textbookObjective .zero (.plain .constant) (fun _ => 1) train t.variance t.mean (constantStore 1) <
      textbookObjective .zero (.plain .constant) (fun _ => 2) train t.variance t.mean (constantStore 2) ∧
    nllObjective b .zero (.plain .constant) ldlt train t (constantModel 1) (constantStore 2) <
      nllObjective b .zero (.plain .constant) ldlt train t (constantModel 1) (constantStore 1) ∧
    ∀ run : NloptOpt → List Dbl → NloptRun, (∀ opt x, (run opt x).Regular 1) → (∀ opt x, (run opt x).ReportsBest []) →
      ∃ r pred, tuneFitPredict b .zero (.plain .constant) ldlt train t train run (constantModel 1) = .ok (r, pred) ∧
        ((∃ e ∈ r.evaluations, e.store = constantStore 2) → r.output ≠ constantStore 1) := by
  have hlog : Real.log 4 = 2 * Real.log 2 := by
    rw [show (4 : ℝ) = 2 ^ 2 by norm_num, Real.log_pow]; norm_num
  have l6 : Real.log 6 = Real.log 3 + Real.log 2 := by
    rw [show (6 : ℝ) = 3 * 2 by norm_num, Real.log_mul (by norm_num) (by norm_num)]
  have g1 := Real.log_two_gt_d9
  have g2 := Real.log_two_lt_d9
  let train : Fin 1 → ℝ := fun _ => 0
  let t : Marginal (Fin 1) := ⟨fun _ => 2, fun _ => 2⟩
  obtain ⟨a1, -⟩ := constantStore_objective 1 2 2 (by norm_num) (by norm_num) train
  obtain ⟨a2, -⟩ := constantStore_objective 2 2 2 (by norm_num) (by norm_num) train
  obtain ⟨b1, p1⟩ := constantStore_objective 1 0 2 (by norm_num) (by norm_num) train
  obtain ⟨b2, p2⟩ := constantStore_objective 2 0 2 (by norm_num) (by norm_num) train
  have hobj : nllObjective b .zero (.plain .constant) ldlt train t (constantModel 1) (constantStore 2) <
      nllObjective b .zero (.plain .constant) ldlt train t (constantModel 1) (constantStore 1) := by
    rw [nllObjective_value b (constantModel_of 1) ldlt hl train t (constantStore_tuned (by norm_num)) _
      (constantStore_names 2) p2, nllObjective_value b (constantModel_of 1) ldlt hl train t
      (constantStore_tuned (by norm_num)) _ (constantStore_names 1) p1]
    refine (congrArg₂ (· < ·) b2 b1).mpr ?_
    rw [Dbl.fin_lt]
    norm_num [hlog]
    linarith
  refine ⟨train, t, ?_, hobj, fun run hr hb => ?_⟩
  · refine (congrArg₂ (· < ·) a1 a2).mpr ?_
    rw [Dbl.fin_lt]
    norm_num [l6]
    linarith
  · have hT : Tunable (constantModel 1).getParams := by
      rw [constantModel_params]; exact constantStore_tunable (by norm_num)
    have h1 : (tunable (constantModel 1).getParams).length = 1 := by
      rw [constantModel_params]; simp [tunable, constantStore, Parameter.isFixed, Prior.isFixed]
    obtain ⟨r, pred, r1, r2, -, -, r3⟩ := C115_tune_partial b .zero (.plain .constant) (constantModel 1)
      (constantModel_of 1) hT ldlt hl train t (fun _ => by norm_num [t]) train run (by rw [h1]; exact hr) hb
    refine ⟨r, pred, r1, ?_⟩
    rintro ⟨e, he, hes⟩ ho
    refine (r3 e he).2 (fun _ => 1) (fun _ => 2) (by rw [ho]; exact constantStore_names 1)
      (by rw [hes]; exact constantStore_names 2) p1 p2 ?_
    rw [hes, ho]
    refine (congrArg₂ (· < ·) b2 b1).mpr ?_
    rw [Dbl.fin_lt]
    norm_num [hlog]
    linarith

/-! ### The hypotheses are met -/

/-- A constant measured with independent errors. -/
noncomputable def noisyModel : Handler := gp [] (.store []) (.both (makeConstant (.fin 1)) (.wrapped (makeNoise (.fin 3))))

theorem noisyModel_find (k : String) : noisyModel.getParams.find? k =
    (SMap.find? [("sigma_independent_noise", (⟨.fin 3, .positive⟩ : Parameter))] k).or
      (SMap.find? [("sigma_constant", (⟨.fin 1, .nonNegative⟩ : Parameter))] k) := by
  have hp : (Handler.store []).Proper := SMap.wf_nil
  have hc : (makeConstant (.fin 1)).Proper := by simp [Proper, makeConstant]
  have hw : (Handler.wrapped (makeNoise (.fin 3))).Proper := by simp [Proper, makeNoise]
  have hb : (Handler.both (makeConstant (.fin 1)) (.wrapped (makeNoise (.fin 3)))).Proper := ⟨hc, hw⟩
  rw [noisyModel, find?_gp SMap.wf_nil hp hb, find?_both hc hw]
  show ((((makeNoise (.fin 3)).getParams.find? k).or ((makeConstant (.fin 1)).getParams.find? k)).or
    (SMap.find? (Handler.store []).getParams k)).or (SMap.find? [] k) = _
  rw [makeNoise, makeConstant, find?_declared, find?_declared]
  simp [Handler.getParams, SMap.find?]

/-- Setting the standard deviation of the constant to 2, for two measurements at one and the same point. -/
example : ∃ (env new : String → ℝ) (input : ParameterStore) (train : Fin 2 → ℝ) (t : Marginal (Fin 2)),
    ModelOf .zero (.sum (.plain .constant) (.measOnly .noise)) noisyModel ∧ Names env noisyModel.getParams ∧
    SMap.WF input ∧ Names new input ∧ (∀ k ∈ input.keys, k ∈ noisyModel.getParams.keys) ∧ (∀ i, 0 ≤ t.variance i) ∧
    (measuredCov (.sum (.plain .constant) (.measOnly .noise)) (fun k => if k ∈ input.keys then new k else env k) train
      t.variance).PosDef ∧
    measuredCov (.sum (.plain .constant) (.measOnly .noise)) (fun k => if k ∈ input.keys then new k else env k) train
      t.variance 0 1 = 13 := by
  refine ⟨fun k => if k = "sigma_constant" then 1 else 3, fun _ => 2, constantStore 2, fun _ => 5, ⟨fun _ => 0, fun _ => 1⟩,
    ⟨⟨[], _, _, rfl, rfl, ⟨rfl, rfl⟩, by simp [SMap.keys]⟩, SMap.wf_nil, SMap.wf_nil,
      ⟨by simp [Separate, makeConstant], by simp [Separate, makeNoise], ?_⟩, by simp [SMap.keys],
      by simp [Handler.getParams, SMap.keys]⟩, ?_, by rw [constantStore, SMap.wf_cons]; simp, constantStore_names 2, ?_,
    fun _ => by norm_num, (C115_invertible _ _ _ _).1 fun _ => by norm_num, ?_⟩
  · intro k h1 h2
    rw [SMap.mem_keys] at h1 h2
    have h3 : ((makeNoise (.fin 3)).getParams.find? k).isSome := h2
    simp only [makeConstant, makeNoise, find?_declared, SMap.find?] at h1 h3
    split_ifs at h1 h3 <;> simp_all
  · intro k p hk
    rw [noisyModel_find] at hk
    simp only [SMap.find?] at hk
    split_ifs at hk <;> simp_all
    all_goals (rw [← hk])
  · intro k hk
    simp only [constantStore, SMap.keys, List.map_cons, List.map_nil, List.mem_singleton] at hk
    subst hk
    rw [SMap.mem_keys, noisyModel_find]
    simp [SMap.find?]
  · simp [measuredCov, ModelCov.signal, ModelCov.error, CovType.formula, constantStore, SMap.keys]
    norm_num

/-- A run that tries 1 and 2 and reports the better. -/
noncomputable def tryBoth : NloptRun :=
  .ask [.fin 1] [] fun m _ => .ask [.fin 2] [] fun m' _ => if m' < m then .finish [.fin 2] m' 3 else .finish [.fin 1] m 3

example : ModelOf .zero (.plain .constant) (constantModel 1) ∧ Tunable (constantModel 1).getParams ∧
    (∀ (_ : NloptOpt) (_ : List Dbl), tryBoth.Regular (tunable (constantModel 1).getParams).length) ∧
    (∀ (_ : NloptOpt) (_ : List Dbl), tryBoth.ReportsBest []) := by
  rw [constantModel_params]
  have h1 : (tunable (constantStore 1)).length = 1 := by
    simp [tunable, constantStore, Parameter.isFixed, Prior.isFixed]
  rw [h1]
  refine ⟨constantModel_of 1, constantStore_tunable (by norm_num), fun _ _ => ?_, fun _ _ => ?_⟩
  · refine ⟨rfl, by simp, .inl rfl, fun m g => ⟨rfl, by simp, .inl rfl, fun m' g' => ?_⟩⟩
    dsimp only
    split_ifs <;> exact ⟨rfl, by simp, by simp⟩
  · intro m g m' g'
    have hirr : ∀ a : Dbl, ¬ a < a := Dbl.lt_irrefl
    dsimp only
    split_ifs with h1
    all_goals
      refine ⟨by simp, fun q hq => ?_⟩
      simp only [List.nil_append, List.cons_append, List.mem_cons, List.not_mem_nil, or_false] at hq
      rcases hq with rfl | rfl
    all_goals first | exact hirr _ | assumption | exact fun h => hirr _ (Dbl.lt_trans h ‹_›)

end Albatross
