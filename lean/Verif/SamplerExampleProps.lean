import Verif.SamplerExample
import Verif.StretchWalkersProps
import Verif.HandlersProps
import Verif.GpProps
import Mathlib.Analysis.SpecialFunctions.ImproperIntegrals

/-! # C140: what the sampler of a model samples

The objective of a model's sampler should be the logarithm of the posterior density of the tunable
parameters: the log likelihood and the log prior within the bounds of the priors, and not finite
outside, so that walkers stay where the priors allow.  The code sets the parameters with bounds
enforced, so outside the bounds the objective is what it is at the closest values within. -/

namespace Albatross

open MeasureTheory Set Matrix

open scoped ENNReal

/-! ## Any model -/

/-- Two vectors that stand for the same parameters once every value is moved to its bounds. -/
def SameWithinBounds (ex : Dbl → Dbl) (params : ParameterStore) (x y : List Dbl) : Prop :=
  x.length = y.length ∧ ∀ (j : Nat) (name : String) (p : Parameter) (v w : Dbl),
    (tunable params)[j]? = some (name, p) → x[j]? = some v → y[j]? = some w →
    ∃ u, IsClamp p.prior.lower p.prior.upper (toScale ex p v) u ∧ IsClamp p.prior.lower p.prior.upper (toScale ex p w) u

theorem ensureWithin_of_clamp {p : Parameter} {v u : Dbl} (h : IsClamp p.prior.lower p.prior.upper v u) :
    ensureWithinBounds p v = u := by
  unfold ensureWithinBounds
  split_ifs with h1 h2
  · exact (h.1 h1).symm
  · exact (h.2.1 h1 h2).symm
  · exact (h.2.2 h1 h2).symm

theorem assigned_same (ex : Dbl → Dbl) (params : ParameterStore) (x y : List Dbl)
    (h : SameWithinBounds ex params x y) : assigned ex true params x = assigned ex true params y := by
  induction params generalizing x y with
  | nil => simp [assigned]
  | cons kv ps ih =>
    obtain ⟨k, p⟩ := kv
    by_cases hf : p.isFixed = true
    · have ht : tunable ((k, p) :: ps) = tunable ps := by simp [tunable, hf]
      simp only [assigned, hf, if_true]
      rw [ih x y ⟨h.1, by simpa only [ht] using h.2⟩]
    · have hf' : p.isFixed = false := by simpa using hf
      have ht : tunable ((k, p) :: ps) = (k, p) :: tunable ps := by simp [tunable, hf']
      simp only [assigned, hf', Bool.false_eq_true, if_false]
      cases x with
      | nil =>
        have : y = [] := List.length_eq_zero_iff.1 (by simpa using h.1.symm)
        rw [this]
      | cons v x =>
        cases y with
        | nil => simpa using h.1
        | cons w y =>
          obtain ⟨u, h1, h2⟩ := h.2 0 k p v w (by rw [ht]; rfl) rfl rfl
          dsimp only
          rw [ih x y ⟨by simpa using h.1, fun j name q a c e1 e2 e3 =>
            h.2 (j + 1) name q a c (by rw [ht]; simpa using e1) (by simpa using e2) (by simpa using e3)⟩]
          simp only [tunedValue, if_true, ensureWithin_of_clamp h1, ensureWithin_of_clamp h2]

/-- The objective of a model's sampler is the log likelihood of the model whose parameters are moved to
their bounds: it is computed for every vector of the right length, and vectors that stand for the same
parameters within bounds have the same objective.  Within the bounds these are the values of the vector.
Missing from the full property: outside the bounds the objective should not be finite
(`C140_posterior_false`). -/
theorem C140_objective_partial (ex : Dbl → Dbl) (b : Build) (model : Handler) (hs : model.Separate)
    (hne : ∀ k ∈ model.getParams.keys, k ≠ "") (ll : Handler → Dbl) (x : List Dbl)
    (hlen : x.length = (tunable model.getParams).length) :
    (∃ m, samplerComputeLl ex b model ll x = .ok (ll m) ∧ samplerObjective ex b model ll x = ll m ∧
      m.getParams.keys = model.getParams.keys ∧
      (∀ name p, model.getParams.find? name = some p → p.isFixed = true → m.getParams.find? name = some p) ∧
      ∀ (j : Nat) (name : String) (p : Parameter) (v : Dbl),
        (tunable model.getParams)[j]? = some (name, p) → x[j]? = some v →
        ∃ w, m.getParams.find? name = some ⟨w, p.prior⟩ ∧ IsClamp p.prior.lower p.prior.upper (toScale ex p v) w) ∧
    ∀ y, SameWithinBounds ex model.getParams x y →
      samplerObjective ex b model ll y = samplerObjective ex b model ll x := by
  constructor
  · obtain ⟨m, h1, -, h3, h4, h5⟩ := Handler.C24_set_tunable_object ex b true model hs hne x hlen
    have hc : samplerComputeLl ex b model ll x = .ok (ll m) := by simp [samplerComputeLl, h1]
    refine ⟨m, hc, by simp [samplerObjective, hc], h3, h4, fun j name p v e1 e2 => ?_⟩
    obtain ⟨w, hw, -, hw2⟩ := h5 j name p v e1 e2
    exact ⟨w, hw, hw2 rfl⟩
  · intro y hy
    have hw := Handler.getParams_wf hs.proper
    unfold samplerObjective samplerComputeLl Handler.setTunable
    rw [setTunable_eq _ _ _ _ _ hw, setTunable_eq _ _ _ _ _ hw, assigned_same ex _ _ _ hy, hy.1]

/-- What is constant along a set of infinite length in one coordinate has no finite integral. -/
theorem improper_of_set {n : Nat} {f : (Fin (n + 1) → ℝ) → ℝ} (hf : Measurable f) (j : Fin (n + 1)) (c : ℝ)
    (T : Set ℝ) (hT : MeasurableSet T) (hvol : volume T = ∞)
    (hc : ∀ t ∈ T, ∀ y : Fin n → ℝ, f (j.insertNth t y) = f (j.insertNth c y))
    (hpos : volume {y : Fin n → ℝ | 0 < f (j.insertNth c y)} ≠ 0) :
    ∫⁻ x, ENNReal.ofReal (f x) = ∞ := by
  have hmp := (volume_preserving_piFinSuccAbove (fun _ : Fin (n + 1) => ℝ) j).symm
  have hg : Measurable fun x => ENNReal.ofReal (f x) := hf.ennreal_ofReal
  rw [← hmp.lintegral_comp hg]
  have he : ∀ (t : ℝ) (y : Fin n → ℝ), (MeasurableEquiv.piFinSuccAbove (fun _ : Fin (n + 1) => ℝ) j).symm (t, y) =
      j.insertNth t y := fun t y => rfl
  have hins : Measurable fun y : Fin n → ℝ => (j.insertNth c y : Fin (n + 1) → ℝ) := by
    have : (fun y : Fin n → ℝ => (j.insertNth c y : Fin (n + 1) → ℝ)) =
        fun y => (MeasurableEquiv.piFinSuccAbove (fun _ : Fin (n + 1) => ℝ) j).symm (c, y) := funext fun y => (he c y).symm
    rw [this]
    exact (MeasurableEquiv.measurable _).comp measurable_prodMk_left
  have hF : Measurable fun y : Fin n → ℝ => ENNReal.ofReal (f (j.insertNth c y)) := hg.comp hins
  rw [eq_top_iff]
  calc (∞ : ℝ≥0∞) = (∫⁻ t, T.indicator (fun _ => 1) t) * ∫⁻ y : Fin n → ℝ, ENNReal.ofReal (f (j.insertNth c y)) := by
        rw [lintegral_indicator_const hT, hvol, one_mul, ENNReal.top_mul]
        rw [Ne, lintegral_eq_zero_iff hF]
        intro h0
        apply hpos
        refine measure_mono_null ?_ (ae_iff.1 h0)
        intro y hy
        simpa using hy
    _ = ∫⁻ q : ℝ × (Fin n → ℝ), T.indicator (fun _ => 1) q.1 * ENNReal.ofReal (f (j.insertNth c q.2)) ∂(volume.prod volume) :=
        (lintegral_prod_mul (measurable_const.indicator hT).aemeasurable hF.aemeasurable).symm
    _ ≤ _ := by
        refine lintegral_mono fun q => ?_
        obtain ⟨t, y⟩ := q
        by_cases ht : t ∈ T
        · rw [he, indicator_of_mem ht, one_mul, hc t ht]
        · simp [indicator_of_notMem ht]

/-- A density is constant along values of a parameter that are moved to the same bound. -/
theorem density_same {n : Nat} {ex : Dbl → Dbl} {b : Build} {model : Handler} (hs : model.Separate)
    (hne : ∀ k ∈ model.getParams.keys, k ≠ "") {ll : Handler → Dbl}
    (hlen : (tunable model.getParams).length = n + 1) {j : Fin (n + 1)} {name : String} {p : Parameter}
    (hj : (tunable model.getParams)[j.1]? = some (name, p)) {f : (Fin (n + 1) → ℝ) → ℝ} (h0 : ∀ x, 0 ≤ f x)
    (hobj : IsLogDensity (samplerObjective ex b model ll) f) {t c : ℝ} {u : Dbl}
    (ht : IsClamp p.prior.lower p.prior.upper (toScale ex p (.fin t)) u)
    (hc : IsClamp p.prior.lower p.prior.upper (toScale ex p (.fin c)) u) (y : Fin n → ℝ) :
    f (j.insertNth t y) = f (j.insertNth c y) := by
  have hsame : SameWithinBounds ex model.getParams (paramList (j.insertNth t y : Fin (n + 1) → ℝ))
      (paramList (j.insertNth c y : Fin (n + 1) → ℝ)) := by
    refine ⟨by simp [paramList], fun i nm q v w e1 e2 e3 => ?_⟩
    simp only [paramList, List.getElem?_ofFn] at e2 e3
    split_ifs at e2 e3 with hi
    simp only [Option.some.injEq] at e2 e3
    by_cases hij : (⟨i, hi⟩ : Fin (n + 1)) = j
    · rw [hij, Fin.insertNth_apply_same] at e2 e3
      have : i = j.1 := congrArg Fin.val hij
      rw [this, hj] at e1
      obtain ⟨-, rfl⟩ := Prod.mk.inj (Option.some.inj e1)
      rw [← e2, ← e3]
      exact ⟨u, ht, hc⟩
    · obtain ⟨k, hk⟩ := Fin.exists_succAbove_eq hij
      rw [← hk, Fin.insertNth_apply_succAbove] at e2 e3
      rw [← e2, ← e3]
      have : IsClamp q.prior.lower q.prior.upper (toScale ex q (.fin (y k)))
          (ensureWithinBounds q (toScale ex q (.fin (y k)))) := by
        unfold ensureWithinBounds IsClamp
        refine ⟨fun h => if_pos h, fun h1 h2 => ?_, fun h1 h2 => ?_⟩
        · rw [if_neg h1, if_pos h2]
        · rw [if_neg h1, if_neg h2]
      exact ⟨_, this, this⟩
  have heq := (C140_objective_partial ex b model hs hne ll _ (by simp [paramList, hlen])).2 _ hsame
  set x := (j.insertNth t y : Fin (n + 1) → ℝ)
  set z := (j.insertNth c y : Fin (n + 1) → ℝ)
  rcases (h0 x).lt_or_eq with hx | hx
  · rcases (h0 z).lt_or_eq with hz | hz
    · have e1 := (hobj x).1 hx
      have e2 := (hobj z).1 hz
      rw [heq, e1] at e2
      exact Real.log_injOn_pos hx hz (by injection e2)
    · have e1 := (hobj x).1 hx
      have e2 := (hobj z).2 hz.symm
      rw [heq, e1] at e2
      simp [Dbl.isFinite] at e2
  · rcases (h0 z).lt_or_eq with hz | hz
    · have e1 := (hobj x).2 hx.symm
      have e2 := (hobj z).1 hz
      rw [← heq, e2] at e1
      simp [Dbl.isFinite] at e1
    · rw [← hx, ← hz]

/-- A tunable parameter with a finite bound makes the target improper: if the objective is the logarithm
of any density, and that density does not vanish where the parameter is at its bound, then it has no
finite integral.  The distribution that C120 proves invariant does not exist then. -/
theorem C140_improper {n : Nat} (ex : Dbl → Dbl) (b : Build) (model : Handler) (hs : model.Separate)
    (hne : ∀ k ∈ model.getParams.keys, k ≠ "") (ll : Handler → Dbl)
    (hlen : (tunable model.getParams).length = n + 1) (j : Fin (n + 1)) (name : String) (p : Parameter)
    (hj : (tunable model.getParams)[j.1]? = some (name, p)) (hscale : p.prior.isLogScale = false) (c : ℝ)
    (hc : (p.prior.lower = .fin c ∧ ¬ p.prior.upper < .fin c) ∨ (p.prior.upper = .fin c ∧ ¬ Dbl.fin c < p.prior.lower))
    (f : (Fin (n + 1) → ℝ) → ℝ) (hf : Measurable f) (h0 : ∀ x, 0 ≤ f x)
    (hobj : IsLogDensity (samplerObjective ex b model ll) f)
    (hpos : volume {y : Fin n → ℝ | 0 < f (j.insertNth c y)} ≠ 0) :
    ∫⁻ x, ENNReal.ofReal (f x) = ∞ := by
  have hsc : ∀ v, toScale ex p v = v := fun v => by simp [toScale, hscale]
  have hcc : ¬ Dbl.fin c < .fin c := by simp
  rcases hc with ⟨hlo, hle⟩ | ⟨hup, hle⟩
  · refine improper_of_set hf j c (Iio c) measurableSet_Iio Real.volume_Iio
      (fun t ht => density_same hs hne hlen hj h0 hobj (u := .fin c) ?_ ?_) hpos <;> rw [hsc, hlo]
    · have : Dbl.fin t < .fin c := by simpa using ht
      exact ⟨fun _ => rfl, fun h => absurd this h, fun h => absurd this h⟩
    · exact ⟨fun _ => rfl, fun _ h => absurd h hle, fun _ _ => rfl⟩
  · refine improper_of_set hf j c (Ioi c) measurableSet_Ioi Real.volume_Ioi
      (fun t ht => density_same hs hne hlen hj h0 hobj (u := .fin c) ?_ ?_) hpos <;> rw [hsc, hup]
    · have ht' : Dbl.fin c < .fin t := by simpa using ht
      have hl : ¬ Dbl.fin t < p.prior.lower := by
        intro h
        apply hle
        cases hp : p.prior.lower with
        | fin l =>
          rw [hp] at h
          simp only [Dbl.fin_lt] at h ht' ⊢
          exact ht'.trans h
        | pinf => exact Dbl.fin_lt_pinf
        | ninf => rw [hp] at h; exact h.elim
        | nan => rw [hp] at h; exact h.elim
      exact ⟨fun h => absurd h hl, fun _ _ => rfl, fun _ h => absurd ht' h⟩
    · exact ⟨fun h => absurd h hle, fun _ h => absurd h hcc, fun _ _ => rfl⟩

/-- The same on a log scale: with a `LogScaleUniformPrior` the target is improper if the density does not
vanish where the parameter is at its lower bound. -/
theorem C140_improper_log_scale {n : Nat} (b : Build) (model : Handler) (hs : model.Separate)
    (hne : ∀ k ∈ model.getParams.keys, k ≠ "") (ll : Handler → Dbl)
    (hlen : (tunable model.getParams).length = n + 1) (j : Fin (n + 1)) (name : String) (value : Dbl) (l u : ℝ)
    (hl : 0 < l) (hlu : l < u)
    (hj : (tunable model.getParams)[j.1]? = some (name, ⟨value, .logScaleUniform (.fin l) (.fin u)⟩))
    (f : (Fin (n + 1) → ℝ) → ℝ) (hf : Measurable f) (h0 : ∀ x, 0 ≤ f x)
    (hobj : IsLogDensity (samplerObjective Dbl.exp b model ll) f)
    (hpos : volume {y : Fin n → ℝ | 0 < f (j.insertNth (Real.log l) y)} ≠ 0) :
    ∫⁻ x, ENNReal.ofReal (f x) = ∞ := by
  have hsc : ∀ t : ℝ, toScale Dbl.exp ⟨value, .logScaleUniform (.fin l) (.fin u)⟩ (.fin t) = .fin (Real.exp t) :=
    fun t => rfl
  refine improper_of_set hf j (Real.log l) (Iio (Real.log l)) measurableSet_Iio Real.volume_Iio
    (fun t ht => density_same hs hne hlen hj h0 hobj (u := .fin l) ?_ ?_) hpos <;> rw [hsc]
  · have : Dbl.fin (Real.exp t) < .fin l := by
      simpa using (Real.lt_log_iff_exp_lt hl).1 ht
    exact ⟨fun _ => rfl, fun h => absurd this h, fun h => absurd this h⟩
  · rw [Real.exp_log hl]
    have : ¬ Dbl.fin u < .fin l := by simpa using hlu.le
    exact ⟨fun _ => rfl, fun _ h => absurd h this, fun _ _ => rfl⟩

/-! ## The mode `test_gp` of the example -/

/-- The log density of `n` independent measurements of zero with errors of standard deviation `s`. -/
noncomputable def noiseLogDensity {n : Nat} (ys : Fin n → ℝ) (s : ℝ) : ℝ :=
  -(∑ i, ys i ^ 2) / (2 * s ^ 2) - n * Real.log s - n / 2 * Real.log (2 * Real.pi)

theorem samplerTestGp_params : samplerTestGp.getParams = [("sigma_independent_noise", ⟨.fin 0.1, .positive⟩)] := by
  rfl

theorem samplerTestGp_tunable : tunable samplerTestGp.getParams = [("sigma_independent_noise", ⟨.fin 0.1, .positive⟩)] := by
  rw [samplerTestGp_params]
  rfl

theorem samplerTestGp_separate : samplerTestGp.Separate := by
  refine ⟨by simp [SMap.WF], by simp [Handler.Separate], by simp [Handler.Separate, samplerNoise], fun k hk => by simp [SMap.keys] at hk, fun k hk => ?_⟩
  simp [Handler.getParams, SMap.ofList, SMap.keys] at hk

theorem samplerTestGp_set (ex : Dbl → Dbl) (b : Build) (v : ℝ) :
    samplerTestGp.setTunable ex b [.fin v] true =
      .ok (.gp [] (.declared []) (.declared [("sigma_independent_noise", ⟨.fin (max Prior.epsilon v), .positive⟩)])) := by
  have hv : (if Dbl.fin v < .fin Prior.epsilon then Dbl.fin Prior.epsilon
      else if Dbl.pinf < .fin v then .pinf else .fin v) = .fin (max Prior.epsilon v) := by
    by_cases h : v < Prior.epsilon
    · rw [if_pos (by simpa using h), max_eq_left h.le]
    · rw [if_neg (by simpa using h), if_neg (fun h => h.elim), max_eq_right (not_lt.1 h)]
  have ha : setTunableParamsValues ex b samplerTestGp.getParams [.fin v] true =
      .ok [("sigma_independent_noise", ⟨.fin (max Prior.epsilon v), .positive⟩)] := by
    rw [setTunable_eq _ _ _ _ _ (Handler.getParams_wf samplerTestGp_separate.proper), samplerTestGp_params, ← hv]
    cases b <;> rfl
  have hlen : decide (0 < "sigma_independent_noise".length) = true := by decide +kernel
  simp only [Handler.setTunable, ha, except_ok_bind, Handler.setAll, setParams, List.foldlM_cons, List.foldlM_nil]
  have h1 : setParam b "sigma_independent_noise" ⟨.fin (max Prior.epsilon v), .positive⟩ samplerTestGp.getParams =
      .ok [("sigma_independent_noise", ⟨.fin (max Prior.epsilon v), .positive⟩)] := by
    rw [samplerTestGp_params]
    cases b <;> rfl
  have h2 : Handler.set b samplerTestGp "sigma_independent_noise" ⟨.fin (max Prior.epsilon v), .positive⟩ =
      .ok (.gp [] (.declared []) (.declared [("sigma_independent_noise", ⟨.fin (max Prior.epsilon v), .positive⟩)])) := by
    have h3 : setParamIfExists b "sigma_independent_noise" ⟨.fin (max Prior.epsilon v), .positive⟩ [] = .ok (false, []) := by
      cases b <;> rfl
    have h4 : setParamIfExists b "sigma_independent_noise" ⟨.fin (max Prior.epsilon v), .positive⟩ samplerNoise.getParams =
        .ok (true, [("sigma_independent_noise", ⟨.fin (max Prior.epsilon v), .positive⟩)]) := by
      cases b <;> rfl
    have h5 : SMap.at? [("sigma_independent_noise", (⟨.fin (max Prior.epsilon v), .positive⟩ : Parameter))]
        "sigma_independent_noise" = .ok ⟨.fin (max Prior.epsilon v), .positive⟩ := rfl
    have h6 : Handler.set b samplerNoise "sigma_independent_noise" ⟨.fin (max Prior.epsilon v), .positive⟩ =
        .ok (.declared [("sigma_independent_noise", ⟨.fin (max Prior.epsilon v), .positive⟩)]) := by
      cases b <;> rfl
    have h7 : albatrossAssert b true = .ok () := by cases b <;> rfl
    simp [samplerTestGp, Handler.set, h3, Handler.ifExists, h4, h5, h6, hlen, h7]
  have h7 : albatrossAssert b true = .ok () := by cases b <;> rfl
  simp [h1, Handler.uncheckedSetAll, Handler.uncheckedSet, hlen, h2, h7]

theorem noise_covariance {n : Nat} (s : ℝ) :
    obsCovariance (⟨noiseCov s, fun _ => 0, id⟩ : Gp ℝ) (samplerTestFeatures n) 0 = diagonal fun _ => s ^ 2 := by
  ext i j
  by_cases h : i = j
  · simp [obsCovariance, noiseCov, h, sq]
  · have : samplerTestFeatures n i ≠ samplerTestFeatures n j := fun e => h (by
      have : ((i : ℕ) : ℝ) = ((j : ℕ) : ℝ) := e
      exact Fin.ext (by exact_mod_cast this))
    simp [obsCovariance, noiseCov, h, this]

theorem noise_density {n : Nat} (ys : Fin n → ℝ) {s : ℝ} (hs : 0 < s) :
    gaussianLogPdf (fun _ => 0) (diagonal fun _ => s ^ 2) ys = noiseLogDensity ys s := by
  have hi : (diagonal fun _ : Fin n => s ^ 2)⁻¹ = diagonal fun _ => (s ^ 2)⁻¹ := by
    refine inv_eq_right_inv ?_
    rw [diagonal_mul_diagonal]
    simp [hs.ne']
  unfold gaussianLogPdf noiseLogDensity
  rw [hi, det_diagonal]
  simp only [Finset.prod_const, Finset.card_univ, Fintype.card_fin, Real.log_pow]
  have : (ys - fun _ => 0) ⬝ᵥ ((diagonal fun _ : Fin n => (s ^ 2)⁻¹) *ᵥ (ys - fun _ => 0)) = (∑ i, ys i ^ 2) / s ^ 2 := by
    simp only [dotProduct, mulVec_diagonal, Pi.sub_apply, sub_zero, Finset.sum_div]
    exact Finset.sum_congr rfl fun i _ => by ring
  rw [this]
  push_cast
  field_simp
  ring

/-- The objective in the mode `test_gp` for every number: the log density of the measurements at the
closest standard deviation that is not below the machine epsilon. -/
theorem C140_test_gp (ex : Dbl → Dbl) (b : Build) {n : Nat} (ldlt : Matrix (Fin n) (Fin n) ℝ → Ldlt (Fin n))
    (hl : ∀ M, M.PosDef → (ldlt M).Factors M) (ys : Fin n → ℝ) (v : ℝ) :
    samplerObjective ex b samplerTestGp (samplerTestLogLikelihood ldlt ys) [.fin v] =
      .fin (noiseLogDensity ys (max ((2 : ℝ)⁻¹ ^ 52) v)) := by
  have hpos : 0 < max Prior.epsilon v := lt_max_of_lt_left (by unfold Prior.epsilon; positivity)
  have hpd : (obsCovariance (⟨noiseCov (max Prior.epsilon v), fun _ => 0, id⟩ : Gp ℝ) (samplerTestFeatures n) 0).PosDef := by
    rw [noise_covariance]
    exact Matrix.PosDef.diagonal fun _ => by positivity
  have hll := C39_code_value (⟨noiseCov (max Prior.epsilon v), fun _ => 0, id⟩ : Gp ℝ) ldlt 0 (samplerTestFeatures n)
    ⟨ys, fun _ => 0⟩ hpd (hl _ hpd)
  rw [noise_covariance] at hll
  have hprior : parameterPriorLogLikelihood (Handler.gp [] (.declared [])
      (.declared [("sigma_independent_noise", ⟨.fin (max Prior.epsilon v), .positive⟩)])).getParams = .fin 0 := by
    have : (Handler.gp [] (.declared [])
      (.declared [("sigma_independent_noise", ⟨.fin (max Prior.epsilon v), .positive⟩)])).getParams =
        [("sigma_independent_noise", ⟨.fin (max Prior.epsilon v), .positive⟩)] := rfl
    rw [this]
    simp [parameterPriorLogLikelihood, Parameter.priorLogLikelihood, Prior.logPdf, hpos]
  have hread : readValue [("sigma_independent_noise", ⟨.fin (max Prior.epsilon v), .positive⟩)] "sigma_independent_noise" =
      some (max Prior.epsilon v) := rfl
  unfold samplerObjective samplerComputeLl
  rw [samplerTestGp_set]
  simp only [except_ok_bind, samplerTestLogLikelihood, hread, hprior]
  change Dbl.fin _ + Dbl.fin 0 = _
  rw [hll, noise_density ys hpos]
  simp [Prior.epsilon]

theorem epsilon_pos : (0 : ℝ) < 2⁻¹ ^ 52 := by positivity

theorem measurable_noiseLogDensity {n : Nat} (ys : Fin n → ℝ) : Measurable (noiseLogDensity ys) := by
  unfold noiseLogDensity
  fun_prop

/-- Within the bounds of the prior the posterior is proper: from two measurements on, the density has a
finite integral over the standard deviations the parameter may have. -/
theorem C140_posterior_proper {n : Nat} (hn : 2 ≤ n) (ys : Fin n → ℝ) :
    IntegrableOn (fun s => Real.exp (noiseLogDensity ys s)) (Ioi ((2 : ℝ)⁻¹ ^ 52)) := by
  have hb : IntegrableOn (fun s : ℝ => s ^ (-(n : ℝ)) * Real.exp (-(n / 2 * Real.log (2 * Real.pi)))) (Ioi ((2 : ℝ)⁻¹ ^ 52)) :=
    (integrableOn_Ioi_rpow_of_lt (by have : (2 : ℝ) ≤ n := by exact_mod_cast hn
                                     linarith) epsilon_pos).mul_const _
  refine hb.mono' (Real.measurable_exp.comp (measurable_noiseLogDensity ys)).aestronglyMeasurable ?_
  refine (ae_restrict_iff' measurableSet_Ioi).2 (ae_of_all _ fun s hs => ?_)
  have hs0 : 0 < s := epsilon_pos.trans hs
  rw [Real.norm_of_nonneg (Real.exp_pos _).le, Real.rpow_def_of_pos hs0, ← Real.exp_add]
  refine Real.exp_le_exp.2 ?_
  unfold noiseLogDensity
  have : 0 ≤ (∑ i, ys i ^ 2) / (2 * s ^ 2) := div_nonneg (Finset.sum_nonneg fun i _ => sq_nonneg _) (by positivity)
  rw [neg_div]
  linarith

/-- The sampler does not sample the posterior.  In the mode `test_gp`, for all measurements, the
objective is the logarithm of a density on the whole line that is positive everywhere, also where the
prior vanishes, and has no finite integral; every density of which it is the logarithm has none. -/
theorem C140_posterior_false (ex : Dbl → Dbl) (b : Build) {n : Nat} (ldlt : Matrix (Fin n) (Fin n) ℝ → Ldlt (Fin n))
    (hl : ∀ M, M.PosDef → (ldlt M).Factors M) (ys : Fin n → ℝ) :
    (∃ f : (Fin 1 → ℝ) → ℝ, Measurable f ∧ (∀ x, 0 < f x) ∧
      IsLogDensity (samplerObjective ex b samplerTestGp (samplerTestLogLikelihood ldlt ys)) f) ∧
    (∀ x, x ≤ 0 → Prior.positive.logPdf (.fin x) = .ninf) ∧
    ∀ f : (Fin 1 → ℝ) → ℝ, Measurable f → (∀ x, 0 ≤ f x) →
      IsLogDensity (samplerObjective ex b samplerTestGp (samplerTestLogLikelihood ldlt ys)) f →
      ∫⁻ x, ENNReal.ofReal (f x) = ∞ := by
  have hval : ∀ x : Fin 1 → ℝ, samplerObjective ex b samplerTestGp (samplerTestLogLikelihood ldlt ys) (paramList x) =
      .fin (noiseLogDensity ys (max ((2 : ℝ)⁻¹ ^ 52) (x 0))) := by
    intro x
    have : paramList x = [.fin (x 0)] := by simp [paramList]
    rw [this]
    exact C140_test_gp ex b ldlt hl ys (x 0)
  refine ⟨⟨fun x => Real.exp (noiseLogDensity ys (max ((2 : ℝ)⁻¹ ^ 52) (x 0))), ?_, fun x => Real.exp_pos _, fun x => ⟨fun _ => ?_, fun h => ?_⟩⟩, ?_, ?_⟩
  · exact Real.measurable_exp.comp ((measurable_noiseLogDensity ys).comp (measurable_const.max (measurable_pi_apply 0)))
  · rw [hval, Real.log_exp]
  · exact absurd h (Real.exp_pos _).ne'
  · intro x hx
    exact if_neg (by simpa using hx)
  · intro f hf h0 hobj
    refine C140_improper (n := 0) ex b samplerTestGp samplerTestGp_separate ?_ _ (by rw [samplerTestGp_tunable]; rfl) 0
      "sigma_independent_noise" ⟨.fin 0.1, .positive⟩ (by rw [samplerTestGp_tunable]; rfl) rfl Prior.epsilon
      (.inl ⟨rfl, fun h => h.elim⟩) f hf h0 hobj ?_
    · rw [samplerTestGp_params]
      simp [SMap.keys]
    · have : {y : Fin 0 → ℝ | 0 < f ((0 : Fin 1).insertNth Prior.epsilon y)} = univ := by
        refine eq_univ_of_forall fun y => lt_of_le_of_ne (h0 _) fun h => ?_
        have := (hobj _).2 h.symm
        rw [hval] at this
        simp [Dbl.isFinite] at this
      rw [this, volume_pi, Measure.pi_of_empty]
      simp

/-- A walker leaves the support of the prior: two measurements of zero, three walkers (the number the
example runs), and draws of nine tenths.  From the standard deviation one a walker moves to a negative
number, the move counts as accepted, and its objective is a number. -/
theorem C140_leaves_false : samplerWalkers samplerTestGp = 3 ∧
    ∀ (ex : Dbl → Dbl) (b : Build) (ldlt : Matrix (Fin 2) (Fin 2) ℝ → Ldlt (Fin 2)), (∀ M, M.PosDef → (ldlt M).Factors M) →
    ∀ (u : UniformInt) (ur : UniformReal), (∀ r, ur.draw r = 9 / 10) →
    let objective := samplerObjective ex b samplerTestGp (samplerTestLogLikelihood ldlt fun _ => 0)
    let at_ (v : ℝ) : SamplerState := ⟨[.fin v], objective [.fin v], true⟩
    moveWalker (2 ^ 64) u ur objective 2 1 [1, 2] ([at_ 1, at_ 3, at_ 3], [0, 0, 0]) 0 =
      .ok ([at_ (-61 / 100), at_ 3, at_ 3], []) ∧
    Prior.positive.logPdf (.fin (-61 / 100)) = .ninf := by
  refine ⟨rfl, fun ex b ldlt hl u ur hur => ?_⟩
  intro objective at_
  have hval : ∀ v, objective [.fin v] = .fin (noiseLogDensity (fun _ : Fin 2 => 0) (max ((2 : ℝ)⁻¹ ^ 52) v)) :=
    fun v => C140_test_gp ex b ldlt hl _ v
  refine ⟨?_, if_neg (by norm_num)⟩
  have hd : u.draw 0 1 0 = 0 ∨ u.draw 0 1 0 = 1 := by
    have := u.le 0 1 0 (by norm_num)
    omega
  have hfin : ∀ v, (at_ v).logProb.isFinite = true := fun v => by
    show (objective [.fin v]).isFinite = true
    rw [hval]
    rfl
  have hsub : sizeSub 18446744073709551616 2 1 = 1 := by decide
  obtain ⟨j, hj, hpick⟩ : ∃ j, [at_ 1, at_ 3, at_ 3][j]? = some (at_ 3) ∧
      pickFinite (2 ^ 64) u [1, 2] [at_ 1, at_ 3, at_ 3] [0, 0, 0] = .ok (j, [0, 0]) := by
    rcases hd with hd | hd
    · exact ⟨1, rfl, by simp [pickFinite, hsub, hd, vecGet, hfin]⟩
    · exact ⟨2, rfl, by simp [pickFinite, hsub, hd, vecGet, hfin]⟩
  have hj' : vecGet [at_ 1, at_ 3, at_ 3] j = .ok (at_ 3) := by simp [vecGet, hj]
  have hz : Dbl.fin (((2 - 1) * (9 / 10) + 1) ^ 2) / Dbl.fin 2 = .fin (361 / 200 : ℝ) := by
    rw [Dbl.fin_div (by norm_num)]
    norm_num
  have hprop : proposeParams 1 (.fin (361 / 200)) [.fin 3] [.fin 1] = .ok [.fin (-61 / 100)] := by
    simp [proposeParams, vecGet, vecSet, List.range_succ]
    norm_num
  have hgt : Real.log (9 / 10) < noiseLogDensity (fun _ : Fin 2 => 0) (max ((2 : ℝ)⁻¹ ^ 52) (-61 / 100)) -
      noiseLogDensity (fun _ : Fin 2 => 0) (max ((2 : ℝ)⁻¹ ^ 52) 1) := by
    rw [max_eq_left (by norm_num), max_eq_right (by norm_num)]
    have h1 : Real.log (9 / 10) < 0 := Real.log_neg (by norm_num) (by norm_num)
    have h2 : Real.log ((2 : ℝ)⁻¹ ^ 52) < 0 := Real.log_neg epsilon_pos (by norm_num)
    simp only [noiseLogDensity]
    simp only [Real.log_one]
    norm_num at h2 ⊢
    linarith
  have hlp : Dbl.fin (((1 : ℕ) : ℝ) - 1) * (Dbl.fin (361 / 200)).log = .fin 0 := by
    rw [Dbl.log_fin (by norm_num)]
    simp
  have hcond : (Dbl.fin (9 / 10)).log < Dbl.fin 0 + objective [.fin (-61 / 100)] - objective [.fin 1] ∧
      (objective [.fin (-61 / 100)]).isFinite = true := by
    refine ⟨?_, hfin _⟩
    rw [hval, hval, Dbl.log_fin (by norm_num)]
    simpa using hgt
  have h0 : vecGet [at_ 1, at_ 3, at_ 3] 0 = .ok (at_ 1) := rfl
  have hset : vecSet [at_ 1, at_ 3, at_ 3] 0 ⟨[.fin (-61 / 100)], objective [.fin (-61 / 100)], true⟩ =
      .ok [at_ (-61 / 100), at_ 3, at_ 3] := rfl
  have hp3 : (at_ 3).params = [.fin 3] := rfl
  have hp1 : (at_ 1).params = [.fin 1] := rfl
  have hl1 : (at_ 1).logProb = objective [.fin 1] := rfl
  simp only [moveWalker, h0, except_ok_bind, hpick, nextRaw, hur, hz, hlp, hj', hp3, hp1, hl1, hprop, if_pos hcond, hset]
  rfl

/-! ## Examples -/

/-- Two vectors that stand for the same parameter in the mode `test_gp`. -/
example (ex : Dbl → Dbl) (ll : Handler → Dbl) :
    samplerObjective ex .debug samplerTestGp ll [.fin (-5)] = samplerObjective ex .debug samplerTestGp ll [.fin (-1)] := by
  have hneg : ∀ v : ℝ, v < 0 → IsClamp (Prior.lower .positive) (Prior.upper .positive) (.fin v) (.fin Prior.epsilon) := by
    intro v hv
    have : Dbl.fin v < Prior.lower .positive := by
      show v < Prior.epsilon
      exact hv.trans epsilon_pos
    exact ⟨fun _ => rfl, fun h => absurd this h, fun h => absurd this h⟩
  refine (C140_objective_partial ex .debug samplerTestGp samplerTestGp_separate ?_ ll [.fin (-1)] ?_).2 _ ⟨rfl, ?_⟩
  · rw [samplerTestGp_params]
    simp [SMap.keys]
  · rw [samplerTestGp_tunable]
    rfl
  · intro j name p v w h1 h2 h3
    rw [samplerTestGp_tunable] at h1
    match j, h1, h2, h3 with
    | 0, h1, h2, h3 =>
      obtain ⟨-, rfl⟩ := Prod.mk.inj (Option.some.inj h1)
      cases h2
      cases h3
      exact ⟨.fin Prior.epsilon, hneg _ (by norm_num), hneg _ (by norm_num)⟩
    | j + 1, h1, _, _ => simp at h1

/-- Decompositions as the theorems about the mode need them exist, and the two measurements 1 and -1 have a
proper posterior but an improper target. -/
example : ∃ ldlt : Matrix (Fin 2) (Fin 2) ℝ → Ldlt (Fin 2),
    IntegrableOn (fun s => Real.exp (noiseLogDensity ![1, -1] s)) (Ioi ((2 : ℝ)⁻¹ ^ 52)) ∧
    ∃ f : (Fin 1 → ℝ) → ℝ, IsLogDensity (samplerObjective Dbl.exp .debug samplerTestGp
      (samplerTestLogLikelihood ldlt ![1, -1])) f ∧ ∫⁻ x, ENNReal.ofReal (f x) = ∞ := by
  obtain ⟨ldlt, hl⟩ := exists_ldlt (n := Fin 2)
  obtain ⟨⟨f, hf, h0, hobj⟩, -, h⟩ := C140_posterior_false Dbl.exp .debug ldlt hl ![1, -1]
  exact ⟨ldlt, C140_posterior_proper le_rfl _, f, hobj, h f hf (fun x => (h0 x).le) hobj⟩

/-- A model whose only parameter is on a log scale, with the constant objective. -/
example (f : (Fin 1 → ℝ) → ℝ) (hf : Measurable f) (h0 : ∀ x, 0 ≤ f x)
    (hobj : IsLogDensity (samplerObjective Dbl.exp .debug (.gp [] (.declared []) sincNoise) fun _ => .fin 0) f) :
    ∫⁻ x, ENNReal.ofReal (f x) = ∞ := by
  have hp : (Handler.gp [] (.declared []) sincNoise).getParams =
      [("sigma_independent_noise", ⟨.fin 1, .logScaleUniform (.fin (1 / 1000)) (.fin 100)⟩)] := rfl
  have ht : tunable (Handler.gp [] (.declared []) sincNoise).getParams =
      [("sigma_independent_noise", ⟨.fin 1, .logScaleUniform (.fin (1 / 1000)) (.fin 100)⟩)] := by
    rw [hp]
    rfl
  have hs : (Handler.gp [] (.declared []) sincNoise).Separate := by
    refine ⟨by simp [SMap.WF], by simp [Handler.Separate], by simp [Handler.Separate, sincNoise], fun k hk => by simp [SMap.keys] at hk, fun k hk => ?_⟩
    simp [Handler.getParams, SMap.ofList, SMap.keys] at hk
  have hne : ∀ k ∈ (Handler.gp [] (.declared []) sincNoise).getParams.keys, k ≠ "" := by
    rw [hp]
    simp [SMap.keys]
  refine C140_improper_log_scale (n := 0) .debug _ hs hne _ (by rw [ht]; rfl) 0 "sigma_independent_noise" (.fin 1) (1 / 1000) 100
    (by norm_num) (by norm_num) (by rw [ht]; rfl) f hf h0 hobj ?_
  have : {y : Fin 0 → ℝ | 0 < f ((0 : Fin 1).insertNth (Real.log (1 / 1000)) y)} = univ := by
    refine eq_univ_of_forall fun y => lt_of_le_of_ne (h0 _) fun h => ?_
    have h1 := (hobj _).2 h.symm
    obtain ⟨m, -, h2, -⟩ := (C140_objective_partial Dbl.exp .debug _ hs hne (fun _ => .fin 0)
      (paramList ((0 : Fin 1).insertNth (Real.log (1 / 1000)) y : Fin 1 → ℝ)) (by rw [ht]; simp [paramList])).1
    rw [h2] at h1
    simp [Dbl.isFinite] at h1
  rw [this, volume_pi, Measure.pi_of_empty]
  simp

end Albatross
