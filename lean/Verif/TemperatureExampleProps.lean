import Verif.TemperatureExample
import Verif.KernelMetricsProps
import Verif.GpProps
import Verif.ProvidedFunctionsProps
import Mathlib.Algebra.Order.Chebyshev

/-! # The temperature example: C130 -/

namespace Albatross

open Matrix InnerProductGeometry

/-! ## Specification -/

/-- The process the example describes: a constant that varies more the lower a station lies, noise of each position,
and a field whose correlation decays with the great-circle distance and with the difference of the distances from the
centre of the earth. -/
noncomputable def stationProcess (p : TemperatureParams) (x y : Station) : ℝ :=
  (1 + p.factor * max 0 (p.center - x.height)) * (1 + p.factor * max 0 (p.center - y.height)) * p.sigmaConstant ^ 2 +
  (open Classical in if x.ecef = y.ecef then p.sigmaNoise ^ 2 else 0) +
  p.sigmaExp ^ 2 * Real.exp (-(angle (toEuclidean x.ecef) (toEuclidean y.ecef) / p.expLength)) *
    (p.sigmaSq ^ 2 * Real.exp (-((‖toEuclidean x.ecef‖ - ‖toEuclidean y.ecef‖) / p.sqLength) ^ 2))

/-- How far the rounding of small angles can move the covariance of two stations. -/
noncomputable def spatialError (p : TemperatureParams) : ℝ := p.sigmaExp ^ 2 * p.sigmaSq ^ 2 * (3 / 10 ^ 8 / p.expLength)

/-- Length scales that are in use. -/
def TemperatureParams.Scaled (p : TemperatureParams) : Prop := 0 < p.expLength ∧ 0 < p.sqLength

/-! ## Lemmas -/

theorem onStations_kernel (f : Station → Station → ℝ) (m n : Bool) (x y : Station) :
    accepts (onStations f) ⟨(), m, x⟩ ⟨(), n, y⟩ = true ∧ kernel (onStations f) ⟨(), m, x⟩ ⟨(), n, y⟩ = f x y := by
  have h : accepts (onStations f) ⟨(), m, x⟩ ⟨(), n, y⟩ = true := by
    cases m <;> cases n <;> simp [accepts, atomTy, defaultCaller, varLayer, varValid, measLayer, measValid, linLayer,
      linValid, symLayer, onStations]
  refine ⟨h, ?_⟩
  unfold kernel
  rw [if_pos h]
  cases m <;> cases n <;> simp [atomTy, atomVal, defaultCaller, varLayer, varValid, varCall, measLayer, measCall,
    linLayer, linValid, linCall, symLayer, onStations]

theorem onAnything_kernel (σ : ℝ) (x y : Feat StationFeature) :
    accepts (onAnything σ) x y = true ∧ kernel (onAnything σ) x y = σ * σ := by
  obtain ⟨⟨⟩, m, x⟩ := x
  obtain ⟨⟨⟩, n, y⟩ := y
  have h : accepts (onAnything σ) ⟨(), m, x⟩ ⟨(), n, y⟩ = true := by
    cases m <;> cases n <;> simp [accepts, atomTy, defaultCaller, varLayer, varValid, measLayer, measValid, linLayer,
      linValid, symLayer, onAnything]
  refine ⟨h, ?_⟩
  unfold kernel
  rw [if_pos h]
  cases m <;> cases n <;> simp [atomTy, atomVal, defaultCaller, varLayer, varValid, varCall, measLayer, measCall,
    linLayer, linValid, linCall, symLayer, onAnything]

/-- The scaling term of the example. -/
noncomputable abbrev scaledConstant (p : TemperatureParams) : Caller StationFeature :=
  scaledProduct (scalingTerm (scalingOn fun _ => true) (scalingFn fun _ x => elevationScaling p.center p.factor x))
    (onAnything p.sigmaConstant)

theorem scaledConstant_kernel (p : TemperatureParams) (m n : Bool) (x y : Station) :
    accepts (scaledConstant p) ⟨(), m, x⟩ ⟨(), n, y⟩ = true ∧
    kernel (scaledConstant p) ⟨(), m, x⟩ ⟨(), n, y⟩ =
      (if m = n then elevationScaling p.center p.factor x * elevationScaling p.center p.factor y
        else if m then elevationScaling p.center p.factor y else elevationScaling p.center p.factor x) *
      (p.sigmaConstant * p.sigmaConstant) := by
  obtain ⟨h1, h2⟩ := scaled_value (scaledConstant p)
    (scalingTerm (scalingOn fun _ => true) (scalingFn fun _ x => elevationScaling p.center p.factor x))
    (onAnything p.sigmaConstant) ⟨(), m, x⟩ ⟨(), n, y⟩ (fun _ _ => rfl) (scaledProduct_call _ _)
  rw [(onAnything_kernel _ _ _).1] at h1
  refine ⟨h1, ?_⟩
  rw [h2, (onAnything_kernel _ _ _).2]
  cases m <;> cases n <;> simp [accepts, atomTy, atomVal, defaultCaller, varLayer, varValid, varCall, measLayer,
    measValid, measCall, linLayer, linValid, linCall, symLayer, scalingTerm, scalingOn, scalingFn]

/-- Every covariance the example can compute. -/
theorem temperature_cov (p : TemperatureParams) (m n : Bool) (x y : Station) :
    (temperatureGp p).cov (m, x) (n, y) =
      (if m = n then elevationScaling p.center p.factor x * elevationScaling p.center p.factor y
        else if m then elevationScaling p.center p.factor y else elevationScaling p.center p.factor x) *
      (p.sigmaConstant * p.sigmaConstant) + stationNoise p.sigmaNoise x y +
      stationExponential p.expLength p.sigmaExp x y * stationSquaredExponential p.sqLength p.sigmaSq x y := by
  have hk : (temperatureGp p).cov (m, x) (n, y) = kernel (temperatureCaller p) ⟨(), m, x⟩ ⟨(), n, y⟩ := by
    have ha : accepts (temperatureCaller p) ⟨(), m, x⟩ ⟨(), n, y⟩ = true := by
      unfold temperatureCaller
      rw [(C20_sum_value _ _ _ _).1, (C20_sum_value _ _ _ _).1, (scaledConstant_kernel p m n x y).1]
      rfl
    unfold kernel
    rw [if_pos ha]
    cases m <;> cases n <;> rfl
  rw [hk]
  unfold temperatureCaller
  rw [(C20_sum_value _ _ _ _).2, (C20_sum_value _ _ _ _).2, (scaledConstant_kernel p m n x y).2,
    (onStations_kernel _ m n x y).2, (C20_product_value _ _ _ _).2, (onStations_kernel _ m n x y).1,
    (onStations_kernel _ m n x y).1, (onStations_kernel _ m n x y).2, (onStations_kernel _ m n x y).2]
  simp only [and_self, if_true]

theorem temperature_asMeas (p : TemperatureParams) (u : Bool × Station) : (temperatureGp p).asMeas u = (true, u.2) := rfl

theorem temperature_mean (p : TemperatureParams) (u : Bool × Station) : (temperatureGp p).mean u = 0 := rfl

theorem temperature_symm (p : TemperatureParams) (u v : Bool × Station) :
    (temperatureGp p).cov u v = (temperatureGp p).cov v u := by
  obtain ⟨m, x⟩ := u
  obtain ⟨n, y⟩ := v
  rw [temperature_cov, temperature_cov]
  have h1 : stationNoise p.sigmaNoise x y = stationNoise p.sigmaNoise y x := by
    unfold stationNoise Station.eq; simp only [eq_comm]
  have h2 : stationExponential p.expLength p.sigmaExp x y = stationExponential p.expLength p.sigmaExp y x := by
    unfold stationExponential exponentialAngular; rw [C83_angular_symm]
  have h3 : stationSquaredExponential p.sqLength p.sigmaSq x y = stationSquaredExponential p.sqLength p.sigmaSq y x := by
    unfold stationSquaredExponential radialDistance; rw [abs_sub_comm]
  rw [h1, h2, h3]
  cases m <;> cases n <;> simp [mul_comm (elevationScaling p.center p.factor x)]

theorem stationExponential_value {l σ : ℝ} (hl : 0 < l) {x y : Station} (hx : x.ecef ≠ 0) (hy : y.ecef ≠ 0) :
    ∃ d, 0 ≤ d ∧ |d - angle (toEuclidean x.ecef) (toEuclidean y.ecef)| ≤ 3 / 10 ^ 8 ∧
      (∀ b, exponentialAngular b l σ x.ecef y.ecef = .ok (.fin (stationExponential l σ x y))) ∧
      stationExponential l σ x y = σ ^ 2 * Real.exp (-(d / l)) := by
  obtain ⟨d, hd, h0, -, happ, -⟩ := C83_angular hx hy
  have e : ∀ b, exponentialAngular b l σ x.ecef y.ecef = .ok (.fin (σ ^ 2 * Real.exp (-(d / l)))) := fun b => by
    unfold exponentialAngular
    rw [hd, exponentialDbl_fin b h0, exponentialCov, if_neg (not_le.2 hl), abs_of_nonneg (div_nonneg h0 hl.le), pow_two]
  have e2 : stationExponential l σ x y = σ ^ 2 * Real.exp (-(d / l)) := by
    unfold stationExponential; rw [e]; rfl
  exact ⟨d, h0, happ, fun b => by rw [e2, e], e2⟩

theorem spatialError_nonneg {p : TemperatureParams} (hp : p.Scaled) : 0 ≤ spatialError p := by
  have := hp.1
  unfold spatialError; positivity

/-- Without the noise. -/
noncomputable def stationSignal (p : TemperatureParams) (x y : Station) : ℝ :=
  elevationScaling p.center p.factor x * elevationScaling p.center p.factor y * (p.sigmaConstant * p.sigmaConstant) +
  stationExponential p.expLength p.sigmaExp x y * stationSquaredExponential p.sqLength p.sigmaSq x y

/-- The process without the noise. -/
noncomputable def processSignal (p : TemperatureParams) (x y : Station) : ℝ :=
  elevationScaling p.center p.factor x * elevationScaling p.center p.factor y * (p.sigmaConstant * p.sigmaConstant) +
  exponentialCov (angle (toEuclidean x.ecef) (toEuclidean y.ecef)) p.expLength p.sigmaExp *
    stationSquaredExponential p.sqLength p.sigmaSq x y

theorem processSignal_psd (p : TemperatureParams) : IsPSD (processSignal p) := by
  have h1 : IsPSD fun x y : Station => elevationScaling p.center p.factor x * elevationScaling p.center p.factor y *
      (p.sigmaConstant * p.sigmaConstant) :=
    (IsPSD.rank_one _).mul (IsPSD.const (mul_self_nonneg _))
  have h2 := (C127_angle (E := EuclideanSpace ℝ (Fin 3)) p.expLength p.sigmaExp).comp
    fun x : Station => toEuclidean x.ecef
  have h3 := (C22_squared_exponential_psd (E := ℝ) p.sqLength p.sigmaSq).comp fun x : Station => eigenNorm x.ecef
  exact h1.add (h2.mul h3)

theorem signal_close {p : TemperatureParams} (hp : p.Scaled) {x y : Station} (hx : x.ecef ≠ 0) (hy : y.ecef ≠ 0) :
    |stationSignal p x y - processSignal p x y| ≤ spatialError p := by
  obtain ⟨d, h0, happ, -, hv⟩ := stationExponential_value (σ := p.sigmaExp) hp.1 hx hy
  have h1 : stationSignal p x y - processSignal p x y =
      p.sigmaExp ^ 2 * (Real.exp (-(d / p.expLength)) -
        Real.exp (-(angle (toEuclidean x.ecef) (toEuclidean y.ecef) / p.expLength))) *
      stationSquaredExponential p.sqLength p.sigmaSq x y := by
    unfold stationSignal processSignal
    rw [hv, exponentialCov, if_neg (not_le.2 hp.1), abs_of_nonneg (div_nonneg (angle_nonneg _ _) hp.1.le)]
    ring
  have h2 : 0 ≤ stationSquaredExponential p.sqLength p.sigmaSq x y ∧
      stationSquaredExponential p.sqLength p.sigmaSq x y ≤ p.sigmaSq ^ 2 := by
    unfold stationSquaredExponential squaredExponential
    rw [if_neg (not_le.2 hp.2), pow_two p.sigmaSq]
    refine ⟨mul_nonneg (mul_self_nonneg _) (Real.exp_pos _).le,
      mul_le_of_le_one_right (mul_self_nonneg _) (Real.exp_le_one_iff.2 (neg_nonpos.2 (sq_nonneg _)))⟩
  have h3 : |Real.exp (-(d / p.expLength)) -
      Real.exp (-(angle (toEuclidean x.ecef) (toEuclidean y.ecef) / p.expLength))| ≤ 3 / 10 ^ 8 / p.expLength := by
    refine (exp_neg_lipschitz (div_nonneg h0 hp.1.le) (div_nonneg (angle_nonneg _ _) hp.1.le)).trans ?_
    rw [← sub_div, abs_div, abs_of_pos hp.1]
    exact div_le_div_of_nonneg_right happ hp.1.le
  rw [h1, abs_mul, abs_mul, abs_of_nonneg (sq_nonneg p.sigmaExp), abs_of_nonneg h2.1]
  unfold spatialError
  calc _ ≤ p.sigmaExp ^ 2 * (3 / 10 ^ 8 / p.expLength) * p.sigmaSq ^ 2 :=
        mul_le_mul (mul_le_mul_of_nonneg_left h3 (sq_nonneg _)) h2.2 h2.1
          (mul_nonneg (sq_nonneg _) (by have := hp.1; positivity))
    _ = _ := by ring

theorem cov_split (p : TemperatureParams) (m : Bool) (x y : Station) :
    (temperatureGp p).cov (m, x) (m, y) =
      stationSignal p x y + (open Classical in if x.ecef = y.ecef then p.sigmaNoise ^ 2 else 0) := by
  rw [temperature_cov, if_pos rfl]
  have : stationNoise p.sigmaNoise x y = (open Classical in if x.ecef = y.ecef then p.sigmaNoise ^ 2 else 0) := by
    unfold stationNoise Station.eq
    by_cases h : x.ecef = y.ecef <;> simp [h, pow_two]
  rw [this]
  unfold stationSignal
  ring

theorem process_split {p : TemperatureParams} (hp : p.Scaled) (x y : Station) :
    stationProcess p x y = processSignal p x y + (open Classical in if x.ecef = y.ecef then p.sigmaNoise ^ 2 else 0) := by
  unfold stationProcess processSignal elevationScaling stationSquaredExponential squaredExponential exponentialCov
  rw [if_neg (not_le.2 hp.1), if_neg (not_le.2 hp.2), abs_of_nonneg (div_nonneg (angle_nonneg _ _) hp.1.le)]
  unfold radialDistance
  rw [eigenNorm_eq, eigenNorm_eq, div_pow |_|, sq_abs, ← div_pow]
  ring

/-- Quadratic forms of the covariance of distinct stations. -/
theorem quadratic_lower {p : TemperatureParams} (hp : p.Scaled) {m : Nat} (x : Fin m → Station) (hx : ∀ i, (x i).ecef ≠ 0)
    (hd : Function.Injective fun i => (x i).ecef) (f : Bool) (w : Fin m → ℝ) :
    (p.sigmaNoise ^ 2 - m * spatialError p) * ∑ i, w i ^ 2 ≤
      ∑ i, ∑ j, w i * w j * (temperatureGp p).cov (f, x i) (f, x j) := by
  have h1 := (processSignal_psd p).2 m x w
  have h2 : ∑ i, ∑ j, w i * w j * processSignal p (x i) (x j) - spatialError p * (∑ i, |w i|) ^ 2 ≤
      ∑ i, ∑ j, w i * w j * stationSignal p (x i) (x j) := by
    rw [pow_two (∑ i, |w i|), Finset.sum_mul_sum, Finset.mul_sum, ← Finset.sum_sub_distrib]
    refine Finset.sum_le_sum fun i _ => ?_
    rw [Finset.mul_sum, ← Finset.sum_sub_distrib]
    refine Finset.sum_le_sum fun j _ => ?_
    have h : |w i * w j * (stationSignal p (x i) (x j) - processSignal p (x i) (x j))| ≤
        |w i| * |w j| * spatialError p := by
      rw [abs_mul, abs_mul]
      exact mul_le_mul_of_nonneg_left (signal_close hp (hx i) (hx j)) (by positivity)
    have := neg_le_of_abs_le h
    linarith
  have h3 : ∑ i, ∑ j, w i * w j * (temperatureGp p).cov (f, x i) (f, x j) =
      ∑ i, ∑ j, w i * w j * stationSignal p (x i) (x j) + p.sigmaNoise ^ 2 * ∑ i, w i ^ 2 := by
    rw [Finset.mul_sum, ← Finset.sum_add_distrib]
    refine Finset.sum_congr rfl fun i _ => ?_
    have : ∀ j, w i * w j * (temperatureGp p).cov (f, x i) (f, x j) =
        w i * w j * stationSignal p (x i) (x j) + if j = i then p.sigmaNoise ^ 2 * w i ^ 2 else 0 := fun j => by
      rw [cov_split]
      by_cases h : j = i
      · subst h; simp; ring
      · rw [if_neg h, if_neg (fun e => h (hd e).symm)]; ring
    simp only [this, Finset.sum_add_distrib, Finset.sum_ite_eq', Finset.mem_univ, if_true]
  have h4 : (∑ i, |w i|) ^ 2 ≤ m * ∑ i, w i ^ 2 := by
    have := sq_sum_le_card_mul_sum_sq (s := (Finset.univ : Finset (Fin m))) (f := fun i => |w i|)
    simpa using this
  have h5 := mul_le_mul_of_nonneg_left h4 (spatialError_nonneg hp)
  rw [h3]
  nlinarith

/-! ## C130 -/

/-- The scaling is at least one, is one from the centre upwards, and falls as the stations get higher. -/
theorem C130_scaling (center : ℝ) {factor : ℝ} (hf : 0 ≤ factor) :
    (∀ x, 1 ≤ elevationScaling center factor x) ∧
    (∀ x, center ≤ x.height → elevationScaling center factor x = 1) ∧
    (∀ x, x.height ≤ center → elevationScaling center factor x = 1 + factor * (center - x.height)) ∧
    ∀ x y, x.height ≤ y.height → elevationScaling center factor y ≤ elevationScaling center factor x := by
  refine ⟨fun x => ?_, fun x h => ?_, fun x h => ?_, fun x y h => ?_⟩
  · unfold elevationScaling
    have := mul_nonneg hf (le_max_left 0 (center - x.height))
    linarith
  · unfold elevationScaling
    rw [max_eq_left (by linarith), mul_zero, add_zero]
  · unfold elevationScaling
    rw [max_eq_right (by linarith)]
  · unfold elevationScaling
    have := mul_le_mul_of_nonneg_left (max_le_max_left 0 (by linarith : center - y.height ≤ center - x.height)) hf
    linarith

/-- Setting up the model does not fail, and the covariance functions end up with the values of the example, each under its
own name; all of them are allowed by their priors, and `sigma_exponential` is fixed. -/
theorem C130_parameters (b : Build) : ∃ model, temperatureSetup b = .ok model ∧
    temperatureParams model = some ⟨4446.5, 0.000153439, 1.10298, 5.07288, 1, 1.75027, 13.913, 5835.56⟩ ∧
    model.getParams.map (fun kv => (kv.1, kv.2.value)) = temperatureValues ∧
    SMap.find? model.getParams "sigma_exponential" = some ⟨.fin 1, .fixed⟩ ∧ paramsAreValid model.getParams = true := by
  refine ⟨.gp [] (.declared [])
    (.both
      (.both
        (.both (.wrapped (.store [("elevation_scaling_center", ⟨.fin 4446.5, .uniform (.fin 0) (.fin 5000)⟩),
            ("elevation_scaling_factor", ⟨.fin 0.000153439, .positive⟩)]))
          (makeConstant (.fin 5.07288)))
        (makeNoise (.fin 1.75027)))
      (.both (.declared [("exponential_length_scale", ⟨.fin 1.10298, .positive⟩), ("sigma_exponential", ⟨.fin 1, .fixed⟩)])
        (RadialKind.squaredExponential.make (.fin 5835.56) (.fin 13.913)))), ?_, rfl, rfl, rfl, ?_⟩
  · cases b <;> rfl
  · show paramsAreValid [("elevation_scaling_center", ⟨.fin 4446.5, .uniform (.fin 0) (.fin 5000)⟩),
      ("elevation_scaling_factor", ⟨.fin 0.000153439, .positive⟩), ("exponential_length_scale", ⟨.fin 1.10298, .positive⟩),
      ("sigma_constant", ⟨.fin 5.07288, .nonNegative⟩), ("sigma_exponential", ⟨.fin 1, .fixed⟩),
      ("sigma_independent_noise", ⟨.fin 1.75027, .positive⟩), ("sigma_squared_exponential", ⟨.fin 13.913, .nonNegative⟩),
      ("squared_exponential_length_scale", ⟨.fin 5835.56, .positive⟩)] = true
    have he : Prior.epsilon ≤ 1 / 10000 := by unfold Prior.epsilon; norm_num
    simp only [paramsAreValid, Parameter.isValid, Prior.lower, Prior.upper]
    norm_num
    exact ⟨by linarith, by linarith, by linarith, by linarith⟩

/-- Between stations away from the centre of the earth, both predicted or both measured, what is computed is a number, no
assertion fails on the way, and it is the covariance of the process up to the rounding of small angles; with angles that
are not rounded it is that covariance. -/
theorem C130_covariance {p : TemperatureParams} (hp : p.Scaled) (m : Bool) {x y : Station} (hx : x.ecef ≠ 0)
    (hy : y.ecef ≠ 0) :
    (∀ b, exponentialAngular b p.expLength p.sigmaExp x.ecef y.ecef =
        .ok (.fin (stationExponential p.expLength p.sigmaExp x y)) ∧
      smoothRadial squaredExponentialChecked b p.sqLength p.sigmaSq (fun a b => radialDistance a b) x.ecef y.ecef =
        .ok (stationSquaredExponential p.sqLength p.sigmaSq x y)) ∧
    |(temperatureGp p).cov (m, x) (m, y) - stationProcess p x y| ≤ spatialError p ∧
    (|Real.cos (angle (toEuclidean x.ecef) (toEuclidean y.ecef))| ≤ 1 - 1 / 10 ^ 16 →
      (temperatureGp p).cov (m, x) (m, y) = stationProcess p x y) := by
  refine ⟨fun b => ⟨?_, ?_⟩, ?_, fun h => ?_⟩
  · obtain ⟨d, -, -, h, -⟩ := stationExponential_value (σ := p.sigmaExp) hp.1 hx hy
    exact h b
  · unfold smoothRadial squaredExponentialChecked stationSquaredExponential squaredExponential
    rw [if_neg (not_le.2 hp.2), if_neg (not_le.2 hp.2)]
    have : decide (0 ≤ radialDistance x.ecef y.ecef) = true := decide_eq_true (abs_nonneg _)
    rw [this, albatrossAssert_true]
    rfl
  · rw [cov_split, process_split hp]
    have := signal_close hp hx hy
    rwa [add_sub_add_right_eq_sub]
  · rw [cov_split, process_split hp]
    obtain ⟨d, hd, -, -, -, hex⟩ := C83_angular hx hy
    unfold stationSignal processSignal stationExponential exponentialAngular
    rw [hd, hex h, exponentialDbl_fin _ (angle_nonneg _ _)]
    rfl

/-- What is described is a process. -/
theorem C130_psd (p : TemperatureParams) (hp : p.Scaled) : IsPSD (stationProcess p) := by
  classical
  have h := (processSignal_psd p).add ((C22_noise_psd (X := Fin 3 → ℝ) p.sigmaNoise).comp Station.ecef)
  refine cast (congrArg IsPSD ?_) h
  funext x y
  rw [process_split hp]
  unfold noiseCov
  by_cases he : x.ecef = y.ecef <;> simp [he, pow_two]

/-- The covariance matrix of the temperatures of distinct stations is positive definite, as long as there are not so many
of them that the rounding of angles adds up to the noise. -/
theorem C130_posdef {p : TemperatureParams} (hp : p.Scaled) {m : Nat} (train : Fin m → Station)
    (h0 : ∀ i, (train i).ecef ≠ 0) (hd : Function.Injective fun i => (train i).ecef)
    (hm : m * spatialError p < p.sigmaNoise ^ 2) :
    (obsCovariance (temperatureGp p) (fun i => (false, train i)) fun _ : Fin m => 0).PosDef := by
  refine PosDef.of_dotProduct_mulVec_pos ?_ ?_
  · rw [IsHermitian, conjTranspose_eq_transpose_of_trivial]
    exact obsCovariance_symm (temperatureGp p) (temperature_symm p) _ _
  · intro w hw
    have h := quadratic_lower hp train h0 hd true w
    have hpos : 0 < ∑ i, w i ^ 2 := by
      obtain ⟨i, hi⟩ := Function.ne_iff.1 hw
      exact Finset.sum_pos' (fun i _ => sq_nonneg _) ⟨i, Finset.mem_univ i, by simpa [sq_pos_iff] using hi⟩
    have h2 : 0 < (p.sigmaNoise ^ 2 - m * spatialError p) * ∑ i, w i ^ 2 := mul_pos (by linarith) hpos
    refine (h2.trans_le h).trans_eq ?_
    simp only [dotProduct, mulVec, star_trivial, Pi.star_apply, Finset.mul_sum]
    refine Finset.sum_congr rfl fun i _ => Finset.sum_congr rfl fun j _ => ?_
    simp only [obsCovariance, of_apply, ite_self, add_zero]
    rw [temperature_asMeas, temperature_asMeas]
    ring

/-- The example fits and predicts the process of its covariance function: the predictions are the conditional distribution
given the temperatures; at a station that was measured it is the measured temperature with no uncertainty (the noise is
part of what is predicted), at any other the variance is at least that of the noise, up to the rounding, and at most the
prior one. -/
theorem C130_prediction {p : TemperatureParams} (hp : p.Scaled) {m : Nat} {q : Type} [Fintype q] (train : Fin m → Station)
    (h0 : ∀ i, (train i).ecef ≠ 0) (hd : Function.Injective fun i => (train i).ecef)
    (hm : m * spatialError p < p.sigmaNoise ^ 2) (ldlt : Matrix (Fin m) (Fin m) ℝ → Ldlt (Fin m))
    (hl : ∀ A, A.PosDef → (ldlt A).Factors A) (y : Fin m → ℝ) (xs : q → Station) :
    let k := fun a b => (temperatureGp p).cov (false, a) (false, b)
    let pred := (temperatureGp p).predictMarginal
      ((temperatureGp p).fit ldlt (fun i => (false, train i)) ⟨y, fun _ => 0⟩) fun j => (false, xs j)
    (∃ P, IsGaussianConditional (fun _ => 0) (fun _ => 0) (of fun j j' => k (xs j) (xs j')) (of fun j i => k (xs j) (train i))
      (of fun i j => k (train i) (train j)) y pred.mean P ∧ ∀ j, pred.variance j = P j j) ∧
    (∀ j i, (xs j).ecef = (train i).ecef → (xs j).height = (train i).height → pred.mean j = y i ∧ pred.variance j = 0) ∧
    (∀ j, pred.variance j ≤ k (xs j) (xs j)) ∧
    ((m + 1) * spatialError p ≤ p.sigmaNoise ^ 2 → ∀ j, (xs j).ecef ≠ 0 → (∀ i, (xs j).ecef ≠ (train i).ecef) →
      p.sigmaNoise ^ 2 - (m + 1) * spatialError p ≤ pred.variance j) := by
  intro k pred
  have hpd := C130_posdef hp train h0 hd hm
  have hu : IsUnit (obsCovariance (temperatureGp p) (fun i => (false, train i)) fun _ : Fin m => 0).det :=
    hpd.det_pos.ne'.isUnit
  have hK : obsCovariance (temperatureGp p) (fun i => (false, train i)) (fun _ : Fin m => 0) =
      of fun i j => k (train i) (train j) := by
    ext i j
    simp only [obsCovariance, of_apply, ite_self, add_zero]
    rw [temperature_asMeas, temperature_asMeas, cov_split]
    exact (cov_split p false _ _).symm
  set K : Matrix (Fin m) (Fin m) ℝ := of fun i j => k (train i) (train j) with hKdef
  have hc := C27_prediction_is_conditional (temperatureGp p) (temperature_symm p) ldlt (fun i => (false, train i))
    ⟨y, fun _ => 0⟩ (hl _ hpd) hu fun j => (false, xs j)
  have hf := C27_forms_agree (temperatureGp p)
    ((temperatureGp p).fit ldlt (fun i => (false, train i)) ⟨y, fun _ => 0⟩) fun j => (false, xs j)
  obtain ⟨hmean, hcov⟩ := C27_prediction_formulas (temperatureGp p) (temperature_symm p) ldlt (fun i => (false, train i))
    ⟨y, fun _ => 0⟩ (hl _ hpd) hu fun j => (false, xs j)
  simp only [hK] at hc hmean hcov hu hpd
  have hmean' : ∀ j, pred.mean j = ∑ i, k (train i) (xs j) * (K⁻¹ *ᵥ y) i := fun j => by
    show ((temperatureGp p).predictMarginal _ _).mean j = _
    rw [hf.1, hmean]
    simp only [temperature_mean, zero_add, sub_zero, mulVec, dotProduct, transpose_apply, of_apply]
    rfl
  set c : q → Fin m → ℝ := fun j i => k (train i) (xs j) with hcdef
  have hvar : ∀ j, pred.variance j = k (xs j) (xs j) - c j ⬝ᵥ K⁻¹ *ᵥ c j := fun j => by
    show ((temperatureGp p).predictMarginal _ _).variance j = _
    rw [hf.2.2, hcov]
    simp only [Matrix.sub_apply, of_apply, Matrix.mul_assoc, mul_apply, transpose_apply, dotProduct, mulVec]
    rfl
  have hKs : Kᵀ = K := by
    ext i j
    exact temperature_symm p (false, train j) (false, train i)
  refine ⟨⟨_, ?_, hf.2.2⟩, fun j i he hh => ?_, fun j => ?_, fun hm1 j hx hnew => ?_⟩
  · rw [show pred.mean = _ from hf.1]
    exact hc
  · have hrow : c j = fun i' => K i i' := by
      funext i'
      show (temperatureGp p).cov (false, train i') (false, xs j) = (temperatureGp p).cov (false, train i) (false, train i')
      rw [temperature_symm p (false, train i), temperature_cov, temperature_cov]
      unfold elevationScaling stationNoise Station.eq stationExponential stationSquaredExponential
      rw [he, hh]
    have hx' : k (xs j) (xs j) = K i i := by
      show (temperatureGp p).cov (false, xs j) (false, xs j) = (temperatureGp p).cov (false, train i) (false, train i)
      rw [temperature_cov, temperature_cov]
      unfold elevationScaling stationNoise Station.eq stationExponential stationSquaredExponential
      rw [he, hh]
    constructor
    · rw [hmean']
      have : ∑ i', c j i' * (K⁻¹ *ᵥ y) i' = (K *ᵥ (K⁻¹ *ᵥ y)) i := by
        rw [hrow]; rfl
      rw [show ∑ i', k (train i') (xs j) * (K⁻¹ *ᵥ y) i' = _ from this, mulVec_mulVec, mul_nonsing_inv _ hu, one_mulVec]
    · rw [hvar]
      have : c j ⬝ᵥ K⁻¹ *ᵥ c j = K i i := by
        have e : K⁻¹ *ᵥ c j = Pi.single i 1 := by
          have : c j = K *ᵥ Pi.single i 1 := by
            rw [hrow]; funext i'
            rw [mulVec_single_one]
            show K i i' = K i' i
            exact congrFun (congrFun hKs i') i
          rw [this, mulVec_mulVec, nonsing_inv_mul _ hu, one_mulVec]
        rw [e, dotProduct_single_one, hrow]
      rw [this, hx', sub_self]
  · rw [hvar]
    have := hpd.inv.posSemidef.dotProduct_mulVec_nonneg (c j)
    simp only [star_trivial] at this
    linarith
  · set u := K⁻¹ *ᵥ c j with hu'
    have hq := quadratic_lower hp (Fin.cons (xs j) train : Fin (m + 1) → Station)
      (fun i => by refine Fin.cases ?_ (fun i => ?_) i <;> simp [hx, h0])
      (by
        intro a b
        refine Fin.cases ?_ (fun a => ?_) a <;> refine Fin.cases ?_ (fun b => ?_) b
        · simp
        · intro e; exact absurd e (hnew b)
        · intro e; exact absurd e.symm (hnew a)
        · intro e; exact congrArg Fin.succ (hd e)) false (Fin.cons 1 fun i => -u i)
    simp only [Fin.sum_univ_succ, Fin.cons_zero, Fin.cons_succ] at hq
    have e1 : ∑ i, -u i * 1 * k (train i) (xs j) = -(c j ⬝ᵥ u) := by
      rw [dotProduct, ← Finset.sum_neg_distrib]
      exact Finset.sum_congr rfl fun i _ => by ring
    have e2 : ∑ i, 1 * -u i * k (xs j) (train i) = -(c j ⬝ᵥ u) := by
      rw [dotProduct, ← Finset.sum_neg_distrib]
      exact Finset.sum_congr rfl fun i _ => by
        rw [show k (xs j) (train i) = c j i from temperature_symm p _ _]; ring
    have e3 : ∑ i, ∑ i', -u i * -u i' * k (train i) (train i') = c j ⬝ᵥ u := by
      have : K *ᵥ u = c j := by rw [hu', mulVec_mulVec, mul_nonsing_inv _ hu, one_mulVec]
      rw [← this, dotProduct_comm]
      simp only [dotProduct, mulVec, Finset.mul_sum]
      exact Finset.sum_congr rfl fun i _ => Finset.sum_congr rfl fun i' _ => by
        show _ = u i * (k (train i) (train i') * u i')
        ring
    rw [Finset.sum_add_distrib, show ∑ i, -u i * 1 * (temperatureGp p).cov (false, train i) (false, xs j) = _ from e1,
      show ∑ i, 1 * -u i * (temperatureGp p).cov (false, xs j) (false, train i) = _ from e2,
      show ∑ i, ∑ i', -u i * -u i' * (temperatureGp p).cov (false, train i) (false, train i') = _ from e3] at hq
    rw [hvar]
    have h1 : 0 ≤ ∑ i, (-u i) ^ 2 := Finset.sum_nonneg fun i _ => sq_nonneg _
    push_cast at hq
    have h2 := mul_nonneg (sub_nonneg.2 hm1) h1
    show _ ≤ (temperatureGp p).cov (false, xs j) (false, xs j) - c j ⬝ᵥ u
    linarith

/-- Predicting measurements of stations (`predict_with_measurement_noise`) is not the same, though no term is noise of the
measurements only: of a pair of a station and a measurement the scaling term scales the station alone
(`C75_measurement_not_scaled`).  At the one station that was measured the predicted measurement is not the measured
temperature, wherever the scaling is in use. -/
theorem C130_measured_false {p : TemperatureParams} (hp : p.Scaled) (hn : spatialError p < p.sigmaNoise ^ 2)
    (hc : p.sigmaConstant ≠ 0) (hf : 0 < p.factor) {x : Station} (hx : x.ecef ≠ 0) (hh : x.height < p.center) {y : ℝ}
    (hy : y ≠ 0) (ldlt : Matrix (Fin 1) (Fin 1) ℝ → Ldlt (Fin 1)) (hl : ∀ A, A.PosDef → (ldlt A).Factors A) :
    let fit := (temperatureGp p).fit ldlt (fun _ : Fin 1 => (false, x)) ⟨fun _ => y, fun _ => 0⟩
    ((temperatureGp p).predictMarginal fit fun _ : Fin 1 => (false, x)).mean 0 = y ∧
    ((temperatureGp p).predictMarginal fit fun _ : Fin 1 => (temperatureGp p).asMeas (false, x)).mean 0 ≠ y := by
  intro fit
  have hpd := C130_posdef hp (fun _ : Fin 1 => x) (fun _ => hx) (fun a b _ => Subsingleton.elim a b) (by simpa using hn)
  have hu : IsUnit (obsCovariance (temperatureGp p) (fun _ : Fin 1 => (false, x)) fun _ : Fin 1 => 0).det :=
    hpd.det_pos.ne'.isUnit
  refine ⟨((C130_prediction hp (fun _ : Fin 1 => x) (fun _ => hx) (fun a b _ => Subsingleton.elim a b)
    (by simpa using hn) ldlt hl (fun _ => y) fun _ : Fin 1 => x).2.1 0 0 rfl rfl).1, fun he => ?_⟩
  set K := obsCovariance (temperatureGp p) (fun _ : Fin 1 => (false, x)) fun _ : Fin 1 => 0 with hK
  have hmean := (C27_prediction_formulas (temperatureGp p) (temperature_symm p) ldlt (fun _ : Fin 1 => (false, x))
    ⟨fun _ => y, fun _ => 0⟩ (hl _ hpd) hu fun _ : Fin 1 => (temperatureGp p).asMeas (false, x)).1 0
  set v := (K⁻¹ *ᵥ fun _ => y) 0 with hv
  have hKv : K 0 0 * v = y := by
    have h : ∑ i, K 0 i * (K⁻¹ *ᵥ fun _ => y) i = y := congrFun (show K *ᵥ (K⁻¹ *ᵥ fun _ => y) = fun _ => y by
      rw [mulVec_mulVec, mul_nonsing_inv _ hu, one_mulVec]) 0
    rwa [Fin.sum_univ_one] at h
  have hK00 : K 0 0 = (temperatureGp p).cov (true, x) (true, x) := by
    rw [hK]; simp only [obsCovariance, of_apply, ite_self, add_zero, temperature_asMeas]
  have hm : ((temperatureGp p).predictMarginal fit fun _ : Fin 1 => (temperatureGp p).asMeas (false, x)).mean 0 =
      (temperatureGp p).cov (false, x) (true, x) * v := by
    refine ((congrFun (C27_forms_agree (temperatureGp p) fit _).1 0).trans hmean).trans ?_
    simp only [temperature_mean, sub_zero, zero_add, temperature_asMeas, mulVec, dotProduct, Fin.sum_univ_one,
      transpose_apply, of_apply]
    rw [hv]
    simp only [mulVec, dotProduct, Fin.sum_univ_one]
    rfl
  rw [hm, ← hKv, hK00] at he
  have hv0 : v ≠ 0 := fun h => hy (by rw [← hKv, h, mul_zero])
  have he := mul_right_cancel₀ hv0 he
  rw [temperature_cov, temperature_cov] at he
  simp only [if_false, if_true, Bool.false_eq_true] at he
  have hs : 1 < elevationScaling p.center p.factor x := by
    rw [(C130_scaling p.center hf.le).2.2.1 x hh.le]
    have := mul_pos hf (sub_pos.2 hh)
    linarith
  have hcc := mul_self_pos.2 hc
  nlinarith [mul_pos (mul_pos (sub_pos.2 hs) (lt_trans one_pos hs)) hcc]

/-- What is kept of the rows. -/
theorem readStations_spec {thin : Int} {t : Nat} (ht : t = thin.natAbs) (h0 : thin ≠ 0) (rows : List (Station × ℝ)) :
    ∀ (c o : Nat) (fs : List Station) (ts : List ℝ), (c + o) % t = 0 → o < t →
      ∃ kept : List (Station × ℝ), readStations thin c fs ts rows = .ok (fs ++ kept.map Prod.fst, ts ++ kept.map Prod.snd) ∧
        ∀ k, kept[k]? = rows[o + k * t]? := by
  induction rows with
  | nil => intro c o fs ts _ _; exact ⟨[], by simp [readStations], fun k => by simp⟩
  | cons r rows ih =>
    intro c o fs ts hco ho
    have hmod : Int.tmod c thin = 0 ↔ c % t = 0 := by
      rw [ht, ← Int.natAbs_eq_zero, Int.natAbs_tmod, Int.natAbs_natCast]
    obtain ⟨st, te⟩ := r
    rcases Nat.eq_zero_or_pos o with rfl | hpos
    · have hc : c % t = 0 := by simpa using hco
      obtain ⟨kept, h1, h2⟩ := ih (c + 1) (t - 1) (fs ++ [st]) (ts ++ [te])
        (by rw [show c + 1 + (t - 1) = c + t by omega, Nat.add_mod_right]; exact hc) (by omega)
      refine ⟨(st, te) :: kept, ?_, fun k => ?_⟩
      · rw [readStations, if_neg h0, if_pos (hmod.2 hc)]
        push_cast at h1
        rw [h1]; simp
      · cases k with
        | zero => simp
        | succ k =>
          rw [List.getElem?_cons_succ, h2 k, show 0 + (k + 1) * t = (t - 1 + k * t) + 1 by rw [Nat.succ_mul]; omega,
            List.getElem?_cons_succ]
    · have hc : ¬ c % t = 0 := by
        intro hc
        rw [Nat.add_mod, hc, zero_add, Nat.mod_mod, Nat.mod_eq_of_lt ho] at hco
        omega
      obtain ⟨kept, h1, h2⟩ := ih (c + 1) (o - 1) fs ts
        (by rw [show c + 1 + (o - 1) = c + o by omega]; exact hco) (by omega)
      refine ⟨kept, ?_, fun k => ?_⟩
      · rw [readStations, if_neg h0, if_neg (fun h => hc (hmod.1 h))]
        push_cast at h1
        exact h1
      · rw [h2 k, show o + k * t = (o - 1 + k * t) + 1 by omega, List.getElem?_cons_succ]

/-- Reading keeps every `thin`-th row, from the first, a station with its temperature. -/
theorem C130_reading {thin : Int} (h0 : thin ≠ 0) {rows : List (Station × ℝ)} (hr : rows ≠ []) :
    ∃ stations temperatures, readTemperature rows thin = .ok (stations, temperatures) ∧
      stations.length = temperatures.length ∧
      (∀ k, k < stations.length ↔ k * thin.natAbs < rows.length) ∧
      ∀ k, stations[k]? = (rows[k * thin.natAbs]?).map Prod.fst ∧ temperatures[k]? = (rows[k * thin.natAbs]?).map Prod.snd := by
  obtain ⟨kept, h1, h2⟩ := readStations_spec (t := thin.natAbs) rfl h0 rows 0 0 [] [] (by simp)
    (Int.natAbs_pos.2 h0)
  simp only [List.nil_append, zero_add, Nat.cast_zero] at h1 h2
  have hk : ∀ k, k < kept.length ↔ k * thin.natAbs < rows.length := fun k => by
    have := h2 k
    constructor
    · intro h
      by_contra hc
      rw [List.getElem?_eq_none (not_lt.1 hc), List.getElem?_eq_none_iff] at this
      omega
    · intro h
      by_contra hc
      rw [List.getElem?_eq_none (not_lt.1 hc), eq_comm, List.getElem?_eq_none_iff] at this
      omega
  refine ⟨kept.map Prod.fst, kept.map Prod.snd, ?_, by simp, fun k => by simpa using hk k, fun k => ?_⟩
  · have hlen : 0 < (kept.map Prod.snd).length := by
      rw [List.length_map, hk 0, zero_mul]
      exact List.length_pos_iff.2 hr
    unfold readTemperature
    rw [h1]
    simp only [except_ok_bind]
    rw [vecGet_lt hlen]
    rfl
  · simp [h2 k]

/-- Nothing to read, and a `thin` of zero, are undefined behaviour. -/
theorem C130_reading_false (thin : Int) (rows : List (Station × ℝ)) :
    readTemperature [] thin = .error .ub ∧ readTemperature rows 0 = .error .ub := by
  refine ⟨rfl, ?_⟩
  cases rows <;> rfl

/-- The values of the example. -/
noncomputable def tunedParams : TemperatureParams := ⟨4446.5, 0.000153439, 1.10298, 5.07288, 1, 1.75027, 13.913, 5835.56⟩

theorem tuned_scaled : tunedParams.Scaled := ⟨by norm_num [tunedParams], by norm_num [tunedParams]⟩

theorem tuned_error : spatialError tunedParams ≤ 53 / 10 ^ 7 := by
  unfold spatialError tunedParams; norm_num

theorem tuned_noise : (3.06 : ℝ) ≤ tunedParams.sigmaNoise ^ 2 := by
  unfold tunedParams; norm_num

/-- The whole program, on up to 100000 stations at distinct positions: nothing fails, there is a prediction for every row of
the second file, these are the conditional distributions of a process whose covariance is within 6e-6 of the one described,
at a station that was used they repeat its temperature, at any other the variance is at least 2.5. -/
theorem C130_example (b : Build) (ldlt : (m : Nat) → Matrix (Fin m) (Fin m) ℝ → Ldlt (Fin m))
    (hl : ∀ m A, A.PosDef → (ldlt m A).Factors A) {thin : Int} (h0 : thin ≠ 0) {input predict : List (Station × ℝ)}
    (hi : input ≠ []) (hp : predict ≠ [])
    (hpos : ∀ k row, input[k * thin.natAbs]? = some row → row.1.ecef ≠ 0)
    (hdist : ∀ k k' row row', input[k * thin.natAbs]? = some row → input[k' * thin.natAbs]? = some row' →
      row.1.ecef = row'.1.ecef → k = k')
    (hlen : input.length ≤ 100000 * thin.natAbs) :
    ∃ stations temperatures out, readTemperature input thin = .ok (stations, temperatures) ∧
      temperatureExample b ldlt thin input predict = .ok (some out) ∧ out.1 = predict.length ∧
      (∃ k : Station → Station → ℝ, ∃ xs : Fin out.1 → Station, (∀ j : Fin out.1, some (xs j) = predict[j.1]?.map Prod.fst) ∧
        (∀ x y : Station, x.ecef ≠ 0 → y.ecef ≠ 0 → |k x y - stationProcess tunedParams x y| ≤ 6 / 10 ^ 6) ∧
        ∃ P, IsGaussianConditional (fun _ => 0) (fun _ => 0) (of fun j j' => k (xs j) (xs j'))
          (of fun j (i : Fin stations.length) => k (xs j) (stations.get i))
          (of fun i j => k (stations.get i) (stations.get j)) (fun i => temperatures.getD i 0) out.2.mean P ∧
          ∀ j, out.2.variance j = P j j) ∧
      (∀ (j : Fin out.1) (k : Nat) row row', predict[j.1]? = some row → input[k * thin.natAbs]? = some row' →
        row.1.ecef = row'.1.ecef → row.1.height = row'.1.height → out.2.mean j = row'.2 ∧ out.2.variance j = 0) ∧
      ∀ (j : Fin out.1) row, predict[j.1]? = some row → row.1.ecef ≠ 0 →
        (∀ k row', input[k * thin.natAbs]? = some row' → row.1.ecef ≠ row'.1.ecef) → 2.5 ≤ out.2.variance j := by
  obtain ⟨stations, temperatures, h1, h2, h3, h4⟩ := C130_reading h0 hi
  obtain ⟨xs, ys, g1, g2, g3, g4⟩ := C130_reading (thin := 1) one_ne_zero hp
  simp only [Int.natAbs_one, mul_one] at g3 g4
  obtain ⟨model, e1, e2, -⟩ := C130_parameters b
  have hcount : stations.length ≤ 100000 := by
    by_contra hc
    have := (h3 100000).1 (by omega)
    omega
  have hrow : ∀ i : Fin stations.length, ∃ row, input[i.1 * thin.natAbs]? = some row ∧ stations.get i = row.1 ∧
      temperatures.getD i 0 = row.2 := fun i => by
    have h := (h3 i).1 i.2
    refine ⟨input[i.1 * thin.natAbs], List.getElem?_eq_getElem h, ?_, ?_⟩
    · have := (h4 i).1
      rw [List.getElem?_eq_getElem h, List.getElem?_eq_getElem i.2] at this
      simpa using this
    · have := (h4 i).2
      rw [List.getElem?_eq_getElem h] at this
      rw [List.getD_eq_getElem?_getD, this]; rfl
  have hz : ∀ i, (stations.get i).ecef ≠ 0 := fun i => by
    obtain ⟨row, r1, r2, -⟩ := hrow i
    rw [r2]; exact hpos _ _ r1
  have hinj : Function.Injective fun i => (stations.get i).ecef := fun i i' h => by
    obtain ⟨row, r1, r2, -⟩ := hrow i
    obtain ⟨row', r1', r2', -⟩ := hrow i'
    simp only [r2, r2'] at h
    exact Fin.ext (hdist _ _ _ _ r1 r1' h)
  have hc' : (stations.length : ℝ) ≤ 100000 := by exact_mod_cast hcount
  have herr := tuned_error
  have hnoise := tuned_noise
  have herr0 := spatialError_nonneg tuned_scaled
  have hm : stations.length * spatialError tunedParams ≤ 0.53 := by
    have := mul_le_mul hc' herr herr0 (by norm_num)
    norm_num at this ⊢
    linarith
  obtain ⟨⟨P, p1, p2⟩, p3, -, p4⟩ := C130_prediction tuned_scaled (fun i => stations.get i) hz hinj (by linarith)
    (ldlt stations.length) (hl _) (fun i => temperatures.getD i 0) fun j : Fin xs.length => xs.get j
  have hxl : xs.length = predict.length := by
    refine le_antisymm ?_ ?_
    · by_contra hc
      have := (g3 predict.length).1 (by omega)
      omega
    · by_contra hc
      have := (g3 xs.length).2 (by omega)
      omega
  have hx : ∀ j : Fin xs.length, some (xs.get j) = predict[j.1]?.map Prod.fst := fun j => by
    rw [← (g4 j).1, List.getElem?_eq_getElem j.2]; rfl
  have hx' : ∀ (j : Fin xs.length) row, predict[j.1]? = some row → xs.get j = row.1 := fun j row h => by
    have := hx j
    rw [h] at this
    exact Option.some.inj this
  refine ⟨stations, temperatures, ⟨xs.length, (temperatureGp tunedParams).predictMarginal
    ((temperatureGp tunedParams).fit (ldlt stations.length) (fun i => (false, stations.get i))
      ⟨fun i => temperatures.getD i 0, fun _ => 0⟩) fun j => (false, xs.get j)⟩, h1, ?_, hxl,
    ⟨fun a b => (temperatureGp tunedParams).cov (false, a) (false, b), fun j => xs.get j, hx, ?_, P, p1, p2⟩, ?_, ?_⟩
  · unfold temperatureExample
    rw [h1, e1, g1]
    simp only [except_ok_bind]
    rw [e2]
    rfl
  · intro x y hx hy
    exact ((C130_covariance tuned_scaled false hx hy).2.1.trans herr).trans (by norm_num)
  · intro j k row row' r1 r2 r3 r4
    have hk : k < stations.length := (h3 k).2 (List.getElem?_eq_some_iff.1 r2).1
    obtain ⟨row2, q1, q2, q3⟩ := hrow ⟨k, hk⟩
    rw [r2] at q1
    obtain rfl := Option.some.inj q1
    have := p3 j ⟨k, hk⟩ (by rw [hx' j row r1, q2]; exact r3) (by rw [hx' j row r1, q2]; exact r4)
    exact ⟨this.1.trans q3, this.2⟩
  · intro j row r1 r2 r3
    have hm1 : (stations.length + 1) * spatialError tunedParams ≤ 0.54 := by
      have : spatialError tunedParams ≤ 0.01 := herr.trans (by norm_num)
      linarith
    have := p4 (by linarith) j (by rw [hx' j row r1]; exact r2) fun i => by
      obtain ⟨row2, q1, q2, -⟩ := hrow i
      rw [hx' j row r1, q2]
      exact r3 _ _ q1
    refine le_trans ?_ this
    linarith

/-! ## The hypotheses are met -/

/-- Two stations at different places. -/
noncomputable def stationA : Station := ⟨1, 0, 0, 100, ![6378137, 0, 0]⟩

noncomputable def stationB : Station := ⟨2, 0, 90, 2000, ![0, 6378137, 0]⟩

theorem stations_positions : stationA.ecef ≠ 0 ∧ stationB.ecef ≠ 0 ∧ stationA.ecef ≠ stationB.ecef := by
  refine ⟨fun h => ?_, fun h => ?_, fun h => ?_⟩
  · have := congrFun h 0; norm_num [stationA] at this
  · have := congrFun h 1; norm_num [stationB] at this
  · have := congrFun h 0; norm_num [stationA, stationB] at this

/-- Of four rows two are kept, they lie at distinct positions, and one of the stations to predict was measured. -/
example : ∃ (thin : Int) (input predict : List (Station × ℝ)), thin ≠ 0 ∧ input ≠ [] ∧ predict ≠ [] ∧
    (∀ k row, input[k * thin.natAbs]? = some row → row.1.ecef ≠ 0) ∧
    (∀ k k' row row', input[k * thin.natAbs]? = some row → input[k' * thin.natAbs]? = some row' →
      row.1.ecef = row'.1.ecef → k = k') ∧ input.length ≤ 100000 * thin.natAbs ∧
    (∃ k row, input[k * thin.natAbs]? = some row ∧ (∃ r ∈ predict, r.1 = row.1)) ∧ 2 < input.length := by
  obtain ⟨a, b, c⟩ := stations_positions
  have h : ∀ (k : Nat) (row : Station × ℝ), [(stationA, (12 : ℝ)), (stationA, 13), (stationB, 5), (stationB, 4)][k * 2]? = some row →
      (k = 0 ∧ row = (stationA, 12)) ∨ (k = 1 ∧ row = (stationB, 5)) := by
    intro k row h
    match k with
    | 0 => left; exact ⟨rfl, (Option.some.inj h).symm⟩
    | 1 => right; exact ⟨rfl, (Option.some.inj h).symm⟩
    | k + 2 =>
      rw [List.getElem?_eq_none (by simp; omega)] at h
      cases h
  refine ⟨2, [(stationA, 12), (stationA, 13), (stationB, 5), (stationB, 4)], [(stationB, 0)], by norm_num, by simp, by simp,
    fun k row hk => ?_, fun k k' row row' hk hk' he => ?_, by simp, ⟨1, (stationB, 5), rfl, (stationB, 0), by simp, rfl⟩, by simp⟩
  · rcases h k row hk with ⟨-, rfl⟩ | ⟨-, rfl⟩
    · exact a
    · exact b
  · rcases h k row hk with ⟨rfl, rfl⟩ | ⟨rfl, rfl⟩ <;> rcases h k' row' hk' with ⟨rfl, rfl⟩ | ⟨rfl, rfl⟩
    · rfl
    · exact absurd he c
    · exact absurd he.symm c
    · rfl

/-- The tuned values meet the hypotheses of `C130_measured_false`, `C130_prediction` and `C130_posdef`. -/
example : tunedParams.Scaled ∧ spatialError tunedParams < tunedParams.sigmaNoise ^ 2 ∧ tunedParams.sigmaConstant ≠ 0 ∧
    0 < tunedParams.factor ∧ stationA.ecef ≠ 0 ∧ stationA.height < tunedParams.center ∧
    (2 : ℕ) * spatialError tunedParams < tunedParams.sigmaNoise ^ 2 ∧
    Function.Injective (fun i : Fin 2 => ((![stationA, stationB] : Fin 2 → Station) i).ecef) := by
  have h1 := tuned_error
  have h2 := tuned_noise
  refine ⟨tuned_scaled, ?_, by norm_num [tunedParams], by norm_num [tunedParams], stations_positions.1,
    by norm_num [tunedParams, stationA], ?_, fun i j h => ?_⟩
  · norm_num at h1 h2 ⊢; linarith
  · norm_num at h1 h2 ⊢; linarith
  · fin_cases i <;> fin_cases j
    · rfl
    · exact absurd h stations_positions.2.2
    · exact absurd h.symm stations_positions.2.2
    · rfl

/-- A quarter turn is not rounded. -/
example : |Real.cos (angle (toEuclidean stationA.ecef) (toEuclidean stationB.ecef))| ≤ 1 - 1 / 10 ^ 16 := by
  have : inner ℝ (toEuclidean stationA.ecef) (toEuclidean stationB.ecef) = 0 := by
    rw [← eigenDotFin_eq]
    simp [eigenDotFin, stationA, stationB, Fin.sum_univ_three]
  rw [inner_eq_zero_iff_angle_eq_pi_div_two] at this
  rw [this, Real.cos_pi_div_two]
  norm_num

end Albatross
