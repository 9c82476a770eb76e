import Verif.CovComposeProps
import Verif.DistanceKernels
import Verif.ProvidedFunctions
import Verif.Prediction

/-! # Model of the temperature example

examples/temperature_example/temperature_example_utils.h and temperature_example.cc: reading the stations, the model, its
parameters, and the Gaussian process it stands for.  Not modelled: the parsing of the columns (a row is a station and the
number `atof` makes of its temperature), the command line, the printed progress, the counter of the rows overflowing. -/

namespace Albatross

/-- `Station` (temperature_example_utils.h lines 27-43). -/
structure Station where
  id : Int
  lat : ℝ
  lon : ℝ
  height : ℝ
  ecef : Fin 3 → ℝ

open Classical in
/-- `Station::operator==` (temperature_example_utils.h line 34). -/
noncomputable def Station.eq (x y : Station) : Bool := decide (x.ecef = y.ecef)

/-- `ElevationScalingFunction::_call_impl` (temperature_example_utils.h lines 78-84). -/
noncomputable def elevationScaling (center factor : ℝ) (x : Station) : ℝ := 1 + factor * max 0 (center - x.height)

/-- The loop of `read_temperature_csv_input` (temperature_example_utils.h lines 97-110): `count`, what was read so far and
the rows still to come.  `%` by zero is undefined. -/
def readStations (thin : Int) : Int → List Station → List ℝ → List (Station × ℝ) → Outcome (List Station × List ℝ)
  | _, features, targets, [] => .ok (features, targets)
  | count, features, targets, (station, temperature) :: rows =>
    if thin = 0 then .error .ub
    else if Int.tmod count thin = 0 then
      readStations thin (count + 1) (features ++ [station]) (targets ++ [temperature]) rows
    else readStations thin (count + 1) features targets rows

/-- `read_temperature_csv_input` (temperature_example_utils.h lines 87-114): the address of the first target is taken
whether or not there is one. -/
def readTemperature (rows : List (Station × ℝ)) (thin : Int) : Outcome (List Station × List ℝ) := do
  let r ← readStations thin 0 [] [] rows
  let _ ← vecGet r.2 0
  pure r

/-- The features of the example: stations, and measurements of stations. -/
abbrev StationFeature : Unit → Type := fun _ => Station

/-- A covariance function whose `_call_impl` takes two stations. -/
def onStations (f : Station → Station → ℝ) : Caller StationFeature where
  valid
    | .base _, .base _ => true
    | _, _ => false
  call
    | .base _, .base _, x, y => f x y
    | _, _, _, _ => 0

/-- `Constant`, whose `_call_impl` takes anything (polynomials.hpp lines 56-60). -/
def onAnything (sigma : ℝ) : Caller StationFeature where
  valid _ _ := true
  call _ _ _ _ := sigma * sigma

/-- `IndependentNoise<Station>` (noise.hpp lines 35-41). -/
noncomputable def stationNoise (sigma : ℝ) (x y : Station) : ℝ := if x.eq y then sigma * sigma else 0

/-- The number a call gives, where it gives one (`C127_angular_zero` says what happens elsewhere). -/
def theNumber : Outcome Dbl → ℝ
  | .ok (.fin v) => v
  | _ => 0

/-- `Exponential<StationDistance<AngularDistance>>` (radial.hpp lines 276-284 with temperature_example_utils.h lines
50-66). -/
noncomputable def stationExponential (l σ : ℝ) (x y : Station) : ℝ :=
  theNumber (exponentialAngular .ndebug l σ x.ecef y.ecef)

/-- `SquaredExponential<StationDistance<RadialDistance>>` (radial.hpp lines 177-186 with temperature_example_utils.h lines
50-66). -/
noncomputable def stationSquaredExponential (l σ : ℝ) (x y : Station) : ℝ :=
  squaredExponential (radialDistance x.ecef y.ecef) l σ

/-- The parameters of the example, by name. -/
structure TemperatureParams where
  center : ℝ
  factor : ℝ
  expLength : ℝ
  sigmaConstant : ℝ
  sigmaExp : ℝ
  sigmaNoise : ℝ
  sigmaSq : ℝ
  sqLength : ℝ

/-- `elevation_scaled_mean + noise + spatial_cov` (temperature_example.cc lines 34-62). -/
noncomputable def temperatureCaller (p : TemperatureParams) : Caller StationFeature :=
  covSum
    (covSum
      (scaledProduct (scalingTerm (scalingOn fun _ => true) (scalingFn fun _ x => elevationScaling p.center p.factor x))
        (onAnything p.sigmaConstant))
      (onStations (stationNoise p.sigmaNoise)))
    (covProduct (onStations (stationExponential p.expLength p.sigmaExp))
      (onStations (stationSquaredExponential p.sqLength p.sigmaSq)))

/-- `gp_from_covariance(covariance)` (temperature_example.cc line 63); the mean is zero. -/
noncomputable def temperatureGp (p : TemperatureParams) : Gp (Bool × Station) :=
  gpOfCaller (temperatureCaller p) () fun _ => 0

/-- The model as it is constructed (temperature_example.cc lines 34-63, temperature_example_utils.h lines 70-74). -/
noncomputable def temperatureModel : Handler :=
  .gp [] (.declared [])
    (.both
      (.both
        (.both (.wrapped (.store [("elevation_scaling_center", ⟨.fin 1000, .uniform (.fin 0) (.fin 5000)⟩),
            ("elevation_scaling_factor", ⟨.fin (7 / 2 / 300), .positive⟩)]))
          (makeConstant (.fin (3 / 2))))
        (makeNoise (.fin 2)))
      (.both (RadialKind.exponential.make (.fin (9 / 100)) (.fin (7 / 2)))
        (RadialKind.squaredExponential.make (.fin 15000) (.fin (5 / 2)))))

/-- The values of temperature_example.cc lines 76-85. -/
noncomputable def temperatureValues : SMap String Dbl :=
  [("elevation_scaling_center", .fin 4446.5), ("elevation_scaling_factor", .fin 0.000153439),
    ("exponential_length_scale", .fin 1.10298), ("sigma_constant", .fin 5.07288), ("sigma_exponential", .fin 1),
    ("sigma_independent_noise", .fin 1.75027), ("sigma_squared_exponential", .fin 13.913),
    ("squared_exponential_length_scale", .fin 5835.56)]

/-- `model.set_param(...)` and `model.set_param_values(...)` (temperature_example.cc lines 65-85). -/
noncomputable def temperatureSetup (b : Build) : Outcome Handler := do
  let model ← Handler.set b temperatureModel "sigma_exponential" ⟨.fin 1, .fixed⟩
  Handler.setAllValues b model temperatureValues

/-- The parameters the covariance functions of a model hold. -/
def temperatureParams : Handler → Option TemperatureParams
  | .gp _ _ (.both (.both (.both (.wrapped (.store scaling)) (.declared constant)) (.declared noise))
      (.both (.declared angular) (.declared radial))) => do
    let center ← readValue scaling "elevation_scaling_center"
    let factor ← readValue scaling "elevation_scaling_factor"
    let expLength ← readValue angular "exponential_length_scale"
    let sigmaConstant ← readValue constant "sigma_constant"
    let sigmaExp ← readValue angular "sigma_exponential"
    let sigmaNoise ← readValue noise "sigma_independent_noise"
    let sigmaSq ← readValue radial "sigma_squared_exponential"
    let sqLength ← readValue radial "squared_exponential_length_scale"
    pure ⟨center, factor, expLength, sigmaConstant, sigmaExp, sigmaNoise, sigmaSq, sqLength⟩
  | _ => none

/-- Reading, setting up, fitting and predicting (temperature_example.cc lines 29-93, temperature_example_utils.h lines
121-136): the marginal prediction at the stations to predict, or `none` if the parameters are not numbers. -/
noncomputable def temperatureExample (b : Build) (ldlt : (m : Nat) → Matrix (Fin m) (Fin m) ℝ → Ldlt (Fin m)) (thin : Int)
    (input predict : List (Station × ℝ)) : Outcome (Option ((q : Nat) × Marginal (Fin q))) := do
  let data ← readTemperature input thin
  let model ← temperatureSetup b
  let stations ← readTemperature predict 1
  pure ((temperatureParams model).map fun p =>
    let g := temperatureGp p
    let fit := g.fit (ldlt data.1.length) (fun i => (false, data.1.get i)) ⟨fun i => data.2.getD i 0, fun _ => 0⟩
    ⟨stations.1.length, g.predictMarginal fit fun j => (false, stations.1.get j)⟩)

end Albatross
