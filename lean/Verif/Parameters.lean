import Verif.Dbl
import Verif.MapUtils
import Mathlib.Data.String.Basic
import Mathlib.Analysis.SpecialFunctions.Trigonometric.Basic

/-! # Model of `core/priors.hpp`, `core/parameters.hpp`, `core/parameter_macros.hpp` and
`core/parameter_handling_mixin.hpp`

Names, printing and `operator==` are modelled in Verif/PrettyParams.lean; serialisation in Verif/Archive.lean. -/

namespace Albatross

/-! ## Priors -/

/-- `LOG_2PI_` (core/priors.hpp line 19); the decimal literal is read as the number it
approximates. -/
noncomputable def log2Pi : ℝ := Real.log (2 * Real.pi)

/-- `LOG_2_` (core/priors.hpp line 18), read the same way. -/
noncomputable def log2 : ℝ := Real.log 2

/-- `PossiblePriors` (core/priors.hpp lines 44-199).  `PriorContainer` (lines 201-253) forwards every
call to the alternative it holds, so it is identified with it. -/
inductive Prior
  | uninformative
  | fixed
  | nonNegative
  | positive
  | uniform (lower upper : Dbl)
  | logScaleUniform (lower upper : Dbl)
  | gaussian (mu sigma : Dbl)
  | logNormal (mu sigma : Dbl)
  | positiveGaussian (mu sigma : Dbl)

namespace Prior

/-- `std::numeric_limits<double>::epsilon()`. -/
noncomputable def epsilon : ℝ := 2⁻¹ ^ 52

/-- `lower_bound` (core/priors.hpp lines 34, 62-64, 72, 89, 153). -/
noncomputable def lower : Prior → Dbl
  | positive => .fin epsilon
  | nonNegative => .fin 0
  | uniform l _ => l
  | logScaleUniform l _ => l
  | positiveGaussian _ _ => .fin 0
  | _ => .ninf

/-- `upper_bound` (core/priors.hpp lines 35, 65, 73, 90, 155). -/
noncomputable def upper : Prior → Dbl
  | uniform _ u => u
  | logScaleUniform _ u => u
  | positiveGaussian _ sigma => .fin 10 * sigma
  | _ => .pinf

/-- `is_log_scale` (core/priors.hpp lines 36, 118). -/
def isLogScale : Prior → Bool
  | logScaleUniform _ _ => true
  | _ => false

/-- `is_fixed` (core/priors.hpp lines 37, 55). -/
def isFixed : Prior → Bool
  | fixed => true
  | _ => false

/-- `log_pdf` (core/priors.hpp lines 47, 53, 60, 70, 92-98, 135-138, 163-166, 186-189). -/
noncomputable def logPdf : Prior → Dbl → Dbl
  | uninformative, _ => .fin 0
  | fixed, _ => .fin 0
  | positive, x => if .fin 0 < x then .fin 0 else .ninf
  | nonNegative, x => if .fin 0 ≤ x then .fin 0 else .ninf
  | uniform l u, x => if l ≤ x ∧ x ≤ u then -(u - l).log else .ninf
  | logScaleUniform l u, x => if l ≤ x ∧ x ≤ u then -(u - l).log else .ninf
  | gaussian mu sigma, x =>
    let deviation := (x - mu) / sigma
    .fin (-(1 / 2)) * (.fin log2Pi * .fin 2 * sigma.log + deviation * deviation)
  | positiveGaussian mu sigma, x =>
    let deviation := (x - mu) / sigma
    .fin (-(1 / 2)) * (.fin log2Pi * .fin 2 * sigma.log + deviation * deviation) + .fin log2
  | logNormal mu sigma, x =>
    let deviation := (x.log - mu) / sigma
    .fin (-(1 / 2)) * .fin log2Pi - sigma.log - x.log - deviation * deviation

/-- The constructors of `UniformPrior` and `LogScaleUniformPrior` with their assertions
(core/priors.hpp lines 78-81 and 106-110). -/
noncomputable def mkUniform (b : Build) (l u : Dbl) : Outcome Prior := do
  albatrossAssert b (decide (l < u))
  pure (uniform l u)

/-- The constructor of `LogScaleUniformPrior` (core/priors.hpp lines 106-110). -/
noncomputable def mkLogScaleUniform (b : Build) (l u : Dbl) : Outcome Prior := do
  albatrossAssert b (decide (l < u))
  albatrossAssert b (decide (Dbl.fin 0 < u))
  albatrossAssert b (decide (Dbl.fin 0 < l))
  pure (logScaleUniform l u)

end Prior

/-! ## Parameter stores -/

/-- `Parameter` (core/parameters.hpp lines 28-63). -/
structure Parameter where
  value : Dbl
  prior : Prior

/-- `within_bounds`, `is_valid` (core/parameters.hpp lines 54-58). -/
noncomputable def Parameter.isValid (p : Parameter) : Bool :=
  decide (p.prior.lower ≤ p.value ∧ p.value ≤ p.prior.upper)

/-- `is_fixed` (core/parameters.hpp line 60). -/
def Parameter.isFixed (p : Parameter) : Bool := p.prior.isFixed

/-- `prior_log_likelihood` (core/parameters.hpp line 62). -/
noncomputable def Parameter.priorLogLikelihood (p : Parameter) : Dbl := p.prior.logPdf p.value

/-- `ParameterStore = std::map<std::string, Parameter>` (core/declarations.hpp line 97). -/
abbrev ParameterStore := SMap String Parameter

/-- `TunableParameters` (core/parameters.hpp lines 21-26). -/
structure TunableParameters where
  names : List String
  values : List Dbl
  lowerBounds : List Dbl
  upperBounds : List Dbl

/-- `TunableParameters output;`. -/
def TunableParameters.empty : TunableParameters := ⟨[], [], [], []⟩

/-- The loop body of `get_tunable_parameters` (core/parameters.hpp lines 121-151).  `lg` is libm's
`log`. -/
noncomputable def getTunableStep (lg : Dbl → Dbl) (b : Build) (out : TunableParameters)
    (kv : String × Parameter) : Outcome TunableParameters := do
  if !kv.2.isFixed then
    let v := kv.2.value
    let lb := kv.2.prior.lower
    let ub := kv.2.prior.upper
    if v < lb then albatrossAssert b false
    if ub < v then albatrossAssert b false
    let f := if kv.2.prior.isLogScale then lg else id
    pure ⟨out.names ++ [kv.1], out.values ++ [f v], out.lowerBounds ++ [f lb],
      out.upperBounds ++ [f ub]⟩
  else pure out

/-- `get_tunable_parameters` (core/parameters.hpp lines 117-154). -/
noncomputable def getTunableParameters (lg : Dbl → Dbl) (b : Build) (params : ParameterStore) :
    Outcome TunableParameters :=
  params.foldlM (getTunableStep lg b) TunableParameters.empty

/-- `ensure_value_within_bounds` (core/parameters.hpp lines 156-169). -/
noncomputable def ensureWithinBounds (p : Parameter) (value : Dbl) : Dbl :=
  if value < p.prior.lower then p.prior.lower
  else if p.prior.upper < value then p.prior.upper
  else value

/-- `output[name].value = v`: `operator[]` default-constructs a missing entry (value 0,
uninformative prior). -/
def setValue (out : ParameterStore) (name : String) (v : Dbl) : ParameterStore :=
  SMap.alter (fun o => match o with
    | some p => { p with value := v }
    | none => ⟨v, .uninformative⟩) name out

/-- The loop of `set_tunable_params_values` (core/parameters.hpp lines 177-191); the state is
`(output, i)` and `ex` is libm's `exp`. -/
noncomputable def setTunableLoop (ex : Dbl → Dbl) (x : List Dbl) (forceBounds : Bool) :
    List (String × Parameter) → ParameterStore → Nat → Outcome (ParameterStore × Nat)
  | [], out, i => .ok (out, i)
  | kv :: rest, out, i =>
    if !kv.2.isFixed then do
      let v ← vecGet x i
      let v := if kv.2.prior.isLogScale then ex v else v
      let v := if forceBounds then ensureWithinBounds kv.2 v else v
      setTunableLoop ex x forceBounds rest (setValue out kv.1 v) (i + 1)
    else setTunableLoop ex x forceBounds rest out i

/-- `set_tunable_params_values` (core/parameters.hpp lines 171-195). -/
noncomputable def setTunableParamsValues (ex : Dbl → Dbl) (b : Build) (params : ParameterStore)
    (x : List Dbl) (forceBounds : Bool) : Outcome ParameterStore := do
  let (out, i) ← setTunableLoop ex x forceBounds params params 0
  albatrossAssert b (x.length == i)
  pure out

/-- `params_are_valid` (core/parameters.hpp lines 197-204). -/
noncomputable def paramsAreValid : ParameterStore → Bool
  | [] => true
  | kv :: rest => if !kv.2.isValid then false else paramsAreValid rest

/-- `modify_param` (core/parameters.hpp lines 206-220): the returned flag and the store. -/
def modifyParam (b : Build) (name : String) (op : Parameter → Parameter) (params : ParameterStore)
    (assertExists : Bool) : Outcome (Bool × ParameterStore) :=
  match params.find? name with
  | some p => pure (true, SMap.put params name (op p))
  | none => do
    if assertExists then albatrossAssert b false
    pure (false, params)

/-- `set_param` (core/parameters.hpp lines 222-226). -/
def setParam (b : Build) (name : String) (param : Parameter) (params : ParameterStore)
    (assertExists : Bool := true) : Outcome ParameterStore := do
  let r ← modifyParam b name (fun _ => param) params assertExists
  pure r.2

/-- `set_param_value` (core/parameters.hpp lines 228-233). -/
def setParamValue (b : Build) (name : String) (v : Dbl) (params : ParameterStore)
    (assertExists : Bool := true) : Outcome ParameterStore := do
  let r ← modifyParam b name (fun p => { p with value := v }) params assertExists
  pure r.2

/-- `set_param_prior` (core/parameters.hpp lines 235-240). -/
def setParamPrior (b : Build) (name : String) (prior : Prior) (params : ParameterStore)
    (assertExists : Bool := true) : Outcome ParameterStore := do
  let r ← modifyParam b name (fun p => { p with prior := prior }) params assertExists
  pure r.2

/-- `set_params` (core/parameters.hpp lines 242-247). -/
def setParams (b : Build) (input : ParameterStore) (params : ParameterStore) :
    Outcome ParameterStore :=
  input.foldlM (fun ps kv => setParam b kv.1 kv.2 ps) params

/-- `set_param_values` (core/parameters.hpp lines 249-255). -/
def setParamValues (b : Build) (input : SMap String Dbl) (params : ParameterStore) :
    Outcome ParameterStore :=
  input.foldlM (fun ps kv => setParamValue b kv.1 kv.2 ps) params

/-- `set_param_if_exists` (core/parameters.hpp lines 260-264). -/
def setParamIfExists (b : Build) (name : String) (param : Parameter) (params : ParameterStore) :
    Outcome (Bool × ParameterStore) :=
  modifyParam b name (fun _ => param) params false

/-- `set_param_value_if_exists` (core/parameters.hpp lines 266-271). -/
def setParamValueIfExists (b : Build) (name : String) (v : Dbl) (params : ParameterStore) :
    Outcome (Bool × ParameterStore) :=
  modifyParam b name (fun p => { p with value := v }) params false

/-- `set_param_prior_if_exists` (core/parameters.hpp lines 273-278). -/
def setParamPriorIfExists (b : Build) (name : String) (prior : Prior) (params : ParameterStore) :
    Outcome (Bool × ParameterStore) :=
  modifyParam b name (fun p => { p with prior := prior }) params false

/-- `set_params_if_exists` (core/parameters.hpp lines 280-287); `all_set &= ...` evaluates the call
every time. -/
def setParamsIfExists (b : Build) (input : ParameterStore) (params : ParameterStore) :
    Outcome (Bool × ParameterStore) :=
  input.foldlM (fun (acc : Bool × ParameterStore) kv => do
    let r ← setParamIfExists b kv.1 kv.2 acc.2
    pure (acc.1 && r.1, r.2)) (decide (0 < input.length), params)

/-- `set_param_values_if_exists` (core/parameters.hpp lines 289-297). -/
def setParamValuesIfExists (b : Build) (input : SMap String Dbl) (params : ParameterStore) :
    Outcome (Bool × ParameterStore) :=
  input.foldlM (fun (acc : Bool × ParameterStore) kv => do
    let r ← setParamValueIfExists b kv.1 kv.2 acc.2
    pure (acc.1 && r.1, r.2)) (decide (0 < input.length), params)

/-- `parameter_prior_log_likelihood` (core/parameters.hpp lines 299-305). -/
noncomputable def parameterPriorLogLikelihood (params : ParameterStore) : Dbl :=
  params.foldl (fun sum kv => sum + kv.2.priorLogLikelihood) (.fin 0)

/-! ## Objects with parameters -/

/-- Objects with `get_params` and `set_param`.
* `store`: the default of `ParameterHandlingMixin` (core/parameter_handling_mixin.hpp lines 285-293),
  a private `params_` map;
* `declared`: a class using `ALBATROSS_DECLARE_PARAMS` (core/parameter_macros.hpp lines 59-160), its
  members in declaration order;
* `wrapped`: a class which forwards both calls (`ScalingTerm`,
  covariance_functions/scaling_function.hpp lines 67-73);
* `both`: sums and products of covariance functions (covariance_functions/covariance_function.hpp
  lines 235-242, 344-351, covariance_functions/scaling_function.hpp lines 132-139, 192-199) and of
  mean functions;
* `gp`: `GaussianProcessBase` (models/gp.hpp lines 255-268) with `impl().params_`, the mean function
  and the covariance function;
* `sparse`: `SparseGaussianProcessRegression` (models/sparse_gp.hpp lines 289-308) with its two nugget
  parameters.
The forwarding class also covers `MeasurementOnly` (covariance_functions/measurement.hpp lines 81-85)
and `Ransac` (models/ransac.hpp lines 457-461), and `both` the sums and products of
covariance_functions/mean_function.hpp (lines 156-163, 221-228). -/
inductive Handler
  | store (params : ParameterStore)
  | declared (members : List (String × Parameter))
  | wrapped (inner : Handler)
  | both (lhs rhs : Handler)
  | gp (params : ParameterStore) (mean cov : Handler)
  | sparse (measurement inducing : Parameter) (mean cov : Handler)

namespace Handler

/-- `details::measurement_nugget_name()` (models/sparse_gp.hpp line 22). -/
def measurementNuggetName : String := "measurement_nugget"

/-- `details::inducing_nugget_name()` (models/sparse_gp.hpp line 24). -/
def inducingNuggetName : String := "inducing_nugget"

/-- `get_params`.  The braced initialiser built by `DEFINE_GET_PARAMS` inserts the members in
order. -/
def getParams : Handler → ParameterStore
  | store ps => ps
  | declared ms => SMap.ofList ms
  | wrapped h => h.getParams
  | both l r => mapJoin l.getParams r.getParams
  | gp ps mean cov => mapJoin ps (mapJoin mean.getParams cov.getParams)
  | sparse m i mean cov =>
    ((mapJoin mean.getParams cov.getParams).put measurementNuggetName m).put inducingNuggetName i

/-- The `if`/`else if` chain built by `DEFINE_SET_PARAM` (core/parameter_macros.hpp lines 87-150). -/
def setDeclared (b : Build) (name : String) (p : Parameter) :
    List (String × Parameter) → Outcome (List (String × Parameter))
  | [] => do
    albatrossAssert b false
    pure []
  | m :: ms =>
    if name = m.1 then pure ((m.1, p) :: ms)
    else do
      let ms' ← setDeclared b name p ms
      pure (m :: ms')

/-- `set_param_if_exists(name, param, handler)` (core/parameter_handling_mixin.hpp lines 122-134) with
`unchecked_set_param` (lines 45-64) inlined; `set` is the handler's own `set_param`. -/
def ifExists (b : Build) (name : String) (p : Parameter) (h : Handler)
    (set : String → Parameter → Outcome Handler) : Outcome (Bool × Handler) := do
  let (found, params) ← setParamIfExists b name p h.getParams
  if !found then pure (false, h)
  else do
    let q ← params.at? name
    albatrossAssert b (0 < name.length)
    let h' ← set name q
    pure (true, h')

/-- `set_param(name, param)` of each kind of handler. -/
def set (b : Build) : Handler → String → Parameter → Outcome Handler
  | store ps, name, p => do
    let ps' ← setParam b name p ps
    pure (store ps')
  | declared ms, name, p => do
    let ms' ← setDeclared b name p ms
    pure (declared ms')
  | wrapped h, name, p => do
    let h' ← set b h name p
    pure (wrapped h')
  | both l r, name, p => do
    let (found, l') ← ifExists b name p l (set b l)
    if found then pure (both l' r)
    else do
      let (found, r') ← ifExists b name p r (set b r)
      albatrossAssert b found
      pure (both l' r')
  | gp ps mean cov, name, p => do
    let (found, ps') ← setParamIfExists b name p ps
    if found then pure (gp ps' mean cov)
    else do
      let (found, cov') ← ifExists b name p cov (set b cov)
      if found then pure (gp ps mean cov')
      else do
        let (found, mean') ← ifExists b name p mean (set b mean)
        albatrossAssert b found
        pure (gp ps mean' cov)
  | sparse m i mean cov, name, p =>
    if name = measurementNuggetName then pure (sparse p i mean cov)
    else if name = inducingNuggetName then pure (sparse m p mean cov)
    else do
      let (found, cov') ← ifExists b name p cov (set b cov)
      if found then pure (sparse m i mean cov')
      else do
        let (found, mean') ← ifExists b name p mean (set b mean)
        albatrossAssert b found
        pure (sparse m i mean' cov)

/-- `unchecked_set_param` (core/parameter_handling_mixin.hpp lines 45-64). -/
def uncheckedSet (b : Build) (h : Handler) (name : String) (p : Parameter) : Outcome Handler := do
  albatrossAssert b (0 < name.length)
  set b h name p

/-- `unchecked_set_params` (core/parameter_handling_mixin.hpp lines 66-74). -/
def uncheckedSetAll (b : Build) (h : Handler) (params : ParameterStore) : Outcome Handler :=
  params.foldlM (fun h kv => uncheckedSet b h kv.1 kv.2) h

/-- `set_param_value(name, value, handler)`, also `handler.set_param(name, value)`
(core/parameter_handling_mixin.hpp lines 81-90, 233-243). -/
def setValue (b : Build) (h : Handler) (name : String) (v : Dbl) : Outcome Handler := do
  let params ← setParamValue b name v h.getParams
  let q ← params.at? name
  uncheckedSet b h name q

/-- `set_param_prior(name, prior, handler)`, also `handler.set_prior(name, prior)`
(core/parameter_handling_mixin.hpp lines 92-101, 245-247). -/
def setPrior (b : Build) (h : Handler) (name : String) (prior : Prior) : Outcome Handler := do
  let params ← setParamPrior b name prior h.getParams
  let q ← params.at? name
  uncheckedSet b h name q

/-- `set_params(input, handler)` (core/parameter_handling_mixin.hpp lines 103-111). -/
def setAll (b : Build) (h : Handler) (input : ParameterStore) : Outcome Handler := do
  let params ← setParams b input h.getParams
  uncheckedSetAll b h params

/-- `set_param_values(input, handler)` (core/parameter_handling_mixin.hpp lines 113-120). -/
def setAllValues (b : Build) (h : Handler) (input : SMap String Dbl) : Outcome Handler := do
  let params ← setParamValues b input h.getParams
  uncheckedSetAll b h params

/-- `set_params_if_exists(input, handler)` (core/parameter_handling_mixin.hpp lines 150-159). -/
def setAllIfExists (b : Build) (h : Handler) (input : ParameterStore) :
    Outcome (Bool × Handler) := do
  let (all, params) ← setParamsIfExists b input h.getParams
  let h' ← uncheckedSetAll b h params
  pure (all, h')

/-- `handler.set_tunable_params_values(x)` (core/parameter_handling_mixin.hpp lines 266-271). -/
noncomputable def setTunable (ex : Dbl → Dbl) (b : Build) (h : Handler) (x : List Dbl)
    (forceBounds : Bool) : Outcome Handler := do
  let params ← setTunableParamsValues ex b h.getParams x forceBounds
  setAll b h params

end Handler
end Albatross
