import Verif.Parameters
import Verif.SamplerCsv
import Mathlib.Analysis.SpecialFunctions.Pow.Real

/-! # Model of `tune/greedy_tuner.hpp`, `tune/finite_difference.hpp`, `tune/tune.hpp` and
`tune/tuning_metrics.hpp`

Not modelled here: everything printed to the output stream (see `TuneRun`), the thread pool (`apply` is a map in order, see
C17 for the threaded version), and the optimizer itself: NLopt is an arbitrary function from the start
vector to the final vector.  Objective functions are total functions of the parameter store. -/

namespace Albatross

/-! ## Greedy tuner -/

/-- `std::isinf`. -/
def Dbl.isInf : Dbl → Bool
  | .pinf => true
  | .ninf => true
  | _ => false

/-- `query_ratios` (tune/greedy_tuner.hpp lines 37-51). -/
noncomputable def queryRatios (n : Nat) : List ℝ :=
  let logMin : ℝ := -5
  let logMax : ℝ := -(1 / 10)
  if n = 1 then [logMin]
  else
    let step := (logMax - logMin) / ((n : ℝ) - 1)
    (List.range n).map fun i : Nat => (10 : ℝ) ^ (logMin + (i : ℝ) * step)

/-- The loop pushing `value - low_range * ratios[ratios.size() - 1 - i]`
(tune/greedy_tuner.hpp lines 77-79 and 83-85). -/
noncomputable def lowerQueries (value lowRange : Dbl) (ratios : List ℝ) : Outcome (List Dbl) :=
  (List.range ratios.length).mapM fun i => do
    let r ← vecGet ratios (ratios.length - 1 - i)
    pure (value - lowRange * .fin r)

/-- The loop pushing `value + high_range * ratios[i]` (tune/greedy_tuner.hpp lines 71-73 and 86-88). -/
noncomputable def upperQueries (value highRange : Dbl) (ratios : List ℝ) : Outcome (List Dbl) :=
  (List.range ratios.length).mapM fun i => do
    let r ← vecGet ratios i
    pure (value + highRange * .fin r)

/-- `get_queries` (tune/greedy_tuner.hpp lines 53-92). -/
noncomputable def getQueries (value low high : Dbl) (n : Nat) : Outcome (List Dbl) :=
  let high := if high.isInf then .fin (10 ^ 8) else high
  let low := if low.isInf then .fin (-10 ^ 8) else low
  let lowRange := value - low
  let highRange := high - value
  if value = low ∧ value ≠ .nan then upperQueries value highRange (queryRatios (2 * n))
  else if value = high ∧ value ≠ .nan then lowerQueries value lowRange (queryRatios (2 * n))
  else do
    let lo ← lowerQueries value lowRange (queryRatios n)
    let hi ← upperQueries value highRange (queryRatios n)
    pure (lo ++ hi)

/-- `set_tunable_param` (tune/greedy_tuner.hpp lines 94-99). -/
noncomputable def setTunableParam (lg ex : Dbl → Dbl) (b : Build) (params : ParameterStore) (i : Nat)
    (val : Dbl) : Outcome ParameterStore := do
  let perturbed ← getTunableParameters lg b params
  let values ← vecSet perturbed.values i val
  setTunableParamsValues ex b params values true

/-- The variables of `greedy_tune` (tune/greedy_tuner.hpp lines 102-199), and the stores it evaluated so far (not a
variable of the code). -/
structure GreedyState where
  tunable : TunableParameters
  bestValue : Dbl
  bestParams : ParameterStore
  evaluated : List ParameterStore

/-- The comparison of one evaluation with the best one (tune/greedy_tuner.hpp lines 170-186). -/
noncomputable def greedyCompare (f : ParameterStore → Dbl) (st : GreedyState) (p : ParameterStore) :
    GreedyState :=
  let st := { st with evaluated := st.evaluated ++ [p] }
  if f p < st.bestValue then { st with bestParams := p, bestValue := f p } else st

/-- The body of the two loops (tune/greedy_tuner.hpp lines 138-193). -/
noncomputable def greedyBody (lg ex : Dbl → Dbl) (b : Build) (f : ParameterStore → Dbl) (n iter i : Nat)
    (st : GreedyState) : Outcome GreedyState := do
  let t ← getTunableParameters lg b st.bestParams
  let v ← vecGet t.values i
  let lo ← vecGet t.lowerBounds i
  let hi ← vecGet t.upperBounds i
  let values ← getQueries v lo hi n
  let values := if iter = 0 ∧ i = 0 then values ++ [v] else values
  let proposed ← values.mapM fun v => setTunableParam lg ex b st.bestParams i v
  pure (proposed.foldl (greedyCompare f) { st with tunable := t })

/-- The inner loop (tune/greedy_tuner.hpp line 136).  The body replaces `tunable`, whose size is the
loop's bound, so the recursion carries a fuel; running out of it is `diverges`. -/
noncomputable def greedyInner (lg ex : Dbl → Dbl) (b : Build) (f : ParameterStore → Dbl) (n iter : Nat) :
    Nat → Nat → GreedyState → Outcome GreedyState
  | fuel, i, st =>
    if i < st.tunable.names.length then
      match fuel with
      | 0 => .error .diverges
      | fuel + 1 => do
        let st ← greedyBody lg ex b f n iter i st
        greedyInner lg ex b f n iter fuel (i + 1) st
    else pure st

/-- The outer loop (tune/greedy_tuner.hpp line 135). -/
noncomputable def greedyOuter (lg ex : Dbl → Dbl) (b : Build) (f : ParameterStore → Dbl) (n fuel : Nat) :
    Nat → Nat → GreedyState → Outcome GreedyState
  | 0, _, st => pure st
  | k + 1, iter, st => do
    let st ← greedyInner lg ex b f n iter fuel 0 st
    greedyOuter lg ex b f n fuel k (iter + 1) st

/-- `greedy_tune` (tune/greedy_tuner.hpp lines 102-197); the code returns `bestParams`. -/
noncomputable def greedyTune (lg ex : Dbl → Dbl) (b : Build) (f : ParameterStore → Dbl)
    (params : ParameterStore) (n iterations : Nat) : Outcome GreedyState := do
  let t ← getTunableParameters lg b params
  greedyOuter lg ex b f n t.names.length iterations 0 ⟨t, .pinf, params, []⟩

/-! ## Finite differences -/

/-- `compute_gradient` for vectors (tune/finite_difference.hpp lines 17-32). -/
noncomputable def computeGradientVector (f : List Dbl → Dbl) (params : List Dbl) (fVal : Dbl) :
    Outcome (List Dbl) :=
  (List.range params.length).mapM fun ind => do
    let epsilon : Dbl := .fin (1 / 10 ^ 6)
    let v ← vecGet params ind
    let perturbed ← vecSet params ind (v + epsilon)
    pure ((f perturbed - fVal) / epsilon)

/-- `get_perturbed` (tune/finite_difference.hpp lines 43-47). -/
noncomputable def getPerturbed (ex : Dbl → Dbl) (b : Build) (params : ParameterStore)
    (t : TunableParameters) (i : Nat) (epsilon : Dbl) : Outcome ParameterStore := do
  let v ← vecGet t.values i
  let perturbed ← vecSet t.values i (v + epsilon)
  setTunableParamsValues ex b params perturbed true

/-- The two tests which set an entry to zero (tune/finite_difference.hpp lines 67-75). -/
noncomputable def zeroAtBounds (v lo hi grad : Dbl) : Dbl :=
  let grad := if hi ≤ v ∧ grad < .fin 0 then .fin 0 else grad
  if v ≤ lo ∧ .fin 0 < grad then .fin 0 else grad

/-- `compute_single_sub_gradient` (tune/finite_difference.hpp lines 51-78). -/
noncomputable def computeSingleSubGradient (ex : Dbl → Dbl) (b : Build) (f : ParameterStore → Dbl)
    (params : ParameterStore) (fVal : Dbl) (t : TunableParameters) (i : Nat) : Outcome Dbl := do
  let hi ← vecGet t.upperBounds i
  let lo ← vecGet t.lowerBounds i
  let range := hi - lo
  let epsilon : Dbl := if range.isFinite then .fin (1 / 10 ^ 8) * range else .fin (1 / 10 ^ 6)
  let perturbed ← getPerturbed ex b params t i epsilon
  let (epsilon, perturbed) ← (if !paramsAreValid perturbed then do
      let epsilon := epsilon * .fin (-1)
      let perturbed ← getPerturbed ex b params t i epsilon
      pure (epsilon, perturbed)
    else pure (epsilon, perturbed))
  let v ← vecGet t.values i
  pure (zeroAtBounds v lo hi ((f perturbed - fVal) / epsilon))

/-- `compute_gradient` for parameter stores (tune/finite_difference.hpp lines 34-81). -/
noncomputable def computeGradient (lg ex : Dbl → Dbl) (b : Build) (f : ParameterStore → Dbl)
    (params : ParameterStore) (fVal : Dbl) : Outcome (List Dbl) := do
  let t ← getTunableParameters lg b params
  (List.range t.values.length).mapM fun i => computeSingleSubGradient ex b f params fVal t i

/-! ## The tuner -/

/-- `uninformative_params` (tune/tune.hpp lines 83-89). -/
def uninformativeParams (values : List Dbl) : ParameterStore :=
  values.zipIdx.foldl
    (fun params x => SMap.put params (String.ofList (sizeToString x.2)) ⟨x.1, .uninformative⟩) []

/-- `run_optimizer` (tune/tune.hpp lines 91-110).  `optimize` is `optimizer.optimize`, which replaces
the vector it is given, and `dimension` is `optimizer.get_dimension()`. -/
noncomputable def runOptimizer (lg ex : Dbl → Dbl) (b : Build) (params : ParameterStore)
    (dimension : Nat) (optimize : List Dbl → List Dbl) : Outcome ParameterStore := do
  let t ← getTunableParameters lg b params
  albatrossAssert b (decide (dimension = t.values.length))
  setTunableParamsValues ex b params (optimize t.values) true

/-- The vector at which `GenericTuner` constructed from a vector starts (tune/tune.hpp lines 124-126,
94). -/
noncomputable def startVector (lg : Dbl → Dbl) (b : Build) (initial : List Dbl) : Outcome (List Dbl) := do
  let t ← getTunableParameters lg b (uninformativeParams initial)
  pure t.values

/-- `GenericTuner::tune` for functions of a vector (tune/tune.hpp lines 179-219), with the optimizer
of `default_optimizer` (lines 51-67) whose dimension is the number of tunable parameters. -/
noncomputable def tuneVector (lg ex : Dbl → Dbl) (b : Build) (initial : List Dbl)
    (optimize : List Dbl → List Dbl) : Outcome (List Dbl) := do
  let params := uninformativeParams initial
  let t ← getTunableParameters lg b params
  let out ← runOptimizer lg ex b params t.values.length optimize
  let r ← getTunableParameters lg b out
  pure r.values

/-- `objective_converted_to_eigen` and the `Eigen::VectorXd` overload (tune/tune.hpp lines 221-243):
`&x_copy[0]` indexes the vector. -/
noncomputable def tuneEigen (lg ex : Dbl → Dbl) (b : Build) (initial : List Dbl)
    (optimize : List Dbl → List Dbl) : Outcome (List Dbl) := do
  let out ← tuneVector lg ex b initial optimize
  let _ ← vecGet out 0
  pure out

/-- What the optimizer is told about a metric: NaN becomes infinity (tune/tune.hpp lines 164-166, 204-206). -/
def notNan (metric : Dbl) : Dbl := if metric.isNan then .pinf else metric

/-- `param_wrapped_objective` (tune/tune.hpp lines 138-172), returning the metric and the gradient. -/
noncomputable def paramObjective (lg ex : Dbl → Dbl) (b : Build) (f : ParameterStore → Dbl)
    (initial : ParameterStore) (x : List Dbl) (gradSize : Nat) : Outcome (Dbl × List Dbl) := do
  let params ← setTunableParamsValues ex b initial x true
  if !paramsAreValid params then albatrossAssert b false
  let metric := f params
  let grad ← (if 0 < gradSize then do
      let t ← getTunableParameters lg b initial
      let g ← computeGradient lg ex b f params metric
      (List.range g.length).mapM fun i => do
        let _ ← vecGet t.names i
        vecGet g i
    else pure [])
  pure (notNan metric, grad)

/-- `mean_aggregator` (tune/tuning_metrics.hpp lines 23-30). -/
noncomputable def meanAggregator (metrics : List Dbl) : Dbl :=
  metrics.foldl (· + ·) (.fin 0) / .fin metrics.length

/-- The objective of `ModelTuner::tune` (tune/tune.hpp lines 276-285); `setParams` is
`ModelType::set_params`. -/
def modelObjective {Model Data : Type} (setParams : Model → ParameterStore → Outcome Model)
    (metric : Data → Model → Dbl) (aggregator : List Dbl → Dbl) (datasets : List Data) (model : Model)
    (params : ParameterStore) : Outcome Dbl := do
  let m ← setParams model params
  pure (aggregator (datasets.map fun d => metric d m))

end Albatross
