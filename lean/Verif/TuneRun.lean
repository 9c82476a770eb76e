import Verif.Tune
import Verif.PrettyParams

/-! # Model of whole runs of `tune/tune.hpp`

NLopt is an arbitrary process that asks for the objective at vectors of its choice, each depending on the answers so far,
and finally reports a vector.  What the C++ interface of NLopt checks before a run and which result codes it turns into
exceptions is modelled.  The objective of the caller is a total function of the parameter store; the format flags of the
output stream are those of a new stream. -/

namespace Albatross

/-- The text of an `nlopt::result`, `to_string` (tune/tune.hpp lines 21-35): `operator[]` of the map gives an empty text
for the other codes. -/
def resultText : Int → List Char
  | -1 => ['g', 'e', 'n', 'e', 'r', 'i', 'c', ' ', 'f', 'a', 'i', 'l', 'u', 'r', 'e']
  | -2 => ['i', 'n', 'v', 'a', 'l', 'i', 'd', '_', 'a', 'r', 'g', 'u', 'm', 'e', 'n', 't', 's']
  | -3 => ['o', 'u', 't', ' ', 'o', 'f', ' ', 'm', 'e', 'm', 'o', 'r', 'y']
  | -4 => ['r', 'o', 'u', 'n', 'd', 'o', 'f', 'f', ' ', 'l', 'i', 'm', 'i', 't', 'e', 'd']
  | -5 => ['f', 'o', 'r', 'c', 'e', 'd', ' ', 's', 't', 'o', 'p']
  | 1 => ['g', 'e', 'n', 'e', 'r', 'i', 'c', ' ', 's', 'u', 'c', 'c', 'e', 's', 's']
  | 2 => ['s', 't', 'o', 'p', ' ', 'v', 'a', 'l', 'u', 'e', ' ', 'r', 'e', 'a', 'c', 'h', 'e', 'd']
  | 3 => ['f', 't', 'o', 'l', ' ', 'r', 'e', 'a', 'c', 'h', 'e', 'd']
  | 4 => ['x', 't', 'o', 'l', ' ', 'r', 'e', 'a', 'c', 'h', 'e', 'd']
  | 5 => ['m', 'a', 'x', 'e', 'v', 'a', 'l', ' ', 'r', 'e', 'a', 'c', 'h', 'e', 'd']
  | 6 => ['m', 'a', 'x', 't', 'i', 'm', 'e', ' ', 'r', 'e', 'a', 'c', 'h', 'e', 'd']
  | _ => []

/-- The settings of an `nlopt::opt`. -/
structure NloptOpt where
  dimension : Nat
  lower : List Dbl
  upper : List Dbl
  ftolAbs : ℝ
  ftolRel : ℝ
  xtolAbs : ℝ
  xtolRel : ℝ

/-- `default_optimizer` (tune/tune.hpp lines 51-68); the size is cast to `unsigned`. -/
noncomputable def defaultOptimizer (lg : Dbl → Dbl) (b : Build) (params : ParameterStore) : Outcome NloptOpt := do
  let t ← getTunableParameters lg b params
  pure ⟨t.values.length % 2 ^ 32, t.lowerBounds, t.upperBounds, 1 / 10 ^ 8, 1 / 10 ^ 6, 1 / 10 ^ 18, 1 / 10 ^ 18⟩

/-- `default_gradient_optimizer` (tune/tune.hpp lines 70-82). -/
noncomputable def defaultGradientOptimizer (lg : Dbl → Dbl) (b : Build) (params : ParameterStore) : Outcome NloptOpt := do
  let t ← getTunableParameters lg b params
  pure ⟨t.values.length % 2 ^ 32, t.lowerBounds, t.upperBounds, 1 / 10 ^ 4, 1 / 10 ^ 4, 1 / 10 ^ 6, 1 / 10 ^ 6⟩

/-- What NLopt does after it has been started: it asks for the objective at a vector, handing over the vector for the
gradient (empty if it needs none), and goes on depending on the answer; or it stops with its final vector, value and
result code. -/
inductive NloptRun where
  | finish (x : List Dbl) (minf : Dbl) (code : Int)
  | ask (x grad : List Dbl) (next : Dbl → List Dbl → NloptRun)

/-- One evaluation of the objective: where, the store, what NLopt is told, and what is printed. -/
structure Evaluation where
  x : List Dbl
  store : ParameterStore
  metric : Dbl
  grad : List Dbl
  text : List Char

/-- The line of one entry of the gradient (tune/tune.hpp lines 157-158). -/
noncomputable def gradientLine (name : String) (v : Dbl) : List Char :=
  [' ', ' '] ++ name.toList ++ [' ', ':', ' '] ++ defaultText v ++ ['\n']

/-- The loop over the gradient (tune/tune.hpp lines 155-160). -/
noncomputable def setGradient (names : List String) (gradEval grad : List Dbl) : Outcome (List Dbl × List Char) :=
  (List.range gradEval.length).foldlM (fun acc i => do
    let name ← vecGet names i
    let v ← vecGet gradEval i
    let grad ← vecSet acc.1 i v
    pure (grad, acc.2 ++ gradientLine name v)) (grad, ['g', 'r', 'a', 'd', 'i', 'e', 'n', 't', '\n'])

/-- `-------------------` and a newline. -/
def dashes : List Char := List.replicate 19 '-' ++ ['\n']

/-- `param_wrapped_objective` (tune/tune.hpp lines 138-171) with everything it prints. -/
noncomputable def wrappedObjective (lg ex : Dbl → Dbl) (b : Build) (f : ParameterStore → Dbl) (initial : ParameterStore)
    (x grad : List Dbl) : Outcome Evaluation := do
  let params ← setTunableParamsValues ex b initial x true
  let invalid ← (if !paramsAreValid params then do
      let details ← prettyParamDetails params
      albatrossAssert b false
      pure (['I', 'n', 'v', 'a', 'l', 'i', 'd', ' ', 'P', 'a', 'r', 'a', 'm', 'e', 't', 'e', 'r', 's', ':', '\n'] ++
        details ++ ['\n'])
    else pure [])
  let metric := f params
  let (grad, gradText) ← (if 0 < grad.length then do
      let t ← getTunableParameters lg b initial
      let g ← computeGradient lg ex b f params metric
      setGradient t.names g grad
    else pure (grad, []))
  let metric := notNan metric
  pure ⟨x, params, metric, grad, invalid ++ gradText ++ dashes ++ prettyParams params ++ ['\n'] ++
    ['o', 'b', 'j', 'e', 'c', 't', 'i', 'v', 'e', ':', ' '] ++ defaultText metric ++ ['\n'] ++ dashes⟩

/-- A run with its evaluations in order.  Negative codes are turned into exceptions by the C++ interface of NLopt
(`nlopt::opt::mythrow`). -/
def runNlopt (objective : List Dbl → List Dbl → Outcome Evaluation) :
    NloptRun → List Evaluation → Outcome (List Dbl × Dbl × Int × List Evaluation)
  | .finish x minf code, done => if code < 0 then .error .thrown else .ok (x, minf, code, done)
  | .ask x grad next, done => do
    let e ← objective x grad
    runNlopt objective (next e.metric e.grad) (done ++ [e])

/-- What NLopt requires of the start (`nlopt_optimize`, `nlopt::opt::optimize`): the dimension, and no entry outside of
its bounds. -/
noncomputable def nloptAccepts (opt : NloptOpt) (x : List Dbl) : Bool :=
  decide (x.length = opt.dimension ∧ opt.lower.length = opt.dimension ∧ opt.upper.length = opt.dimension ∧
    ∀ p ∈ x.zip (opt.lower.zip opt.upper), ¬ p.1 < p.2.1 ∧ ¬ p.2.2 < p.1)

/-- What `run_optimizer` prints at the end (tune/tune.hpp lines 102-107). -/
noncomputable def tunedText (minf : Dbl) (code : Int) (output : ParameterStore) : List Char :=
  List.replicate 18 '=' ++ ['\n', 'T', 'U', 'N', 'E', 'D', ' ', 'P', 'A', 'R', 'A', 'M', 'S', '\n', 'm', 'i', 'n', 'i',
    'm', 'u', 'm', ':', ' '] ++ defaultText minf ++ ['\n', 'n', 'l', 'o', 'p', 't', ' ', 't', 'e', 'r', 'm', 'i', 'n', 'a',
    't', 'i', 'o', 'n', ' ', 'c', 'o', 'd', 'e', ':', ' '] ++ resultText code ++ ['\n'] ++ List.replicate 18 '=' ++ ['\n'] ++
    prettyParams output ++ ['\n']

/-- The outcome of a run: the returned store, the evaluations, the printed text. -/
structure TuneResult where
  output : ParameterStore
  evaluations : List Evaluation
  text : List Char

/-- `GenericTuner::tune` for functions of a parameter store with `run_optimizer` (tune/tune.hpp lines 91-110, 132-177);
`run` is NLopt's behaviour from the start vector on. -/
noncomputable def tuneStore (lg ex : Dbl → Dbl) (b : Build) (f : ParameterStore → Dbl) (initial : ParameterStore)
    (opt : NloptOpt) (run : List Dbl → NloptRun) (stream : List Char) : Outcome TuneResult := do
  let t ← getTunableParameters lg b initial
  albatrossAssert b (decide (opt.dimension = t.values.length))
  if !nloptAccepts opt t.values then throw .thrown
  let (x, minf, code, done) ← runNlopt (wrappedObjective lg ex b f initial) (run t.values) []
  let output ← setTunableParamsValues ex b initial x true
  pure ⟨output, done, stream ++ done.flatMap (·.text) ++ tunedText minf code output⟩

/-- `GenericTuner(initial_params).tune(objective)` (tune/tune.hpp lines 118-122, 132-177). -/
noncomputable def genericTune (lg ex : Dbl → Dbl) (b : Build) (f : ParameterStore → Dbl) (initial : ParameterStore)
    (run : NloptOpt → List Dbl → NloptRun) (stream : List Char) : Outcome TuneResult := do
  let opt ← defaultOptimizer lg b initial
  tuneStore lg ex b f initial opt (run opt) stream

/-- `ModelTuner` (tune/tune.hpp lines 257-301): the optimizer is made by the constructor, or by `initialize_optimizer`. -/
structure ModelTunerState (Model : Type) where
  model : Model
  optimizer : NloptOpt

/-- The constructor (tune/tune.hpp lines 269-275), also `initialize_optimizer` (lines 297-300) of a tuner with this
model. -/
noncomputable def mkModelTuner {Model : Type} (lg : Dbl → Dbl) (b : Build) (getParams : Model → ParameterStore)
    (model : Model) : Outcome (ModelTunerState Model) := do
  let opt ← defaultOptimizer lg b (getParams model)
  pure ⟨model, opt⟩

/-- `ModelTuner::tune` (tune/tune.hpp lines 277-295).  The constructor of `GenericTuner` makes an optimizer that is then
replaced.  `objective` is the objective of the lambda for a copy of the model (`modelObjective`). -/
noncomputable def ModelTunerState.tune {Model : Type} (lg ex : Dbl → Dbl) (b : Build) (getParams : Model → ParameterStore)
    (objective : Model → ParameterStore → Dbl) (tuner : ModelTunerState Model) (run : NloptOpt → List Dbl → NloptRun)
    (stream : List Char) : Outcome TuneResult := do
  let _ ← defaultOptimizer lg b (getParams tuner.model)
  tuneStore lg ex b (objective tuner.model) (getParams tuner.model) tuner.optimizer (run tuner.optimizer) stream

end Albatross
