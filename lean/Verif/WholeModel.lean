import Verif.ProvidedFunctions
import Verif.Gp
import Verif.TuneRun

/-! # Model of a Gaussian process with provided functions, from its parameters to its predictions

The steps a caller takes: `set_params` on the model, `fit`, `predict`, and tuning with the likelihood of models/gp.hpp.
The features are doubles.  The covariance function is a sum of provided functions (`ProvidedFunctions.lean`), any of them
within `measurement_only`; a call with a parameter that is infinite or NaN is not modelled (`none`). -/

namespace Albatross

open Matrix

/-- A double, or a `Measurement<double>` (covariance_functions/measurement.hpp lines 18-29). -/
structure MeasDouble where
  meas : Bool
  value : ℝ

/-- The type of the covariance function of a model. -/
inductive ModelCov
  | plain (t : CovType)
  | measOnly (t : CovType)
  | sum (l r : ModelCov)

/-- `operator()(x, y)`: a provided function does not distinguish measurements (callers.hpp lines 258-319), `measurement_only`
is zero unless both are measurements (measurement.hpp lines 87-103), a sum adds (covariance_function.hpp lines 266-274). -/
noncomputable def ModelCov.call : ModelCov → Handler → MeasDouble → MeasDouble → Option ℝ
  | plain t, h, x, y => t.call h x.value y.value
  | measOnly t, .wrapped h, x, y => if x.meas && y.meas then t.call h x.value y.value else some 0
  | sum a b, .both l r, x, y => do
    let u ← a.call l x y
    let v ← b.call r x y
    pure (u + v)
  | _, _, _, _ => none

/-- What a model with these functions computes with: `GaussianProcessRegression` (models/gp.hpp lines 170-463, 465-508).
Calls without a value are excluded where it is used. -/
noncomputable def modelGp (mt : MeanType) (ct : ModelCov) (m c : Handler) : Gp MeasDouble where
  cov x y := (ct.call c x y).getD 0
  mean x := (mt.call m x.value).getD 0
  asMeas x := ⟨true, x.value⟩

/-- Every call that fitting and predicting make has a value. -/
def CallsDefined (mt : MeanType) (ct : ModelCov) (m c : Handler) : Prop :=
  (∀ x y, (ct.call c x y).isSome) ∧ ∀ x, (mt.call m x).isSome

open Classical in
/-- `model.fit(train, targets).predict(xs).joint()` (core/model.hpp lines 144-160, models/gp.hpp lines 281-324). -/
noncomputable def fitPredict {n q : Type} [Fintype n] [DecidableEq n] (mt : MeanType) (ct : ModelCov)
    (ldlt : Matrix n n ℝ → Ldlt n) (train : n → ℝ) (targets : Marginal n) (xs : q → ℝ) : Handler → Option (Joint q)
  | .gp _ m c =>
    if CallsDefined mt ct m c then
      let g := modelGp mt ct m c
      some (g.predictJoint (g.fit ldlt (fun i => ⟨false, train i⟩) targets) fun j => ⟨false, xs j⟩)
    else none
  | _ => none

/-- `model.set_params(params)`, then fit and predict. -/
noncomputable def setFitPredict {n q : Type} [Fintype n] [DecidableEq n] (b : Build) (mt : MeanType) (ct : ModelCov)
    (ldlt : Matrix n n ℝ → Ldlt n) (train : n → ℝ) (targets : Marginal n) (xs : q → ℝ) (model : Handler)
    (params : ParameterStore) : Outcome (Option (Joint q)) := do
  let model ← Handler.setAll b model params
  pure (fitPredict mt ct ldlt train targets xs model)

open Classical in
/-- `GaussianProcessNegativeLogLikelihood` (models/gp.hpp lines 442-451, 542-550). -/
noncomputable def gpNll {k : Nat} (mt : MeanType) (ct : ModelCov) (ldlt : Matrix (Fin k) (Fin k) ℝ → Ldlt (Fin k))
    (train : Fin k → ℝ) (targets : Marginal (Fin k)) (model : Handler) : Dbl :=
  match model with
  | .gp _ m c =>
    if CallsDefined mt ct m c then
      let ll : Dbl := .fin ((modelGp mt ct m c).logLikelihood ldlt 0 (fun i => ⟨false, train i⟩) targets);
      -(ll + parameterPriorLogLikelihood model.getParams)
    else .nan
  | _ => .nan

/-- The objective of a `ModelTuner` for this metric and one dataset (tune/tune.hpp lines 276-295); NaN stands for the
failures, which do not occur at the parameters of the tuner. -/
noncomputable def nllObjective {k : Nat} (b : Build) (mt : MeanType) (ct : ModelCov)
    (ldlt : Matrix (Fin k) (Fin k) ℝ → Ldlt (Fin k)) (train : Fin k → ℝ) (targets : Marginal (Fin k)) (model : Handler)
    (params : ParameterStore) : Dbl :=
  match modelObjective (Handler.setAll b) (fun d m => gpNll mt ct ldlt d.1 d.2 m) meanAggregator [(train, targets)]
    model params with
  | .ok v => v
  | .error _ => .nan

/-- `get_tuner(model, GaussianProcessNegativeLogLikelihood(), dataset).tune()`, then `set_params` with the result
(tune/tune.hpp lines 257-301), fit and predict; with the objective values NLopt was told. -/
noncomputable def tuneFitPredict {k : Nat} {q : Type} (b : Build) (mt : MeanType) (ct : ModelCov)
    (ldlt : Matrix (Fin k) (Fin k) ℝ → Ldlt (Fin k)) (train : Fin k → ℝ) (targets : Marginal (Fin k)) (xs : q → ℝ)
    (run : NloptOpt → List Dbl → NloptRun) (model : Handler) : Outcome (TuneResult × Option (Joint q)) := do
  let tuner ← mkModelTuner Dbl.log b Handler.getParams model
  let r ← tuner.tune Dbl.log Dbl.exp b Handler.getParams (nllObjective b mt ct ldlt train targets) run []
  let prediction ← setFitPredict b mt ct ldlt train targets xs model r.output
  pure (r, prediction)

end Albatross
