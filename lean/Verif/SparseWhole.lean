import Verif.WholeModel
import Verif.SparseGp
import Verif.CovTree
import Verif.Stats

/-! # Model of a sparse Gaussian process with provided functions, from its factory to its predictions

models/sparse_gp.hpp lines 34-70, 245-287 and 719-792 on top of `SparseGp.lean`: what the factories put into a model, the
inducing points computed from the covariance function the model holds after `set_params`, fitting and predicting.  The
features and the inducing points are doubles.  The simplifications are those of `WholeModel.lean` and `SparseGp.lean`. -/

namespace Albatross

/-- `PARAMETER_MAX` (core/parameters.hpp line 19). -/
noncomputable def dblMax : ℝ := (2 - dblEpsilon) * 2 ^ 1023

/-- `initialize_params` (models/sparse_gp.hpp lines 281-287, `DEFAULT_NUGGET`: line 20). -/
noncomputable def defaultNugget : Parameter := ⟨.fin (10⁻¹ ^ 8), .logScaleUniform (.fin dblEpsilon) (.fin dblMax)⟩

/-- `sparse_gp_from_covariance_and_mean` (lines 733-763): the functions are copied or moved into the model. -/
noncomputable def sparseFromCovarianceAndMean (cov mean : Handler) : Handler :=
  .sparse defaultNugget defaultNugget mean cov

/-- `sparse_gp_from_covariance` (lines 765-792). -/
noncomputable def sparseFromCovariance (cov : Handler) : Handler := sparseFromCovarianceAndMean cov MeanType.zero.default

/-- `_ssr_impl` of a radial function on the length scale the object holds; an object of another type does not occur. -/
noncomputable def radialSsr (pointsPerScale : ℝ) (name : String) (b : Build) (h : Handler) (xs : List Dbl) :
    Outcome (List Dbl) :=
  match h with
  | .declared ms =>
    match SMap.find? ms name with
    | some p => ssrGrid pointsPerScale b p.value xs
    | none => .error .ub
  | _ => .error .ub

/-- Both sides, or the one which has a state space representation (covariance_function.hpp lines 296-319, 391-414). -/
noncomputable def bothSsr (f g : Option (Build → Handler → List Dbl → Outcome (List Dbl))) :
    Option (Build → Handler → List Dbl → Outcome (List Dbl)) :=
  match f, g with
  | some f, some g => some fun b h xs =>
    match h with
    | .both l r => do
      let a ← f b l xs
      let c ← g b r xs
      pure (a ++ c)
    | _ => .error .ub
  | some f, none => some fun b h xs =>
    match h with
    | .both l _ => f b l xs
    | _ => .error .ub
  | none, some g => some fun b h xs =>
    match h with
    | .both _ r => g b r xs
    | _ => .error .ub
  | none, none => none

/-- `_ssr_impl` where it is defined for doubles: the squared exponential and the exponential function (radial.hpp lines
158-168 and 257-267), sums and products. -/
noncomputable def CovType.ssr : CovType → Option (Build → Handler → List Dbl → Outcome (List Dbl))
  | .radial .squaredExponential => some (radialSsr 10 RadialKind.squaredExponential.lengthName)
  | .radial .exponential => some (radialSsr 20 RadialKind.exponential.lengthName)
  | .sum l r => bothSsr l.ssr r.ssr
  | .product l r => bothSsr l.ssr r.ssr
  | _ => none

/-- The same for the covariance function of a model; `MeasurementOnly` does not define it (measurement.hpp lines
71-106). -/
noncomputable def ModelCov.ssr : ModelCov → Option (Build → Handler → List Dbl → Outcome (List Dbl))
  | .plain t => t.ssr
  | .measOnly _ => none
  | .sum l r => bothSsr l.ssr r.ssr

/-- `UniformlySpacedInducingPoints(num_points)` and `StateSpaceInducingPointStrategy`, the default (lines 34-70, 745-757). -/
inductive InducingStrategy
  | uniform (numPoints : Nat)
  | stateSpace

/-- `operator()(cov, features)`; `none` when it does not compile. -/
noncomputable def InducingStrategy.points (s : InducingStrategy) (b : Build) (ct : ModelCov) (cov : Handler)
    (features : List Dbl) : Option (Outcome (List Dbl)) :=
  match s with
  | .uniform n => some (uniformInducingPoints b n features)
  | .stateSpace => ct.ssr.map fun f => f b cov features

/-- The real values; `none` when one is infinite or NaN. -/
def allFinite : List Dbl → Option (List ℝ)
  | [] => some []
  | .fin v :: t => (allFinite t).map (v :: ·)
  | _ :: _ => none

/-- What a model with these functions, values of the nuggets and inducing points computes with (lines 231-308, 708-711). -/
noncomputable def sparseModelGp {κ : Type} (mt : MeanType) (ct : ModelCov) (m c : Handler) (group : ℝ → κ)
    (measurementNugget inducingNugget : ℝ) (us : List ℝ) : SparseGp MeasDouble κ :=
  ⟨modelGp mt ct m c, fun x => group x.value, fun _ => us.map fun u => ⟨false, u⟩, measurementNugget, inducingNugget⟩

open Classical in
/-- The inducing points and the model `_fit_impl` (lines 381-404) and `log_likelihood` (lines 538-603) work with. -/
noncomputable def sparseSetup {κ : Type} {n : Nat} (b : Build) (mt : MeanType) (ct : ModelCov) (s : InducingStrategy)
    (group : ℝ → κ) (train : Fin n → ℝ) : Handler → Outcome (Option (SparseGp MeasDouble κ))
  | .sparse ⟨.fin mn, _⟩ ⟨.fin inn, _⟩ m c =>
    if CallsDefined mt ct m c then
      match s.points b ct c (List.ofFn fun i => .fin (train i)) with
      | none => pure none
      | some points => do
        let us ← points
        pure ((allFinite us).map fun us => sparseModelGp mt ct m c group mn inn us)
    else pure none
  | _ => pure none

/-- `model.fit(train, targets).predict(xs).joint()`, with the inducing points of the fit (lines 381-404, 512-536). -/
noncomputable def sparseFitPredict {κ q : Type} [LinearOrder κ] {n : Nat} (b : Build) (mt : MeanType) (ct : ModelCov)
    (s : InducingStrategy) (group : ℝ → κ) (rt : SparseRoutines) (train : Fin n → ℝ) (targets : Marginal (Fin n))
    (xs : q → ℝ) (model : Handler) : Outcome (Option (List ℝ × Joint q)) := do
  match ← sparseSetup b mt ct s group train model with
  | none => pure none
  | some g =>
    let f ← g.fit b rt (fun i => ⟨false, train i⟩) targets
    pure (some (List.ofFn fun i => (f.features i).value, g.predictJoint f fun j => ⟨false, xs j⟩))

/-- `model.set_params(params)`, then fit and predict. -/
noncomputable def setSparseFitPredict {κ q : Type} [LinearOrder κ] {n : Nat} (b : Build) (mt : MeanType) (ct : ModelCov)
    (s : InducingStrategy) (group : ℝ → κ) (rt : SparseRoutines) (train : Fin n → ℝ) (targets : Marginal (Fin n))
    (xs : q → ℝ) (model : Handler) (params : ParameterStore) : Outcome (Option (List ℝ × Joint q)) := do
  let model ← Handler.setAll b model params
  sparseFitPredict b mt ct s group rt train targets xs model

/-- `model.set_params(params)`, then `model.log_likelihood(dataset)` (lines 538-603, `prior_log_likelihood`:
core/parameter_handling_mixin.hpp lines 251-253). -/
noncomputable def setSparseLogLikelihood {κ : Type} [LinearOrder κ] {n : Nat} (b : Build) (mt : MeanType) (ct : ModelCov)
    (s : InducingStrategy) (group : ℝ → κ) (rt : SparseRoutines) (train : Fin n → ℝ) (targets : Marginal (Fin n))
    (model : Handler) (params : ParameterStore) : Outcome (Option Dbl) := do
  let model ← Handler.setAll b model params
  match ← sparseSetup b mt ct s group train model with
  | none => pure none
  | some g =>
    let features := fun i => (⟨false, train i⟩ : MeasDouble)
    let ll ← g.logLikelihood rt 0 (g.inducing (List.ofFn features)).get features targets
    pure (some (.fin ll + parameterPriorLogLikelihood model.getParams))

end Albatross
