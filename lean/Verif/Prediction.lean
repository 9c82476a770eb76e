import Verif.Gp
import Verif.HeldOut
import Verif.Callers

/-! # Model of core/prediction.hpp and core/fit_model.hpp

A model with its fit is the predictions it implements (`_predict_impl` overloads, found by the traits
`has_valid_predict_mean`, `..._marginal`, `..._joint`, core/traits.hpp lines 122-144): `none` for an overload that
does not exist. -/

namespace Albatross

/-- The `_predict_impl` overloads of a model with a fit for features of type `F`. -/
structure PredictImpl (F : Type) where
  mean : Option (List F → DynMean)
  marginal : Option (List F → DynMarginal)
  joint : Option (List F → DynJoint)

variable {F : Type}

/-- `JointDistribution::marginal()` (core/distribution.hpp lines 229-231). -/
def DynJoint.marginal (j : DynJoint) : DynMarginal := ⟨j.dim, ⟨j.dist.mean, fun i => j.dist.covariance i i⟩⟩

/-- `MeanPredictor::_mean` (core/prediction.hpp lines 32-72); `none`: no overload. -/
def PredictImpl.meanPredictor (m : PredictImpl F) : Option (List F → DynMean) :=
  match m.mean, m.marginal, m.joint with
  | some f, _, _ => some f
  | none, some f, _ => some fun xs => ⟨(f xs).dim, (f xs).dist.mean⟩
  | none, none, some f => some fun xs => ⟨(f xs).dim, (f xs).dist.mean⟩
  | none, none, none => none

/-- `MarginalPredictor::_marginal` (core/prediction.hpp lines 74-100). -/
def PredictImpl.marginalPredictor (m : PredictImpl F) : Option (List F → DynMarginal) :=
  match m.marginal, m.joint with
  | some f, _ => some f
  | none, some f => some fun xs => (f xs).marginal
  | none, none => none

/-- `JointPredictor::_joint` (core/prediction.hpp lines 102-113). -/
def PredictImpl.jointPredictor (m : PredictImpl F) : Option (List F → DynJoint) := m.joint

/-- `Prediction::mean()` (core/prediction.hpp lines 130-149); `none`: the member function is deleted. -/
def predictionMean (m : PredictImpl F) (features : List F) : Option DynMean :=
  m.meanPredictor.map fun f => if features.length = 0 then ⟨0, fun _ => 0⟩ else f features

/-- `Prediction::marginal()` (core/prediction.hpp lines 151-172). -/
def predictionMarginal (m : PredictImpl F) (features : List F) : Option DynMarginal :=
  m.marginalPredictor.map fun f => if features.length = 0 then ⟨0, ⟨fun _ => 0, fun _ => 0⟩⟩ else f features

/-- `Prediction::joint()` (core/prediction.hpp lines 174-194). -/
def predictionJoint (m : PredictImpl F) (features : List F) : Option DynJoint :=
  m.jointPredictor.map fun f => if features.length = 0 then ⟨0, ⟨fun _ => 0, fun _ _ => 0⟩⟩ else f features

/-- The predictions a Gaussian process implements (models/gp.hpp lines 305-366). -/
noncomputable def gpPredictImpl {X n : Type} [Fintype n] (g : Gp X) (f : GpFit X n) : PredictImpl X where
  mean := some fun xs => ⟨xs.length, g.predictMean f fun i => xs[i]⟩
  marginal := some fun xs => ⟨xs.length, g.predictMarginal f fun i => xs[i]⟩
  joint := some fun xs => ⟨xs.length, g.predictJoint f fun i => xs[i]⟩

/-- The features `predict_with_measurement_noise` predicts (core/fit_model.hpp lines 54-62): every one wrapped in
`Measurement`. -/
def withMeasurementNoise {X : Type} (wrap : X → X) (features : List X) : List X :=
  features.foldl (fun measurements f => measurements ++ [wrap f]) []

/-- A Gaussian process on features of one basic type `t` and their measurements (`true`: `Measurement<t>`), with
covariance function `c`. -/
noncomputable def gpOfCaller {T : Type} {V : T → Type} (c : Caller V) (t : T) (mean : V t → ℝ) : Gp (Bool × V t) where
  cov
    | (false, x), (false, y) => (defaultCaller c).call (.base t) (.base t) x y
    | (true, x), (false, y) => (defaultCaller c).call (.meas (.base t)) (.base t) x y
    | (false, x), (true, y) => (defaultCaller c).call (.base t) (.meas (.base t)) x y
    | (true, x), (true, y) => (defaultCaller c).call (.meas (.base t)) (.meas (.base t)) x y
  mean x := mean x.2
  asMeas x := (true, x.2)

end Albatross
