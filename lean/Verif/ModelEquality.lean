import Verif.PrettyParams
import Verif.RansacModel
import Verif.SparseGp
import Verif.FitLifetime

/-! # Model of the comparison of models and fitted models (core/model.hpp, core/fit_model.hpp)

`ModelBase::operator==` sees the parameters, the name and the insights of a model.  The model also holds other things: a
`Ransac` its strategy and configuration, a sparse Gaussian process its grouper and its inducing point strategy, every
model its thread pool.

`operator==` calls `get_name()`, which `ModelBase` itself only provides for models that are not const (core/model.hpp
lines 115-125); it therefore compiles for the classes with a `get_name() const` of their own: `GaussianProcessBase`
(models/gp.hpp line 247), `Ransac` (models/ransac.hpp lines 452-455), `LeastSquares` and `LinearRegression`
(models/least_squares.hpp), `NullModel` (models/null_model.hpp line 34). -/

namespace Albatross

/-- What `ModelBase::operator==` looks at. -/
structure ModelFace where
  params : ParameterStore
  name : String
  insights : SMap String String

/-- `ModelBase::operator==` (core/model.hpp lines 109-113). -/
noncomputable def modelsEqual (a b : ModelFace) : Bool :=
  storesEqual a.params b.params && decide (a.name = b.name) && decide (a.insights = b.insights)

/-- `FitModel::operator==` (core/fit_model.hpp lines 108-110). -/
noncomputable def fitModelsEqual {M F : Type} (face : M → ModelFace) (fitEqual : F → F → Bool) (a b : FittedModel M F) :
    Bool :=
  modelsEqual (face a.model) (face b.model) && fitEqual a.fit b.fit

/-- `default_model_name` (models/gp.hpp lines 155-159). -/
def defaultModelName (covName meanName : String) : String := "mean:" ++ meanName ++ "cov:" ++ covName

/-- A `GaussianProcessBase` (models/gp.hpp lines 171-275, 448-456): mean and covariance function with their parameters
(`Handler.gp` or `Handler.sparse`), `model_name_`, `insights`, and the members of the class that implements it. -/
structure GpObject (S : Type) where
  parts : Handler
  modelName : String
  insights : SMap String String
  rest : S

/-- The constructors without a name (models/gp.hpp lines 184-207): the name is made from those of the functions.  -/
def GpObject.make {S : Type} (parts : Handler) (covName meanName : String) (rest : S) : GpObject S :=
  ⟨parts, defaultModelName covName meanName, [], rest⟩

/-- The constructors with a name (models/gp.hpp lines 213-233). -/
def GpObject.named {S : Type} (parts : Handler) (modelName : String) (rest : S) : GpObject S :=
  ⟨parts, modelName, [], rest⟩

/-- `set_name` (models/gp.hpp line 249). -/
def GpObject.setName {S : Type} (g : GpObject S) (modelName : String) : GpObject S := { g with modelName := modelName }

/-- `get_params`, `get_name` and `insights` of a Gaussian process (models/gp.hpp lines 247, 255-259). -/
def GpObject.face {S : Type} (g : GpObject S) : ModelFace := ⟨g.parts.getParams, g.modelName, g.insights⟩

/-- `get_params` and `get_name` of a `Ransac` (models/ransac.hpp lines 452-457) and its own `insights`. -/
def RansacModel.face {Sub F R K Fit : Type} (subFace : Sub → ModelFace) (insights : SMap String String)
    (m : RansacModel Sub F R K Fit) : ModelFace :=
  ⟨(subFace m.subModel).params, m.name fun s => (subFace s).name, insights⟩

/-- `LeastSquares`, `LinearRegression` (models/least_squares.hpp lines 52, 106) and `NullModel` (models/null_model.hpp line
34): no parameters of their own but the name of the class. -/
def plainFace (params : ParameterStore) (className : String) (insights : SMap String String) : ModelFace :=
  ⟨params, className, insights⟩

end Albatross
