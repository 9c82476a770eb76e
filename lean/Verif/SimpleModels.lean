import Verif.Gp
import Verif.Parameters
import Mathlib.LinearAlgebra.Matrix.Block

/-! # Model of models/least_squares.hpp and models/null_model.hpp

Vectors whose size is only known at run time are lists.  A failed `eigen_assert` stops a debug build and is
undefined behaviour with `NDEBUG`.  `colPivHouseholderQr` is represented by the factors it holds. -/

namespace Albatross

open Matrix

/-- An Eigen matrix whose size is only known at run time. -/
structure DynMat where
  rows : Nat
  cols : Nat
  mat : Matrix (Fin rows) (Fin cols) ℝ

/-- `eigen_assert`. -/
def eigenAssert (b : Build) (c : Bool) : Outcome Unit :=
  if c then .ok () else
    match b with
    | .debug => .error .assertFail
    | .ndebug => .error .ub

/-- The data held by an `Eigen::ColPivHouseholderQR` of an `m` by `n` matrix with `rank` nonzero pivots: the
orthogonal factor, the column permutation, and the first `rank` rows of the triangular factor. -/
structure ColPivQr (m n : Nat) where
  rank : Nat
  restRows : Nat
  restCols : Nat
  q : Matrix (Fin m) (Fin rank ⊕ Fin restRows) ℝ
  perm : Fin rank ⊕ Fin restCols ≃ Fin n
  r11 : Matrix (Fin rank) (Fin rank) ℝ
  r12 : Matrix (Fin rank) (Fin restCols) ℝ

/-- Contract of `A.colPivHouseholderQr()`: `A P = Q R` with `Q` orthogonal, `R` upper triangular with `rank`
nonzero pivots, and nothing below the first `rank` rows. -/
structure ColPivQr.Factors {m n : Nat} (F : ColPivQr m n) (A : Matrix (Fin m) (Fin n) ℝ) : Prop where
  left : F.qᵀ * F.q = 1
  right : F.q * F.qᵀ = 1
  upper : ∀ i j, j < i → F.r11 i j = 0
  pivots : ∀ i, F.r11 i i ≠ 0
  factor : A.submatrix id F.perm = F.q * fromBlocks F.r11 F.r12 0 0

/-- `ColPivHouseholderQR::solve`: apply `Qᵀ`, solve with the leading triangle, set the remaining coefficients
to zero and undo the column permutation. -/
noncomputable def ColPivQr.solve {m n : Nat} (F : ColPivQr m n) (rhs : Fin m → ℝ) : Fin n → ℝ :=
  let c := F.qᵀ *ᵥ rhs
  let y := F.r11⁻¹ *ᵥ fun i => c (.inl i)
  fun j => match F.perm.symm j with
    | .inl i => y i
    | .inr _ => 0

/-- `all_same_value` (models/least_squares.hpp lines 26-38). -/
def allSameValue [DecidableEq ℝ] : List ℝ → Bool
  | [] => true
  | x :: xs => (x :: xs).all fun y => !(y ≠ x)

/-- Building the design matrix (models/least_squares.hpp lines 59-64). -/
noncomputable def designMatrix (b : Build) (features : List (List ℝ)) : Outcome DynMat := do
  let first ← vecGet features 0
  features.forM fun f => eigenAssert b (decide (f.length = first.length))
  pure ⟨features.length, first.length, Matrix.of fun i j => (features[i])[j.val]?.getD 0⟩

/-- `least_squares_solver` (models/least_squares.hpp lines 86-89); `factor` is `colPivHouseholderQr`. -/
noncomputable def leastSquaresSolver (b : Build) (factor : (A : DynMat) → ColPivQr A.rows A.cols)
    (A : DynMat) (rhs : List ℝ) : Outcome (List ℝ) := do
  eigenAssert b (decide (rhs.length = A.rows))
  pure (List.ofFn ((factor A).solve fun i => rhs[i.val]?.getD 0))

/-- `LeastSquares::_fit_impl` (models/least_squares.hpp lines 54-68). -/
noncomputable def leastSquaresFit [DecidableEq ℝ] (b : Build)
    (factor : (A : DynMat) → ColPivQr A.rows A.cols) (features : List (List ℝ)) (mean variance : List ℝ) :
    Outcome (List ℝ) := do
  albatrossAssert b (allSameValue variance)
  let A ← designMatrix b features
  leastSquaresSolver b factor A mean

/-- `a.dot(b)`. -/
noncomputable def eigenDot (b : Build) (x y : List ℝ) : Outcome ℝ := do
  eigenAssert b (decide (x.length = y.length))
  pure (List.zipWith (· * ·) x y).sum

/-- `LeastSquares::_predict_impl` (models/least_squares.hpp lines 70-79). -/
noncomputable def leastSquaresPredict (b : Build) (coefs : List ℝ) (features : List (List ℝ)) :
    Outcome (List ℝ) :=
  features.mapM fun f => eigenDot b f coefs

/-- `LinearRegression::convert_feature` (models/least_squares.hpp lines 108-112). -/
noncomputable def convertFeature (f : ℝ) : List ℝ := [1, f]

/-- `LinearRegression::convert_features` (models/least_squares.hpp lines 114-121). -/
noncomputable def convertFeatures (features : List ℝ) : List (List ℝ) :=
  features.foldl (fun output f => output ++ [convertFeature f]) []

/-- `LinearRegression::_fit_impl` (models/least_squares.hpp lines 123-126). -/
noncomputable def linearRegressionFit [DecidableEq ℝ] (b : Build)
    (factor : (A : DynMat) → ColPivQr A.rows A.cols) (features mean variance : List ℝ) :
    Outcome (List ℝ) :=
  leastSquaresFit b factor (convertFeatures features) mean variance

/-- `LinearRegression::_predict_impl` (models/least_squares.hpp lines 128-133). -/
noncomputable def linearRegressionPredict (b : Build) (coefs features : List ℝ) : Outcome (List ℝ) :=
  leastSquaresPredict b coefs (convertFeatures features)

/-! ## The null model -/

/-- `NullModel` (models/null_model.hpp lines 29-82): the `params_` inherited from `ParameterHandlingMixin`
and the member of the same name declared by the class itself (line 81). -/
structure NullModel where
  inherited : ParameterStore
  own : ParameterStore

/-- `NullModel()` (line 31). -/
def NullModel.default : NullModel := ⟨[], []⟩

/-- `NullModel(param_store)` (line 32): initialises the member of `NullModel`; the base class is default
constructed. -/
def NullModel.ofStore (store : ParameterStore) : NullModel := ⟨[], store⟩

/-- `get_params()`, inherited from `ParameterHandlingMixin` (core/parameter_handling_mixin.hpp line 287). -/
def NullModel.getParams (m : NullModel) : ParameterStore := m.inherited

/-- `set_param`, inherited from `ParameterHandlingMixin` (core/parameter_handling_mixin.hpp lines 289-291). -/
def NullModel.setParam (b : Build) (m : NullModel) (name : String) (p : Parameter) : Outcome NullModel := do
  let s ← Albatross.setParam b name p m.inherited
  pure { m with inherited := s }

/-- `_fit_impl` (models/null_model.hpp lines 38-43): the fit holds nothing. -/
def NullModel.fit {X : Type} (_ : NullModel) (_ : List X) (_ : MarginalVec) : Unit := ()

/-- The joint prediction (lines 55-66). -/
noncomputable def NullModel.predictJoint {X : Type} (_ : NullModel) (features : List X) :
    Joint (Fin features.length) :=
  ⟨0, (10 ^ 4 : ℝ) • 1⟩

/-- The marginal prediction (lines 68-78). -/
noncomputable def NullModel.predictMarginal {X : Type} (_ : NullModel) (features : List X) :
    Marginal (Fin features.length) :=
  ⟨0, (10 ^ 4 : ℝ) • 1⟩

end Albatross
