import Verif.Basic

/-! # Model of the life times in core/fit_model.hpp and core/prediction.hpp

Fitted models are objects which are created, copied, updated in place, moved from and destroyed; a prediction either
holds a model and a fit of its own (`Prediction`) or refers to those inside a fitted model (`PredictionReference`,
core/declarations.hpp lines 58-60).  Evaluating a prediction after the object it refers to was destroyed is undefined
behaviour.

Simplifications: the model, the fit, the data and the predicted values are arbitrary types, the code of a particular
model being the functions of `FitCode`; features before and after wrapping in `Measurement` have the same type. -/

namespace Albatross

/-- What a model provides: `_fit_impl`, `_update_impl`, the value of a prediction (core/prediction.hpp lines 130-206,
see `Prediction.lean`), `Measurement` and what the move constructors of the model and of the fit leave behind. -/
structure FitCode (M F D X V : Type) where
  fitImpl : M → D → F
  updateImpl : M → F → D → F
  value : M → F → List X → V
  measurement : X → X
  movedModel : M → M
  movedFit : F → F

/-- `FitModel` (core/fit_model.hpp lines 18-111): `model_` and `fit_`. -/
structure FittedModel (M F : Type) where
  model : M
  fit : F

/-- The value category and constness of the expression a member function is called on. -/
inductive ObjExpr
  | lvalue
  | constLvalue
  | rvalue
  | constRvalue
  deriving DecidableEq, Repr

/-- `Prediction` (core/prediction.hpp lines 115-222): the members `model_`, `fit_` are values or references to those of
the fitted model object with the given number; `features_` is always a value. -/
inductive PredictionObj (M F X : Type)
  | owning (model : M) (fit : F) (features : List X)
  | reference (object : ℕ) (features : List X)

/-- The fitted model objects created so far, `none` once destroyed, and the predictions made so far. -/
structure FitWorld (M F X : Type) where
  objects : List (Option (FittedModel M F))
  predictions : List (PredictionObj M F X)

variable {M F D X V : Type}

/-- The object with number `i`; using one that was destroyed, or that never existed, is undefined behaviour. -/
def FitWorld.get (w : FitWorld M F X) (i : ℕ) : Outcome (FittedModel M F) :=
  match w.objects[i]? with
  | some (some o) => .ok o
  | _ => .error .ub

/-- Replace the object with number `i`. -/
def FitWorld.put (w : FitWorld M F X) (i : ℕ) (o : Option (FittedModel M F)) : FitWorld M F X :=
  { w with objects := w.objects.set i o }

/-- Create an object. -/
def FitWorld.create (w : FitWorld M F X) (o : FittedModel M F) : FitWorld M F X :=
  { w with objects := w.objects ++ [some o] }

/-- Keep a prediction in a variable. -/
def FitWorld.keep (w : FitWorld M F X) (p : PredictionObj M F X) : FitWorld M F X :=
  { w with predictions := w.predictions ++ [p] }

/-- `predict` called on an expression that denotes object `i` (core/fit_model.hpp lines 36-52).  The overload `&&`
takes rvalues that are not const, the overload `const &` everything else. -/
def predictCall (code : FitCode M F D X V) (w : FitWorld M F X) (e : ObjExpr) (i : ℕ) (xs : List X) :
    Outcome (PredictionObj M F X × FitWorld M F X) :=
  match e with
  | .rvalue => do
    let o ← w.get i
    .ok (.owning o.model o.fit xs, w.put i (some ⟨code.movedModel o.model, code.movedFit o.fit⟩))
  | .lvalue | .constLvalue | .constRvalue => do
    let _ ← w.get i
    .ok (.reference i xs, w)

/-- `predict_with_measurement_noise` (core/fit_model.hpp lines 54-62), a const member function: `predict` is called on
`*this`, a const lvalue whatever the expression was. -/
def predictNoiseCall (code : FitCode M F D X V) (w : FitWorld M F X) (_e : ObjExpr) (i : ℕ) (xs : List X) :
    Outcome (PredictionObj M F X × FitWorld M F X) :=
  predictCall code w .constLvalue i (xs.map code.measurement)

/-- Either of the two functions. -/
def predictAny (code : FitCode M F D X V) (noise : Bool) (w : FitWorld M F X) (e : ObjExpr) (i : ℕ) (xs : List X) :
    Outcome (PredictionObj M F X × FitWorld M F X) :=
  if noise then predictNoiseCall code w e i xs else predictCall code w e i xs

/-- `mean`, `marginal`, `joint` of a prediction (core/prediction.hpp lines 130-194). -/
def evalPrediction (code : FitCode M F D X V) (w : FitWorld M F X) : PredictionObj M F X → Outcome V
  | .owning m f xs => .ok (code.value m f xs)
  | .reference i xs => do
    let o ← w.get i
    .ok (code.value o.model o.fit xs)

/-- Statements of a program that uses fitted models.  The fitted models named by a number are local variables, members
or elements of containers. -/
inductive FitStmt (M F D X : Type)
  /-- `auto fm = model.fit(data);` (core/model.hpp lines 41-48, 130-140) -/
  | fit (m : M) (d : D)
  /-- `auto fm = other;` -/
  | copy (i : ℕ)
  /-- the end of the life of an object -/
  | destroy (i : ℕ)
  /-- `auto updated = fm.update(data);` (core/fit_model.hpp lines 64-82, 113-117) -/
  | update (i : ℕ) (d : D)
  /-- `fm.update_in_place(data);` (core/fit_model.hpp lines 84-96) -/
  | updateInPlace (i : ℕ) (d : D)
  /-- assignment to `fm.get_model()` of a fitted model which is not const (core/fit_model.hpp line 106) -/
  | assignModel (i : ℕ) (m : M)
  /-- assignment to `fm.get_model()` of a const fitted model, which changes the copy that is returned (line 104) -/
  | assignConstModel (i : ℕ) (m : M)
  /-- assignment to `fm.get_fit()` (core/fit_model.hpp line 100) -/
  | assignFit (i : ℕ) (f : F)
  /-- `auto fit = std::move(fm).get_fit();` (core/fit_model.hpp line 102) -/
  | takeFit (i : ℕ)
  /-- `auto p = fm.predict(xs);` or `fm.predict_with_measurement_noise(xs)`, `fm` being the given kind of expression -/
  | predict (noise : Bool) (e : ObjExpr) (i : ℕ) (xs : List X)
  /-- `auto p = model.fit(data).predict(xs);`, or with measurement noise: the fitted model is a temporary, const if it
  was returned as one -/
  | predictTemporary (noise : Bool) (isConst : Bool) (m : M) (d : D) (xs : List X)

/-- One statement. -/
def FitStmt.exec (code : FitCode M F D X V) (w : FitWorld M F X) : FitStmt M F D X → Outcome (FitWorld M F X)
  | .fit m d => .ok (w.create ⟨m, code.fitImpl m d⟩)
  | .copy i => do
    let o ← w.get i
    .ok (w.create o)
  | .destroy i => do
    let _ ← w.get i
    .ok (w.put i none)
  | .update i d => do
    let o ← w.get i
    .ok (w.create ⟨o.model, code.updateImpl o.model o.fit d⟩)
  | .updateInPlace i d => do
    let o ← w.get i
    .ok (w.put i (some ⟨o.model, code.updateImpl o.model o.fit d⟩))
  | .assignModel i m => do
    let o ← w.get i
    .ok (w.put i (some ⟨m, o.fit⟩))
  | .assignConstModel i _ => do
    let _ ← w.get i
    .ok w
  | .assignFit i f => do
    let o ← w.get i
    .ok (w.put i (some ⟨o.model, f⟩))
  | .takeFit i => do
    let o ← w.get i
    .ok (w.put i (some ⟨o.model, code.movedFit o.fit⟩))
  | .predict noise e i xs => do
    let r ← predictAny code noise w e i xs
    .ok (r.2.keep r.1)
  | .predictTemporary noise isConst m d xs => do
    let i := w.objects.length
    let r ← predictAny code noise (w.create ⟨m, code.fitImpl m d⟩) (if isConst then .constRvalue else .rvalue) i xs
    .ok ((r.2.put i none).keep r.1)

/-- A program. -/
def runFit (code : FitCode M F D X V) : FitWorld M F X → List (FitStmt M F D X) → Outcome (FitWorld M F X)
  | w, [] => .ok w
  | w, s :: t => do
    let w ← s.exec code w
    runFit code w t

end Albatross
