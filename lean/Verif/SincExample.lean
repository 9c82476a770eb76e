import Verif.CovComposeProps
import Verif.CovTree
import Verif.WholeModel
import Verif.Csv
import Verif.SamplerCsv

/-! # Model of the examples on the line

examples/example_utils.h, sinc_example_utils.h, sinc_example.cc and inspection.cc: the grid, the true function, the models
of the three modes with the values they are constructed with, their predictions, and the inspection of the constant.
Not modelled: the random training data, tuning (`TuneRun.lean`), what is printed.  Writing csv files is in `Csv.lean`,
`std::to_string` is `doubleToString`.  The library that reads csv files is not part of the repository; it is taken to cut the
text into lines and fields, to find columns by name, to parse numbers as `std::stod` does, and to throw otherwise. -/

namespace Albatross

open Matrix

/-- `uniform_points_on_line` (example_utils.h lines 56-65): `n - 1` is only formed within the loop. -/
noncomputable def uniformPoints (n : Nat) (low high : ℝ) : List Dbl :=
  (List.range n).foldl (fun xs (i : Nat) =>
    let ratio : Dbl := .fin (i : ℝ) / .fin ((n - 1 : Nat) : ℝ)
    xs ++ [.fin low + ratio * (.fin high - .fin low)]) []

/-- `sinc` (example_utils.h line 67). -/
noncomputable def sinc (x : ℝ) : ℝ := if x = 0 then 1 else Real.sin x / x

/-- `truth` (example_utils.h lines 22-36 and 72-75). -/
noncomputable def sincTruth (x : ℝ) : ℝ := x * Real.sqrt 2 + 3.14159 + 10 * sinc (x - 3)

/-- `std::to_string` as a string. -/
noncomputable def sincToString (x : Dbl) : String := String.ofList (doubleToString x)

/-- `to_map(const double &)` (utils/csv_utils.hpp lines 125-127). -/
noncomputable def doubleMap (x : Dbl) : SMap String String := [("feature", sincToString x)]

/-- The field of a row in the column with a name. -/
def fieldOf (header row : List String) (name : String) : Outcome String :=
  match (header.zip row).find? fun c => c.1 = name with
  | some c => .ok c.2
  | none => .error .thrown

/-- A field that is a number. -/
noncomputable def numberOf (header row : List String) (name : String) : Outcome Dbl := do
  let text ← fieldOf header row name
  match stod text.toList with
  | some v => .ok v
  | none => .error .thrown

/-- `read_csv_input` (example_utils.h lines 98-119) of the lines of a file: the variances are not used, and `&ys[0]` is
evaluated for an empty vector as well. -/
noncomputable def readCsvInput : List (List String) → Outcome (Dataset Dbl Dbl)
  | [] => .error .thrown
  | header :: rows => do
    if ["feature", "prediction", "prediction_variance", "target", "target_variance"].all (· ∈ header) then pure ()
    else .error .thrown
    let (xs, ys) ← rows.foldlM (fun (acc : List Dbl × List Dbl) row => do
      let x ← numberOf header row "feature"
      let _ ← numberOf header row "prediction"
      let _ ← fieldOf header row "prediction_variance"
      let y ← numberOf header row "target"
      let _ ← fieldOf header row "target_variance"
      pure (acc.1 ++ [x], acc.2 ++ [y])) ([], [])
    if ys.isEmpty then .error .ub else pure ⟨xs, ys, ys.map fun _ => .fin 0, []⟩

/-- The constructor of `SincFunction` (sinc_example_utils.h lines 29-32). -/
noncomputable def makeSinc : Handler :=
  .declared [("scale", ⟨.fin 10, .gaussian (.fin 1) (.fin 1000)⟩), ("translation", ⟨.fin 3, .gaussian (.fin 0) (.fin 1000)⟩)]

/-- `SincFunction::_call_impl` (sinc_example_utils.h lines 34-36). -/
noncomputable def sincMeanCall : Handler → ℝ → Option ℝ
  | .declared ms, x => do
    let scale ← readValue ms "scale"
    let translation ← readValue ms "translation"
    pure (scale * sinc (x - translation))
  | _, _ => none

/-- The noise of all modes (sinc_example.cc lines 71-72). -/
noncomputable def sincNoise : Handler :=
  .declared [("sigma_independent_noise", ⟨.fin 1, .logScaleUniform (.fin (1 / 1000)) (.fin 100)⟩)]

/-- The model of a mode as it is constructed (sinc_example.cc lines 74-98): its mean as a function of the features, the type
of its covariance function, and the object.  Any other mode does nothing. -/
noncomputable def sincModel : String → Option ((Handler → ℝ → Option ℝ) × ModelCov × Handler)
  | "radial_only" => some (fun _ _ => some 0, .sum (.plain (.radial .squaredExponential)) (.measOnly .noise),
      .gp [] (.declared []) (.both (RadialKind.squaredExponential.make (.fin 3.5) (.fin 100)) (.wrapped sincNoise)))
  | "radial" => some (fun _ _ => some 0,
      .sum (.sum (.plain (.polynomial 1)) (.plain (.radial .squaredExponential))) (.measOnly .noise),
      .gp [] (.declared [])
        (.both (.both (makePolynomial 1 (.fin 100)) (RadialKind.squaredExponential.make (.fin 3.5) (.fin 5.7)))
          (.wrapped sincNoise)))
  | "parametric" => some (fun h x => match h with
        | .both l r => do
          let u ← MeanType.linear.call l x
          let v ← sincMeanCall r x
          pure (u + v)
        | _ => none, .measOnly .noise,
      .gp [] (.both makeLinear makeSinc) (.wrapped sincNoise))
  | _ => none

/-- `model.fit(data)` and `predict_with_measurement_noise(grid).marginal()` (sinc_example.cc lines 41-47, example_utils.h
lines 157-158): `none` for an unknown mode or parameters that are not numbers. -/
noncomputable def sincPredict {n q : Type} [Fintype n] [DecidableEq n] (mode : String) (ldlt : Matrix n n ℝ → Ldlt n)
    (train y : n → ℝ) (grid : q → ℝ) : Option (Marginal q) :=
  match sincModel mode with
  | some (mean, ct, .gp _ m c) =>
    let g : Gp MeasDouble :=
      { cov x y := (ct.call c x y).getD 0, mean x := (mean m x.value).getD 0, asMeas x := ⟨true, x.value⟩ }
    some (g.predictMarginal (g.fit ldlt (fun i => ⟨false, train i⟩) ⟨y, fun _ => 0⟩) fun j => ⟨true, grid j⟩)
  | _ => none

/-- The features of the inspection: doubles (`false`) and the `ConstantTerm` (`true`, polynomials.hpp line 20). -/
def InspectFeature : Bool → Type
  | false => ℝ
  | true => Unit

/-- `Constant` (polynomials.hpp lines 56-60), for anything. -/
def inspectConstant (sigma : ℝ) : Caller InspectFeature where
  valid _ _ := true
  call _ _ _ _ := sigma * sigma

/-- A covariance function of two doubles. -/
def onDoubles (f : ℝ → ℝ → ℝ) : Caller InspectFeature where
  valid
    | .base false, .base false => true
    | _, _ => false
  call
    | .base false, .base false, x, y => f x y
    | _, _, _, _ => 0

/-- `constant + noise + squared_exponential` (inspection.cc lines 42-45). -/
noncomputable def inspectCov : Caller InspectFeature :=
  covSum (covSum (inspectConstant 100) (onDoubles fun x y => if x = y then 1 * 1 else 0))
    (onDoubles fun x y => squaredExponential (euclideanDistance x y) 3.5 5.7)

/-- `gp_from_covariance(cov)` (inspection.cc line 47). -/
noncomputable def inspectGp : Gp (Feat InspectFeature) where
  cov := kernel inspectCov
  mean _ := 0
  asMeas x := ⟨x.ty, true, x.val⟩

/-- `Constant::get_state_space_representation` (polynomials.hpp lines 43-48), whatever the features. -/
def constantState {X : Type} (_ : List X) : List (Feat InspectFeature) := [⟨true, false, ()⟩]

/-- `fit_model.predict(constant_state).joint()` (inspection.cc lines 52-57). -/
noncomputable def inspectConstantTerm {n : Type} [Fintype n] [DecidableEq n] (ldlt : Matrix n n ℝ → Ldlt n)
    (train y : n → ℝ) (features : List ℝ) : Joint (Fin (constantState features).length) :=
  inspectGp.predictJoint (inspectGp.fit ldlt (fun i => ⟨false, false, train i⟩) ⟨y, fun _ => 0⟩)
    fun j => (constantState features).get j

end Albatross
