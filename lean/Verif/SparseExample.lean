import Verif.SincExample
import Verif.SparseWhole

/-! # Model of examples/sparse_example.cc

The model as it is constructed, fitting it to the data of a csv file and predicting on the grid.  Not modelled: the random
training data, tuning (`TuneRun.lean`), flags and what is printed.  Reading the file and the grid are in `SincExample.lean`.

`LeaveOneOutGrouper` puts every position into a group of its own (indexing/group_by.hpp lines 389-404).  Groups are a function
of the feature in `SparseGp.lean`; here a feature carries its position, which the covariance function does not see. -/

namespace Albatross

open Matrix

/-- `truth` (example_utils.h lines 72-75) with the slope and the constant of sparse_example.cc lines 22-23. -/
noncomputable def sparseTruth (x : ℝ) : ℝ := x * 0 + 0 + 10 * sinc (x - 3)

/-- `noise + squared_exponential` (sparse_example.cc lines 68-73): the type. -/
def sparseExampleCov : ModelCov := .sum (.plain .noise) (.plain (.radial .squaredExponential))

/-- The model as it is constructed (sparse_example.cc lines 57, 71-79). -/
noncomputable def sparseExampleModel : Handler :=
  sparseFromCovariance (.both (makeNoise (.fin 0.1)) (RadialKind.squaredExponential.make (.fin 3.5) (.fin 5.7)))

/-- What a model with these functions, nuggets and inducing points computes with. -/
noncomputable def sparseExampleGp (m c : Handler) (measurementNugget inducingNugget : ℝ) (us : List ℝ) :
    SparseGp (Nat × MeasDouble) Nat where
  gp :=
    { cov := fun x y => (sparseExampleCov.call c x.2 y.2).getD 0
      mean := fun x => (MeanType.zero.call m x.2.value).getD 0
      asMeas := fun x => (x.1, ⟨true, x.2.value⟩) }
  group := Prod.fst
  inducing := fun _ => us.map fun u => (0, ⟨false, u⟩)
  measurementNugget := measurementNugget
  inducingNugget := inducingNugget

/-- `model.fit(data)` and `predict_with_measurement_noise(grid).marginal()` (sparse_example.cc lines 87-93, example_utils.h
lines 157-158) with `k` inducing points: `none` for numbers that are not finite. -/
noncomputable def sparseExamplePredict {n : Nat} {q : Type} (b : Build) (rt : SparseRoutines) (k : Nat)
    (train y : Fin n → ℝ) (grid : q → ℝ) : Outcome (Option (Marginal q)) :=
  match sparseExampleModel with
  | .sparse ⟨.fin mn, _⟩ ⟨.fin inn, _⟩ m c => do
    let us ← uniformInducingPoints b k (List.ofFn fun i => .fin (train i))
    match allFinite us with
    | none => pure none
    | some us =>
      let g := sparseExampleGp m c mn inn us
      let f ← g.fit b rt (fun i => ((i : Nat), ⟨false, train i⟩)) ⟨y, fun _ => 0⟩
      pure (some (g.predictMarginal f fun j => (0, ⟨true, grid j⟩)))
  | _ => pure none

/-- Reading the file, fitting and predicting on the grid (sparse_example.cc lines 55-57, 65-66 and 87-93, example_utils.h
lines 144-158). -/
noncomputable def sparseExample (b : Build) (rt : SparseRoutines) (k : Nat) (lines : List (List String)) :
    Outcome (Option (Marginal (Fin 161))) := do
  let d ← readCsvInput lines
  match allFinite d.features, allFinite d.mean, allFinite (uniformPoints 161 (-3 - 10) (13 + 10)) with
  | some xs, some ys, some grid =>
    sparseExamplePredict b rt k (fun i : Fin xs.length => xs.get i) (fun i => ys.getD i 0) fun j : Fin 161 => grid.getD j 0
  | _, _, _ => pure none

end Albatross
