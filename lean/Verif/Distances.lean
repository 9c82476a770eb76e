import Verif.Kernels
import Verif.Stats
import Verif.SimpleModels
import Mathlib.Analysis.SpecialFunctions.Trigonometric.Inverse

/-! # Model of covariance_functions/distance_metrics.hpp

Vectors are functions on `Fin n`; where the code combines two vectors they have the same size (Eigen asserts
it).  `euclideanDistance` for doubles is in `Kernels`. -/

namespace Albatross

/-- Eigen's `x.dot(y)`. -/
def eigenDotFin {n : Nat} (x y : Fin n → ℝ) : ℝ := ∑ i, x i * y i

/-- Eigen's `x.norm()`. -/
noncomputable def eigenNorm {n : Nat} (x : Fin n → ℝ) : ℝ := Real.sqrt (∑ i, x i * x i)

/-- `EuclideanDistance::operator()` for vectors (covariance_functions/distance_metrics.hpp lines 40-44). -/
noncomputable def euclideanDistanceFin {n : Nat} (x y : Fin n → ℝ) : ℝ := eigenNorm fun i => x i - y i

/-- `radial_distance` (covariance_functions/distance_metrics.hpp lines 47-51), also for different sizes. -/
noncomputable def radialDistance {n m : Nat} (x : Fin n → ℝ) (y : Fin m → ℝ) : ℝ := |eigenNorm x - eigenNorm y|

/-- `acos`. -/
noncomputable def Dbl.acos : Dbl → Dbl
  | .fin x => if -1 ≤ x ∧ x ≤ 1 then .fin (Real.arccos x) else .nan
  | _ => .nan

/-- `EPSILON` (covariance_functions/distance_metrics.hpp line 18). -/
noncomputable def distanceEpsilon : ℝ := 1 / 10 ^ 16

/-- `angular_distance` (covariance_functions/distance_metrics.hpp lines 64-78). -/
noncomputable def angularDistance {n : Nat} (x y : Fin n → ℝ) : Dbl :=
  let dotProduct : Dbl := .fin (eigenDotFin x y) / .fin (eigenNorm x * eigenNorm y)
  if .fin (1 - distanceEpsilon) < dotProduct then .fin 0
  else if dotProduct < .fin (-1 + distanceEpsilon) then .fin Real.pi
  else dotProduct.acos

/-- The pairs `(i, j)` with `j ≤ i < n` in the order of the loops of `distance_matrix`
(covariance_functions/distance_metrics.hpp lines 100-103). -/
def lowerPairs (n : Nat) : List (Nat × Nat) := (List.range n).flatMap fun i => (List.range (i + 1)).map fun j => (i, j)

/-- The body of the loops of `distance_matrix` (covariance_functions/distance_metrics.hpp lines 104-105): the
matrix is a function of the row and column. -/
def distanceMatrixStep {X D : Type} (metric : X → X → D) (xs : List X) (m : Nat → Nat → D) (ij : Nat × Nat) :
    Outcome (Nat → Nat → D) := do
  let x ← vecGet xs ij.1
  let y ← vecGet xs ij.2
  let d := metric x y
  let m := fun r c => if r = ij.1 ∧ c = ij.2 then d else m r c
  pure fun r c => if r = ij.2 ∧ c = ij.1 then m ij.1 ij.2 else m r c

/-- `distance_matrix` (covariance_functions/distance_metrics.hpp lines 92-109); `init` are the values the fresh
matrix happens to hold. -/
def distanceMatrix {X D : Type} (metric : X → X → D) (xs : List X) (init : Nat → Nat → D) : Outcome (Nat → Nat → D) :=
  (lowerPairs xs.length).foldlM (distanceMatrixStep metric xs) init

end Albatross
