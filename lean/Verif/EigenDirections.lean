import Verif.PrettyParams
import Verif.SimpleModels
import Mathlib.LinearAlgebra.Matrix.Notation

/-! # Model of `linalg/print_eigen_directions.hpp`

The eigen solver and the two calls of `std::sort` are arguments; the properties assume of them what Eigen and the
standard promise.  Entries are exact reals.  The stream is new (default flags, six digits). -/

namespace Albatross

/-- `<< std::setw(n) << text`, right aligned. -/
def padLeft (n : Nat) (t : List Char) : List Char := List.replicate (n - t.length) ' ' ++ t

/-- The functions of other libraries that `_print_eigen_directions` calls: `Eigen::SelfAdjointEigenSolver` (values and
the matrix whose columns are the vectors) and the two sorts, of pairs by a comparison of the values and of indices by
the size of their coefficients. -/
structure EigenTools (n : Nat) where
  solve : Matrix (Fin n) (Fin n) ℝ → (Fin n → ℝ) × Matrix (Fin n) (Fin n) ℝ
  sortPairs : (ℝ → ℝ → Prop) → List (ℝ × (Fin n → ℝ)) → List (ℝ × (Fin n → ℝ))
  sortIndices : (Nat → Nat → Prop) → List Nat → List Nat

variable {F : Type} {n : Nat}

/-- `minCoeff`, `maxCoeff` (linalg/print_eigen_directions.hpp lines 48-49): asserts that there is an entry, and reads
the first one. -/
noncomputable def extremeCoeff (b : Build) (pick : ℝ → ℝ → ℝ) (values : List ℝ) : Outcome ℝ := do
  eigenAssert b (decide (0 < values.length))
  let first ← vecGet values 0
  pure (values.foldl pick first)

/-- The loop over the coefficients of one vector (linalg/print_eigen_directions.hpp lines 69-75). -/
noncomputable def printCoefs (featureText : F → List Char) (features : List F) (printIfAbove : ℝ) (vector : List ℝ) :
    List Nat → List Char → Outcome (List Char)
  | [], s => .ok s
  | j :: rest, s => do
    let coef ← vecGet vector j
    if printIfAbove < |coef| then do
      let f ← vecGet features j
      printCoefs featureText features printIfAbove vector rest
        (s ++ [' ', ' ', ' ', ' '] ++ padLeft 12 (defaultText (.fin coef)) ++ [' ', ' ', ' '] ++ featureText f ++ ['\n'])
    else printCoefs featureText features printIfAbove vector rest s

/-- One pass of the outer loop (linalg/print_eigen_directions.hpp lines 54-75). -/
noncomputable def printDirection (tools : EigenTools n) (featureText : F → List Char) (features : List F)
    (printIfAbove : ℝ) (pairs : List (ℝ × (Fin n → ℝ))) (s : List Char) (i : Nat) : Outcome (List Char) := do
  let p ← vecGet pairs i
  let vector := List.ofFn p.2
  let sorted := tools.sortIndices (fun ii jj => |vector.getD jj 0| < |vector.getD ii 0|) (List.range vector.length)
  printCoefs featureText features printIfAbove vector sorted
    (s ++ ['e', 'i', 'g', 'e', 'n', ' ', 'v', 'a', 'l', 'u', 'e', ':', ' '] ++ sciText 7 (.fin p.1) ++ ['\n'])

/-- `_print_eigen_directions` (linalg/print_eigen_directions.hpp lines 22-77); the result is the text. -/
noncomputable def printEigenDirections (tools : EigenTools n) (b : Build) (featureText : F → List Char)
    (matrix : Matrix (Fin n) (Fin n) ℝ) (features : List F) (count : Nat) (comp : ℝ → ℝ → Prop) (printIfAbove : ℝ) :
    Outcome (List Char) := do
  let values := (tools.solve matrix).1
  let vectors := (tools.solve matrix).2
  let pairs := tools.sortPairs comp ((List.finRange n).map fun i => (values i, fun k => vectors k i))
  let lowest ← extremeCoeff b min (List.ofFn values)
  let highest ← extremeCoeff b max (List.ofFn values)
  let s := ['M', 'I', 'N', ':', ' '] ++ sciText 7 (.fin lowest) ++ ['\n'] ++
    ['M', 'A', 'X', ':', ' '] ++ sciText 7 (.fin highest) ++ ['\n']
  (List.range count).foldlM (printDirection tools featureText features printIfAbove pairs) s

/-- `print_small_eigen_directions` (linalg/print_eigen_directions.hpp lines 81-93). -/
noncomputable def printSmallEigenDirections (tools : EigenTools n) (b : Build) (featureText : F → List Char)
    (matrix : Matrix (Fin n) (Fin n) ℝ) (features : List F) (count : Nat) (printIfAbove : ℝ) : Outcome (List Char) :=
  printEigenDirections tools b featureText matrix features count (fun a b => a < b) printIfAbove

/-- `print_large_eigen_directions` (linalg/print_eigen_directions.hpp lines 95-107). -/
noncomputable def printLargeEigenDirections (tools : EigenTools n) (b : Build) (featureText : F → List Char)
    (matrix : Matrix (Fin n) (Fin n) ℝ) (features : List F) (count : Nat) (printIfAbove : ℝ) : Outcome (List Char) :=
  printEigenDirections tools b featureText matrix features count (fun a b => b < a) printIfAbove

end Albatross
