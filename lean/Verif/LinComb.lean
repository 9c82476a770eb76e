import Verif.Callers
import Verif.Utils
import Mathlib.Data.Matrix.Basic

/-! # Model of linear combinations of features

core/linear_combination.hpp -/

namespace Albatross

variable {X Y : Type}

/-- `LinearCombination` (core/linear_combination.hpp lines 18-43). -/
structure LinComb (X : Type) where
  values : List X
  coefficients : List ℝ

/-- The default constructor (core/linear_combination.hpp line 24). -/
def LinComb.empty : LinComb X := ⟨[], []⟩

/-- The constructor without coefficients (core/linear_combination.hpp lines 26-28). -/
def LinComb.ofValues (values : List X) : LinComb X := ⟨values, List.replicate values.length 1⟩

/-- The constructor with coefficients (core/linear_combination.hpp lines 30-34). -/
def LinComb.make (b : Build) (values : List X) (coefficients : List ℝ) : Outcome (LinComb X) := do
  albatrossAssert b (decide (values.length = coefficients.length))
  pure ⟨values, coefficients⟩

/-- `linear_combination::sum` (core/linear_combination.hpp lines 47-51). -/
def linCombSum (b : Build) (x y : X) : Outcome (LinComb X) := LinComb.make b [x, y] [1, 1]

/-- `linear_combination::sum` of different types (core/linear_combination.hpp lines 53-57): a combination of
variants. -/
def linCombSumVariant (b : Build) (x : X) (y : Y) : Outcome (LinComb (X ⊕ Y)) := linCombSum b (.inl x) (.inr y)

/-- `linear_combination::mean` (core/linear_combination.hpp lines 59-64). -/
noncomputable def linCombMean (b : Build) (xs : List X) : Outcome (LinComb X) :=
  LinComb.make b xs (List.replicate xs.length (1 / xs.length))

/-- `linear_combination::difference` (core/linear_combination.hpp lines 66-70). -/
def linCombDifference (b : Build) (x y : X) : Outcome (LinComb X) := LinComb.make b [x, y] [1, -1]

/-- `linear_combination::difference` of different types (core/linear_combination.hpp lines 72-77). -/
def linCombDifferenceVariant (b : Build) (x : X) (y : Y) : Outcome (LinComb (X ⊕ Y)) :=
  linCombDifference b (.inl x) (.inr y)

/-- `to_linear_combination` (core/linear_combination.hpp lines 83-85); a combination is returned as it is
(lines 87-90). -/
def toLinearCombination (b : Build) (x : X) : Outcome (LinComb X) := LinComb.make b [x] [1]

/-- A sparse matrix: its stored entries (row, column, value) in the order in which the nested loops over the
outer index and `InnerIterator` visit them, whatever the storage order. -/
structure EntryMat where
  rows : Nat
  cols : Nat
  entries : List (Nat × Nat × ℝ)

/-- One vector per row being filled with `push_back` (core/linear_combination.hpp lines 100-103, 129-133). -/
def pushRow (acc : List (LinComb X)) (row : Nat) (x : X) (c : ℝ) : Outcome (List (LinComb X)) := do
  let old ← vecGet acc row
  pure (acc.set row ⟨old.values ++ [x], old.coefficients ++ [c]⟩)

/-- The second loop (core/linear_combination.hpp lines 107-112, 138-144): the collected coefficients are copied
unless there are none, in which case the default constructed, empty vector remains. -/
def storeCoefs (acc : List (LinComb X)) : List (LinComb X) :=
  acc.map fun l => if l.coefficients.length > 0 then ⟨l.values, l.coefficients⟩ else ⟨l.values, []⟩

/-- `operator*(sparse, features)` (core/linear_combination.hpp lines 93-115).  The coefficients collected in
`output_coefs` are kept with the values; indexing outside a vector is undefined behaviour. -/
def sparseTimes (m : EntryMat) (features : List X) : Outcome (List (LinComb X)) := do
  let acc ← m.entries.foldlM (fun acc e => do
    let x ← vecGet features e.2.1
    pushRow acc e.1 x e.2.2) (List.replicate m.rows LinComb.empty)
  pure (storeCoefs acc)

/-- `operator*(sparse, combinations)` (core/linear_combination.hpp lines 117-147). -/
def sparseTimesCombos (m : EntryMat) (features : List (LinComb X)) : Outcome (List (LinComb X)) := do
  let acc ← m.entries.foldlM (fun acc e => do
    let combo ← vecGet features e.2.1
    (List.range combo.coefficients.length).foldlM (fun acc i => do
      let v ← vecGet combo.values i
      let c ← vecGet combo.coefficients i
      pushRow acc e.1 v (e.2.2 * c)) acc) (List.replicate m.rows LinComb.empty)
  pure (storeCoefs acc)

open Classical in
/-- `matrix.sparseView()` (core/linear_combination.hpp line 151) stored by columns: all entries other than zero
(the default reference is 0, so nothing else is dropped). -/
noncomputable def sparseView {m n : Nat} (a : Matrix (Fin m) (Fin n) ℝ) : EntryMat :=
  ⟨m, n, (List.finRange n).flatMap fun j =>
    ((List.finRange m).filter fun i => a i j ≠ 0).map fun i => (i.val, j.val, a i j)⟩

/-- `operator*(dense, features)` (core/linear_combination.hpp lines 148-153). -/
noncomputable def denseTimes {m n : Nat} (a : Matrix (Fin m) (Fin n) ℝ) (features : List X) :
    Outcome (List (LinComb X)) := sparseTimes (sparseView a) features

/-- The same for combinations (core/linear_combination.hpp lines 148-153): overload resolution picks
`sparseTimesCombos`. -/
noncomputable def denseTimesCombos {m n : Nat} (a : Matrix (Fin m) (Fin n) ℝ) (features : List (LinComb X)) :
    Outcome (List (LinComb X)) := sparseTimesCombos (sparseView a) features

/-- A combination as the argument of a covariance function: coefficient `i` goes with value `i`. -/
def LinComb.toVal {T : Type} {F : T → Type} {τ : Ty T} (l : LinComb (Val F τ)) : Val F (.lin τ) :=
  (List.zip l.coefficients l.values : List (ℝ × Val F τ))

end Albatross
