import Verif.Basic
import Mathlib.Data.Real.Basic

/-! # Model of the covariance function callers

covariance_functions/callers.hpp lines 191-544 and covariance_functions/traits.hpp.

C++ argument types are the grammar `Ty`: basic feature types, `Measurement<X>`,
`LinearCombination<X>` and `variant<X...>`.  A covariance function (or a caller wrapped around it) is
which pairs of argument types it accepts (`valid`, the traits `has_valid_call_impl` and
`has_valid_cov_caller`) and its value (`call`, meaningful for accepted pairs only).  Each caller
reproduces the overload resolution of the corresponding struct; a call that would be ambiguous is not
accepted.  Overloads taking mean functions are in `MeanFunctions`. -/

namespace Albatross

variable {T : Type}

/-- Argument types over the basic feature types `T`. -/
inductive Ty (T : Type) : Type
  | base (t : T)
  | meas (τ : Ty T)
  | lin (τ : Ty T)
  | var (n : Nat) (alts : Fin n → Ty T)

/-- Values of an argument type; a linear combination is its list of (coefficient, value) pairs
(core/linear_combination.hpp lines 18-47). -/
def Val (F : T → Type) : Ty T → Type
  | .base t => F t
  | .meas τ => Val F τ
  | .lin τ => List (ℝ × Val F τ)
  | .var n alts => (i : Fin n) × Val F (alts i)

/-- A covariance function (`_call_impl`, covariance_functions/covariance_function.hpp lines 64-123) or caller
(callers.hpp lines 196-553): the pairs of argument types it accepts and its values. -/
structure Caller (F : T → Type) where
  valid : Ty T → Ty T → Bool
  call : (τ σ : Ty T) → Val F τ → Val F σ → ℝ

variable {F : T → Type}

/-- `SymmetricCaller` (callers.hpp lines 218-248). -/
def symLayer (c : Caller F) : Caller F where
  valid τ σ := c.valid τ σ || c.valid σ τ
  call τ σ x y := if c.valid τ σ then c.call τ σ x y else c.call σ τ y x

/-- `Σᵢ coefᵢ f(valueᵢ)`: the accumulation loops of callers.hpp lines 352-357 and 366-371. -/
def linSum {A : Type} (xs : List (ℝ × A)) (f : A → ℝ) : ℝ :=
  xs.foldl (fun sum cx => sum + cx.1 * f cx.2) 0

/-- Accepted pairs of `LinearCombinationCaller` (callers.hpp lines 321-396). -/
def linValid (c : Caller F) : Ty T → Ty T → Bool
  | .lin a, .lin b =>
    c.valid a b || ((c.valid (.lin a) b || c.valid a (.lin b) || c.valid (.lin a) (.lin b)) &&
      !(c.valid (.lin a) b && c.valid a (.lin b)))
  | .lin a, σ => c.valid a σ || c.valid (.lin a) σ
  | τ, .lin b => c.valid τ b || c.valid τ (.lin b)
  | τ, σ => c.valid τ σ

/-- Calls of `LinearCombinationCaller` (callers.hpp lines 321-396). For two linear combinations the
code computes `xs.coefficients.dot(mat * ys.coefficients)` (lines 326-336). -/
noncomputable def linCall (c : Caller F) : (τ σ : Ty T) → Val F τ → Val F σ → ℝ
  | .lin a, .lin b, x, y =>
    if c.valid a b then
      linSum (A := Val F a) x fun u => linSum (A := Val F b) y fun v => c.call a b u v
    else if c.valid (.lin a) b then linSum (A := Val F b) y fun v => c.call (.lin a) b x v
    else if c.valid a (.lin b) then linSum (A := Val F a) x fun u => c.call a (.lin b) u y
    else c.call (.lin a) (.lin b) x y
  | .lin a, σ, x, y =>
    if c.valid a σ then linSum (A := Val F a) x fun u => c.call a σ u y
    else c.call (.lin a) σ x y
  | τ, .lin b, x, y =>
    if c.valid τ b then linSum (A := Val F b) y fun v => c.call τ b x v
    else c.call τ (.lin b) x y
  | τ, σ, x, y => c.call τ σ x y

/-- `LinearCombinationCaller` around `c` (see `linValid` and `linCall` for the lines). -/
noncomputable def linLayer (c : Caller F) : Caller F := ⟨linValid c, linCall c⟩

/-- Accepted pairs of `MeasurementForwarder` (callers.hpp lines 258-319). -/
def measValid (c : Caller F) : Ty T → Ty T → Bool
  | .meas a, .meas b =>
    c.valid (.meas a) (.meas b) || c.valid a b ||
      ((c.valid a (.meas b) || c.valid (.meas a) b) && !(c.valid a (.meas b) && c.valid (.meas a) b))
  | .meas a, σ => c.valid (.meas a) σ || c.valid a σ
  | τ, .meas b => c.valid τ (.meas b) || c.valid τ b
  | τ, σ => c.valid τ σ

/-- Calls of `MeasurementForwarder` (callers.hpp lines 258-319). -/
def measCall (c : Caller F) : (τ σ : Ty T) → Val F τ → Val F σ → ℝ
  | .meas a, .meas b, x, y =>
    if c.valid (.meas a) (.meas b) then c.call (.meas a) (.meas b) x y
    else if c.valid a b then c.call a b x y
    else if c.valid a (.meas b) then c.call a (.meas b) x y
    else c.call (.meas a) b x y
  | .meas a, σ, x, y => if c.valid (.meas a) σ then c.call (.meas a) σ x y else c.call a σ x y
  | τ, .meas b, x, y => if c.valid τ (.meas b) then c.call τ (.meas b) x y else c.call τ b x y
  | τ, σ, x, y => c.call τ σ x y

/-- `MeasurementForwarder` around `c` (see `measValid` and `measCall` for the lines). -/
def measLayer (c : Caller F) : Caller F := ⟨measValid c, measCall c⟩

/-- Accepted pairs of `VariantForwarder` (callers.hpp lines 419-502); two variants are accepted when
every alternative is accepted with itself (traits.hpp lines 107-131; the code additionally fails to
compile when an alternative of the first is accepted with none of the second), a variant and another type when
some alternative is accepted with it (traits.hpp lines 158-194). -/
def varValid (c : Caller F) : Ty T → Ty T → Bool
  | .var n xs, .var m ys =>
    (List.finRange n).all (fun i => c.valid (xs i) (xs i)) &&
      (List.finRange m).all (fun j => c.valid (ys j) (ys j))
  | .var n xs, σ => (List.finRange n).any fun i => c.valid σ (xs i)
  | τ, .var m ys => (List.finRange m).any fun j => c.valid τ (ys j)
  | τ, σ => c.valid τ σ

/-- `CallVisitor` (callers.hpp lines 436-458): a pair of alternatives that is not accepted gives 0. -/
noncomputable def callVisitor (c : Caller F) (τ : Ty T) (x : Val F τ) (σ : Ty T) (y : Val F σ) : ℝ :=
  if c.valid τ σ then c.call τ σ x y else 0

/-- Calls of `VariantForwarder` (callers.hpp lines 419-502); note that for (variant, A) the visitor is
built from the second argument. -/
noncomputable def varCall (c : Caller F) : (τ σ : Ty T) → Val F τ → Val F σ → ℝ
  | .var _ xs, .var _ ys, x, y =>
    let x : (i : Fin _) × Val F (xs i) := x
    let y : (i : Fin _) × Val F (ys i) := y
    callVisitor c (xs x.1) x.2 (ys y.1) y.2
  | .var _ xs, σ, x, y =>
    let x : (i : Fin _) × Val F (xs i) := x
    callVisitor c σ y (xs x.1) x.2
  | τ, .var _ ys, x, y =>
    let y : (i : Fin _) × Val F (ys i) := y
    callVisitor c τ x (ys y.1) y.2
  | τ, σ, x, y => c.call τ σ x y

/-- `VariantForwarder` around `c` (see `varValid` and `varCall` for the lines). -/
noncomputable def varLayer (c : Caller F) : Caller F := ⟨varValid c, varCall c⟩

/-- `DefaultCaller` (callers.hpp lines 551-553): what `cov(x, y)` calls
(covariance_function.hpp lines 73-75, 118-123). -/
noncomputable def defaultCaller (c : Caller F) : Caller F :=
  varLayer (measLayer (linLayer (varLayer (symLayer c))))

/-- `EquivalentCaller` (callers.hpp lines 587-588). -/
def equivalentCaller (c : Caller F) : Caller F := measLayer (symLayer c)

/-- `SumOfCovarianceFunctions::_call_impl` (covariance_function.hpp lines 266-294). -/
noncomputable def covSum (l r : Caller F) : Caller F where
  valid τ σ := (equivalentCaller l).valid τ σ || (equivalentCaller r).valid τ σ
  call τ σ x y :=
    if (equivalentCaller l).valid τ σ && (equivalentCaller r).valid τ σ then
      (defaultCaller l).call τ σ x y + (defaultCaller r).call τ σ x y
    else if (equivalentCaller l).valid τ σ then (defaultCaller l).call τ σ x y
    else (defaultCaller r).call τ σ x y

/-- `ProductOfCovarianceFunctions::_call_impl` (covariance_function.hpp lines 357-389): the right
factor is not evaluated when the left one is zero. -/
noncomputable def covProduct (l r : Caller F) : Caller F where
  valid τ σ := (equivalentCaller l).valid τ σ || (equivalentCaller r).valid τ σ
  call τ σ x y :=
    if (equivalentCaller l).valid τ σ && (equivalentCaller r).valid τ σ then
      let output := (defaultCaller l).call τ σ x y
      if output ≠ 0 then output * (defaultCaller r).call τ σ x y else output
    else if (equivalentCaller l).valid τ σ then (defaultCaller l).call τ σ x y
    else (defaultCaller r).call τ σ x y

/-- `ScalingTerm::_call_impl` (scaling_function.hpp lines 82-116) for a scaling function defined on
the types `on`. -/
def scalingTerm (on : Ty T → Bool) (f : (τ : Ty T) → Val F τ → ℝ) : Caller F where
  valid τ σ := on τ || on σ
  call τ σ x y :=
    if on τ && on σ then f τ x * f σ y
    else if on σ then f σ y
    else f τ x

/-- Product with a scaling term on the left (scaling_function.hpp lines 125-180): pairs for which only
the scaling term is defined are not accepted. -/
noncomputable def scaledProduct (s r : Caller F) : Caller F where
  valid τ σ := (equivalentCaller r).valid τ σ
  call τ σ x y :=
    if (equivalentCaller s).valid τ σ then
      let output := (defaultCaller s).call τ σ x y
      if output ≠ 0 then output * (defaultCaller r).call τ σ x y else output
    else (defaultCaller r).call τ σ x y

/-- Product with a scaling term on the right (scaling_function.hpp lines 176-231). -/
noncomputable def scaledProductRight (l s : Caller F) : Caller F where
  valid τ σ := (equivalentCaller l).valid τ σ
  call τ σ x y :=
    if (equivalentCaller s).valid τ σ then
      let output := (defaultCaller l).call τ σ x y
      if output ≠ 0 then output * (defaultCaller s).call τ σ x y else output
    else (defaultCaller l).call τ σ x y

/-- `MeasurementOnly::_call_impl` (measurement.hpp lines 87-103): zero on pairs the wrapped function
accepts, its value when both are measurements of such a pair. -/
noncomputable def measurementOnly (c : Caller F) : Caller F where
  valid
    | .meas a, .meas b => c.valid a b || c.valid (.meas a) (.meas b)
    | τ, σ => c.valid τ σ
  call
    | .meas a, .meas b, x, y => if c.valid a b then (defaultCaller c).call a b x y else 0
    | _, _, _, _ => 0

end Albatross
