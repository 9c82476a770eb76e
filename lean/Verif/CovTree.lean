import Verif.Callers
import Verif.Utils

/-! # Model of composed covariance functions: names, state space representations and call traces

covariance_functions/covariance_function.hpp, covariance_functions/scaling_function.hpp,
covariance_functions/call_trace.hpp and the inducing point strategies of models/sparse_gp.hpp.

A composed covariance function is the tree of its template arguments.  Text is a list of characters.  The types of the
state space features are folded into one type `S`: `concatenate` of different types gives a variant of them
(core/concatenate.hpp lines 97-140). -/

namespace Albatross

variable {T : Type} {F : T → Type} {X S : Type}

/-- Which class composes two covariance functions: `SumOfCovarianceFunctions`, the primary template of
`ProductOfCovarianceFunctions` or one of its specialisations for a scaling term on the left or on the right
(covariance_function.hpp lines 222-325 and 330-420, scaling_function.hpp lines 117-172 and 177-232). -/
inductive CovOp
  | sum
  | product
  | scaledLeft
  | scaledRight
  deriving DecidableEq

/-- The operator in names and traces (covariance_function.hpp lines 232 and 341, scaling_function.hpp lines 129 and 189,
call_trace.hpp lines 158, 162, 205 and 209). -/
def CovOp.symbol : CovOp → Char
  | .sum => '+'
  | _ => '*'

/-- A covariance function.  A leaf has the name of this object, the name a default constructed object of its type has,
what it accepts and its values, and `_ssr_impl` where defined. -/
inductive CovTree (F : T → Type) (X S : Type)
  | leaf (name defaultName : List Char) (caller : Caller F) (ssr : Option (List X → Outcome (List S)))
  | node (op : CovOp) (l r : CovTree F X S)

namespace CovTree

/-- `get_name` (covariance_function.hpp lines 85-99, 231-233 and 340-342, scaling_function.hpp lines 128-130 and
188-190). -/
def name : CovTree F X S → List Char
  | leaf n _ _ _ => n
  | node op l r => '(' :: (l.name ++ op.symbol :: (r.name ++ [')']))

/-- `name` of a default constructed object of the same type (the default constructors: covariance_function.hpp lines 226
and 334, scaling_function.hpp lines 124 and 184). -/
def defaultName : CovTree F X S → List Char
  | leaf _ n _ _ => n
  | node op l r => '(' :: (l.defaultName ++ op.symbol :: (r.defaultName ++ [')']))

/-- `_call_impl` (covariance_function.hpp lines 266-294 and 357-389, scaling_function.hpp lines 146-166 and 206-226). -/
noncomputable def caller : CovTree F X S → Caller F
  | leaf _ _ c _ => c
  | node .sum l r => covSum l.caller r.caller
  | node .product l r => covProduct l.caller r.caller
  | node .scaledLeft l r => scaledProduct l.caller r.caller
  | node .scaledRight l r => scaledProductRight l.caller r.caller

/-- `_ssr_impl` where it is defined (covariance_function.hpp lines 296-319 and 391-414, `has_valid_ssr_impl` of traits.hpp
lines 86-94); `state_space_representation` (lines 170-175) forwards to it.  The specialisations of the product for scaling
terms do not define it.  The two arguments of `concatenate` are evaluated left to right here. -/
def ssr : CovTree F X S → Option (List X → Outcome (List S))
  | leaf _ _ _ s => s
  | node .sum l r | node .product l r =>
    match l.ssr, r.ssr with
    | some f, some g => some fun xs => do
      let a ← f xs
      let c ← g xs
      pure (a ++ c)
    | some f, none => some f
    | none, some g => some g
    | none, none => none
  | node .scaledLeft _ _ | node .scaledRight _ _ => none

end CovTree

/-- `CallAndValue` (call_trace.hpp lines 20-22). -/
structure CallAndValue where
  callName : List Char
  value : List Char
  deriving DecidableEq

/-- `LEVEL_DELIMITER` (call_trace.hpp line 18). -/
def levelDelimiter : List Char := [' ', '|', ' ', ' ']

/-- `s[2] = c` on a string. -/
def setThird (s : List Char) (c : Char) : Outcome (List Char) :=
  if 3 ≤ s.length then pure (s.set 2 c) else .error .ub

/-- `CallAndValue::add_operator` (call_trace.hpp lines 24-29). -/
def CallAndValue.addOperator (b : Build) (cv : CallAndValue) (c : Char) : Outcome CallAndValue := do
  albatrossAssert b (decide (3 ≤ cv.callName.length))
  albatrossAssert b (decide (3 ≤ cv.value.length))
  let n ← setThird cv.callName c
  let v ← setThird cv.value c
  pure ⟨n, v⟩

/-- `CallAndValue::add_delimiter` (call_trace.hpp lines 31-34). -/
def CallAndValue.addDelimiter (cv : CallAndValue) : CallAndValue :=
  ⟨levelDelimiter ++ cv.callName, levelDelimiter ++ cv.value⟩

/-- `append_child_call_trace` (call_trace.hpp lines 41-49): `front` of an empty vector is undefined. -/
def appendChildCallTrace (b : Build) (parent child : List CallAndValue) (c : Char) : Outcome (List CallAndValue) :=
  match child.map CallAndValue.addDelimiter with
  | [] => .error .ub
  | front :: rest => do
    let front ← front.addOperator b c
    pure (parent ++ front :: rest)

/-- The value column of one covariance function: `std::to_string` in a leaf, a stream in a composite, `"UNDEFINED"` for
types the function does not accept (call_trace.hpp lines 107-119, 130-149 and 176-195); `format` is the one used. -/
noncomputable def traceValue (format : ℝ → List Char) (c : Caller F) (τ σ : Ty T) (x : Val F τ) (y : Val F σ) : List Char :=
  if (defaultCaller c).valid τ σ then format ((defaultCaller c).call τ σ x y) else "UNDEFINED".toList

/-- `CallTrace::get_trace` (call_trace.hpp lines 107-119, 151-165 and 197-212). -/
noncomputable def CovTree.trace (b : Build) (toStr stream : ℝ → List Char) (τ σ : Ty T) (x : Val F τ) (y : Val F σ) :
    CovTree F X S → Outcome (List CallAndValue)
  | .leaf n _ c _ => pure [⟨n, traceValue toStr c τ σ x y⟩]
  | .node op l r => do
    let calls := [⟨(CovTree.node op l r).defaultName, traceValue stream (CovTree.node op l r).caller τ σ x y⟩]
    let lhs ← l.trace b toStr stream τ σ x y
    let calls ← appendChildCallTrace b calls lhs op.symbol
    let rhs ← r.trace b toStr stream τ σ x y
    appendChildCallTrace b calls rhs op.symbol

/-- The nearest integer, ties to even. -/
noncomputable def nearestNat (y : ℝ) : Nat :=
  if y - ⌊y⌋₊ < 1 / 2 then ⌊y⌋₊
  else if 1 / 2 < y - ⌊y⌋₊ then ⌊y⌋₊ + 1
  else if ⌊y⌋₊ % 2 = 0 then ⌊y⌋₊ else ⌊y⌋₊ + 1

/-- `std::to_string` of a finite double: `printf` with `%f`, that is six decimals. -/
noncomputable def toStringFixed (x : ℝ) : List Char :=
  let n := nearestNat (|x| * 10 ^ 6)
  let frac := (toString (n % 10 ^ 6)).toList
  (if x < 0 then ['-'] else []) ++ (toString (n / 10 ^ 6)).toList ++ '.' :: (List.replicate (6 - frac.length) '0' ++ frac)

/-- `Constant` (polynomials.hpp lines 31-62): `get_state_space_representation` is not `_ssr_impl`. -/
def constantTree (sigma : ℝ) : CovTree F X S :=
  .leaf "constant".toList "constant".toList ⟨fun _ _ => true, fun _ _ _ _ => sigma * sigma⟩ none

/-- `UniformlySpacedInducingPoints` (models/sparse_gp.hpp lines 34-47). -/
noncomputable def uniformInducingPoints (b : Build) (numPoints : Nat) (features : List Dbl) : Outcome (List Dbl) := do
  let mn ← minElement features
  let mx ← maxElement features
  linspace b mn mx numPoints

end Albatross
