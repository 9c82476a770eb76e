import Verif.Indexing
import Verif.SamplerCsv
import Verif.Stats

/-! # Model of the small utilities

details/typecast.hpp, utils/vector_utils.hpp, indexing/unique.hpp, indexing/filter.hpp, indexing/apply.hpp
and the grids of `_ssr_impl` in covariance_functions/radial.hpp.  `std::size_t` is a natural number below
`2^64`, `Eigen::Index` an integer in `[-2^63, 2^63)`. -/

namespace Albatross

variable {α β K V : Type}

/-! ## details/typecast.hpp -/

/-- `cast::to_size` (details/typecast.hpp lines 20-23); the conversion is modulo `2^64`. -/
def toSize (b : Build) (input : Int) : Outcome Nat := do
  albatrossAssert b (decide (0 ≤ input))
  pure (input % 2 ^ 64).toNat

/-- `std::numeric_limits<Eigen::Index>::max()`. -/
def indexMax : Int := 2 ^ 63 - 1

/-- `cast::to_index` (details/typecast.hpp lines 25-28); the conversion is the value congruent modulo
`2^64` in the range of `Eigen::Index`. -/
def toIndex (b : Build) (input : Nat) : Outcome Int := do
  let bound ← toSize b indexMax
  albatrossAssert b (decide (input ≤ bound))
  pure (Int.bmod input (2 ^ 64))

/-- The conversion of an integer to the nearest double, ties to even: an integer of magnitude in
`[2^(52+e), 2^(53+e))` is rounded to a multiple of `2^e`. -/
noncomputable def castToDouble (n : Int) : ℝ :=
  let e := Nat.log 2 n.natAbs - 52
  let magnitude := (roundHalfEven ((n.natAbs : ℝ) / 2 ^ e) : ℝ) * 2 ^ e
  if n < 0 then -magnitude else magnitude

/-- `cast::to_double(std::size_t)` (details/typecast.hpp lines 35-40). -/
noncomputable def sizeToDouble (b : Build) (input : Nat) : Outcome ℝ := do
  albatrossAssert b (decide (input ≤ 2 ^ 53))
  pure (castToDouble input)

/-- `kMaxIntegerPrecisionDoubleIndex` (details/typecast.hpp lines 45-48). -/
def maxIntegerPrecisionIndex : Int := min indexMax (2 ^ 53)

/-- `cast::to_double(Eigen::Index)` (details/typecast.hpp lines 50-54). -/
noncomputable def indexToDouble (b : Build) (input : Int) : Outcome ℝ := do
  albatrossAssert b (decide (input ≤ maxIntegerPrecisionIndex ∧ -maxIntegerPrecisionIndex ≤ input))
  pure (castToDouble input)

/-! ## utils/vector_utils.hpp -/

/-- `safe_cast_to_size_t` (utils/vector_utils.hpp lines 18-22): converting a double whose truncation is
not representable is undefined. -/
noncomputable def safeCastToSize (b : Build) (x : Dbl) : Outcome Nat := do
  albatrossAssert b (decide (x < .fin (2 ^ 64)))
  match x with
  | .fin r => if -1 < r ∧ r < 2 ^ 64 then .ok ⌊r⌋₊ else .error .ub
  | _ => .error .ub

/-- The loop of `linspace` (utils/vector_utils.hpp lines 27-31). -/
noncomputable def linspaceLoop (step : Dbl) : Nat → Dbl → List Dbl
  | 0, _ => []
  | n + 1, val => val :: linspaceLoop step n (val + step)

/-- `linspace` (utils/vector_utils.hpp lines 24-33); `n - 1` wraps around. -/
noncomputable def linspace (b : Build) (a c : Dbl) (n : Nat) : Outcome (List Dbl) := do
  let m ← sizeToDouble b ((n + (2 ^ 64 - 1)) % 2 ^ 64)
  let step := (c - a) / .fin m
  pure (linspaceLoop step n a)

/-- `all` (utils/vector_utils.hpp lines 35-49). -/
def allOf : List Bool → Bool
  | [] => true
  | x :: xs => if !x then false else allOf xs

/-- `any` (utils/vector_utils.hpp lines 51-65). -/
def anyOf : List Bool → Bool
  | [] => false
  | x :: xs => if x then true else anyOf xs

/-- `vector_contains` (utils/vector_utils.hpp lines 67-70): `std::find`. -/
def vectorContains [DecidableEq α] (xs : List α) (x : α) : Bool :=
  match xs with
  | [] => false
  | y :: ys => if y = x then true else vectorContains ys x

/-! ## indexing/unique.hpp -/

/-- `unique_values` (indexing/unique.hpp lines 18-21). -/
def uniqueValues [LT K] [DecidableLT K] [DecidableEq K] (values : List K) : List K := setOfList values

/-- `unique_values` with a function (indexing/unique.hpp lines 23-53), for vectors and sets. -/
def uniqueValuesApply [LT K] [DecidableLT K] [DecidableEq K] (xs : List α) (f : α → K) : List K :=
  setOfList (xs.map f)

/-- `unique_value` of a set (indexing/unique.hpp lines 59-63): dereferencing the end of an empty set is
undefined. -/
def uniqueValueSet (b : Build) (values : List K) : Outcome K := do
  albatrossAssert b (decide (values.length = 1))
  vecGet values 0

/-- `unique_value` of a vector (indexing/unique.hpp lines 65-69). -/
def uniqueValue [LT K] [DecidableLT K] [DecidableEq K] (b : Build) (values : List K) : Outcome K :=
  uniqueValueSet b (uniqueValues values)

/-- `unique_value` with a function (indexing/unique.hpp lines 71-81). -/
def uniqueValueApply [LT K] [DecidableLT K] [DecidableEq K] (b : Build) (xs : List α) (f : α → K) :
    Outcome K :=
  uniqueValueSet b (uniqueValuesApply xs f)

/-! ## indexing/filter.hpp and indexing/apply.hpp -/

/-- `std::copy_if` with a back inserter, and `filter` of a vector (indexing/filter.hpp lines 20-30). -/
def filterVector (toKeep : α → Bool) (values : List α) : List α :=
  values.foldl (fun out x => if toKeep x then out ++ [x] else out) []

/-- `filter` of a set (indexing/filter.hpp lines 34-45). -/
def filterSet [LT K] [DecidableLT K] [DecidableEq K] (toKeep : K → Bool) (values : List K) : List K :=
  setOfList (filterVector toKeep values)

/-- `filter_map` (indexing/filter.hpp lines 49-80), for functions of the key and the value. -/
def filterMap [LT K] [DecidableLT K] [DecidableEq K] (toKeep : K → V → Bool) (m : SMap K V) : SMap K V :=
  m.foldl (fun out kv => if toKeep kv.1 kv.2 then out.emplace kv.1 kv.2 else out) []

/-- The indices kept by `filter` of a dataset (indexing/filter.hpp lines 102-107). -/
def filterIndices (toKeep : α → Bool) (features : List α) : Outcome (List Nat) :=
  (List.range features.length).foldlM (fun out i => do
    let f ← vecGet features i
    pure (if toKeep f then out ++ [i] else out)) []

/-- `filter` of a dataset (indexing/filter.hpp lines 96-109). -/
def filterDataset {R : Type} (b : Build) (toKeep : α → Bool) (d : Dataset α R) : Outcome (Dataset α R) := do
  let inds ← filterIndices toKeep d.features
  subsetDataset b d inds

/-- `apply` of a map (indexing/apply.hpp lines 62-95). -/
def applyMap [LT K] [DecidableLT K] [DecidableEq K] (f : K → V → β) (m : SMap K V) : SMap K β :=
  m.foldl (fun out kv => out.emplace kv.1 (f kv.1 kv.2)) []

/-! ## `_ssr_impl` -/

/-- `*std::min_element`. -/
noncomputable def minElement : List Dbl → Outcome Dbl
  | [] => .error .ub
  | x :: xs => .ok (xs.foldl (fun m y => if y < m then y else m) x)

/-- `*std::max_element`. -/
noncomputable def maxElement : List Dbl → Outcome Dbl
  | [] => .error .ub
  | x :: xs => .ok (xs.foldl (fun m y => if m < y then y else m) x)

/-- `ceil`. -/
noncomputable def Dbl.ceil : Dbl → Dbl
  | .fin x => .fin ⌈x⌉
  | x => x

/-- The arguments `_ssr_impl` passes to `linspace` (radial.hpp lines 160-166 and 259-265). -/
noncomputable def ssrArguments (pointsPerScale : ℝ) (b : Build) (lengthScale : Dbl) (xs : List Dbl) :
    Outcome (Dbl × Dbl × Nat) := do
  let mn ← minElement xs
  let mx ← maxElement xs
  let range := mx - mn
  let n := (.fin pointsPerScale * range / lengthScale).ceil
  let n := stdMax n (.fin 3)
  let k ← safeCastToSize b n
  pure (mn, mx, k)

/-- `_ssr_impl` of the squared exponential (`pointsPerScale = 10`, radial.hpp lines 158-168) and of the
exponential covariance function (`pointsPerScale = 20`, radial.hpp lines 257-267). -/
noncomputable def ssrGrid (pointsPerScale : ℝ) (b : Build) (lengthScale : Dbl) (xs : List Dbl) :
    Outcome (List Dbl) := do
  let args ← ssrArguments pointsPerScale b lengthScale xs
  linspace b args.1 args.2.1 args.2.2

end Albatross
