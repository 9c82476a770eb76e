import Verif.Utils
import Verif.Distribution

/-! # Model of the operations on groupings

indexing/group_by.hpp lines 68-319 (`Grouped` and `combine`) and 448-571 (`GroupByBase`), beyond the
functions already in `Verif.Indexing`.  A `Grouped` is the `std::map` it wraps. -/

namespace Albatross

variable {α β K V : Type}

/-! ## `GroupedBase` -/

/-- `first_value` (indexing/group_by.hpp line 112): dereferences `begin()`. -/
def groupedFirstValue (m : SMap K V) : Outcome V :=
  match m with
  | [] => .error .ub
  | kv :: _ => .ok kv.2

/-- `last_value` (indexing/group_by.hpp lines 115-119): decrements `end()`. -/
def groupedLastValue (m : SMap K V) : Outcome V :=
  match m.getLast? with
  | none => .error .ub
  | some kv => .ok kv.2

/-- `min` (indexing/group_by.hpp lines 122-127): `*std::min_element` comparing the values. -/
def groupedMin [LT V] [DecidableLT V] (m : SMap K V) : Outcome (K × V) :=
  match m with
  | [] => .error .ub
  | kv :: rest => .ok (rest.foldl (fun smallest y => if y.2 < smallest.2 then y else smallest) kv)

/-- `max` (indexing/group_by.hpp lines 130-135): `*std::max_element` comparing the values. -/
def groupedMax [LT V] [DecidableLT V] (m : SMap K V) : Outcome (K × V) :=
  match m with
  | [] => .error .ub
  | kv :: rest => .ok (rest.foldl (fun largest y => if largest.2 < y.2 then y else largest) kv)

/-- `min_key` (indexing/group_by.hpp line 138). -/
def groupedMinKey [LT V] [DecidableLT V] (m : SMap K V) : Outcome K := do
  let kv ← groupedMin m
  pure kv.1

/-- `max_key` (indexing/group_by.hpp line 141). -/
def groupedMaxKey [LT V] [DecidableLT V] (m : SMap K V) : Outcome K := do
  let kv ← groupedMax m
  pure kv.1

/-- `min_value` (indexing/group_by.hpp line 143). -/
def groupedMinValue [LT V] [DecidableLT V] (m : SMap K V) : Outcome V := do
  let kv ← groupedMin m
  pure kv.2

/-- `max_value` (indexing/group_by.hpp line 145). -/
def groupedMaxValue [LT V] [DecidableLT V] (m : SMap K V) : Outcome V := do
  let kv ← groupedMax m
  pure kv.2

/-! ## The specialisations of `Grouped` -/

/-- `Grouped<K, bool>::all` (indexing/group_by.hpp line 192). -/
def groupedAll (m : SMap K Bool) : Bool := allOf m.values

/-- `Grouped<K, bool>::any` (indexing/group_by.hpp line 194). -/
def groupedAny (m : SMap K Bool) : Bool := anyOf m.values

/-- `Grouped<K, double>::sum` (indexing/group_by.hpp lines 209-215). -/
noncomputable def groupedSum (m : SMap K Dbl) : Dbl :=
  m.foldl (fun output kv => output + kv.2) (.fin 0)

/-- `Grouped<K, std::size_t>::sum` (indexing/group_by.hpp lines 209-215). -/
def groupedSumSize (m : SMap K Nat) : Nat :=
  m.foldl (fun output kv => (output + kv.2) % 2 ^ 64) 0

/-- `Grouped<K, double>::mean` (indexing/group_by.hpp lines 217-223). -/
noncomputable def groupedMean (b : Build) (m : SMap K Dbl) : Outcome Dbl :=
  m.foldlM (fun output kv => do
    let n ← sizeToDouble b m.length
    pure (output + kv.2 / .fin n)) (.fin 0)

/-- `Grouped<K, std::size_t>::mean` (indexing/group_by.hpp lines 217-223): the numerator is converted to
a double. -/
noncomputable def groupedMeanSize (b : Build) (m : SMap K Nat) : Outcome Dbl :=
  m.foldlM (fun output kv => do
    let n ← sizeToDouble b m.length
    pure (output + .fin (castToDouble kv.2) / .fin n)) (.fin 0)

/-- `index_apply` (indexing/group_by.hpp lines 252-258, 533-539); the function may stop. -/
def indexApply [LT K] [DecidableLT K] [DecidableEq K] (f : K → List Nat → Outcome β)
    (indexer : SMap K (List Nat)) : Outcome (SMap K β) :=
  indexer.foldlM (fun out kv => do
    let v ← f kv.1 kv.2
    pure (SMap.emplace out kv.1 v)) []

/-! ## `combine` -/

/-- The loop of `combine` of doubles (indexing/group_by.hpp lines 284-287). -/
def combineDoublesLoop : List ℝ → Nat → List ℝ → Outcome (Nat × List ℝ)
  | [], i, output => .ok (i, output)
  | x :: xs, i, output => do
    let output ← writeRows output i [x]
    combineDoublesLoop xs (i + 1) output

/-- `combine(Map<K, double>)` (indexing/group_by.hpp lines 280-290); `uninit` fills the new vector. -/
def combineDoubles (b : Build) (uninit : Nat → ℝ) (m : SMap K ℝ) : Outcome (List ℝ) := do
  let r ← combineDoublesLoop m.values 0 ((List.range m.length).map uninit)
  albatrossAssert b (decide (r.1 = r.2.length))
  pure r.2

/-- The loop of `combine` of vectors (indexing/group_by.hpp lines 299-304). -/
def combineVectorsLoop : List (List ℝ) → Nat → List ℝ → Outcome (Nat × List ℝ)
  | [], i, output => .ok (i, output)
  | x :: xs, i, output =>
    if 0 < x.length then do
      let output ← writeRows output i x
      combineVectorsLoop xs (i + x.length) output
    else combineVectorsLoop xs i output

/-- `combine(Map<K, Eigen::VectorXd>)` (indexing/group_by.hpp lines 292-307). -/
def combineVectors [LT K] [DecidableLT K] [DecidableEq K] (b : Build) (uninit : Nat → ℝ)
    (m : SMap K (List ℝ)) : Outcome (List ℝ) := do
  let n := (applyMap (fun _ x => x.length) m).foldl (fun output kv => output + kv.2) 0
  let r ← combineVectorsLoop m.values 0 ((List.range n).map uninit)
  albatrossAssert b (decide (r.1 = r.2.length))
  pure r.2

/-! ## `GroupByBase` -/

/-- `with(other)` (indexing/group_by.hpp lines 472-486), for a vector grouped with a vector. -/
def groupByWith [LT K] [DecidableLT K] [DecidableEq K] (b : Build) (g : α → K) (parent : List α)
    (other : List β) : Outcome (SMap K (List α × List β)) := do
  albatrossAssert b (decide (parent.length = other.length))
  (buildIndexer g parent).foldlM (fun out kv => do
    let x ← subset b parent kv.2
    let y ← subset b other kv.2
    pure (SMap.emplace out kv.1 (x, y))) []

/-- `with(map)` (indexing/group_by.hpp lines 488-500). -/
def groupByWithMap [LT K] [DecidableLT K] [DecidableEq K] (b : Build) (g : α → K) (parent : List α)
    (other : SMap K V) : Outcome (SMap K (List α × V)) := do
  albatrossAssert b (decide (other.length = (buildIndexer g parent).length))
  (buildIndexer g parent).foldlM (fun out kv => do
    let x ← subset b parent kv.2
    let y ← other.at? kv.1
    pure (SMap.emplace out kv.1 (x, y))) []

/-- `GroupByBase::keys` (indexing/group_by.hpp line 502). -/
def groupByKeys [LT K] [DecidableLT K] [DecidableEq K] (g : α → K) (parent : List α) : List K :=
  (buildIndexer g parent).keys

/-- `GroupByBase::size` (indexing/group_by.hpp line 504). -/
def groupBySize [LT K] [DecidableLT K] [DecidableEq K] (g : α → K) (parent : List α) : Nat :=
  (buildIndexer g parent).length

/-- `GroupByBase::apply` (indexing/group_by.hpp lines 506-508). -/
def groupByApply [LT K] [DecidableLT K] [DecidableEq K] (b : Build) (g : α → K) (parent : List α)
    (f : K → List α → β) : Outcome (SMap K β) := do
  let gs ← groups b g parent
  pure (applyMap f gs)

/-- `GroupByBase::filter` (indexing/group_by.hpp lines 555-557). -/
def groupByFilter [LT K] [DecidableLT K] [DecidableEq K] (b : Build) (g : α → K) (parent : List α)
    (f : K → List α → Bool) : Outcome (SMap K (List α)) := do
  let gs ← groups b g parent
  pure (filterMap f gs)

end Albatross
