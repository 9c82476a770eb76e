import Verif.Basic

/-! # Model of `utils/map_utils.hpp`

Both maps have the same key type and comparator (the heterogeneous-key instantiations are not
modelled). -/

namespace Albatross

variable {K V W X S : Type}

/-- `map_at_or` (utils/map_utils.hpp lines 33-44). -/
def mapAtOr [DecidableEq K] (m : SMap K V) (k : K) (value : V) : V :=
  if m.contains k then (m.find? k).getD value else value

/-- `map_join` (utils/map_utils.hpp lines 74-84): start from `other`, `insert` all of `m`. -/
def mapJoin [LT K] [DecidableLT K] [DecidableEq K] (m other : SMap K V) : SMap K V :=
  m.foldl (fun join kv => SMap.emplace join kv.1 kv.2) other

/-- `map_join_strict` (utils/map_utils.hpp lines 86-102). -/
def mapJoinStrict [LT K] [DecidableLT K] [DecidableEq K] (b : Build) (m other : SMap K V) :
    Outcome (SMap K V) :=
  m.foldlM (fun join kv => do
    if SMap.contains join kv.1 then albatrossAssert b false
    pure (SMap.put join kv.1 kv.2)) other

/-- `detail::map_merge` (utils/map_utils.hpp lines 113-141).  The three callbacks act on a state
`s`; the two trailing `for` loops are the cases in which one map is exhausted. -/
def mapMerge [LT K] [DecidableLT K] (onlyA : K → V → S → S) (onlyB : K → W → S → S)
    (merge : K → V → W → S → S) : SMap K V → SMap K W → S → S
  | (ak, av) :: as, (bk, bv) :: bs, s =>
    if ak < bk then mapMerge onlyA onlyB merge as ((bk, bv) :: bs) (onlyA ak av s)
    else if bk < ak then mapMerge onlyA onlyB merge ((ak, av) :: as) bs (onlyB bk bv s)
    else mapMerge onlyA onlyB merge as bs (merge ak av bv s)
  | as, [], s => as.foldl (fun s kv => onlyA kv.1 kv.2 s) s
  | [], bs, s => bs.foldl (fun s kv => onlyB kv.1 kv.2 s) s
termination_by a b _ => a.length + b.length

/-- `detail::map_subset_sequence` (utils/map_utils.hpp lines 143-161). -/
def mapSubsetSequence [LT K] [DecidableLT K] (merge : K → V → S → S) :
    SMap K V → List K → S → S
  | (ak, av) :: as, bk :: bs, s =>
    if ak < bk then mapSubsetSequence merge as (bk :: bs) s
    else if bk < ak then mapSubsetSequence merge ((ak, av) :: as) bs s
    else mapSubsetSequence merge as bs (merge ak av s)
  | _, [], s => s
  | [], _, s => s
termination_by a b _ => a.length + b.length

/-- `map_difference` (utils/map_utils.hpp lines 283-292). -/
def mapDifference [LT K] [DecidableLT K] [DecidableEq K] (a : SMap K V) (b : SMap K W) : SMap K V :=
  mapMerge (fun k v d => SMap.emplace d k v) (fun _ _ d => d) (fun _ _ _ d => d) a b []

/-- `map_symmetric_difference` (utils/map_utils.hpp lines 316-331). -/
def mapSymmetricDifference [LT K] [DecidableLT K] [DecidableEq K] (a b : SMap K V) : SMap K V :=
  mapMerge (fun k v d => SMap.emplace d k v) (fun k v d => SMap.emplace d k v)
    (fun _ _ _ d => d) a b []

/-- `map_union` (utils/map_utils.hpp lines 409-434) with a user supplied `merge`; the default is
`ReturnLeft` (lines 373-382). -/
def mapUnion [LT K] [DecidableLT K] [DecidableEq K] (merge : K → V → V → V) (a b : SMap K V) :
    SMap K V :=
  mapMerge (fun k v d => SMap.emplace d k v) (fun k v d => SMap.emplace d k v)
    (fun k v w d => SMap.emplace d k (merge k v w)) a b []

/-- `map_intersect` (utils/map_utils.hpp lines 484-506; default merge `MakePair`, lines 364-371). -/
def mapIntersect [LT K] [DecidableLT K] [DecidableEq K] (merge : K → V → W → X) (a : SMap K V)
    (b : SMap K W) : SMap K X :=
  mapMerge (fun _ _ d => d) (fun _ _ d => d) (fun k v w d => SMap.emplace d k (merge k v w)) a b []

/-- `map_difference_keys` (utils/map_utils.hpp lines 534-545). -/
def mapDifferenceKeys [LT K] [DecidableLT K] (a : SMap K V) (b : SMap K W) : List K :=
  mapMerge (fun k _ d => d ++ [k]) (fun _ _ d => d) (fun _ _ _ d => d) a b []

/-- `map_intersect_keys` (utils/map_utils.hpp lines 561-573). -/
def mapIntersectKeys [LT K] [DecidableLT K] (a : SMap K V) (b : SMap K W) : List K :=
  mapMerge (fun _ _ d => d) (fun _ _ d => d) (fun k _ _ d => d ++ [k]) a b []

/-- `map_subset(m, keys)` for an ordered key container (utils/map_utils.hpp lines 597-607). -/
def mapSubset [LT K] [DecidableLT K] [DecidableEq K] (m : SMap K V) (keys : List K) : SMap K V :=
  mapSubsetSequence (fun k v d => SMap.emplace d k v) m keys []

/-- `std::is_sorted`: no element is smaller than its predecessor. -/
def isSorted [LT K] [DecidableLT K] : List K → Bool
  | x :: y :: t => !decide (y < x) && isSorted (y :: t)
  | _ => true

/-- `map_subset_sorted(m, keys)` (utils/map_utils.hpp lines 633-644). -/
def mapSubsetSorted [LT K] [DecidableLT K] [DecidableEq K] (b : Build) (m : SMap K V)
    (keys : List K) : Outcome (SMap K V) := do
  albatrossAssert b (isSorted keys)
  pure (mapSubsetSequence (fun k v d => SMap.emplace d k v) m keys [])

end Albatross
