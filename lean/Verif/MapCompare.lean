import Verif.Basic

/-! # Model of `utils/map_utils.hpp` for comparators with state and keys of two types

`MapUtils.lean` has the same functions for maps with one key type that is ordered by `<`.  Here the keys of the second
map may be of another type, and the comparator is an object of type `C`: the comments of the header (utils/map_utils.hpp
lines 209-212, 229-245) allow both.  A comparator compares keys of the two types in all four combinations, written as a
comparison on `K ⊕ L`. -/

namespace Albatross

variable {C K L V W X S : Type}

/-- A `std::map` with its comparator and its entries in order. -/
structure CMap (C K V : Type) where
  comp : C
  entries : List (K × V)

/-- What a comparator type does: `operator()` of a comparator for keys of either type, and the comparator that is made
by the default constructor. -/
structure Comparing (C K L : Type) where
  lt : C → K ⊕ L → K ⊕ L → Bool
  init : C

/-- `emplace_hint` on the entries of a map that is ordered by `lt`; the hint does not matter for the result. -/
def emplaceBy (lt : K → K → Bool) : List (K × V) → K → V → List (K × V)
  | [], k, v => [(k, v)]
  | e :: es, k, v =>
    if lt k e.1 then (k, v) :: e :: es
    else if lt e.1 k then e :: emplaceBy lt es k v
    else e :: es

/-- `emplace_hint` of a map with keys of the first type. -/
def CMap.emplace (cmp : Comparing C K L) (m : CMap C K V) (k : K) (v : V) : CMap C K V :=
  { m with entries := emplaceBy (fun x y => cmp.lt m.comp (.inl x) (.inl y)) m.entries k v }

/-- A default constructed map. -/
def CMap.empty (cmp : Comparing C K L) : CMap C K V := ⟨cmp.init, []⟩

/-- `detail::map_merge` (utils/map_utils.hpp lines 113-141) on the entries of the two maps, with the comparator of the
first map. -/
def mergeBy (lt : K ⊕ L → K ⊕ L → Bool) (onlyA : K → V → S → S) (onlyB : L → W → S → S) (merge : K → V → W → S → S) :
    List (K × V) → List (L × W) → S → S
  | a :: as, b :: bs, s =>
    if lt (.inl a.1) (.inr b.1) then mergeBy lt onlyA onlyB merge as (b :: bs) (onlyA a.1 a.2 s)
    else if lt (.inr b.1) (.inl a.1) then mergeBy lt onlyA onlyB merge (a :: as) bs (onlyB b.1 b.2 s)
    else mergeBy lt onlyA onlyB merge as bs (merge a.1 a.2 b.2 s)
  | as, [], s => as.foldl (fun s a => onlyA a.1 a.2 s) s
  | [], bs, s => bs.foldl (fun s b => onlyB b.1 b.2 s) s
termination_by a b _ => a.length + b.length

/-- `detail::map_subset_sequence` (utils/map_utils.hpp lines 143-161). -/
def subsetBy (lt : K ⊕ L → K ⊕ L → Bool) (merge : K → V → S → S) : List (K × V) → List L → S → S
  | a :: as, b :: bs, s =>
    if lt (.inl a.1) (.inr b) then subsetBy lt merge as (b :: bs) s
    else if lt (.inr b) (.inl a.1) then subsetBy lt merge (a :: as) bs s
    else subsetBy lt merge as bs (merge a.1 a.2 s)
  | _, [], s => s
  | [], _, s => s
termination_by a b _ => a.length + b.length

/-- `map_difference` (utils/map_utils.hpp lines 163-171, 283-292). -/
def cmapDifference (cmp : Comparing C K L) (a : CMap C K V) (b : CMap C L W) : CMap C K V :=
  mergeBy (cmp.lt a.comp) (fun k v d => d.emplace cmp k v) (fun _ _ d => d) (fun _ _ _ d => d) a.entries b.entries
    (CMap.empty cmp)

/-- `map_symmetric_difference` (utils/map_utils.hpp lines 173-176, 305-331); `conv` is the implicit conversion of keys
of the second map. -/
def cmapSymmetricDifference (cmp : Comparing C K L) (conv : L → K) (a : CMap C K V) (b : CMap C L V) : CMap C K V :=
  mergeBy (cmp.lt a.comp) (fun k v d => d.emplace cmp k v) (fun k v d => d.emplace cmp (conv k) v) (fun _ _ _ d => d)
    a.entries b.entries (CMap.empty cmp)

/-- `map_union` (utils/map_utils.hpp lines 183-188, 393-434); `merge` may be `ReturnLeft` or `ReturnRight` (lines
373-391). -/
def cmapUnion (cmp : Comparing C K L) (conv : L → K) (merge : K → V → V → V) (a : CMap C K V) (b : CMap C L V) :
    CMap C K V :=
  mergeBy (cmp.lt a.comp) (fun k v d => d.emplace cmp k v) (fun k v d => d.emplace cmp (conv k) v)
    (fun k v w d => d.emplace cmp k (merge k v w)) a.entries b.entries (CMap.empty cmp)

/-- `map_intersect` (utils/map_utils.hpp lines 178-181, 484-506). -/
def cmapIntersect (cmp : Comparing C K L) (merge : K → V → W → X) (a : CMap C K V) (b : CMap C L W) : CMap C K X :=
  mergeBy (cmp.lt a.comp) (fun _ _ d => d) (fun _ _ d => d) (fun k v w d => d.emplace cmp k (merge k v w))
    a.entries b.entries (CMap.empty cmp)

/-- `map_difference_keys` (utils/map_utils.hpp lines 533-545). -/
def cmapDifferenceKeys (cmp : Comparing C K L) (a : CMap C K V) (b : CMap C L W) : List K :=
  mergeBy (cmp.lt a.comp) (fun k _ d => d ++ [k]) (fun _ _ d => d) (fun _ _ _ d => d) a.entries b.entries []

/-- `map_intersect_keys` (utils/map_utils.hpp lines 561-573). -/
def cmapIntersectKeys (cmp : Comparing C K L) (a : CMap C K V) (b : CMap C L W) : List K :=
  mergeBy (cmp.lt a.comp) (fun _ _ d => d) (fun _ _ d => d) (fun k _ _ d => d ++ [k]) a.entries b.entries []

/-- `map_subset` (utils/map_utils.hpp lines 598-607) with the elements of an ordered container in order. -/
def cmapSubset (cmp : Comparing C K L) (m : CMap C K V) (keys : List L) : CMap C K V :=
  subsetBy (cmp.lt m.comp) (fun k v d => d.emplace cmp k v) m.entries keys (CMap.empty cmp)

/-- `std::is_sorted` with a comparator: no element is before its predecessor. -/
def sortedBy (lt : L → L → Bool) : List L → Bool
  | x :: y :: t => !lt y x && sortedBy lt (y :: t)
  | _ => true

/-- `map_subset_sorted` (utils/map_utils.hpp lines 625-645). -/
def cmapSubsetSorted (cmp : Comparing C K L) (b : Build) (m : CMap C K V) (keys : List L) : Outcome (CMap C K V) := do
  albatrossAssert b (sortedBy (fun x y => cmp.lt m.comp (.inr x) (.inr y)) keys)
  pure (subsetBy (cmp.lt m.comp) (fun k v d => d.emplace cmp k v) m.entries keys (CMap.empty cmp))

/-- `map_join` (utils/map_utils.hpp lines 74-84): a copy of `other`, comparator included. -/
def cmapJoin (cmp : Comparing C K L) (m other : CMap C K V) : CMap C K V :=
  m.entries.foldl (fun join e => join.emplace cmp e.1 e.2) other

end Albatross
