import Verif.Basic

/-!
# Model of `indexing/subset.hpp`, `indexing/group_by.hpp`, `core/dataset.hpp`,
`core/concatenate.hpp`

Indices are `std::size_t` (the signed instantiations, whose extra `>= 0` assertion rejects negative
values, are not modelled).  `Eigen::VectorXd` is a `List`; the scalar type is arbitrary.
-/

namespace Albatross

variable {α β F R K : Type}

/-! ## indexing/subset.hpp -/

/-- `subset(std::vector, indices)` and `subset(Eigen::VectorXd, indices)`
(indexing/subset.hpp lines 21-32, 37-48): assert each index is in range, then read it. -/
def subset (b : Build) (v : List α) (indices : List Nat) : Outcome (List α) :=
  indices.mapM fun i => do
    albatrossAssert b (decide (i < v.length))
    vecGet v i

/-- A dense `Eigen::MatrixXd`: `rows`/`cols` and the entries row by row. -/
structure DenseMat (α : Type) where
  rows : Nat
  cols : Nat
  entry : Nat → Nat → α

/-- Unchecked read of a matrix entry. -/
def DenseMat.get (m : DenseMat α) (i j : Nat) : Outcome α :=
  if i < m.rows ∧ j < m.cols then .ok (m.entry i j) else .error .ub

/-- `subset(Eigen::MatrixXd, row_indices, col_indices)` (indexing/subset.hpp lines 90-112).
The result is returned as a list of rows. -/
def subsetMatrix (b : Build) (m : DenseMat α) (rowIdx colIdx : List Nat) :
    Outcome (List (List α)) :=
  rowIdx.mapM fun i => colIdx.mapM fun j => do
    albatrossAssert b (decide (i < m.rows))
    albatrossAssert b (decide (j < m.cols))
    m.get i j

/-- `subset_rows` (indexing/subset.hpp lines 71-84), rows as lists. -/
def subsetRows (b : Build) (rows : List (List α)) (rowIdx : List Nat) : Outcome (List (List α)) :=
  rowIdx.mapM fun i => do
    albatrossAssert b (decide (i < rows.length))
    vecGet rows i

/-- `symmetric_subset` (indexing/subset.hpp lines 118-123). -/
def symmetricSubset (b : Build) (m : DenseMat α) (idx : List Nat) : Outcome (List (List α)) := do
  albatrossAssert b (decide (m.rows = m.cols))
  subsetMatrix b m idx idx

/-- The loop of `set_subset`: entry `i` of `from` goes to position `indices[i]`; `bound` is the
number the index is compared with in the assertion (indexing/subset.hpp lines 147-157, 166-172). -/
def setSubsetLoop (b : Build) (bound : Nat) (src : List α) :
    Nat → List Nat → List α → Outcome (List α)
  | _, [], dst => .ok dst
  | i, ind :: rest, dst => do
    albatrossAssert b (decide (ind < bound))
    let x ← vecGet src i
    let dst ← vecSet dst ind x
    setSubsetLoop b bound src (i + 1) rest dst

/-- `set_subset(VectorXd from, indices, VectorXd *to)` (indexing/subset.hpp lines 141-153). -/
def setSubset (b : Build) (src : List α) (indices : List Nat) (dst : List α) :
    Outcome (List α) := do
  albatrossAssert b (decide (indices.length = src.length))
  setSubsetLoop b dst.length src 0 indices dst

/-- `set_subset(DiagonalMatrix from, indices, DiagonalMatrix *to)` (indexing/subset.hpp lines
161-173).  `to->size()` of an Eigen diagonal matrix is `rows * cols`, that is the square of the
number of diagonal entries. -/
def setSubsetDiagonal (b : Build) (src : List α) (indices : List Nat) (dst : List α) :
    Outcome (List α) := do
  albatrossAssert b (decide (indices.length = src.length))
  setSubsetLoop b (dst.length * dst.length) src 0 indices dst

/-- `std::set_difference` on sorted ranges. -/
def stdSetDifference [LT K] [DecidableLT K] : List K → List K → List K
  | [], _ => []
  | x :: xs, [] => x :: xs
  | x :: xs, y :: ys =>
    if x < y then x :: stdSetDifference xs (y :: ys)
    else if y < x then stdSetDifference (x :: xs) ys
    else stdSetDifference xs ys
termination_by x y => x.length + y.length

/-- `set_difference` (indexing/subset.hpp lines 175-181). -/
def setDifference [LT K] [DecidableLT K] [DecidableEq K] (x y : List K) : List K :=
  setOfList (stdSetDifference x y)

/-- `vector_set_difference` (indexing/subset.hpp lines 183-189). -/
def vectorSetDifference [LT K] [DecidableLT K] [DecidableEq K] (x y : List K) : List K :=
  setDifference (setOfList x) (setOfList y)

/-- `indices_complement` (indexing/subset.hpp lines 198-205). -/
def indicesComplement (indices : List Nat) (n : Nat) : List Nat :=
  vectorSetDifference (List.range n) indices

/-- `indices_from_groups` (indexing/subset.hpp lines 207-215). -/
def indicesFromGroups [DecidableEq K] (indexer : SMap K (List Nat)) (keys : List K) :
    Outcome (List Nat) :=
  keys.foldlM (fun out k => do let is ← indexer.at? k; pure (out ++ is)) []

/-! ## indexing/group_by.hpp -/

/-- `IndexerBuilder::build` (indexing/group_by.hpp lines 349-377), loop from index `i`. -/
def buildIndexerLoop [LT K] [DecidableLT K] [DecidableEq K] (g : α → K) :
    Nat → List α → SMap K (List Nat) → SMap K (List Nat)
  | _, [], out => out
  | i, x :: xs, out =>
    let key := g x
    let out := if out.contains key then out else out.put key []
    let out := out.alter (fun o => o.getD [] ++ [i]) key
    buildIndexerLoop g (i + 1) xs out

/-- `group_by(xs, g).indexers()` (indexing/group_by.hpp lines 349-377, 437-441, 461). -/
def buildIndexer [LT K] [DecidableLT K] [DecidableEq K] (g : α → K) (xs : List α) :
    SMap K (List Nat) :=
  buildIndexerLoop g 0 xs []

/-- `IndexerBuilder<LeaveOneOutGrouper>::build` (indexing/group_by.hpp lines 389-404). -/
def buildLeaveOneOutLoop : Nat → List α → SMap Nat (List Nat) → SMap Nat (List Nat)
  | _, [], out => out
  | i, _ :: xs, out => buildLeaveOneOutLoop (i + 1) xs (out.put i [i])

/-- The same from the start: no groups, index 0 (indexing/group_by.hpp lines 391-396). -/
def buildLeaveOneOut (xs : List α) : SMap Nat (List Nat) := buildLeaveOneOutLoop 0 xs []

/-- `IndexerBuilder<KFoldGrouper>::build` (indexing/group_by.hpp lines 418-435); `i % k` with
`k = 0` is undefined behaviour. -/
def buildKFoldLoop (k : Nat) : Nat → List α → SMap Nat (List Nat) → Outcome (SMap Nat (List Nat))
  | _, [], out => .ok out
  | i, _ :: xs, out =>
    if k = 0 then .error .ub
    else buildKFoldLoop k (i + 1) xs (out.alter (fun o => o.getD [] ++ [i]) (i % k))

/-- The same from the start: no groups, index 0 (indexing/group_by.hpp lines 422-426). -/
def buildKFold (k : Nat) (xs : List α) : Outcome (SMap Nat (List Nat)) := buildKFoldLoop k 0 xs []

/-- `GroupByBase::groups` (indexing/group_by.hpp lines 463-470), for any subset operation. -/
def groupsOf [LT K] [DecidableLT K] [DecidableEq K] (sub : List Nat → Outcome β)
    (indexer : SMap K (List Nat)) : Outcome (SMap K β) :=
  indexer.foldlM (fun out kv => do let v ← sub kv.2; pure (SMap.emplace out kv.1 v)) []

/-- `group_by(xs, g).groups()` for a vector (indexing/group_by.hpp lines 463-470). -/
def groups [LT K] [DecidableLT K] [DecidableEq K] (b : Build) (g : α → K) (xs : List α) :
    Outcome (SMap K (List α)) :=
  groupsOf (subset b xs) (buildIndexer g xs)

/-- `GroupByBase::counts` (indexing/group_by.hpp lines 559-565). -/
def counts [LT K] [DecidableLT K] [DecidableEq K] (g : α → K) (xs : List α) : SMap K Nat :=
  (buildIndexer g xs).foldl (fun out kv => SMap.emplace out kv.1 kv.2.length) []

/-- `GroupByBase::get_group` (indexing/group_by.hpp lines 515-517). -/
def getGroup [LT K] [DecidableLT K] [DecidableEq K] (b : Build) (g : α → K) (xs : List α) (k : K) :
    Outcome (List α) := do
  let is ← (buildIndexer g xs).at? k
  subset b xs is

/-- `GroupByBase::first_group` (indexing/group_by.hpp lines 519-523): dereferences `begin()`. -/
def firstGroup [LT K] [DecidableLT K] [DecidableEq K] (b : Build) (g : α → K) (xs : List α) :
    Outcome (K × List α) :=
  match buildIndexer g xs with
  | [] => .error .ub
  | (k, is) :: _ => do let v ← subset b xs is; pure (k, v)

/-- `concatenate` of a vector of vectors (core/concatenate.hpp lines 79-86). -/
def concatenateAll (xss : List (List α)) : List α :=
  xss.foldl (fun out xs => out ++ xs) []

/-- `combine` of grouped vectors (indexing/group_by.hpp lines 273-278). -/
def combine (m : SMap K (List α)) : List α := concatenateAll m.values

/-! ## core/dataset.hpp -/

/-- `RegressionDataset` (core/dataset.hpp lines 26-57) with `MarginalDistribution` targets: mean
and the diagonal of the covariance.  Metadata is a list of key/value pairs. -/
structure Dataset (F R : Type) where
  features : List F
  mean : List R
  variance : List R
  metadata : SMap String String := []
  deriving DecidableEq

/-- The invariant the two constructors assert (core/dataset.hpp lines 34-41, core/distribution.hpp lines 93-97): one
target per feature. -/
def Dataset.Valid (d : Dataset F R) : Prop :=
  d.mean.length = d.features.length ∧ d.variance.length = d.features.length

/-- Rows of a dataset: feature, target mean, target variance. -/
def Dataset.rows (d : Dataset F R) : List (F × R × R) := d.features.zip (d.mean.zip d.variance)

/-- Constructor `RegressionDataset(features, targets)` (core/dataset.hpp lines 34-41) preceded by
`MarginalDistribution(mean, variance)` whose `assert_valid` compares the sizes
(core/distribution.hpp lines 93-97, 114-117). -/
def mkDataset (b : Build) (features : List F) (mean variance : List R) :
    Outcome (Dataset F R) := do
  albatrossAssert b (decide (mean.length = variance.length))
  albatrossAssert b (decide (features.length = mean.length))
  pure { features := features, mean := mean, variance := variance }

/-- `subset(dataset, indices)` (core/dataset.hpp lines 71-77, core/distribution.hpp lines 137-142).
The metadata of the input is not copied. -/
def subsetDataset (b : Build) (d : Dataset F R) (indices : List Nat) :
    Outcome (Dataset F R) := do
  let fs ← subset b d.features indices
  let ms ← subset b d.mean indices
  let vs ← subset b d.variance indices
  mkDataset b fs ms vs

/-- `dataset.group_by(g).groups()` (indexing/group_by.hpp lines 463-470, core/dataset.hpp). -/
def groupsDataset [LT K] [DecidableLT K] [DecidableEq K] (b : Build) (g : F → K)
    (d : Dataset F R) : Outcome (SMap K (Dataset F R)) :=
  groupsOf (subsetDataset b d) (buildIndexer g d.features)

/-- `appears_later` in `deduplicate` (core/dataset.hpp lines 88-95); the inner loop reads
`features[j]` for `j > index` in increasing order. -/
def appearsLater [DecidableEq F] (fs : List F) (index : Nat) : Bool :=
  match fs[index]? with
  | none => false
  | some x => (fs.drop (index + 1)).any fun y => decide (x = y)

/-- `deduplicate` (core/dataset.hpp lines 84-106). -/
def deduplicate [DecidableEq F] (b : Build) (d : Dataset F R) : Outcome (Dataset F R) :=
  let uniqueInds := (List.range d.features.length).filter fun i => !appearsLater d.features i
  subsetDataset b d uniqueInds

/-- Inner loop of `align_datasets` (core/dataset.hpp lines 113-121): the `continue` does not leave
the inner loop, every matching `j` is recorded. -/
def alignInner (eq : F → F → Bool) (x : F) (i : Nat) : Nat → List F → List (Nat × Nat)
  | _, [] => []
  | j, y :: ys =>
    if eq x y then (i, j) :: alignInner eq x i (j + 1) ys else alignInner eq x i (j + 1) ys

/-- Outer loop of `align_datasets` (core/dataset.hpp lines 112-121). -/
def alignOuter (eq : F → F → Bool) (ys : List F) : Nat → List F → List (Nat × Nat)
  | _, [] => []
  | i, x :: xs => alignInner eq x i 0 ys ++ alignOuter eq ys (i + 1) xs

/-- `align_datasets(x, y, equal_to)` (core/dataset.hpp lines 108-132). -/
def alignDatasets (b : Build) (eq : F → F → Bool) (x y : Dataset F R) :
    Outcome (Dataset F R × Dataset F R) :=
  let pairs := alignOuter eq y.features 0 x.features
  let xInds := pairs.map Prod.fst
  let yInds := pairs.map Prod.snd
  do
    albatrossAssert b (decide (xInds.length = yInds.length))
    if xInds.length = 0 then
      pure ({ features := [], mean := [], variance := [] },
        { features := [], mean := [], variance := [] })
    else do
      let x' ← subsetDataset b x xInds
      let y' ← subsetDataset b y yInds
      pure (x', y')

/-- `concatenate` of two vectors (core/concatenate.hpp lines 70-77, 88-94). -/
def concatenate (xs ys : List α) : List α := ys.foldl (fun out y => out ++ [y]) xs

/-- `concatenate_datasets(x, y)` (core/dataset.hpp lines 139-145; core/distribution.hpp lines
256-262). -/
def concatenateDatasets (b : Build) (x y : Dataset F R) : Outcome (Dataset F R) :=
  mkDataset b (concatenate x.features y.features) (concatenate x.mean y.mean)
    (concatenate x.variance y.variance)

/-- `concatenate_marginals` of a vector (core/distribution.hpp lines 264-286): both vectors have
size `Σ mean.size()`, and block `i` of each is assigned; Eigen asserts when a block and the vector
assigned to it have different sizes. -/
def concatenateMarginals (b : Build) (ds : List (List R × List R)) :
    Outcome (List R × List R) :=
  ds.foldlM (fun out d => do
    if d.2.length = d.1.length then pure (out.1 ++ d.1, out.2 ++ d.2)
    else match b with
      | .debug => .error .assertFail
      | .ndebug => .error .ub) ([], [])

/-- `concatenate_datasets(vector of datasets)` (core/dataset.hpp lines 147-160). -/
def concatenateDatasetsAll (b : Build) (ds : List (Dataset F R)) : Outcome (Dataset F R) := do
  let t ← concatenateMarginals b (ds.map fun d => (d.mean, d.variance))
  mkDataset b (concatenateAll (ds.map fun d => d.features)) t.1 t.2

/-- `combine` of grouped datasets (indexing/group_by.hpp lines 266-271). -/
def combineDatasets (b : Build) (m : SMap K (Dataset F R)) : Outcome (Dataset F R) :=
  concatenateDatasetsAll b m.values

end Albatross
