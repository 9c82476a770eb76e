import Verif.Gp

/-! # Model of core/distribution.hpp and core/transformed_distribution.hpp

The entries of a distribution are indexed by a finite type, so that sizes of operands agree by typing
(Eigen asserts it).  Metadata is not modelled: none of these operations reads or copies it. -/

namespace Albatross

open Matrix

variable {n m p : Type}

/-! ## MarginalDistribution -/

/-- Constructor from a mean only (distribution.hpp lines 70-74): zero variances. -/
def Marginal.ofMean (mean : n → ℝ) : Marginal n := ⟨mean, fun _ => 0⟩

/-- `MarginalDistribution::operator+` (distribution.hpp lines 123-126). -/
def Marginal.add (x y : Marginal n) : Marginal n := ⟨x.mean + y.mean, x.variance + y.variance⟩

/-- `MarginalDistribution::operator-` (distribution.hpp lines 128-131). -/
def Marginal.sub (x y : Marginal n) : Marginal n := ⟨x.mean - y.mean, x.variance + y.variance⟩

/-- `MarginalDistribution::operator*(double)` (distribution.hpp lines 133-135). -/
noncomputable def Marginal.scale (x : Marginal n) (scale : ℝ) : Marginal n :=
  ⟨scale • x.mean, (scale * scale) • x.variance⟩

/-! ## JointDistribution -/

/-- `JointDistribution::operator*(double)` (distribution.hpp lines 197-199). -/
noncomputable def Joint.scale (x : Joint n) (scale : ℝ) : Joint n :=
  ⟨scale • x.mean, (scale * scale) • x.covariance⟩

/-- `JointDistribution::operator+(JointDistribution)` (distribution.hpp lines 201-203). -/
def Joint.add (x y : Joint n) : Joint n := ⟨x.mean + y.mean, x.covariance + y.covariance⟩

/-- `JointDistribution::operator+(MarginalDistribution)` (distribution.hpp lines 205-209): adding a
diagonal matrix to a dense one. -/
def Joint.addMarginal [DecidableEq n] (x : Joint n) (y : Marginal n) : Joint n :=
  let newCovariance := x.covariance + diagonal y.variance
  ⟨x.mean + y.mean, newCovariance⟩

/-- `JointDistribution::operator-(JointDistribution)` (distribution.hpp lines 211-215). -/
def Joint.sub (x y : Joint n) : Joint n :=
  let newCovariance := x.covariance + y.covariance
  ⟨x.mean - y.mean, newCovariance⟩

/-- `JointDistribution::operator-(MarginalDistribution)` (distribution.hpp lines 217-221). -/
def Joint.subMarginal [DecidableEq n] (x : Joint n) (y : Marginal n) : Joint n :=
  let newCovariance := x.covariance + diagonal y.variance
  ⟨x.mean - y.mean, newCovariance⟩

/-- `JointDistribution::marginal` (distribution.hpp lines 229-231). -/
def Joint.marginal (x : Joint n) : Marginal n := ⟨x.mean, x.covariance.diag⟩

/-! ## Subsets -/

/-- The positions an index list selects from `k` entries, checked as in the loops of
indexing/subset.hpp (lines 40-46, 97-109): assertion, then unchecked access. -/
def selectIndices (b : Build) (k : Nat) : (indices : List Nat) → Outcome (Fin indices.length → Fin k)
  | [] => .ok fun i => i.elim0
  | i :: is => do
    albatrossAssert b (decide (i < k))
    let i' ← if h : i < k then .ok (⟨i, h⟩ : Fin k) else .error .ub
    let rest ← selectIndices b k is
    pure (Fin.cons i' rest)

/-- `MarginalDistribution::subset` (distribution.hpp lines 137-142). -/
def Marginal.subset {k : Nat} (b : Build) (x : Marginal (Fin k)) (indices : List Nat) :
    Outcome (Marginal (Fin indices.length)) := do
  let mean ← (selectIndices b k indices).map fun s i => x.mean (s i)
  let variance ← (selectIndices b k indices).map fun s i => x.variance (s i)
  pure ⟨mean, variance⟩

/-- `JointDistribution::subset` (distribution.hpp lines 223-227). -/
def Joint.subset {k : Nat} (b : Build) (x : Joint (Fin k)) (indices : List Nat) :
    Outcome (Joint (Fin indices.length)) := do
  let mean ← (selectIndices b k indices).map fun s i => x.mean (s i)
  let covariance ← (selectIndices b k indices).map fun s =>
    (of fun i j => x.covariance (s i) (s j) : Matrix _ _ ℝ)
  pure ⟨mean, covariance⟩

/-- The loop `to[indices[i]] = from[i]` (indexing/subset.hpp lines 141-153) on vectors as functions. -/
def setSelected {k : Nat} (b : Build) (dst : Fin k → ℝ) :
    (indices : List Nat) → (Fin indices.length → ℝ) → Outcome (Fin k → ℝ)
  | [], _ => .ok dst
  | i :: is, src => do
    albatrossAssert b (decide (i < k))
    let i' ← if h : i < k then .ok (⟨i, h⟩ : Fin k) else .error .ub
    setSelected b (Function.update dst i' (src 0)) is (fun j => src j.succ)

/-- `MarginalDistribution::set_subset` (distribution.hpp lines 144-150). -/
def Marginal.setSubset {k : Nat} (b : Build) (x : Marginal (Fin k)) (indices : List Nat)
    (src : Marginal (Fin indices.length)) : Outcome (Marginal (Fin k)) := do
  let mean ← setSelected b x.mean indices src.mean
  let variance ← setSelected b x.variance indices src.variance
  pure ⟨mean, variance⟩

/-- `DistributionBase::operator[]` (distribution.hpp lines 249-254), with the bounds assertion of
`get_diagonal` (lines 105-108); the unchecked read `mean[index]` may happen first. -/
def Marginal.get {k : Nat} (b : Build) (x : Marginal (Fin k)) (index : Nat) :
    Outcome (Marginal (Fin 1)) :=
  if h : index < k then .ok ⟨fun _ => x.mean ⟨index, h⟩, fun _ => x.variance ⟨index, h⟩⟩
  else match b with
    | .debug => .error .assertFail
    | .ndebug => .error .ub

/-- `DistributionBase::operator[]` for a joint distribution (distribution.hpp lines 249-254, 179-182). -/
def Joint.get {k : Nat} (b : Build) (x : Joint (Fin k)) (index : Nat) : Outcome (Marginal (Fin 1)) :=
  if h : index < k then
    .ok ⟨fun _ => x.mean ⟨index, h⟩, fun _ => x.covariance.diag ⟨index, h⟩⟩
  else match b with
    | .debug => .error .assertFail
    | .ndebug => .error .ub

/-! ## Concatenation -/

/-- `concatenate_marginals(x, y)` (distribution.hpp lines 256-262). -/
def stackMarginals (x : Marginal n) (y : Marginal m) : Marginal (n ⊕ m) :=
  ⟨Sum.elim x.mean y.mean, Sum.elim x.variance y.variance⟩

/-- A marginal distribution whose size is only known at run time. -/
structure MarginalVec where
  mean : List ℝ
  variance : List ℝ

/-- `v.middleRows(i, xs.size()) = xs`: undefined behaviour when it does not fit. -/
def writeRows (v : List ℝ) (i : Nat) (xs : List ℝ) : Outcome (List ℝ) :=
  if i + xs.length ≤ v.length then .ok (v.take i ++ xs ++ v.drop (i + xs.length)) else .error .ub

/-- The loop of `concatenate_marginals(dists)` (distribution.hpp lines 277-283).  Assigning a vector to
a block of another size is rejected by an Eigen assertion, undefined behaviour without it. -/
def concatenateLoop : List MarginalVec → Nat → List ℝ → List ℝ → Outcome (List ℝ × List ℝ)
  | [], _, mean, variance => .ok (mean, variance)
  | d :: ds, i, mean, variance => do
    let mean ← writeRows mean i d.mean
    let variance ← if d.variance.length = d.mean.length then writeRows variance i d.variance
      else .error .ub
    concatenateLoop ds (i + d.mean.length) mean variance

/-- `concatenate_marginals(std::vector<MarginalDistribution>)` (distribution.hpp lines 264-286);
`uninit` fills the freshly allocated vectors. -/
def concatenateMarginalsVec (uninit : Nat → ℝ) (dists : List MarginalVec) : Outcome MarginalVec := do
  if dists.length = 0 then return ⟨[], []⟩
  let size := dists.foldl (fun s d => s + d.mean.length) 0
  let init := (List.range size).map uninit
  let r ← concatenateLoop dists 0 init init
  pure ⟨r.1, r.2⟩

/-! ## Premultiplication by a matrix -/

/-- `product_sqrt(matrix, diagonal)` (transformed_distribution.hpp lines 39-45, 54-60). -/
noncomputable def productSqrtDiag [Fintype n] [DecidableEq n] (M : Matrix p n ℝ) (v : n → ℝ) :
    Matrix p n ℝ := M * diagonal fun i => Real.sqrt (v i)

/-- `product_sqrt(lhs, rhs)` (transformed_distribution.hpp lines 47-52, 62-68). -/
noncomputable def productSqrt [Fintype n] (ldlt : Matrix n n ℝ → Ldlt n) (M : Matrix p n ℝ)
    (S : Matrix n n ℝ) : Matrix p (Fin (ldlt S).size) ℝ := M * (ldlt S).sqrtTransposeᵀ

/-- `(matrix * joint).joint()` (transformed_distribution.hpp lines 73-85, 95-100). -/
noncomputable def Joint.transformJoint [Fintype n] (ldlt : Matrix n n ℝ → Ldlt n) (M : Matrix p n ℝ)
    (d : Joint n) : Joint p :=
  let partialVariance := productSqrt ldlt M d.covariance
  ⟨M *ᵥ d.mean, partialVariance * partialVarianceᵀ⟩

/-- `(matrix * joint).marginal()` (transformed_distribution.hpp lines 73-85, 87-93). -/
noncomputable def Joint.transformMarginal [Fintype n] (ldlt : Matrix n n ℝ → Ldlt n)
    (M : Matrix p n ℝ) (d : Joint n) : Marginal p :=
  let partialVariance := productSqrt ldlt M d.covariance
  ⟨M *ᵥ d.mean, fun i => ∑ j, partialVariance i j ^ 2⟩

/-- `(matrix * marginal).joint()` (transformed_distribution.hpp lines 73-85, 95-100). -/
noncomputable def Marginal.transformJoint [Fintype n] [DecidableEq n] (M : Matrix p n ℝ)
    (d : Marginal n) : Joint p :=
  let partialVariance := productSqrtDiag M d.variance
  ⟨M *ᵥ d.mean, partialVariance * partialVarianceᵀ⟩

/-- `(matrix * marginal).marginal()` (transformed_distribution.hpp lines 73-85, 87-93). -/
noncomputable def Marginal.transformMarginal [Fintype n] [DecidableEq n] (M : Matrix p n ℝ)
    (d : Marginal n) : Marginal p :=
  let partialVariance := productSqrtDiag M d.variance
  ⟨M *ᵥ d.mean, fun i => ∑ j, partialVariance i j ^ 2⟩

end Albatross
