import Verif.Gp
import Verif.Indexing
import Mathlib.Data.Matrix.ColumnRowPartitioned

/-! # Model of models/sparse_gp.hpp

Reordered rows are indexed by group and position within the group, `Row groups`; operations of the block
diagonal matrices `K_ff`, `Q_ff_diag`, `A` and of `A_ldlt` act group by group (that the loops of
linalg/block_diagonal.hpp do this is C33).  Inducing features and features are elements of one type `X`
as in `Gp.lean`. -/

namespace Albatross

open Matrix

/-! ## linalg/qr_utils.hpp -/

/-- Data of an `Eigen::ColPivHouseholderQR` with `m` columns: the orthogonal factor, the top `m` rows of
`matrixR()` (below the diagonal it holds internal data), `colsPermutation()` and `rank()`. -/
structure Qr (ρ : Type) (m : Nat) where
  Q : Matrix ρ (Fin m) ℝ
  matrixR : Matrix (Fin m) (Fin m) ℝ
  perm : Fin m ≃ Fin m
  rank : Fin (m + 1)

/-- `triangularView<Eigen::Upper>()`. -/
def upperView {m : Nat} (M : Matrix (Fin m) (Fin m) ℝ) : Matrix (Fin m) (Fin m) ℝ :=
  of fun i j => if i ≤ j then M i j else 0

/-- Contract of the decomposition: `B P = Q R` with orthonormal columns `Q`, and full rank when no pivot
is zero. -/
structure Qr.Factors {ρ : Type} [Fintype ρ] {m : Nat} (q : Qr ρ m) (B : Matrix ρ (Fin m) ℝ) : Prop where
  orthonormal : q.Qᵀ * q.Q = 1
  factor : B.submatrix id q.perm = q.Q * upperView q.matrixR
  full : (∀ i, q.matrixR i i ≠ 0) → q.rank.1 = m

/-- `get_R` (linalg/qr_utils.hpp lines 18-27, linalg/spqr_utils.hpp lines 22-26). -/
def Qr.getR {ρ : Type} {m : Nat} (q : Qr ρ m) : Matrix (Fin m) (Fin m) ℝ := upperView q.matrixR

/-- `get_P` (linalg/qr_utils.hpp lines 29-33, linalg/spqr_utils.hpp lines 28-31). -/
def Qr.getP {ρ : Type} {m : Nat} (q : Qr ρ m) : Fin m ≃ Fin m := q.perm

/-- `ColPivHouseholderQR::solve`: solve with the leading `rank` columns, the other unknowns are zero. -/
noncomputable def Qr.solve {ρ : Type} [Fintype ρ] {m : Nat} (q : Qr ρ m) (y : ρ → ℝ) : Fin m → ℝ :=
  let lead : Fin q.rank.1 → Fin m := Fin.castLE (Nat.lt_succ_iff.1 q.rank.2)
  let c := q.Qᵀ *ᵥ y
  let z : Fin m → ℝ := fun j =>
    if h : j.1 < q.rank.1 then
      (((upperView q.matrixR).submatrix lead lead)⁻¹ *ᵥ (c ∘ lead)) ⟨j.1, h⟩
    else 0
  fun i => z (q.perm.symm i)

/-- `sqrt_solve(R, P, rhs)` (linalg/qr_utils.hpp lines 38-46): `R^-T P^T rhs`. -/
noncomputable def qrSqrtSolve {m : Nat} {c : Type} (R : Matrix (Fin m) (Fin m) ℝ) (P : Fin m ≃ Fin m)
    (rhs : Matrix (Fin m) c ℝ) : Matrix (Fin m) c ℝ :=
  ((upperView R)ᵀ)⁻¹ * rhs.submatrix P id

/-! ## Block diagonal decompositions -/

section blocks
variable {ι c : Type} {d : ι → Nat}

/-- `BlockDiagonalLDLT::sqrt_solve` (linalg/block_diagonal.hpp lines 24-71) by group. -/
noncomputable def ldltsSqrtSolve (A : ∀ k, Ldlt (Fin (d k))) (rhs : Matrix (Σ k, Fin (d k)) c ℝ) :
    Matrix (Σ k, Fin (A k).size) c ℝ :=
  of fun r j => (A r.1).sqrtSolve (of fun i j => rhs ⟨r.1, i⟩ j) r.2 j

/-- `BlockDiagonalLDLT::solve` (linalg/block_diagonal.hpp lines 24-71) by group. -/
noncomputable def ldltsSolve (A : ∀ k, Ldlt (Fin (d k))) (rhs : Matrix (Σ k, Fin (d k)) c ℝ) :
    Matrix (Σ k, Fin (d k)) c ℝ :=
  of fun r j => (A r.1).solve (of fun i j => rhs ⟨r.1, i⟩ j) r.2 j

end blocks

/-! ## The model -/

/-- `SparseGaussianProcessRegression` (lines 232-268, 708-711): covariance and mean function, grouping
function, inducing point strategy and the values of the two nuggets. -/
structure SparseGp (X κ : Type) where
  gp : Gp X
  group : X → κ
  inducing : List X → List X
  measurementNugget : ℝ
  inducingNugget : ℝ

/-- Positions of the members of a group. -/
structure GroupRows (n : Nat) where
  dim : Nat
  pos : Fin dim → Fin n

/-- `subset(·, pair.second)` (models/sparse_gp.hpp lines 652-660) on vectors with `n` entries: an index out of range is
undefined behaviour. -/
def groupRows (n : Nat) (idx : List Nat) : Outcome (GroupRows n) :=
  if h : ∀ i ∈ idx, i < n then .ok ⟨idx.length, fun j => ⟨idx[j], h _ (List.getElem_mem j.2)⟩⟩
  else .error .ub

/-- A row after reordering: group and position in the group. -/
abbrev Row {n : Nat} (groups : List (GroupRows n)) := Σ k : Fin groups.length, Fin (groups.get k).dim

/-- `reordered_inds` (lines 649-654). -/
def rowPos {n : Nat} (groups : List (GroupRows n)) (r : Row groups) : Fin n := (groups.get r.1).pos r.2

/-- The outputs of `compute_internal_components` (models/sparse_gp.hpp lines 631-637). -/
structure SparseComponents (n m : Nat) where
  groups : List (GroupRows n)
  A : ∀ k : Fin groups.length, Ldlt (Fin (groups.get k).dim)
  Kuu : Ldlt (Fin m)
  Kfu : Matrix (Row groups) (Fin m) ℝ
  y : Row groups → ℝ

/-- `Fit<SparseGPFit<FeatureType>>` (lines 93-110). -/
structure SparseFit (X : Type) (m : Nat) where
  features : Fin m → X
  trainCovariance : Ldlt (Fin m)
  R : Matrix (Fin m) (Fin m) ℝ
  P : Fin m ≃ Fin m
  information : Fin m → ℝ
  rank : Nat

/-- The LDLT and QR routines (`Eigen::LDLT`, `SPQRImplementation` and `DenseQRImplementation`, models/sparse_gp.hpp
lines 72-90). -/
structure SparseRoutines where
  ldlt : (d : Nat) → Matrix (Fin d) (Fin d) ℝ → Ldlt (Fin d)
  qr : {ρ : Type} → {m : Nat} → Matrix ρ (Fin m) ℝ → Qr ρ m

namespace SparseGp

variable {X κ : Type} [LinearOrder κ] {n m : Nat}

/-- The matrix decomposed into `A_ldlt` for one group (lines 652-660, 686-705): covariance of the group
plus noise, minus the explained part, plus the measurement nugget. -/
noncomputable def groupA (g : SparseGp X κ) (Kuu : Ldlt (Fin m)) {groups : List (GroupRows n)}
    (Kfu : Matrix (Row groups) (Fin m) ℝ) (features : Fin n → X) (targets : Marginal (Fin n))
    (k : Fin groups.length) : Matrix (Fin (groups.get k).dim) (Fin (groups.get k).dim) ℝ :=
  let subsetFeatures := fun j => g.gp.asMeas (features ((groups.get k).pos j))
  let Kff := g.gp.covMat subsetFeatures subsetFeatures
    + diagonal (fun j => targets.variance ((groups.get k).pos j))
  let P := Kuu.sqrtSolve Kfuᵀ
  let Pcols : Matrix (Fin Kuu.size) (Fin (groups.get k).dim) ℝ := P.submatrix id fun j => ⟨k, j⟩
  let A := Kff - Pcolsᵀ * Pcols
  A + diagonal fun _ => g.measurementNugget

/-- `compute_internal_components` (lines 631-706).  Lines 667-668 remove the mean function from a copy of
the targets which is not used afterwards. -/
noncomputable def components (g : SparseGp X κ) (rt : SparseRoutines) (u : Fin m → X) (features : Fin n → X)
    (targets : Marginal (Fin n)) : Outcome (SparseComponents n m) := do
  let indexer := buildIndexer g.group (List.ofFn features)
  let groups ← indexer.mapM fun pair => groupRows n pair.2
  let y := fun r : Row groups => targets.mean (rowPos groups r)
  let _zeroMean := g.gp.removeFrom (fun r : Row groups => features (rowPos groups r)) y
  let Kfu := g.gp.covMat (fun r : Row groups => g.gp.asMeas (features (rowPos groups r))) u
  let Kuu := rt.ldlt m (g.gp.covMat u u + diagonal fun _ => g.inducingNugget)
  pure ⟨groups, fun k => rt.ldlt _ (g.groupA Kuu Kfu features targets k), Kuu, Kfu, y⟩

/-- `compute_sigma_qr` (lines 367-375): the matrix `B`. -/
noncomputable def sigmaB (c : SparseComponents n m) :
    Matrix ((Σ k, Fin (c.A k).size) ⊕ Fin c.Kuu.size) (Fin m) ℝ :=
  fromRows (ldltsSqrtSolve c.A c.Kfu) c.Kuu.sqrtTranspose

/-- `A_ldlt.sqrt_solve(y)` (models/sparse_gp.hpp lines 388-403) as a vector. -/
noncomputable def sqrtSolveY (c : SparseComponents n m) : (Σ k, Fin (c.A k).size) → ℝ :=
  fun r => ldltsSqrtSolve c.A (of fun r (_ : Unit) => c.y r) r ()

/-- `_fit_impl` for given inducing points (lines 388-403). -/
noncomputable def fitWith (g : SparseGp X κ) (rt : SparseRoutines) (u : Fin m → X) (features : Fin n → X)
    (targets : Marginal (Fin n)) : Outcome (SparseFit X m) := do
  let c ← g.components rt u features targets
  let qr := rt.qr (sigmaB c)
  let yAugmented := Sum.elim (sqrtSolveY c) fun _ => 0
  pure ⟨u, c.Kuu, qr.getR, qr.getP, qr.solve yAugmented, qr.rank⟩

/-- `_fit_impl` (lines 381-404). -/
noncomputable def fit (b : Build) (g : SparseGp X κ) (rt : SparseRoutines) (features : Fin n → X)
    (targets : Marginal (Fin n)) : Outcome (SparseFit X (g.inducing (List.ofFn features)).length) := do
  albatrossAssert b (decide ((g.inducing (List.ofFn features)).length > 0))
  g.fitWith rt (g.inducing (List.ofFn features)).get features targets

/-- `_update_impl` (lines 310-357); `cSparseRNugget` is `1e-10` (line 26). -/
noncomputable def update (g : SparseGp X κ) (rt : SparseRoutines) (old : SparseFit X m) (features : Fin n → X)
    (targets : Marginal (Fin n)) : Outcome (SparseFit X m) := do
  let c ← g.components rt old.features features targets
  let B := fromRows (old.R.submatrix id old.P.symm) (ldltsSqrtSolve c.A c.Kfu)
  let qr := rt.qr B
  let yAugmented := Sum.elim (upperView old.R *ᵥ (old.information ∘ old.P)) (sqrtSolveY c)
  let v := qr.solve yAugmented
  let R := if qr.rank.1 < m then qr.getR + diagonal (fun _ => 1e-10) else qr.getR
  pure ⟨old.features, old.trainCovariance, R, qr.getP, v, qr.rank⟩

/-- `fit_from_prediction` (lines 406-461); `DEFAULT_NUGGET` is `1e-8` (line 20). -/
noncomputable def fitFromPrediction (g : SparseGp X κ) (rt : SparseRoutines) (z : Fin m → X)
    (prediction : Joint (Fin m)) : SparseFit X m :=
  let Kzz := g.gp.covMat z z
  let trainCovariance := rt.ldlt m Kzz
  let covariance := prediction.covariance + diagonal fun _ => 1e-8
  let information := trainCovariance.solver.solveVec prediction.mean
  let C := rt.ldlt m covariance
  let qr := rt.qr (C.sqrtSolve Kzz)
  ⟨z, trainCovariance, qr.getR, qr.getP, information, qr.rank⟩

variable {p : Type}

/-- `_predict_impl` for means (lines 467-478). -/
noncomputable def predictMean (g : SparseGp X κ) (f : SparseFit X m) (xs : p → X) : p → ℝ :=
  let crossCov := g.gp.covMat f.features xs
  g.gp.addTo xs (gpMeanPrediction crossCov f.information)

/-- `_predict_impl` for marginal distributions (lines 480-510). -/
noncomputable def predictMarginal (g : SparseGp X κ) (f : SparseFit X m) (xs : p → X) : Marginal p :=
  let crossCov := g.gp.covMat f.features xs
  let mean := g.gp.addTo xs (gpMeanPrediction crossCov f.information)
  let prior := fun i => g.gp.cov (xs i) (xs i)
  let Qsqrt := f.trainCovariance.sqrtSolve crossCov
  let Qdiag := fun j => ∑ i, Qsqrt i j * Qsqrt i j
  let Ssqrt := qrSqrtSolve f.R f.P crossCov
  let Sdiag := fun j => ∑ i, Ssqrt i j * Ssqrt i j
  ⟨mean, prior - Qdiag + Sdiag⟩

/-- `_predict_impl` for joint distributions (lines 512-536). -/
noncomputable def predictJoint (g : SparseGp X κ) (f : SparseFit X m) (xs : p → X) : Joint p :=
  let crossCov := g.gp.covMat f.features xs
  let prior := g.gp.covMat xs xs
  let Ssqrt := qrSqrtSolve f.R f.P crossCov
  let Qsqrt := f.trainCovariance.sqrtSolve crossCov
  let maxExplained := Qsqrtᵀ * Qsqrt
  let unexplained := Ssqrtᵀ * Ssqrt
  ⟨g.gp.addTo xs (crossCovᵀ *ᵥ f.information), prior - maxExplained + unexplained⟩

/-- `rebase_inducing_points` (lines 719-725). -/
noncomputable def rebase {m' : Nat} (g : SparseGp X κ) (rt : SparseRoutines) (f : SparseFit X m)
    (z : Fin m' → X) : SparseFit X m' := g.fitFromPrediction rt z (g.predictJoint f z)

/-- `log_likelihood` (lines 538-603) for given inducing points; `priorLL` is `prior_log_likelihood()`. -/
noncomputable def logLikelihood (g : SparseGp X κ) (rt : SparseRoutines) (priorLL : ℝ) (u : Fin m → X)
    (features : Fin n → X) (targets : Marginal (Fin n)) : Outcome ℝ := do
  let c ← g.components rt u features targets
  let qr := rt.qr (sigmaB c)
  let logDetA := ∑ k, (c.A k).logDeterminant
  let logDetR := ∑ i, Real.log |qr.matrixR i i|
  let logDetKuu := c.Kuu.logDeterminant
  let logDet := logDetA + 2 * logDetR - logDetKuu
  let yA := fun r => ldltsSolve c.A (of fun r (_ : Unit) => c.y r) r ()
  let yB := fun i => qrSqrtSolve qr.getR qr.getP (of fun i (_ : Unit) => (c.Kfuᵀ *ᵥ yA) i) i ()
  let logQuadratic := c.y ⬝ᵥ yA - yB ⬝ᵥ yB
  let logDimension := (n : ℝ) * Real.log (2 * Real.pi)
  pure (-0.5 * (logDet + logQuadratic + logDimension) + priorLL)

/-- `set_inducing_point_strategy` (lines 609-613): the right hand side is assigned to the parameter itself, the
member `inducing_point_strategy_` is not touched. -/
def setInducing (g : SparseGp X κ) (_strategy : List X → List X) : SparseGp X κ := g

/-- `set_grouper_function` (lines 619-622). -/
def setGroup (g : SparseGp X κ) (group : X → κ) : SparseGp X κ := { g with group := group }

end SparseGp

end Albatross
