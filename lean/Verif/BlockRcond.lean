import Verif.BlockDiagonal
import Verif.Dbl

/-! # Model of `BlockDiagonalLDLT::rcond` (linalg/block_diagonal.hpp lines 220-229)

The norm of a block is Eigen's `m_l1_norm`, set when the block is decomposed.  Eigen's
`rcond_estimate_helper` takes the norm of the inverse from an estimate that is always the L1 norm of a
solution for a right hand side of norm one (the mean of the unit vectors, a unit vector, or an
alternating vector divided by its norm); which one is a parameter of the model.  Exact arithmetic. -/

namespace Albatross

open Matrix

/-- Eigen's `m_l1_norm`, as `LDLT::compute` sets it from the lower triangle: the largest absolute column
sum of the symmetric matrix. -/
noncomputable def ldltL1Norm {d : Nat} (A : Matrix (Fin d) (Fin d) ℝ) : ℝ :=
  (List.finRange d).foldl (fun m col =>
    let absColSum := (∑ i, if col ≤ i then |A i col| else 0) + ∑ k, if k < col then |A col k| else 0
    if m < absColSum then absColSum else m) 0

/-- The loop of `rcond` over the blocks (linalg/block_diagonal.hpp lines 224-227). -/
noncomputable def blockL1Norm (norms : List ℝ) : Dbl :=
  norms.foldl (fun l1 x => if l1 < .fin x then .fin x else l1) .ninf

/-- `BlockDiagonalLDLT::rcond` (linalg/block_diagonal.hpp lines 220-229) with Eigen's
`rcond_estimate_helper`; `norms` are the `l1_norm()` of the blocks and `w` is the right hand side at which
the estimate of the norm of the inverse ends. -/
noncomputable def blockRcond (b : Build) (uninit : Nat → Nat → ℝ) (blocks : List LdltBlock) (norms : List ℝ)
    (w : Nat → ℝ) : Outcome Dbl :=
  let l1 := blockL1Norm norms
  let rows := blockRows LdltBlock.dim blocks
  if rows = 0 then .ok .pinf
  else if l1 = .fin 0 then .ok (.fin 0)
  else if rows = 1 then .ok (.fin 1)
  else do
    let v ← blockLdltSolve b uninit blocks ⟨rows, 1, fun i _ => w i⟩
    let inverseNorm := Dbl.fin (∑ i ∈ Finset.range rows, |v.get i 0|)
    pure (if inverseNorm = .fin 0 then .fin 0 else .fin 1 / inverseNorm / l1)

end Albatross
