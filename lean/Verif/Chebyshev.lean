import Verif.Basic
import Mathlib.Data.Real.Basic

/-! # Model of polynomial/chebyshev.hpp

`Eigen::ArrayXd` is a list of reals with the element-wise operations, an `ArrayXXd` the list of its
columns.  `uninit k` stands for the uninitialised column `k` of a freshly constructed array. -/

namespace Albatross

/-- Element-wise product. -/
noncomputable def arrMul (x y : List ℝ) : List ℝ := List.zipWith (· * ·) x y

/-- Element-wise difference. -/
noncomputable def arrSub (x y : List ℝ) : List ℝ := List.zipWith (· - ·) x y

/-- Product with a scalar. -/
noncomputable def arrScale (a : ℝ) (x : List ℝ) : List ℝ := x.map (a * ·)

/-- `chebyshev_t0` and `chebyshev_u0` (polynomial/chebyshev.hpp lines 23-25, 34-36). -/
noncomputable def chebyshev0 (x : List ℝ) : List ℝ := List.replicate x.length 1

/-- `chebyshev_t1` (line 27). -/
noncomputable def chebyshevT1 (x : List ℝ) : List ℝ := x

/-- `chebyshev_t2` (lines 29-31). -/
noncomputable def chebyshevT2 (x : List ℝ) : List ℝ := arrSub (arrMul (arrScale 2 x) x) (chebyshev0 x)

/-- `chebyshev_u1` (line 38). -/
noncomputable def chebyshevU1 (x : List ℝ) : List ℝ := arrScale 2 x

/-- `chebyshev_u2` (lines 40-42). -/
noncomputable def chebyshevU2 (x : List ℝ) : List ℝ := arrSub (arrMul (arrScale 4 x) x) (chebyshev0 x)

/-- The loop over `i = 3 .. n` (lines 67-71 and 122-126), `count` iterations of it. -/
noncomputable def chebyshevLoop (x : List ℝ) : Nat → List ℝ → List ℝ → List ℝ → List ℝ
  | 0, tn, _, _ => tn
  | count + 1, _, tnMinus1, tnMinus2 =>
    let tn := arrSub (arrMul (arrScale 2 x) tnMinus1) tnMinus2
    chebyshevLoop x count tn tn tnMinus1

/-- `chebyshev_t` (lines 48-74). -/
noncomputable def chebyshevT (b : Build) (n : Int) (x : List ℝ) : Outcome (List ℝ) := do
  albatrossAssert b (decide (0 ≤ n))
  if n = 0 then pure (chebyshev0 x)
  else if n = 1 then pure (chebyshevT1 x)
  else if n = 2 then pure (chebyshevT2 x)
  else pure (chebyshevLoop x (n - 2).toNat (chebyshevT2 x) (chebyshevT2 x) (chebyshevT1 x))

/-- `chebyshev_u` (lines 103-129). -/
noncomputable def chebyshevU (b : Build) (n : Int) (x : List ℝ) : Outcome (List ℝ) := do
  albatrossAssert b (decide (0 ≤ n))
  if n = 0 then pure (chebyshev0 x)
  else if n = 1 then pure (chebyshevU1 x)
  else if n = 2 then pure (chebyshevU2 x)
  else pure (chebyshevLoop x (n - 2).toNat (chebyshevU2 x) (chebyshevU2 x) (chebyshevU1 x))

/-- The body of the loop of `chebyshev_t_phi` and `chebyshev_u_phi` (lines 94-96 and 149-151). -/
noncomputable def chebyshevPhiStep (x : List ℝ) (phi : List (List ℝ)) (i : Nat) :
    Outcome (List (List ℝ)) := do
  let a ← vecGet phi (i - 1)
  let c ← vecGet phi (i - 2)
  vecSet phi i (arrSub (arrMul (arrScale 2 x) a) c)

/-- `chebyshev_t_phi` (lines 79-99), without `first` and `second` spelled out, which are `chebyshev_t1`
and `chebyshev_t2`, and `chebyshev_u_phi` (lines 134-154) with `chebyshev_u1` and `chebyshev_u2`: the
two functions are otherwise the same text. -/
noncomputable def chebyshevPhi (first second : List ℝ → List ℝ) (b : Build) (uninit : Nat → List ℝ)
    (nMax : Int) (x : List ℝ) : Outcome (List (List ℝ)) := do
  albatrossAssert b (decide (0 ≤ nMax))
  let phi := (List.range (nMax + 1).toNat).map uninit
  let phi ← vecSet phi 0 (chebyshev0 x)
  let phi ← (if 0 < nMax then vecSet phi 1 (first x) else pure phi)
  let phi ← (if 1 < nMax then vecSet phi 2 (second x) else pure phi)
  (List.range' 3 (nMax - 2).toNat).foldlM (chebyshevPhiStep x) phi

/-- `chebyshev_t_phi` (lines 79-99). -/
noncomputable def chebyshevTPhi := chebyshevPhi chebyshevT1 chebyshevT2

/-- `chebyshev_u_phi` (lines 134-154). -/
noncomputable def chebyshevUPhi := chebyshevPhi chebyshevU1 chebyshevU2

end Albatross
