import Verif.Kernels
import Verif.Sampler
import Verif.Stats

/-! # Model of the derivation of length scales

covariance_functions/radial.hpp: deriving a length scale from the increase of the standard deviation over
a reference distance, in closed form (squared exponential, exponential) and with a safeguarded Newton
iteration (Matérn).  Doubles are `Dbl`: reals with infinities and NaN, without rounding. -/

namespace Albatross

/-- `MAX_NEWTON_ITERATIONS` (radial.hpp line 21). -/
def maxNewtonIterations : Nat := 50

/-- `MAX_LENGTH_SCALE_RATIO` (radial.hpp line 22). -/
noncomputable def maxLengthScaleRatio : Dbl := .fin (10 ^ 7)

/-- `MIN_LENGTH_SCALE_RATIO` (radial.hpp line 23). -/
noncomputable def minLengthScaleRatio : Dbl := .fin (1 / 10 ^ 7)

/-- `process_noise_equivalent` (radial.hpp lines 35-49), for finite covariances. -/
noncomputable def processNoiseEquivalent (func : ℝ → ℝ) (distance : ℝ) : ℝ :=
  let k0 := func 0
  let kd := func distance
  Real.sqrt (k0 - kd * kd / k0)

open Classical in
/-- `valid_args_for_derive_length_scale` (radial.hpp lines 53-59). -/
noncomputable def validArgs (b : Build) (distance sigma increase : Dbl) : Outcome Bool := do
  albatrossAssert b (decide (.fin 0 < distance))
  pure (decide (.fin 0 < increase ∧ .fin 0 < sigma ∧ increase < sigma))

open Classical in
/-- `fallback_length_scale_for_invalid_args` (radial.hpp lines 61-88). -/
noncomputable def fallbackLengthScale (b : Build) (distance sigma increase : Dbl) : Outcome Dbl :=
  if increase ≤ .fin 0 then .ok (maxLengthScaleRatio * distance)
  else if sigma ≤ .fin 0 then .ok (maxLengthScaleRatio * distance)
  else do
    let ratio := increase / sigma
    albatrossAssert b (decide (.fin 0 < ratio))
    if .fin 1 ≤ ratio then .ok (minLengthScaleRatio * distance)
    else if ratio ≤ .fin 0 then .ok (maxLengthScaleRatio * distance)
    else do
      albatrossAssert b false
      .ok .nan

open Classical in
/-- `derive_squared_exponential_length_scale` (radial.hpp lines 91-125). -/
noncomputable def deriveSquaredExponential (b : Build) (distance sigma increase : Dbl) : Outcome Dbl := do
  let valid ← validArgs b distance sigma increase
  if !valid then fallbackLengthScale b distance sigma increase
  else
    let ratio := increase / sigma
    albatrossAssert b (decide (.fin 0 < ratio))
    albatrossAssert b (decide (ratio < .fin 1))
    pure (Dbl.sqrt (.fin 2) * distance / Dbl.sqrt (-Dbl.log (.fin 1 - ratio * ratio)))

open Classical in
/-- `derive_exponential_length_scale` (radial.hpp lines 200-233). -/
noncomputable def deriveExponential (b : Build) (distance sigma increase : Dbl) : Outcome Dbl := do
  let valid ← validArgs b distance sigma increase
  if !valid then fallbackLengthScale b distance sigma increase
  else
    let ratio := increase / sigma
    albatrossAssert b (decide (.fin 0 < ratio))
    albatrossAssert b (decide (ratio < .fin 1))
    pure (.fin (-2) * distance / Dbl.log (.fin 1 - ratio * ratio))

/-- `fabs`. -/
noncomputable def Dbl.fabs : Dbl → Dbl
  | .fin x => .fin |x|
  | .pinf => .pinf
  | .ninf => .pinf
  | .nan => .nan

open Classical in
/-- The new guess (radial.hpp lines 320-327). -/
noncomputable def newtonMove (lower upper guess delta : Dbl) : Dbl :=
  let g := if guess - delta ≤ lower then .fin (1 / 2) * (guess + lower)
    else if upper ≤ guess - delta then .fin (1 / 2) * (guess + upper)
    else guess - delta
  stdMin upper (stdMax lower g)

open Classical in
/-- `newton_solve` (radial.hpp lines 301-330) with `fuel` iterations left. -/
noncomputable def newtonSolve (target : Dbl) (func : Dbl → Dbl) (grad : Dbl → Outcome Dbl)
    (lower upper tolerance : Dbl) : Nat → Dbl → Outcome Dbl
  | 0, guess => .ok guess
  | fuel + 1, guess =>
    let error := target - func guess
    if !error.isFinite then .ok guess
    else do
      let g ← grad guess
      let delta := error / g
      if error.fabs < tolerance then .ok guess
      else newtonSolve target func grad lower upper tolerance fuel (newtonMove lower upper guess delta)

open Classical in
/-- `log_f_eval` (radial.hpp lines 360-369). -/
noncomputable def logFEval (func : Dbl → Dbl) (sigma ratio : Dbl) : Dbl :=
  let cov := func ratio
  if .fin 1 ≤ cov * cov then Dbl.log (.fin (1 / 10 ^ 16))
  else Dbl.log sigma + .fin (1 / 2) * Dbl.log (.fin 1 - cov * cov)

open Classical in
/-- `log_g_eval` (radial.hpp lines 371-376). -/
noncomputable def logGEval (b : Build) (func grad : Dbl → Dbl) (ratio : Dbl) : Outcome Dbl := do
  let cov := func ratio
  let denom := .fin 1 - cov * cov
  albatrossAssert b (decide (.fin 0 < denom))
  pure (grad ratio * cov / denom)

open Classical in
/-- `detail::derive_length_scale` (radial.hpp lines 332-399). -/
noncomputable def deriveLengthScale (b : Build) (distance sigma increase : Dbl)
    (func grad : Dbl → Dbl) : Outcome Dbl := do
  let valid ← validArgs b distance sigma increase
  if !valid then fallbackLengthScale b distance sigma increase
  else
    let logTarget := Dbl.log increase
    let maxIncrease := logFEval func sigma minLengthScaleRatio
    if maxIncrease ≤ logTarget then pure (minLengthScaleRatio * distance)
    else
      let minIncrease := logFEval func sigma maxLengthScaleRatio
      if logTarget ≤ minIncrease then pure (maxLengthScaleRatio * distance)
      else do
        let alpha := (maxIncrease - logTarget) / (maxIncrease - minIncrease)
        let guess := Dbl.exp (Dbl.log minLengthScaleRatio +
          alpha * (Dbl.log maxLengthScaleRatio - Dbl.log minLengthScaleRatio))
        let solution ← newtonSolve logTarget (logFEval func sigma) (logGEval b func grad)
          minLengthScaleRatio maxLengthScaleRatio (.fin (1 / 10 ^ 12)) maxNewtonIterations guess
        pure (solution * distance)

/-- A function of a real as a function of a double; only used for finite arguments (the iteration stays
between its finite bounds). -/
def onFinite (f : ℝ → ℝ) : Dbl → Dbl
  | .fin r => .fin (f r)
  | _ => .nan

/-- The derivative with respect to the ratio in `derive_matern_32_length_scale` (radial.hpp lines 411-415). -/
noncomputable def matern32Grad (ratio : ℝ) : ℝ :=
  Real.sqrt 3 * (1 + Real.sqrt 3 / ratio) * Real.exp (-Real.sqrt 3 / ratio) / ratio ^ 2 -
    Real.sqrt 3 * Real.exp (-Real.sqrt 3 / ratio) / ratio ^ 2

/-- `derive_matern_32_length_scale` (radial.hpp lines 403-419). -/
noncomputable def deriveMatern32 (b : Build) (distance sigma increase : Dbl) : Outcome Dbl :=
  deriveLengthScale b distance sigma increase (onFinite fun r => matern32 1 r 1) (onFinite matern32Grad)

/-- The derivative with respect to the ratio in `derive_matern_52_length_scale` (radial.hpp lines 480-485). -/
noncomputable def matern52Grad (ratio : ℝ) : ℝ :=
  (-Real.sqrt 5 / ratio ^ 2 - 10 / 3 / ratio ^ 3) * Real.exp (-Real.sqrt 5 / ratio) +
    Real.sqrt 5 * (1 + Real.sqrt 5 / ratio + 10 / 6 / ratio ^ 2) * Real.exp (-Real.sqrt 5 / ratio) /
      ratio ^ 2

/-- `derive_matern_52_length_scale` (radial.hpp lines 472-489). -/
noncomputable def deriveMatern52 (b : Build) (distance sigma increase : Dbl) : Outcome Dbl :=
  deriveLengthScale b distance sigma increase (onFinite fun r => matern52 1 r 1) (onFinite matern52Grad)

end Albatross
