import Verif.Callers
import Verif.CovMatrix
import Verif.SimpleModels

/-! # Model of mean functions

covariance_functions/mean_function.hpp and the overloads for mean functions in covariance_functions/callers.hpp. -/

namespace Albatross

variable {T : Type} {F : T → Type}

/-- A mean function or caller (covariance_functions/mean_function.hpp lines 18-80): the argument types it accepts and
its value. -/
structure MeanCaller (F : T → Type) where
  valid : Ty T → Bool
  call : (τ : Ty T) → Val F τ → ℝ

/-- `SymmetricCaller` on top of `DirectCaller` (callers.hpp lines 204-211, 240-247): mean functions are passed
on. -/
def meanSym (c : MeanCaller F) : MeanCaller F := c

/-- `MeasurementForwarder` (callers.hpp lines 302-318). -/
def meanMeas (c : MeanCaller F) : MeanCaller F where
  valid
    | .meas a => c.valid (.meas a) || c.valid a
    | τ => c.valid τ
  call
    | .meas a, x => if c.valid (.meas a) then c.call (.meas a) x else c.call a x
    | τ, x => c.call τ x

/-- `LinearCombinationCaller` (callers.hpp lines 375-395): the overload for combinations is the more specialised
one. -/
noncomputable def meanLin (c : MeanCaller F) : MeanCaller F where
  valid
    | .lin a => c.valid (.lin a) || c.valid a
    | τ => c.valid τ
  call
    | .lin a, x => if c.valid a then linSum (A := Val F a) x fun u => c.call a u else c.call (.lin a) x
    | τ, x => c.call τ x

/-- `VariantForwarder` (callers.hpp lines 501-543, traits.hpp lines 201-222): a variant is accepted if one
of its alternatives is; alternatives that are not accepted give 0. -/
noncomputable def meanVar (c : MeanCaller F) : MeanCaller F where
  valid
    | .var n alts => (List.finRange n).any fun i => c.valid (alts i)
    | τ => c.valid τ
  call
    | .var _ alts, x =>
      let x : (i : Fin _) × Val F (alts i) := x
      if c.valid (alts x.1) then c.call (alts x.1) x.2 else 0
    | τ, x => c.call τ x

/-- `DefaultCaller` (callers.hpp lines 551-553), which `MeanFunction::call` uses (mean_function.hpp
lines 30-32). -/
noncomputable def defaultMean (c : MeanCaller F) : MeanCaller F :=
  meanVar (meanMeas (meanLin (meanVar (meanSym c))))

/-- `SumOfMeanFunctions::_call_impl` (mean_function.hpp lines 167-197). -/
noncomputable def meanSum (l r : MeanCaller F) : MeanCaller F where
  valid τ := (defaultMean l).valid τ || (defaultMean r).valid τ
  call τ x :=
    if (defaultMean l).valid τ && (defaultMean r).valid τ then (defaultMean l).call τ x + (defaultMean r).call τ x
    else if (defaultMean l).valid τ then (defaultMean l).call τ x
    else (defaultMean r).call τ x

/-- `ProductOfMeanFunctions::_call_impl` (mean_function.hpp lines 236-270). -/
noncomputable def meanProduct (l r : MeanCaller F) : MeanCaller F where
  valid τ := (defaultMean l).valid τ || (defaultMean r).valid τ
  call τ x :=
    if (defaultMean l).valid τ && (defaultMean r).valid τ then
      let output := (defaultMean l).call τ x
      if output ≠ 0 then output * (defaultMean r).call τ x else output
    else if (defaultMean l).valid τ then (defaultMean l).call τ x
    else (defaultMean r).call τ x

/-- `ZeroMean` (mean_function.hpp lines 274-276). -/
def zeroMean : MeanCaller F where
  valid _ := true
  call _ _ := 0

/-- A mean function and whether its type is `ZeroMean` (covariance_functions/mean_function.hpp lines 18-128). -/
structure MeanFn (F : T → Type) where
  isZero : Bool
  impl : MeanCaller F

/-- `operator()(xs)` (mean_function.hpp lines 72-83). -/
noncomputable def MeanFn.vector (m : MeanFn F) (τ : Ty T) (xs : List (Val F τ)) : List ℝ :=
  if m.isZero then List.replicate xs.length 0
  else meanVector (fun x => (defaultMean m.impl).call τ x) xs

/-- `add_to` (mean_function.hpp lines 86-95): the new value of `*target`. -/
noncomputable def MeanFn.addTo (b : Build) (m : MeanFn F) (τ : Ty T) (features : List (Val F τ)) (target : List ℝ) :
    Outcome (List ℝ) :=
  if m.isZero then .ok target
  else do
    let mean := m.vector τ features
    albatrossAssert b (decide (mean.length = target.length))
    eigenAssert b (decide (target.length = mean.length))
    pure (List.zipWith (· + ·) target mean)

/-- `remove_from` (mean_function.hpp lines 98-107). -/
noncomputable def MeanFn.removeFrom (b : Build) (m : MeanFn F) (τ : Ty T) (features : List (Val F τ))
    (target : List ℝ) : Outcome (List ℝ) :=
  if m.isZero then .ok target
  else do
    let mean := m.vector τ features
    albatrossAssert b (decide (mean.length = target.length))
    eigenAssert b (decide (target.length = mean.length))
    pure (List.zipWith (· - ·) target mean)

end Albatross
