import Verif.Printing
import Verif.Kernels

/-! # Model of the call trace example

examples/call_trace_example.cc: a composed covariance function and what its call trace prints for the numbers 1 and 0.
Values are real numbers; the values of covariance functions are rounded to doubles in the code, here only where they are
written. -/

namespace Albatross

/-- The only feature type of the example: `double` (examples/call_trace_example.cc lines 38-39). -/
abbrev TraceFeature : Unit → Type := fun _ => ℝ

/-- `LinearScalar::_call_impl` (examples/call_trace_example.cc line 21). -/
def linearScalar (x : ℝ) : ℝ := 1 + 3 * x

/-- `ScalingTerm<LinearScalar>` (examples/call_trace_example.cc lines 17-22, scaling_function.hpp lines 58-107): the
scaling function takes a `double`, to which none of the other argument types converts. -/
def linearScalarTree : CovTree TraceFeature Dbl Dbl :=
  .leaf "linear_scalar".toList "linear_scalar".toList
    (scalingTerm (fun | .base _ => true | _ => false) fun
      | .base _, x => linearScalar x
      | _, _ => 1) none

/-- `SquaredExponential<EuclideanDistance>` on doubles (radial.hpp lines 138-187, distance_metrics.hpp lines 32-37), with
its parameters. -/
noncomputable def squaredExponentialTree (lengthScale sigma : ℝ) : CovTree TraceFeature Dbl Dbl :=
  .leaf "squared_exponential[euclidean_distance]".toList "squared_exponential[euclidean_distance]".toList
    ⟨fun | .base _, .base _ => true | _, _ => false,
      fun
      | .base _, .base _, x, y => squaredExponential (euclideanDistance x y) lengthScale sigma
      | _, _, _, _ => 0⟩
    (some (ssrGrid 10 .ndebug (.fin lengthScale)))

/-- `complicated_covariance_function` with the default parameters (examples/call_trace_example.cc lines 24-31,
polynomials.hpp line 18, radial.hpp lines 16-17). -/
noncomputable def complicatedCov : CovTree TraceFeature Dbl Dbl :=
  .node .scaledRight (.node .sum (constantTree 100) (squaredExponentialTree 100000 10)) linearScalarTree

/-- The default formatting of a stream: six significant digits. -/
noncomputable def streamText (v : ℝ) : List Char := generalText 6 (.fin v)

/-- `cov.call_trace().print(x, y)` (call_trace.hpp lines 75-77). -/
noncomputable def printTrace (b : Build) (cov : CovTree TraceFeature Dbl Dbl) (x y : ℝ) (ss : Streams) : Outcome Streams := do
  let trace ← cov.trace (F := TraceFeature) b toStringFixed streamText (.base ()) (.base ()) x y
  pure (printCallTrace trace ss)

/-- `main` (examples/call_trace_example.cc lines 34-41). -/
noncomputable def callTraceExample (b : Build) (ss : Streams) : Outcome Streams :=
  printTrace b complicatedCov 1 0 ss

end Albatross
