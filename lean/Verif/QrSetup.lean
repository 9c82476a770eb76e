import Verif.Dbl
import Verif.Async

/-! # Model of the thread pools of `utils/async_utils.hpp` and of `linalg/spqr_utils.hpp`

A pool is `none` (null) or `some t` (`t` threads).  Products of doubles are exact. -/

namespace Albatross

/-- `get_default_thread_count` (utils/async_utils.hpp lines 192-196); `hardware` is
`std::thread::hardware_concurrency()`. -/
def defaultThreadCount (hardware : Nat) : Nat := max 1 hardware

/-- `make_shared_thread_pool` (utils/async_utils.hpp lines 199-221). -/
def makeSharedThreadPool (hardware numThreads : Nat) : Option Nat :=
  if numThreads = 1 then none
  else if numThreads < 1 then some (defaultThreadCount hardware)
  else some numThreads

/-- `get_thread_count` (utils/async_utils.hpp lines 223-229). -/
def getThreadCount : Option Nat → Nat
  | none => 1
  | some t => t

/-- `static_cast<int>` of a `size_t`: modulo 2 ^ 32, as two's complement. -/
def sizeToInt (n : Nat) : Int := if n % 2 ^ 32 < 2 ^ 31 then (n % 2 ^ 32 : Nat) else (n % 2 ^ 32 : Nat) - 2 ^ 32

/-- `SPQR_set_threads` (linalg/spqr_utils.hpp lines 102-110): the new value of `SPQR_nthreads`, `old` before. -/
def spqrSetThreads (old : Int) : Option Nat → Int
  | none => old
  | some t => sizeToInt t

/-- `kMinSparsePivotSize` (linalg/spqr_utils.hpp line 40). -/
def kMinSparsePivotSize : Int := 300

/-- `kSPQRPivotCoefficient` (linalg/spqr_utils.hpp line 44). -/
noncomputable def kSPQRPivotCoefficient : Dbl := .fin (1 / 10)

/-- The loop over the columns (linalg/spqr_utils.hpp lines 66-69); `numext::maxi` is `std::max`. -/
noncomputable def maxColumnNorm (norms : List Dbl) : Dbl := norms.foldl (fun m x => if m < x then x else m) (.fin 0)

/-- `SPQR_pivot_threshold` (linalg/spqr_utils.hpp lines 54-75) of a matrix with these column norms. -/
noncomputable def spqrPivotThreshold (rows : Nat) (norms : List Dbl) (minSparsePivotSize : Int) (coefficient : Dbl) :
    Dbl :=
  if (rows : Int) < minSparsePivotSize ∨ (norms.length : Int) < minSparsePivotSize then .fin (1 / 10 ^ 15)
  else
    let max2Norm := maxColumnNorm norms
    let max2Norm := if max2Norm = .fin 0 then .fin 1 else max2Norm
    coefficient * .fin ((rows : ℝ) + norms.length) * max2Norm * .fin (1 / 2 ^ 52)

/-- What `SPQR_create` sets up before `compute` (linalg/spqr_utils.hpp lines 94-100, 112-125): the thread count and
the pivot threshold. -/
noncomputable def spqrCreate (oldThreads : Int) (rows : Nat) (norms : List Dbl) (pool : Option Nat) : Int × Dbl :=
  (spqrSetThreads oldThreads pool, spqrPivotThreshold rows norms kMinSparsePivotSize kSPQRPivotCoefficient)

end Albatross
