import Verif.Basic

/-! # Model of the thread-pool `apply` of `utils/async_utils.hpp`

Small-step interleaving semantics.  The main thread first enqueues one task per input and then calls
`get()` on the futures in a fixed order.  Workers take tasks from the front of the queue and execute
them, one memory write at a time, in any interleaving; at most `T` tasks run at the same time.

A task is a pure computation: the writes it makes to memory shared with the caller (lambdas passed to
the `void` overloads write through captured references) followed by its return value or exception.
`L` are memory locations, `V` their values, `ε` exceptions, `β` return values.

Contract of the pool (third_party/ThreadPool, an empty submodule in the source tree): tasks start in
the order they were enqueued, each is run once, and its outcome is stored in its future. -/

namespace Albatross

variable {L V ε β : Type}

/-- One enqueued call of the applied function (`pool->enqueue(func, x)`, utils/async_utils.hpp lines 41, 66): what it
writes and how it ends. -/
structure PoolTask (L V ε β : Type) where
  writes : List (L × V)
  result : Except ε β

/-- A call of `apply`/`apply_map` with a pool of `T` threads: the tasks in enqueuing order and the
order in which `get()` is called on the futures (positions into `tasks`)
(utils/async_utils.hpp lines 39-46, 64-73). -/
structure PoolCall (L V ε β : Type) where
  tasks : List (PoolTask L V ε β)
  order : List Nat
  threads : Nat

/-- Global state: how many tasks are enqueued, how many were started (always the first ones), the
remaining writes of every task, the futures, memory, the futures still to be read, what was read, and
what the call returned or threw.  (Not a type of the code: the machine state of a call.) -/
structure PoolState (L V ε β : Type) where
  enqueued : Nat
  started : Nat
  rem : Nat → List (L × V)
  fut : Nat → Option (Except ε β)
  mem : L → V
  pending : List Nat
  got : List β
  outcome : Option (Except ε (List β))

/-- Task `i` is being executed by a worker. -/
def PoolState.running (s : PoolState L V ε β) (i : Nat) : Bool :=
  decide (i < s.started) && (s.fut i).isNone

def PoolState.numRunning (s : PoolState L V ε β) : Nat :=
  ((List.range s.started).filter s.running).length

/-- One memory write. -/
def writeMem [DecidableEq L] (m : L → V) (w : L × V) : L → V := fun l => if l = w.1 then w.2 else m l

/-- A sequence of writes. -/
def writeAll [DecidableEq L] (m : L → V) (ws : List (L × V)) : L → V := ws.foldl writeMem m

def PoolCall.init (c : PoolCall L V ε β) (m : L → V) : PoolState L V ε β where
  enqueued := 0
  started := 0
  rem i := ((c.tasks[i]?).map PoolTask.writes).getD []
  fut _ := none
  mem := m
  pending := c.order
  got := []
  outcome := none

/-- The steps of the system (utils/async_utils.hpp lines 33-45 and 60-72 for vectors, 88-95, 116-126,
144-151, 172-182 for maps). -/
inductive PoolStep [DecidableEq L] (c : PoolCall L V ε β) :
    PoolState L V ε β → PoolState L V ε β → Prop
  /-- `futures.emplace_back(pool->enqueue(func, x))`. -/
  | enqueue {s} (h : s.enqueued < c.tasks.length) :
    PoolStep c s { s with enqueued := s.enqueued + 1 }
  /-- A free worker takes the oldest queued task. -/
  | start {s} (h : s.started < s.enqueued) (hT : s.numRunning < c.threads) :
    PoolStep c s { s with started := s.started + 1 }
  /-- A running task makes its next write. -/
  | write {s} (i : Nat) (w : L × V) (ws : List (L × V)) (h : s.running i = true)
      (hr : s.rem i = w :: ws) :
    PoolStep c s { s with mem := writeMem s.mem w, rem := Function.update s.rem i ws }
  /-- A running task ends; its value or exception goes to its future. -/
  | finish {s} (i : Nat) (t : PoolTask L V ε β) (h : s.running i = true) (hr : s.rem i = [])
      (ht : c.tasks[i]? = some t) :
    PoolStep c s { s with fut := Function.update s.fut i (some t.result) }
  /-- `output.emplace_back(f.get())` on a future holding a value. -/
  | get {s} (i : Nat) (p : List Nat) (v : β) (he : s.enqueued = c.tasks.length)
      (ho : s.outcome = none) (hp : s.pending = i :: p) (hf : s.fut i = some (.ok v)) :
    PoolStep c s { s with pending := p, got := s.got ++ [v] }
  /-- `f.get()` on a future holding an exception: it propagates out of the call. -/
  | getThrow {s} (i : Nat) (p : List Nat) (e : ε) (he : s.enqueued = c.tasks.length)
      (ho : s.outcome = none) (hp : s.pending = i :: p) (hf : s.fut i = some (.error e)) :
    PoolStep c s { s with outcome := some (.error e) }
  /-- `return output;`. -/
  | ret {s} (he : s.enqueued = c.tasks.length) (ho : s.outcome = none) (hp : s.pending = []) :
    PoolStep c s { s with outcome := some (.ok s.got) }

/-- Executions: the states reachable by any schedule. -/
inductive PoolReach [DecidableEq L] (c : PoolCall L V ε β) (m : L → V) : PoolState L V ε β → Prop
  | init : PoolReach c m (c.init m)
  | step {s s'} : PoolReach c m s → PoolStep c s s' → PoolReach c m s'

/-- `apply(xs, func, pool)` on a vector (utils/async_utils.hpp lines 26-46, 48-72): one task per
element, futures read in the order of the vector. -/
def applyVectorCall {α : Type} (f : α → PoolTask L V ε β) (xs : List α) (threads : Nat) :
    PoolCall L V ε β where
  tasks := xs.map f
  order := List.range xs.length
  threads := threads

/-- The map of futures built by `futures[x.first] = pool->enqueue(func, x.first, x.second)`
(utils/async_utils.hpp lines 116-119 and 172-175); a future is represented by the number of its
task. -/
def futuresMap {K α : Type} [LinearOrder K] (xs : SMap K α) : SMap K Nat :=
  (xs.zipIdx).foldl (fun m x => SMap.put m x.1.1 x.2) []

/-- `apply_map(xs, func, pool)` returning values (utils/async_utils.hpp lines 98-126, 154-182):
futures are read in the key order of the map of futures. -/
def applyMapCall {K α : Type} [LinearOrder K] (f : K → α → PoolTask L V ε β) (xs : SMap K α)
    (threads : Nat) : PoolCall L V ε β where
  tasks := xs.map fun x => f x.1 x.2
  order := (futuresMap xs).map Prod.snd
  threads := threads

/-- The map `output` filled by `output[f.first] = f.second.get()`
(utils/async_utils.hpp lines 121-125 and 177-181) from the values in the order they were read. -/
def applyMapOutput {K α : Type} [LinearOrder K] (xs : SMap K α) (got : List β) : SMap K β :=
  (((futuresMap xs).map Prod.fst).zip got).foldl (fun m x => SMap.put m x.1 x.2) []

/-- Serial `apply` on a vector (indexing/apply.hpp lines 27-45): calls in order, stops at the first
exception. -/
def applySerial {α : Type} (f : α → Except ε β) (xs : List α) : Except ε (List β) := xs.mapM f

/-- Serial `apply_map` (indexing/apply.hpp lines 64-95). -/
def applyMapSerial {K α : Type} [LinearOrder K] (f : K → α → Except ε β) (xs : SMap K α) :
    Except ε (SMap K β) :=
  xs.foldlM (fun out x => do
    let v ← f x.1 x.2
    pure (SMap.emplace out x.1 v)) []

/-- `detail::should_serial_apply` (utils/async_utils.hpp lines 20-22): `none` is a null pool. -/
def shouldSerialApply (pool : Option Nat) : Bool :=
  match pool with
  | none => true
  | some t => decide (t ≤ 1)

end Albatross
