import Verif.Indexing

/-! # Model of the sampling functions of `utils/random_utils.hpp`

The random engine delivers an arbitrary finite list `raw` of outputs;
`std::uniform_int_distribution(low, high)` is any function of a raw output whose value lies in
`[low, high]` (`UniformInt`).  A call that would need more outputs than the list holds is the fault
`diverges`; every terminating execution of the code consumes finitely many outputs, so it is an
execution of the model. -/

namespace Albatross

variable {α : Type}

/-- Contract of `std::uniform_int_distribution<std::size_t>`. -/
structure UniformInt where
  draw : Nat → Nat → Nat → Nat
  ge : ∀ low high r, low ≤ high → low ≤ draw low high r
  le : ∀ low high r, low ≤ high → draw low high r ≤ high

/-- `a - b` in `std::size_t`, for `a, b < M`; `M` is the number of values of `std::size_t`
(`2 ^ 64` on the supported platforms), a parameter of the model. -/
def sizeSub (M a b : Nat) : Nat := (a + M - b) % M

/-- The `while` loop (utils/random_utils.hpp lines 52-56); returns the set and the unused outputs. -/
def sampleLoop (u : UniformInt) (low high n : Nat) : List Nat → List Nat →
    Outcome (List Nat × List Nat)
  | raw, samples =>
    if samples.length < n then
      match raw with
      | [] => .error .diverges
      | r :: raw => sampleLoop u low high n raw (setInsert (u.draw low high r) samples)
    else .ok (samples, raw)

/-- `n_choices = high - low + 1` (utils/random_utils.hpp line 23). -/
def numChoices (M low high : Nat) : Nat := (sizeSub M high low + 1) % M

/-- The outcome of `ALBATROSS_ASSERT(false)` (utils/random_utils.hpp lines 24-28). -/
def tooManyFault : Build → Fault
  | .debug => .assertFail
  | .ndebug => .ub

/-- `randint_without_replacement` (utils/random_utils.hpp lines 20-58).  When the error branch does
not abort (release build) the call is outside its contract and is modelled as `ub`.  `low ≤ high` is
the precondition of the standard distribution. -/
def randintWithoutReplacement (M : Nat) (b : Build) (u : UniformInt) (n low high : Nat) (raw : List Nat) :
    Outcome (List Nat × List Nat) :=
  if _h1 : n > numChoices M low high then
    .error (tooManyFault b)
  else if n = numChoices M low high then .ok (List.range' low n, raw)
  else if _h2 : n > numChoices M low high / 2 + 1 then
    match randintWithoutReplacement M b u (numChoices M low high - n) 0 (numChoices M low high - 1) raw with
    | .error f => .error f
    | .ok (toThrowOut, raw) =>
      let toKeep := indicesComplement toThrowOut (numChoices M low high)
      .ok (if low ≠ 0 then toKeep.map fun el => (el + low) % M else toKeep, raw)
  else if high < low then .error .ub
  else sampleLoop u low high n raw []
termination_by n
decreasing_by omega

/-- `random_without_replacement` (utils/random_utils.hpp lines 60-69). -/
def randomWithoutReplacement (M : Nat) (b : Build) (u : UniformInt) (xs : List α) (n : Nat)
    (raw : List Nat) : Outcome (List α) := do
  let r ← randintWithoutReplacement M b u n 0 (sizeSub M xs.length 1) raw
  r.1.mapM fun i => vecGet xs i

end Albatross
