import Verif.Parameters

/-! # Model of the conditional setters of `core/parameter_handling_mixin.hpp`

The objects handed over by pointer are taken to be distinct; the result lists them as they are left. -/

namespace Albatross
namespace Handler

/-- `set_param_value_if_exists(name, value, handler)` (core/parameter_handling_mixin.hpp lines 136-148). -/
def setValueIfExists (b : Build) (h : Handler) (name : String) (v : Dbl) : Outcome (Bool × Handler) := do
  let r ← setParamValueIfExists b name v h.getParams
  if !r.1 then pure (false, h)
  else do
    let q ← r.2.at? name
    let h' ← uncheckedSet b h name q
    pure (true, h')

/-- `set_param_values_if_exists(input, handler)` (core/parameter_handling_mixin.hpp lines 161-171, 224-227). -/
def setAllValuesIfExists (b : Build) (h : Handler) (input : SMap String Dbl) : Outcome (Bool × Handler) := do
  let r ← setParamValuesIfExists b input h.getParams
  let h' ← uncheckedSetAll b h r.2
  pure (r.1, h')

/-- `details::variadic_set_param_if_exists`, `set_param_if_exists_in_any` (core/parameter_handling_mixin.hpp lines
173-197): `||` stops at the first object that has the parameter. -/
def setInAny (b : Build) (name : String) (p : Parameter) : List Handler → Outcome (Bool × List Handler)
  | [] => pure (false, [])
  | h :: rest => do
    let r ← ifExists b name p h (set b h)
    if r.1 then pure (true, r.2 :: rest)
    else do
      let s ← setInAny b name p rest
      pure (s.1, r.2 :: s.2)

end Handler
end Albatross
