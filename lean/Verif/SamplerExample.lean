import Verif.SincExample
import Verif.Sampler

/-! # Model of examples/sampler_example.cc and of the objective of a model's sampler

The objective is `compute_ll` of samplers/ensemble.hpp lines 178-182.  A failed assertion or an
exception inside it ends the program; here it is the outcome of `samplerComputeLl`, and
`samplerObjective`, which the sampler's loops take as a function, stands in NaN for it (vectors of the
right length never fail, `C140_objective_partial`).  The log likelihood of a model is a function of the object
that holds its parameters.  Tuning before sampling (lines 40-45) is C80 and C110; the CSV output is C48. -/

namespace Albatross

/-- `compute_ll` (samplers/ensemble.hpp lines 178-182): a copy of the model gets the values with the
default `force_bounds = true` (core/parameter_handling_mixin.hpp lines 266-267). -/
noncomputable def samplerComputeLl (ex : Dbl → Dbl) (b : Build) (model : Handler) (logLikelihood : Handler → Dbl)
    (paramValues : List Dbl) : Outcome Dbl := do
  let m ← model.setTunable ex b paramValues true
  pure (logLikelihood m)

/-- `compute_ll` as the function the sampler calls. -/
noncomputable def samplerObjective (ex : Dbl → Dbl) (b : Build) (model : Handler) (logLikelihood : Handler → Dbl)
    (paramValues : List Dbl) : Dbl :=
  match samplerComputeLl ex b model logLikelihood paramValues with
  | .ok v => v
  | .error _ => .nan

/-- `indep_noise` (sampler_example.cc lines 81-84). -/
noncomputable def samplerNoise : Handler := .declared [("sigma_independent_noise", ⟨.fin 0.1, .positive⟩)]

/-- `model` of the mode `test_gp` (sampler_example.cc lines 123-124). -/
noncomputable def samplerTestGp : Handler := .gp [] (.declared []) samplerNoise

/-- The features of the mode `test_gp` (sampler_example.cc line 117). -/
def samplerTestFeatures (n : Nat) : Fin n → ℝ := fun i => i

/-- `log_likelihood` (models/gp.hpp lines 442-451) of a model with independent noise and no mean.  Both
features of a pair are measurements of doubles, which `IndependentNoise<double>` takes as doubles
(covariance_functions/callers.hpp lines 258-319), so `as_measurement` leaves them.  NaN when the
parameter is no number. -/
noncomputable def samplerTestLogLikelihood {n : Nat} (ldlt : Matrix (Fin n) (Fin n) ℝ → Ldlt (Fin n)) (ys : Fin n → ℝ) :
    Handler → Dbl
  | .gp ps mean (.declared ms) =>
    match readValue ms "sigma_independent_noise" with
    | some sigma =>
      let g : Gp ℝ := { cov := noiseCov sigma, mean := fun _ => 0, asMeas := id }
      .fin (g.logLikelihood ldlt 0 (samplerTestFeatures n) ⟨ys, fun _ => 0⟩) +
        parameterPriorLogLikelihood (Handler.gp ps mean (.declared ms)).getParams
    | none => .nan
  | _ => .nan

/-- `walkers` (sampler_example.cc line 53). -/
def samplerWalkers (model : Handler) : Nat := 3 * model.getParams.length

end Albatross
