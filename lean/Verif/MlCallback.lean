import Verif.PrettyParams

/-! # Model of `MaximumLikelihoodTrackingCallback` (samplers/callbacks.hpp)

The callback runs on one stream; a null stream pointer is not modelled. -/

namespace Albatross

/-- `MaximumLikelihoodTrackingCallback` (samplers/callbacks.hpp lines 52-59, 75-78). -/
structure MlCallback where
  maxLl : Dbl := .ninf
  store : ParameterStore
  stream : OStream := {}

/-- The body of the loop (samplers/callbacks.hpp lines 64-71). -/
noncomputable def MlCallback.visit (ex : Dbl → Dbl) (b : Build) (iteration : Nat) (cb : MlCallback)
    (state : SamplerState) : Outcome MlCallback :=
  if cb.maxLl < state.logProb then do
    let store ← setTunableParamsValues ex b cb.store state.params true
    let stream := cb.stream.put (List.replicate 19 '=' ++ ['\n'])
    let stream := stream.put (['I', 't', 'e', 'r', 'a', 't', 'i', 'o', 'n', ':', ' '] ++ sizeToString iteration ++
      ['\n'])
    let stream := stream.put (['L', 'L', ':', ' '] ++ defaultText state.logProb ++ ['\n'])
    let stream := stream.put (prettyParams store ++ ['\n'])
    pure { maxLl := state.logProb, store := store, stream := stream }
  else pure cb

/-- `operator()` (samplers/callbacks.hpp lines 61-73). -/
noncomputable def MlCallback.call (ex : Dbl → Dbl) (b : Build) (cb : MlCallback) (iteration : Nat)
    (ensembles : List SamplerState) : Outcome MlCallback :=
  ensembles.foldlM (MlCallback.visit ex b iteration) cb

/-- The callback during a run of the sampler: called with the iteration number and the walkers. -/
noncomputable def MlCallback.run (ex : Dbl → Dbl) (b : Build) (cb : MlCallback)
    (history : List (Nat × List SamplerState)) : Outcome MlCallback :=
  history.foldlM (fun cb h => MlCallback.call ex b cb h.1 h.2) cb

end Albatross
