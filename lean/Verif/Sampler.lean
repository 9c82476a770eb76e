import Verif.Ransac
import Verif.IndexingLemmas
import Verif.Parameters

/-! # Model of the ensemble sampler (`samplers/*.hpp`)

As in `Random.lean` the engine delivers a list `raw` of outputs.  One output is consumed per integer,
uniform and jitter draw; which values a real engine would need for a `double` is not modelled, only
that a uniform draw lies in `[0, 1)`.  The objective is a function of the parameters. -/

namespace Albatross

/-- `std::isfinite`. -/
def Dbl.isFinite : Dbl → Bool
  | .fin _ => true
  | _ => false

/-- `SamplerState` (samplers/state.hpp lines 18-22). -/
structure SamplerState where
  params : List Dbl
  logProb : Dbl
  accepted : Bool

/-- Contract of `std::uniform_real_distribution<double>(0., 1.)`. -/
structure UniformReal where
  draw : Nat → ℝ
  ge : ∀ r, 0 ≤ draw r
  lt : ∀ r, draw r < 1

/-- One engine output. -/
def nextRaw : List Nat → Outcome (Nat × List Nat)
  | [] => .error .diverges
  | r :: raw => .ok (r, raw)

/-! ## samplers/ensemble.hpp -/

/-- `split_indices` (samplers/ensemble.hpp lines 18-22). -/
def splitIndices (n k : Nat) : Outcome (List (List Nat)) := do
  let m ← buildKFold k (List.range n)
  pure m.values

/-- The loop of `random_complement` (samplers/ensemble.hpp lines 30-35). -/
def randomComplementLoop (M : Nat) (u : UniformInt) (n i : Nat) : List Nat → Outcome (Nat × List Nat)
  | [] => .error .diverges
  | r :: raw =>
    let output := u.draw 0 (sizeSub M n 1) r
    if output ≠ i then .ok (output, raw) else randomComplementLoop M u n i raw

/-- `random_complement` (samplers/ensemble.hpp lines 24-36). -/
def randomComplement (M : Nat) (b : Build) (u : UniformInt) (n i : Nat) (raw : List Nat) :
    Outcome (Nat × List Nat) := do
  albatrossAssert b (decide (n > 1))
  randomComplementLoop M u n i raw

/-- `assert_valid_states` (samplers/ensemble.hpp lines 38-42). -/
def assertValidStates (b : Build) (ensembles : List SamplerState) : Outcome Unit :=
  ensembles.forM fun s => albatrossAssert b s.logProb.isFinite

/-- Drawing `j` from the complement until its state is finite (samplers/ensemble.hpp lines 78-85). -/
def pickFinite (M : Nat) (u : UniformInt) (complement : List Nat) (ens : List SamplerState) :
    List Nat → Outcome (Nat × List Nat)
  | [] => .error .diverges
  | r :: raw => do
    let j ← vecGet complement (u.draw 0 (sizeSub M complement.length 1) r)
    let s ← vecGet ens j
    if s.logProb.isFinite then pure (j, raw) else pickFinite M u complement ens raw

/-- The loop over the parameters (samplers/ensemble.hpp lines 93-104). -/
noncomputable def proposeParams (nDim : Nat) (z : Dbl) (xj : List Dbl) (params : List Dbl) :
    Outcome (List Dbl) :=
  (List.range nDim).foldlM (fun params i => do
    let vj ← vecGet xj i
    let pi ← vecGet params i
    let delta := pi - vj
    let delta := if delta = .fin 0 then .fin (1 / 10 ^ 6) else delta
    vecSet params i (vj + z * delta)) params

/-- The body of the loop over a split (samplers/ensemble.hpp lines 72-119). -/
noncomputable def moveWalker (M : Nat) (u : UniformInt) (ur : UniformReal) (objective : List Dbl → Dbl)
    (a : ℝ) (nDim : Nat) (complement : List Nat) (next : List SamplerState × List Nat) (k : Nat) :
    Outcome (List SamplerState × List Nat) := do
  let current ← vecGet next.1 k
  let (j, raw) ← pickFinite M u complement next.1 next.2
  let (r, raw) ← nextRaw raw
  let p := ur.draw r
  let z := Dbl.fin (((a - 1) * p + 1) ^ 2) / Dbl.fin a
  let logProbZ := Dbl.fin ((nDim : ℝ) - 1) * z.log
  let sj ← vecGet next.1 j
  let params ← proposeParams nDim z sj.params current.params
  let logProb := objective params
  let logDiff := logProbZ + logProb - current.logProb
  let (r, raw) ← nextRaw raw
  if (Dbl.fin (ur.draw r)).log < logDiff ∧ logProb.isFinite = true then do
    let next ← vecSet next.1 k ⟨params, logProb, true⟩
    pure (next, raw)
  else do
    let next ← vecSet next.1 k { current with accepted := false }
    pure (next, raw)

/-- `stretch_move_step` (samplers/ensemble.hpp lines 44-123). -/
noncomputable def stretchMoveStep (M : Nat) (b : Build) (u : UniformInt) (ur : UniformReal)
    (objective : List Dbl → Dbl) (nSplits : Nat) (a : ℝ) (ensembles : List SamplerState)
    (raw : List Nat) : Outcome (List SamplerState × List Nat) := do
  let first ← vecGet ensembles 0
  assertValidStates b ensembles
  let splits ← splitIndices ensembles.length nSplits
  splits.foldlM (fun next split =>
    split.foldlM (moveWalker M u ur objective a first.params.length
      (indicesComplement split ensembles.length)) next) (ensembles, raw)

/-- The loop of `ensemble_sampler` (samplers/ensemble.hpp lines 139-145), `n` iterations left;
`callback` acts on a state of its own. -/
noncomputable def samplerLoop {σ : Type} (M : Nat) (b : Build) (u : UniformInt) (ur : UniformReal)
    (objective : List Dbl → Dbl) (callback : σ → Nat → List SamplerState → σ) :
    Nat → Nat → List SamplerState → List (List SamplerState) → σ → List Nat →
      Outcome (List (List SamplerState) × σ × List Nat)
  | 0, _, _, output, cb, raw => .ok (output, cb, raw)
  | n + 1, iter, state, output, cb, raw => do
    let (next, raw) ← stretchMoveStep M b u ur objective 2 2 state raw
    samplerLoop M b u ur objective callback n (iter + 1) next (output ++ [next])
      (callback cb iter next) raw

/-! ## samplers/initialization.hpp -/

/-- `initial_params_from_jitter` (samplers/initialization.hpp lines 99-120): the perturbed copies. -/
noncomputable def jitterVector (jitter : Nat → Dbl) : List Dbl → List Nat → Outcome (List Dbl × List Nat)
  | [], raw => .ok ([], raw)
  | d :: ds, raw => do
    let (r, raw) ← nextRaw raw
    let (ds, raw) ← jitterVector jitter ds raw
    pure ((d + jitter r) :: ds, raw)

/-- The loop over the copies (samplers/initialization.hpp lines 110-119). -/
noncomputable def jitterLoop (jitter : Nat → Dbl) (doubleParams : List Dbl) :
    Nat → List (List Dbl) → List Nat → Outcome (List (List Dbl) × List Nat)
  | 0, output, raw => .ok (output, raw)
  | n + 1, output, raw => do
    let (perturbed, raw) ← jitterVector jitter doubleParams raw
    jitterLoop jitter doubleParams n (output ++ [perturbed]) raw

/-- `initial_params_from_jitter` (samplers/initialization.hpp lines 99-121). -/
noncomputable def initialParamsFromJitter (lg : Dbl → Dbl) (b : Build) (params : ParameterStore)
    (jitter : Nat → Dbl) (n : Nat) (raw : List Nat) : Outcome (List (List Dbl) × List Nat) := do
  let n := max n (2 * params.length + 1)
  let t ← getTunableParameters lg b params
  jitterLoop jitter t.values (n - 1) [t.values] raw

/-- The mixture of a random pair (samplers/initialization.hpp lines 152-155). -/
noncomputable def mixParams (ur : UniformReal) (other : List Dbl) :
    Nat → Nat → List Dbl → List Nat → Outcome (List Dbl × List Nat)
  | 0, _, params, raw => .ok (params, raw)
  | n + 1, i, params, raw => do
    let (r, raw) ← nextRaw raw
    let o ← vecGet other i
    let p ← vecGet params i
    let params ← vecSet params i (p + Dbl.fin (ur.draw r) * (o - p))
    mixParams ur other n (i + 1) params raw

/-- One attempt (samplers/initialization.hpp lines 149-157). -/
noncomputable def attemptState (M : Nat) (b : Build) (u : UniformInt) (ur : UniformReal)
    (objective : List Dbl → Dbl) (output : List SamplerState) (raw : List Nat) :
    Outcome (SamplerState × List Nat) := do
  let (pair, raw) ← randomWithoutReplacementRest M b u output 2 raw
  let attempt ← vecGet pair 0
  let other ← vecGet pair 1
  let (params, raw) ← mixParams ur other.params attempt.params.length 0 attempt.params raw
  pure (⟨params, objective params, attempt.accepted⟩, raw)

/-! Outputs consumed; needed for termination of the loop below. -/

theorem sampleLoop_rest {u : UniformInt} {low high n : Nat} : ∀ {raw samples out rest : List Nat},
    sampleLoop u low high n raw samples = .ok (out, rest) → rest.length ≤ raw.length := by
  intro raw
  induction raw with
  | nil =>
    intro s o r h
    rw [sampleLoop.eq_def] at h
    simp only at h
    by_cases hc : s.length < n
    · simp [hc] at h
    · rw [if_neg hc] at h; cases h; exact Nat.le_refl _
  | cons a t ih =>
    intro s o r h
    rw [sampleLoop.eq_def] at h
    simp only at h
    by_cases hc : s.length < n
    · rw [if_pos hc] at h; exact Nat.le_succ_of_le (ih h)
    · rw [if_neg hc] at h; cases h; exact Nat.le_refl _

theorem randint_rest {M : Nat} {b : Build} {u : UniformInt} : ∀ (n : Nat) {low high : Nat}
    {raw out rest : List Nat},
    randintWithoutReplacement M b u n low high raw = .ok (out, rest) → rest.length ≤ raw.length := by
  intro n
  induction n using Nat.strong_induction_on with
  | _ n ih =>
  intro low high raw out rest h
  rw [randintWithoutReplacement] at h
  split at h
  · cases h
  · split at h
    · cases h; exact Nat.le_refl _
    · split at h
      · split at h
        · cases h
        · rename_i heq
          cases h
          exact ih _ (by omega) heq
      · split at h
        · cases h
        · exact sampleLoop_rest h

theorem mixParams_rest {ur : UniformReal} {other : List Dbl} : ∀ (n i : Nat) (p : List Dbl) (raw : List Nat)
    {out : List Dbl} {rest : List Nat}, mixParams ur other n i p raw = .ok (out, rest) →
      rest.length ≤ raw.length := by
  intro n
  induction n with
  | zero => intro i p raw out rest h; cases h; exact Nat.le_refl _
  | succ n ih =>
    intro i p raw out rest h
    cases raw with
    | nil => cases h
    | cons r raw =>
      simp only [mixParams, nextRaw, except_ok_bind, except_bind_eq_ok] at h
      obtain ⟨o, -, q, -, p', -, h⟩ := h
      exact Nat.le_succ_of_le (ih _ _ _ h)

theorem attemptState_rest {M : Nat} {b : Build} {u : UniformInt} {ur : UniformReal}
    {objective : List Dbl → Dbl} {output : List SamplerState} {raw : List Nat} {s : SamplerState}
    {rest : List Nat} (h : attemptState M b u ur objective output raw = .ok (s, rest)) :
    rest.length ≤ raw.length := by
  simp only [attemptState, randomWithoutReplacementRest, except_bind_eq_ok, except_pure] at h
  obtain ⟨⟨pair, raw1⟩, ⟨⟨is, raw0⟩, h1, o1, -, h2⟩, a1, -, a2, -, ⟨ps, raw2⟩, h3, h4⟩ := h
  cases h2
  cases h4
  exact (mixParams_rest _ _ _ _ h3).trans (randint_rest _ h1)

/-- The `while` loop (samplers/initialization.hpp lines 148-161).  A failed attempt that consumed no
engine output will be repeated for ever. -/
noncomputable def fillStates (M : Nat) (b : Build) (u : UniformInt) (ur : UniformReal)
    (objective : List Dbl → Dbl) (target : Nat) (output : List SamplerState) (raw : List Nat) :
    Outcome (List SamplerState × List Nat) :=
  if output.length < target then
    match _h : attemptState M b u ur objective output raw with
    | .error f => .error f
    | .ok (attempt, rest) =>
      if attempt.logProb.isFinite then
        fillStates M b u ur objective target (output ++ [attempt]) rest
      else if rest.length < raw.length then
        fillStates M b u ur objective target output rest
      else .error .diverges
  else .ok (output, raw)
termination_by raw.length + (target - output.length)
decreasing_by
  · have := attemptState_rest _h
    simp only [List.length_append, List.length_singleton]
    omega
  · omega

/-- `ensure_finite_initial_state` (samplers/initialization.hpp lines 122-163). -/
noncomputable def ensureFiniteInitialState (M : Nat) (b : Build) (u : UniformInt) (ur : UniformReal)
    (objective : List Dbl → Dbl) (ensembles : List SamplerState) (raw : List Nat) :
    Outcome (List SamplerState × List Nat) := do
  let output := ensembles.filter fun s => s.logProb.isFinite && s.params.all Dbl.isFinite
  albatrossAssert b (decide (output.length > 2))
  fillStates M b u ur objective ensembles.length output raw

/-- `ensemble_sampler` from a state (samplers/ensemble.hpp lines 125-147). -/
noncomputable def ensembleSampler {σ : Type} (M : Nat) (b : Build) (u : UniformInt) (ur : UniformReal)
    (objective : List Dbl → Dbl) (callback : σ → Nat → List SamplerState → σ)
    (initial : List SamplerState) (maxIterations : Nat) (cb : σ) (raw : List Nat) :
    Outcome (List (List SamplerState) × σ × List Nat) := do
  let (state, raw) ← ensureFiniteInitialState M b u ur objective initial raw
  samplerLoop M b u ur objective callback maxIterations 1 state [state] (callback cb 0 state) raw

/-- `ensemble_sampler` from parameter vectors (samplers/ensemble.hpp lines 149-165). -/
noncomputable def ensembleSamplerFrom {σ : Type} (M : Nat) (b : Build) (u : UniformInt)
    (ur : UniformReal) (objective : List Dbl → Dbl) (callback : σ → Nat → List SamplerState → σ)
    (params : List (List Dbl)) (maxIterations : Nat) (cb : σ) (raw : List Nat) :
    Outcome (List (List SamplerState) × σ × List Nat) :=
  ensembleSampler M b u ur objective callback (params.map fun p => ⟨p, objective p, true⟩)
    maxIterations cb raw

/-- `ensemble_sampler` of a model (samplers/ensemble.hpp lines 167-186); `objective` is the log
likelihood of the model with the given tunable parameters. -/
noncomputable def ensembleSamplerModel {σ : Type} (M : Nat) (b : Build) (u : UniformInt)
    (ur : UniformReal) (lg : Dbl → Dbl) (jitter : Nat → Dbl) (store : ParameterStore)
    (objective : List Dbl → Dbl) (callback : σ → Nat → List SamplerState → σ)
    (nWalkers maxIterations : Nat) (cb : σ) (raw : List Nat) :
    Outcome (List (List SamplerState) × σ × List Nat) := do
  let (params, raw) ← initialParamsFromJitter lg b store jitter nWalkers raw
  ensembleSamplerFrom M b u ur objective callback params maxIterations cb raw

end Albatross
