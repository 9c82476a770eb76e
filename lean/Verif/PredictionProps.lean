import Verif.Prediction
import Verif.GpProps
import Verif.CallersProps

/-! # C86: the forms of a prediction, and predictions with measurement noise -/

namespace Albatross

open Matrix

variable {F : Type}

/-! ## Specification -/

/-- The mean of a marginal or joint prediction as a mean prediction. -/
def DynMarginal.toMean (d : DynMarginal) : DynMean := ⟨d.dim, d.dist.mean⟩
def DynJoint.toMean (d : DynJoint) : DynMean := ⟨d.dim, d.dist.mean⟩

/-- The overloads a model implements agree with each other (for features which are not empty). -/
structure PredictImpl.Coherent (m : PredictImpl F) : Prop where
  mean_marginal : ∀ f g, m.mean = some f → m.marginal = some g → ∀ xs, xs ≠ [] → f xs = (g xs).toMean
  mean_joint : ∀ f h, m.mean = some f → m.joint = some h → ∀ xs, xs ≠ [] → f xs = (h xs).toMean
  marginal_joint : ∀ g h, m.marginal = some g → m.joint = some h → ∀ xs, xs ≠ [] →
    g xs = ⟨(h xs).dim, ⟨(h xs).dist.mean, fun i => (h xs).dist.covariance i i⟩⟩

/-! ## Forms -/

/-- Which forms can be asked for: the joint prediction needs a joint implementation, the marginal one of marginal
and joint, the mean any. -/
theorem C86_available (m : PredictImpl F) (xs : List F) :
    ((predictionJoint m xs).isSome ↔ m.joint.isSome) ∧
      ((predictionMarginal m xs).isSome ↔ m.marginal.isSome ∨ m.joint.isSome) ∧
      ((predictionMean m xs).isSome ↔ m.mean.isSome ∨ m.marginal.isSome ∨ m.joint.isSome) := by
  obtain ⟨a, b, c⟩ := m
  cases a <;> cases b <;> cases c <;>
    simp [predictionJoint, predictionMarginal, predictionMean, PredictImpl.jointPredictor,
      PredictImpl.marginalPredictor, PredictImpl.meanPredictor]

/-- An implemented form is used as it is. -/
theorem C86_direct (m : PredictImpl F) (xs : List F) (hne : xs ≠ []) :
    (∀ f, m.mean = some f → predictionMean m xs = some (f xs)) ∧
      (∀ f, m.marginal = some f → predictionMarginal m xs = some (f xs)) ∧
      ∀ f, m.joint = some f → predictionJoint m xs = some (f xs) := by
  have h0 : ¬ xs.length = 0 := by simpa using hne
  refine ⟨fun f hf => ?_, fun f hf => ?_, fun f hf => ?_⟩
  · unfold predictionMean PredictImpl.meanPredictor; rw [hf]; simp only [Option.map_some, if_neg h0]
  · unfold predictionMarginal PredictImpl.marginalPredictor; rw [hf]; simp only [Option.map_some, if_neg h0]
  · unfold predictionJoint PredictImpl.jointPredictor; rw [hf]; simp only [Option.map_some, if_neg h0]

/-- For a model whose implementations agree, the forms of a prediction agree: whichever of them exist, the marginal
and the mean prediction are the marginal and the mean of the joint prediction. -/
theorem C86_forms_agree (m : PredictImpl F) (hm : m.Coherent) (xs : List F) :
    (∀ a j, predictionMean m xs = some a → predictionJoint m xs = some j → a = j.toMean) ∧
      (∀ b j, predictionMarginal m xs = some b → predictionJoint m xs = some j →
        b = ⟨j.dim, ⟨j.dist.mean, fun i => j.dist.covariance i i⟩⟩) ∧
      ∀ a b, predictionMean m xs = some a → predictionMarginal m xs = some b → a = b.toMean := by
  obtain ⟨f, g, h⟩ := m
  obtain ⟨h1, h2, h3⟩ := hm
  by_cases hx : xs = []
  · subst hx
    cases f <;> cases g <;> cases h <;>
      simp [predictionJoint, predictionMarginal, predictionMean, PredictImpl.jointPredictor,
        PredictImpl.marginalPredictor, PredictImpl.meanPredictor, DynJoint.toMean, DynMarginal.toMean]
  · have h0 : ¬ xs.length = 0 := by simpa using hx
    refine ⟨fun a j ea ej => ?_, fun b j eb ej => ?_, fun a b ea eb => ?_⟩
    · cases f <;> cases g <;> cases h <;>
        simp only [predictionJoint, predictionMean, PredictImpl.jointPredictor,
          PredictImpl.meanPredictor, Option.map_some, Option.map_none, if_neg h0, Option.some.injEq,
          reduceCtorEq] at ea ej
      · subst ea ej; rfl
      · rename_i g h
        subst ea ej
        have := h3 g h rfl rfl xs hx
        rw [this]; rfl
      · rename_i f h
        subst ea ej
        exact h2 f h rfl rfl xs hx
      · rename_i f g h
        subst ea ej
        exact h2 f h rfl rfl xs hx
    · cases g <;> cases h <;>
        simp only [predictionJoint, predictionMarginal, PredictImpl.jointPredictor,
          PredictImpl.marginalPredictor, Option.map_some, Option.map_none, if_neg h0, Option.some.injEq,
          reduceCtorEq] at eb ej
      · subst eb ej; rfl
      · rename_i g h
        subst eb ej
        exact h3 g h rfl rfl xs hx
    · cases f <;> cases g <;> cases h <;>
        simp only [predictionMean, predictionMarginal, PredictImpl.meanPredictor,
          PredictImpl.marginalPredictor, Option.map_some, Option.map_none, if_neg h0, Option.some.injEq,
          reduceCtorEq] at ea eb
      · subst ea eb; rfl
      · subst ea eb; rfl
      · subst ea eb; rfl
      · rename_i f h
        subst ea eb
        exact h2 f h rfl rfl xs hx
      · rename_i f g
        subst ea eb
        exact h1 f g rfl rfl xs hx
      · rename_i f g h
        subst ea eb
        exact h1 f g rfl rfl xs hx

/-- Predicting no features gives the empty prediction without calling the model. -/
theorem C86_empty (m : PredictImpl F) :
    (∀ a, predictionMean m [] = some a → a.dim = 0) ∧ (∀ b, predictionMarginal m [] = some b → b.dim = 0) ∧
      (∀ j, predictionJoint m [] = some j → j.dim = 0) := by
  refine ⟨fun a h => ?_, fun a h => ?_, fun a h => ?_⟩
  · unfold predictionMean at h
    obtain ⟨f, -, rfl⟩ := Option.map_eq_some_iff.mp h
    simp
  · unfold predictionMarginal at h
    obtain ⟨f, -, rfl⟩ := Option.map_eq_some_iff.mp h
    simp
  · unfold predictionJoint at h
    obtain ⟨f, -, rfl⟩ := Option.map_eq_some_iff.mp h
    simp

/-- The implementations of a Gaussian process agree. -/
theorem C86_gp_coherent {X n : Type} [Fintype n] (g : Gp X) (f : GpFit X n) : (gpPredictImpl g f).Coherent := by
  refine ⟨?_, ?_, ?_⟩
  · intro a b ha hb xs _
    simp only [gpPredictImpl, Option.some.injEq] at ha hb
    subst ha hb; rfl
  · intro a b ha hb xs _
    simp only [gpPredictImpl, Option.some.injEq] at ha hb
    subst ha hb; rfl
  · intro a b ha hb xs _
    simp only [gpPredictImpl, Option.some.injEq] at ha hb
    subst ha hb
    classical
    obtain ⟨h1, -, h3⟩ := C27_forms_agree g f (fun i : Fin xs.length => xs[i])
    simp only
    congr 1
    have : g.predictMarginal f (fun i : Fin xs.length => xs[i]) =
        ⟨(g.predictMarginal f (fun i : Fin xs.length => xs[i])).mean,
          (g.predictMarginal f (fun i : Fin xs.length => xs[i])).variance⟩ := rfl
    rw [this, h1, show (g.predictMarginal f fun i : Fin xs.length => xs[i]).variance = _ from funext h3]

/-! ## Measurement noise -/

theorem withMeasurementNoise_eq {X : Type} (wrap : X → X) (xs : List X) :
    withMeasurementNoise wrap xs = xs.map wrap := by
  have : ∀ (l acc : List X), l.foldl (fun measurements f => measurements ++ [wrap f]) acc = acc ++ l.map wrap := by
    intro l
    induction l with
    | nil => intro acc; simp
    | cons x l ih => intro acc; rw [List.foldl_cons, ih]; simp
  exact (this xs []).trans (by simp)

/-- The covariance of a signal `k` plus `measurement_only(noise)` between features and measurements. -/
theorem C86_signal_plus_noise {T : Type} {V : T → Type} (k noise : Caller V) (hk : NoMeas k)
    (t : T) (hkv : k.valid (.base t) (.base t) = true) (hnv : noise.valid (.base t) (.base t) = true) (x y : V t) :
    let c := covSum k (measurementOnly noise)
    (defaultCaller c).call (.base t) (.base t) x y = k.call (.base t) (.base t) x y ∧
      (defaultCaller c).call (.meas (.base t)) (.base t) x y = k.call (.base t) (.base t) x y ∧
      (defaultCaller c).call (.base t) (.meas (.base t)) x y = k.call (.base t) (.base t) x y ∧
      (defaultCaller c).call (.meas (.base t)) (.meas (.base t)) x y =
        k.call (.base t) (.base t) x y + noise.call (.base t) (.base t) x y := by
  intro c
  have kv : (defaultCaller k).valid (.base t) (.base t) = true := by
    show (k.valid _ _ || k.valid _ _) = true
    rw [hkv]; rfl
  have kbase : (defaultCaller k).call (.base t) (.base t) x y = k.call (.base t) (.base t) x y := by
    show (if k.valid _ _ then _ else _) = _
    rw [if_pos hkv]
  have nbase : (defaultCaller noise).call (.base t) (.base t) x y = noise.call (.base t) (.base t) x y := by
    show (if noise.valid _ _ then _ else _) = _
    rw [if_pos hnv]
  obtain ⟨-, -, -, hkc⟩ := C21_measurement_transparent k hk (.base t) (.base t) (.base t) (.base t) x y
  obtain ⟨k1, k2, k3⟩ := hkc kv
  obtain ⟨n1, n2, n3, n4⟩ := C21_measurement_only noise t t x y hnv
  -- what the sum accepts
  have ek : ∀ a b : Bool, (equivalentCaller k).valid (if a then .meas (.base t) else .base t)
      (if b then .meas (.base t) else .base t) = true := by
    intro a b
    have hs : (symLayer k).valid (.base t) (.base t) = true := by
      show (k.valid _ _ || k.valid _ _) = true
      rw [hkv]; rfl
    cases a <;> cases b <;> simp [equivalentCaller, measLayer, measValid, hs]
  have en : ∀ a b : Bool, (equivalentCaller (measurementOnly noise)).valid (if a then .meas (.base t) else .base t)
      (if b then .meas (.base t) else .base t) = true := by
    intro a b
    have hs : (symLayer (measurementOnly noise)).valid (.base t) (.base t) = true := by
      show (noise.valid _ _ || noise.valid _ _) = true
      rw [hnv]; rfl
    cases a <;> cases b <;> simp [equivalentCaller, measLayer, measValid, hs]
  have cv : ∀ a b : Bool, c.valid (if a then .meas (.base t) else .base t)
      (if b then .meas (.base t) else .base t) = true := by
    intro a b
    show (_ || _) = true
    rw [ek a b]; rfl
  have c00 : c.valid (.base t) (.base t) = true := cv false false
  have c10 : c.valid (.meas (.base t)) (.base t) = true := cv true false
  have c01 : c.valid (.base t) (.meas (.base t)) = true := cv false true
  have c11 : c.valid (.meas (.base t)) (.meas (.base t)) = true := cv true true
  refine ⟨?_, ?_, ?_, ?_⟩
  · show (if c.valid (.base t) (.base t) then c.call (.base t) (.base t) x y else _) = _
    rw [if_pos c00]
    show (if _ then _ else _) = _
    rw [if_pos (by rw [Bool.and_eq_true]; exact ⟨ek false false, en false false⟩), kbase, n2, add_zero]
  · have hv : (linLayer (varLayer (symLayer c))).valid (.meas (.base t)) (.base t) = true := by
      show (c.valid _ _ || c.valid _ _) = true
      rw [c10]; rfl
    show (if (linLayer (varLayer (symLayer c))).valid (.meas (.base t)) (.base t) then
      (if c.valid (.meas (.base t)) (.base t) then c.call (.meas (.base t)) (.base t) x y else _) else _) = _
    rw [if_pos hv, if_pos c10]
    show (if _ then _ else _) = _
    rw [if_pos (by rw [Bool.and_eq_true]; exact ⟨ek true false, en true false⟩), k2, kbase, n3, add_zero]
  · have hv : (linLayer (varLayer (symLayer c))).valid (.base t) (.meas (.base t)) = true := by
      show (c.valid _ _ || c.valid _ _) = true
      rw [c01]; rfl
    show (if (linLayer (varLayer (symLayer c))).valid (.base t) (.meas (.base t)) then
      (if c.valid (.base t) (.meas (.base t)) then c.call (.base t) (.meas (.base t)) x y else _) else _) = _
    rw [if_pos hv, if_pos c01]
    show (if _ then _ else _) = _
    rw [if_pos (by rw [Bool.and_eq_true]; exact ⟨ek false true, en false true⟩), k3, kbase, n4, add_zero]
  · have hv : (linLayer (varLayer (symLayer c))).valid (.meas (.base t)) (.meas (.base t)) = true := by
      show (c.valid _ _ || c.valid _ _) = true
      rw [c11]; rfl
    show (if (linLayer (varLayer (symLayer c))).valid (.meas (.base t)) (.meas (.base t)) then
      (if c.valid (.meas (.base t)) (.meas (.base t)) then
        c.call (.meas (.base t)) (.meas (.base t)) x y else _) else _) = _
    rw [if_pos hv, if_pos c11]
    show (if _ then _ else _) = _
    rw [if_pos (by rw [Bool.and_eq_true]; exact ⟨ek true true, en true true⟩), k1, kbase, n1, nbase]

theorem explained_congr {n : Type} [Fintype n] (S : Solver n) {q q' : Nat} (h : q = q') {M : Matrix n (Fin q) ℝ}
    {M' : Matrix n (Fin q') ℝ} (hM : ∀ a i (hi : i < q) (hi' : i < q'), M a ⟨i, hi⟩ = M' a ⟨i, hi'⟩)
    (i j : Nat) (hi : i < q) (hj : j < q) (hi' : i < q') (hj' : j < q') :
    (Mᵀ * S.solve M) ⟨i, hi⟩ ⟨j, hj⟩ = (M'ᵀ * S.solve M') ⟨i, hi'⟩ ⟨j, hj'⟩ := by
  subst h
  have : M = M' := by
    ext a k
    exact hM a k k.2 k.2
  rw [this]

/-- `predict_with_measurement_noise` of a Gaussian process with covariance `k + measurement_only(noise)`: one
prediction per feature, with the mean of `predict` and the covariance of `predict` plus the covariance of the
noise, for every fit on features which are not measurements themselves. -/
theorem C86_measurement_noise {T : Type} {V : T → Type} {n : Type} [Fintype n] (k noise : Caller V) (hk : NoMeas k)
    (t : T) (hkv : k.valid (.base t) (.base t) = true) (hnv : noise.valid (.base t) (.base t) = true)
    (mean : V t → ℝ) (f : GpFit (Bool × V t) n) (hf : ∀ i, (f.features i).1 = false) (xs : List (V t)) :
    let g := gpOfCaller (covSum k (measurementOnly noise)) t mean
    let plain := xs.map fun x => (false, x)
    let noisy := withMeasurementNoise (fun x => (true, x.2)) plain
    noisy.length = xs.length ∧
      (∀ (i : Nat) (h : i < noisy.length) (h' : i < plain.length),
        (g.predictJoint f fun i : Fin noisy.length => noisy[i]).mean ⟨i, h⟩ =
          (g.predictJoint f fun i : Fin plain.length => plain[i]).mean ⟨i, h'⟩) ∧
      ∀ (i j : Nat) (hi : i < noisy.length) (hj : j < noisy.length) (hi' : i < plain.length) (hj' : j < plain.length)
        (xi : i < xs.length) (xj : j < xs.length),
        (g.predictJoint f fun i : Fin noisy.length => noisy[i]).covariance ⟨i, hi⟩ ⟨j, hj⟩ =
          (g.predictJoint f fun i : Fin plain.length => plain[i]).covariance ⟨i, hi'⟩ ⟨j, hj'⟩ +
            noise.call (.base t) (.base t) xs[i] xs[j] := by
  intro g plain noisy
  have hnoisy : noisy = xs.map fun x => (true, x) := by
    show withMeasurementNoise _ _ = _
    rw [withMeasurementNoise_eq, List.map_map]; rfl
  have hlen : noisy.length = plain.length := by rw [hnoisy]; simp [plain]
  have hN : ∀ (i : Nat) (h : i < noisy.length), noisy[i] = (true, xs[i]'(by rw [hnoisy] at h; simpa using h)) := by
    intro i h
    simp only [hnoisy, List.getElem_map]
  have hP : ∀ (i : Nat) (h : i < plain.length), plain[i] = (false, xs[i]'(by simpa [plain] using h)) := by
    intro i h
    simp only [plain, List.getElem_map]
  have hcross : ∀ (a : n) (x : V t), g.cov (f.features a) (true, x) = g.cov (f.features a) (false, x) := by
    intro a x
    have h0 := hf a
    revert h0
    rcases f.features a with ⟨b, z⟩
    intro h0
    simp only at h0
    subst h0
    obtain ⟨e1, -, e3, -⟩ := C86_signal_plus_noise k noise hk t hkv hnv z x
    exact e3.trans e1.symm
  have hcm : ∀ (a : n) (i : Nat) (h : i < noisy.length) (h' : i < plain.length),
      g.covMat f.features (fun i : Fin noisy.length => noisy[i]) a ⟨i, h⟩ =
        g.covMat f.features (fun i : Fin plain.length => plain[i]) a ⟨i, h'⟩ := by
    intro a i h h'
    show g.cov (f.features a) noisy[i] = g.cov (f.features a) plain[i]
    rw [hN, hP]
    exact hcross a _
  refine ⟨by rw [hlen]; simp [plain], fun i h h' => ?_, fun i j hi hj hi' hj' xi xj => ?_⟩
  · show (∑ a, _ * _) + g.mean noisy[i] = (∑ a, _ * _) + g.mean plain[i]
    congr 1
    · exact Finset.sum_congr rfl fun a _ => by rw [transpose_apply, transpose_apply, hcm a i h h']
    · rw [hN, hP]; rfl
  · have hprior : g.cov noisy[i] noisy[j] = g.cov plain[i] plain[j] + noise.call (.base t) (.base t) xs[i] xs[j] := by
      rw [hN, hN, hP, hP]
      obtain ⟨e1, -, -, e4⟩ := C86_signal_plus_noise k noise hk t hkv hnv xs[i] xs[j]
      show (defaultCaller _).call (.meas (.base t)) (.meas (.base t)) _ _ =
        (defaultCaller _).call (.base t) (.base t) _ _ + _
      rw [e4, e1]
    have hexp : ((g.covMat f.features (fun i : Fin noisy.length => noisy[i]))ᵀ *
          f.trainCovariance.solve (g.covMat f.features (fun i : Fin noisy.length => noisy[i]))) ⟨i, hi⟩ ⟨j, hj⟩ =
        ((g.covMat f.features (fun i : Fin plain.length => plain[i]))ᵀ *
          f.trainCovariance.solve (g.covMat f.features (fun i : Fin plain.length => plain[i]))) ⟨i, hi'⟩ ⟨j, hj'⟩ := by
      exact explained_congr f.trainCovariance hlen hcm i j hi hj hi' hj'
    show g.cov noisy[i] noisy[j] - _ = g.cov plain[i] plain[j] - _ + _
    refine (congrArg₂ (fun a b : ℝ => a - b) hprior hexp).trans ?_
    ring

/-- Fitting such a process takes the training features as measurements: the covariance that is factored holds the
signal, the noise and the variance of the targets. -/
theorem C86_training_noise {T : Type} {V : T → Type} {n : Type} [Fintype n] [DecidableEq n] (k noise : Caller V)
    (hk : NoMeas k) (t : T) (hkv : k.valid (.base t) (.base t) = true) (hnv : noise.valid (.base t) (.base t) = true)
    (mean : V t → ℝ) (ldlt : Matrix n n ℝ → Ldlt n) (xs : n → V t) (meas : n → Bool) (targets : Marginal n) :
    ∃ cov : Matrix n n ℝ,
      (∀ i j, cov i j = k.call (.base t) (.base t) (xs i) (xs j) + noise.call (.base t) (.base t) (xs i) (xs j) +
        if i = j then targets.variance i else 0) ∧
      ((gpOfCaller (covSum k (measurementOnly noise)) t mean).fit ldlt (fun i => (meas i, xs i)) targets).trainCovariance
        = (ldlt cov).solver := by
  refine ⟨_, fun i j => ?_, rfl⟩
  show (defaultCaller _).call (.meas (.base t)) (.meas (.base t)) (xs i) (xs j) +
    (diagonal targets.variance : Matrix n n ℝ) i j = _
  rw [(C86_signal_plus_noise k noise hk t hkv hnv (xs i) (xs j)).2.2.2, diagonal_apply]

/-! ## Examples -/

/-- A model with a joint prediction only: the marginal and the mean are derived from it. -/
example : (predictionMarginal (F := Nat) ⟨none, none, some fun xs => ⟨xs.length, ⟨fun _ => 2, 1⟩⟩⟩ [5, 6]) =
    some ⟨2, ⟨fun _ => 2, fun i => (1 : Matrix (Fin 2) (Fin 2) ℝ) i i⟩⟩ := rfl

/-- The hypotheses of `C86_measurement_noise` can be met: a constant signal and a constant noise. -/
example : ∃ (k noise : Caller (fun _ : Unit => Nat)), NoMeas k ∧ k.valid (.base ()) (.base ()) = true ∧
    noise.valid (.base ()) (.base ()) = true ∧ noise.call (.base ()) (.base ()) (3 : Nat) (3 : Nat) = 1 / 2 := by
  let v : Ty Unit → Ty Unit → Bool := fun a b => match a, b with
    | .base _, .base _ => true
    | _, _ => false
  refine ⟨⟨v, fun _ _ _ _ => 1⟩, ⟨v, fun _ _ _ _ => 1 / 2⟩, ?_, rfl, rfl, rfl⟩
  intro a b
  constructor
  · rfl
  · cases a <;> rfl

end Albatross
