import Verif.MeanFunctions
import Verif.CallersProps
import Verif.UtilsProps
import Verif.SimpleModelsProps

/-! # Mean functions compose and cancel (C66) -/

namespace Albatross

variable {T : Type} {F : T → Type}

/-! ## Adding and removing -/

section helpers

theorem MeanFn.vector_length (m : MeanFn F) (τ : Ty T) (xs : List (Val F τ)) : (m.vector τ xs).length = xs.length := by
  unfold MeanFn.vector meanVector
  split_ifs <;> simp

theorem addTo_eq (b : Build) (m : MeanFn F) (hz : m.isZero = false) (τ : Ty T) {xs : List (Val F τ)} {t : List ℝ}
    (h : xs.length = t.length) : m.addTo b τ xs t = .ok (List.zipWith (· + ·) t (m.vector τ xs)) := by
  unfold MeanFn.addTo
  rw [hz]
  simp only [Bool.false_eq_true, if_false]
  rw [decide_eq_true (by rw [m.vector_length, h]), albatrossAssert_true, except_ok_bind,
    decide_eq_true (by rw [m.vector_length, h]), eigenAssert_true]
  rfl

theorem removeFrom_eq (b : Build) (m : MeanFn F) (hz : m.isZero = false) (τ : Ty T) {xs : List (Val F τ)}
    {t : List ℝ} (h : xs.length = t.length) :
    m.removeFrom b τ xs t = .ok (List.zipWith (· - ·) t (m.vector τ xs)) := by
  unfold MeanFn.removeFrom
  rw [hz]
  simp only [Bool.false_eq_true, if_false]
  rw [decide_eq_true (by rw [m.vector_length, h]), albatrossAssert_true, except_ok_bind,
    decide_eq_true (by rw [m.vector_length, h]), eigenAssert_true]
  rfl

theorem zero_var {c : MeanCaller F} (h : ∀ τ x, c.call τ x = 0) (τ : Ty T) (x : Val F τ) :
    (meanVar c).call τ x = 0 := by
  cases τ with
  | var n alts =>
    have h1 : ∀ y : (i : Fin n) × Val F (alts i), (if c.valid (alts y.1) = true then c.call (alts y.1) y.2 else 0) = 0 :=
      fun y => by rw [h, ite_self]
    exact h1 x
  | base t => exact h (.base t) x
  | lin a => exact h (.lin a) x
  | meas a => exact h (.meas a) x

theorem zero_lin {c : MeanCaller F} (h : ∀ τ x, c.call τ x = 0) (τ : Ty T) (x : Val F τ) :
    (meanLin c).call τ x = 0 := by
  cases τ with
  | lin a =>
    have h1 : ∀ y : List (ℝ × Val F a), (if c.valid a = true then linSum y (fun u => c.call a u)
        else c.call (.lin a) y) = 0 := fun y => by
      have h2 : c.call (.lin a) y = 0 := h (.lin a) y
      rw [linSum_eq, h2]
      simp [h]
    exact h1 x
  | base t => exact h (.base t) x
  | var n alts => exact h (.var n alts) x
  | meas a => exact h (.meas a) x

theorem zero_meas {c : MeanCaller F} (h : ∀ τ x, c.call τ x = 0) (τ : Ty T) (x : Val F τ) :
    (meanMeas c).call τ x = 0 := by
  cases τ with
  | meas a =>
    have h1 : ∀ y : Val F a, (if c.valid (.meas a) = true then c.call (.meas a) x else c.call a y) = 0 :=
      fun y => by rw [h, h, ite_self]
    exact h1 x
  | base t => exact h (.base t) x
  | var n alts => exact h (.var n alts) x
  | lin a => exact h (.lin a) x

end helpers

/-- **C66**: element `i` of the result is `target[i] ± mean(features[i])`. -/
theorem C66_elementwise (b : Build) (m : MeanFn F) (hz : m.isZero = false) (τ : Ty T) {xs : List (Val F τ)}
    {t : List ℝ} (h : xs.length = t.length) :
    ∃ up down, m.addTo b τ xs t = .ok up ∧ m.removeFrom b τ xs t = .ok down ∧
      up.length = t.length ∧ down.length = t.length ∧
      ∀ (i : Nat) x v, xs[i]? = some x → t[i]? = some v →
        up[i]? = some (v + (defaultMean m.impl).call τ x) ∧ down[i]? = some (v - (defaultMean m.impl).call τ x) := by
  refine ⟨_, _, addTo_eq b m hz τ h, removeFrom_eq b m hz τ h, by simp [m.vector_length, h],
    by simp [m.vector_length, h], fun i x v hx hv => ?_⟩
  have hm : (m.vector τ xs)[i]? = some ((defaultMean m.impl).call τ x) := by
    unfold MeanFn.vector meanVector
    rw [hz]
    simp [hx]
  simp [List.getElem?_zipWith, hm, hv]

/-- **C66**: removing what was added, and adding what was removed, gives back the targets. -/
theorem C66_cancel (b : Build) (m : MeanFn F) (τ : Ty T) {xs : List (Val F τ)} {t : List ℝ}
    (h : xs.length = t.length) :
    (∃ u, m.addTo b τ xs t = .ok u ∧ m.removeFrom b τ xs u = .ok t) ∧
    (∃ u, m.removeFrom b τ xs t = .ok u ∧ m.addTo b τ xs u = .ok t) := by
  cases hz : m.isZero with
  | true =>
    unfold MeanFn.addTo MeanFn.removeFrom
    rw [hz]
    exact ⟨⟨t, rfl, rfl⟩, ⟨t, rfl, rfl⟩⟩
  | false =>
    refine ⟨⟨_, addTo_eq b m hz τ h, ?_⟩, ⟨_, removeFrom_eq b m hz τ h, ?_⟩⟩
    · rw [removeFrom_eq b m hz τ (by simp [m.vector_length, h])]
      congr 1
      apply List.ext_getElem <;> simp [m.vector_length, h]
    · rw [addTo_eq b m hz τ (by simp [m.vector_length, h])]
      congr 1
      apply List.ext_getElem <;> simp [m.vector_length, h]

/-- **C66**: a zero mean changes nothing, and its vector of means is zero. -/
theorem C66_zero (b : Build) (τ : Ty T) (xs : List (Val F τ)) (t : List ℝ) :
    (MeanFn.mk true zeroMean : MeanFn F).addTo b τ xs t = .ok t ∧
    (MeanFn.mk true zeroMean : MeanFn F).removeFrom b τ xs t = .ok t ∧
    (MeanFn.mk true zeroMean : MeanFn F).vector τ xs = xs.map fun x => (defaultMean (zeroMean (F := F))).call τ x := by
  refine ⟨rfl, rfl, ?_⟩
  have h0 : ∀ x, (defaultMean (zeroMean (F := F))).call τ x = 0 := fun x =>
    zero_var (zero_meas (zero_lin (zero_var (c := meanSym zeroMean) fun _ _ => rfl))) τ x
  simp only [h0]
  show List.replicate _ _ = _
  rw [List.map_const']

/-- **C66**: a different number of features and targets is rejected by an assertion; without assertions it is
undefined behaviour.  A zero mean accepts it. -/
theorem C66_sizes (m : MeanFn F) (hz : m.isZero = false) (τ : Ty T) {xs : List (Val F τ)} {t : List ℝ}
    (h : xs.length ≠ t.length) :
    m.addTo .debug τ xs t = .error .assertFail ∧ m.removeFrom .debug τ xs t = .error .assertFail ∧
    m.addTo .ndebug τ xs t = .error .ub ∧ m.removeFrom .ndebug τ xs t = .error .ub := by
  have h1 : (m.vector τ xs).length ≠ t.length := by rwa [m.vector_length]
  unfold MeanFn.addTo MeanFn.removeFrom
  rw [hz]
  simp only [Bool.false_eq_true, if_false]
  rw [decide_eq_false h1, decide_eq_false (Ne.symm h1)]
  exact ⟨rfl, rfl, rfl, rfl⟩

/-! ## Sums and products -/

/-- The composed function, on features it accepts as they are. -/
theorem C66_sum_base (l r : MeanCaller F) (t : T) (x : F t) :
    ((defaultMean l).valid (.base t) = true → (defaultMean r).valid (.base t) = true →
      (defaultMean (meanSum l r)).call (.base t) x = (defaultMean l).call (.base t) x + (defaultMean r).call (.base t) x) ∧
    ((defaultMean l).valid (.base t) = true → (defaultMean r).valid (.base t) = false →
      (defaultMean (meanSum l r)).call (.base t) x = (defaultMean l).call (.base t) x) ∧
    ((defaultMean l).valid (.base t) = false → (defaultMean r).valid (.base t) = true →
      (defaultMean (meanSum l r)).call (.base t) x = (defaultMean r).call (.base t) x) := by
  have h : (defaultMean (meanSum l r)).call (.base t) x = (meanSum l r).call (.base t) x := rfl
  rw [h]
  unfold meanSum
  simp only
  refine ⟨fun h1 h2 => ?_, fun h1 h2 => ?_, fun h1 h2 => ?_⟩ <;> simp [h1, h2]

/-- **C66**: products evaluate pointwise; skipping the right factor when the left one is zero changes nothing. -/
theorem C66_product_base (l r : MeanCaller F) (t : T) (x : F t) :
    ((defaultMean l).valid (.base t) = true → (defaultMean r).valid (.base t) = true →
      (defaultMean (meanProduct l r)).call (.base t) x =
        (defaultMean l).call (.base t) x * (defaultMean r).call (.base t) x) ∧
    ((defaultMean l).valid (.base t) = true → (defaultMean r).valid (.base t) = false →
      (defaultMean (meanProduct l r)).call (.base t) x = (defaultMean l).call (.base t) x) ∧
    ((defaultMean l).valid (.base t) = false → (defaultMean r).valid (.base t) = true →
      (defaultMean (meanProduct l r)).call (.base t) x = (defaultMean r).call (.base t) x) := by
  have h : (defaultMean (meanProduct l r)).call (.base t) x = (meanProduct l r).call (.base t) x := rfl
  rw [h]
  unfold meanProduct
  simp only
  refine ⟨fun h1 h2 => ?_, fun h1 h2 => ?_, fun h1 h2 => ?_⟩
  · rw [h1, h2]
    simp only [Bool.and_self, if_true]
    split_ifs with h0
    · rfl
    · rw [not_not.1 h0, zero_mul]
  · simp [h1, h2]
  · simp [h1, h2]

/-- **C66**: a measurement of a feature has the mean of the feature unless the function says otherwise. -/
theorem C66_measurement (c : MeanCaller F) (t : T) (x : F t) :
    (c.valid (.meas (.base t)) = false →
      (defaultMean c).call (.meas (.base t)) x = (defaultMean c).call (.base t) x) ∧
    (c.valid (.meas (.base t)) = true → (defaultMean c).call (.meas (.base t)) x = c.call (.meas (.base t)) x) := by
  refine ⟨fun h => ?_, fun h => ?_⟩
  · show (if c.valid (.meas (.base t)) = true then _ else _) = _
    rw [h]
    rfl
  · show (if c.valid (.meas (.base t)) = true then _ else _) = _
    rw [h]
    rfl

/-- **C66**: the mean of a combination is the combination of the means. -/
theorem C66_linear (c : MeanCaller F) (t : T) (h : c.valid (.base t) = true) (x : List (ℝ × F t)) :
    (defaultMean c).call (.lin (.base t)) x = (x.map fun p => p.1 * (defaultMean c).call (.base t) p.2).sum := by
  show (if c.valid (.base t) = true then _ else _) = _
  rw [if_pos h]
  exact linSum_eq _ _

/-- **C66**: a variant has the mean of the alternative it holds, and zero if the function does not accept that
alternative. -/
theorem C66_variant (c : MeanCaller F) (n : Nat) (alts : Fin n → T) (i : Fin n) (x : F (alts i)) :
    (defaultMean c).call (.var n fun i => .base (alts i)) (⟨i, x⟩ : (i : Fin n) × F (alts i)) =
      if c.valid (.base (alts i)) = true then (defaultMean c).call (.base (alts i)) x else 0 := rfl

/-- Sums and products on combinations as the code evaluates them: `_call_impl` of the composed function accepts
the combination itself, but the caller prefers to evaluate each term. -/
theorem C66_sum_linear (l r : MeanCaller F) (t : T) (hl : (defaultMean l).valid (.base t) = true)
    (hr : (defaultMean r).valid (.base t) = true) (x : List (ℝ × F t)) :
    (defaultMean (meanSum l r)).call (.lin (.base t)) x =
      (x.map fun p => p.1 * ((defaultMean l).call (.base t) p.2 + (defaultMean r).call (.base t) p.2)).sum ∧
    (defaultMean (meanProduct l r)).call (.lin (.base t)) x =
      (x.map fun p => p.1 * ((defaultMean l).call (.base t) p.2 * (defaultMean r).call (.base t) p.2)).sum := by
  refine ⟨?_, ?_⟩
  · rw [C66_linear (meanSum l r) t (by simp [meanSum, hl]) x]
    congr 1
    refine List.map_congr_left fun p _ => ?_
    rw [(C66_sum_base l r t p.2).1 hl hr]
  · rw [C66_linear (meanProduct l r) t (by simp [meanProduct, hl]) x]
    congr 1
    refine List.map_congr_left fun p _ => ?_
    rw [(C66_product_base l r t p.2).1 hl hr]

/-- A mean function on numbers: the number itself. -/
def identityMean : MeanCaller (T := Unit) fun _ => ℝ where
  valid _ := true
  call
    | .base _, x => id (α := ℝ) x
    | _, _ => 0

example : (MeanFn.mk false (meanSum identityMean identityMean)).addTo .debug (.base ()) ([1, 2] : List ℝ) [10, 20] =
    .ok [12, 24] := by
  refine (addTo_eq .debug (MeanFn.mk false (meanSum identityMean identityMean)) rfl (.base ())
    (xs := ([1, 2] : List ℝ)) (t := [10, 20]) rfl).trans ?_
  have h : ∀ x : ℝ, (defaultMean (meanSum identityMean identityMean)).call (.base ()) x = x + x :=
    fun x => (C66_sum_base identityMean identityMean () x).1 rfl rfl
  refine congrArg Except.ok ?_
  show [10 + (defaultMean (meanSum identityMean identityMean)).call (.base ()) (1 : ℝ),
    20 + (defaultMean (meanSum identityMean identityMean)).call (.base ()) (2 : ℝ)] = _
  rw [h 1, h 2]
  norm_num

end Albatross
