import Verif.Callers
import Mathlib.Algebra.BigOperators.Group.List.Basic
import Mathlib.Algebra.BigOperators.Ring.List
import Mathlib.Tactic.Ring
import Mathlib.Tactic.Linarith

/-! # Covariance functions of composite arguments: C21 -/

namespace Albatross

variable {T : Type} {F : T → Type}

section helpers

theorem linSum_eq {A : Type} (xs : List (ℝ × A)) (f : A → ℝ) :
    linSum xs f = (xs.map fun c => c.1 * f c.2).sum := by
  have : ∀ (acc : ℝ), xs.foldl (fun sum cx => sum + cx.1 * f cx.2) acc =
      acc + (xs.map fun c => c.1 * f c.2).sum := by
    induction xs with
    | nil => intro acc; simp
    | cons x xs ih => intro acc; rw [List.foldl_cons, ih]; simp; ring
  rw [linSum, this, zero_add]

theorem linSum_comm {A B : Type} (xs : List (ℝ × A)) (ys : List (ℝ × B)) (f : A → B → ℝ) :
    linSum xs (fun u => linSum ys fun v => f u v) = linSum ys fun v => linSum xs fun u => f u v := by
  simp only [linSum_eq]
  induction xs with
  | nil =>
    simp
  | cons x xs ih =>
    simp only [List.map_cons, List.sum_cons]
    rw [ih]
    rw [← List.sum_map_mul_left, ← List.sum_map_add]
    congr 1
    apply List.map_congr_left
    intro v _
    ring

/-- Acceptance and value do not depend on the order of the arguments. -/
structure SymmOk (c : Caller F) : Prop where
  valid_comm : ∀ τ σ, c.valid τ σ = c.valid σ τ
  call_comm : ∀ τ σ x y, c.valid τ σ = true → c.call τ σ x y = c.call σ τ y x

theorem symLayer_ok (c : Caller F)
    (h : ∀ τ σ x y, c.valid τ σ = true → c.valid σ τ = true → c.call τ σ x y = c.call σ τ y x) :
    SymmOk (symLayer c) where
  valid_comm τ σ := Bool.or_comm _ _
  call_comm τ σ x y hv := by
    simp only [symLayer] at hv ⊢
    by_cases h1 : c.valid τ σ = true
    · by_cases h2 : c.valid σ τ = true
      · simp [h1, h2, h τ σ x y h1 h2]
      · simp [h1, h2]
    · by_cases h2 : c.valid σ τ = true
      · simp [h1, h2]
      · simp [h1, h2] at hv

theorem lin_one (c : Caller F) (h : SymmOk c) (a σ : Ty T) (x : List (ℝ × Val F a)) (x' : Val F (.lin a))
    (hx : x = x') (y : Val F σ) (hv : (c.valid a σ || c.valid (.lin a) σ) = true) :
    (if c.valid a σ then linSum x fun u => c.call a σ u y else c.call (.lin a) σ x' y) =
    (if c.valid σ a then linSum x fun u => c.call σ a y u else c.call σ (.lin a) y x') := by
  subst hx
  by_cases h1 : c.valid a σ = true
  · have h2 : c.valid σ a = true := by rw [h.valid_comm]; exact h1
    rw [if_pos h1, if_pos h2]
    congr 1
    funext u
    exact h.call_comm _ _ _ _ h1
  · have h2 : ¬ c.valid σ a = true := by rw [h.valid_comm]; exact h1
    rw [if_neg h1, if_neg h2]
    apply h.call_comm
    simpa [h1] using hv

theorem lin_one' (c : Caller F) (h : SymmOk c) (a σ : Ty T) (x : List (ℝ × Val F a))
    (x' : Val F (.lin a)) (hx : x = x') (y : Val F σ)
    (hv : (c.valid σ a || c.valid σ (.lin a)) = true) :
    (if c.valid σ a then linSum x fun u => c.call σ a y u else c.call σ (.lin a) y x') =
    (if c.valid a σ then linSum x fun u => c.call a σ u y else c.call (.lin a) σ x' y) :=
  (lin_one c h a σ x x' hx y (by rw [h.valid_comm a, h.valid_comm (.lin a)]; exact hv)).symm

theorem lin_two (c : Caller F) (h : SymmOk c) (a b : Ty T) (x : List (ℝ × Val F a))
    (x' : Val F (.lin a)) (hx : x = x') (y : List (ℝ × Val F b)) (y' : Val F (.lin b)) (hy : y = y')
    (hv : linValid c (.lin a) (.lin b) = true) :
    (if c.valid a b then linSum x fun u => linSum y fun v => c.call a b u v
      else if c.valid (.lin a) b then linSum y fun v => c.call (.lin a) b x' v
      else if c.valid a (.lin b) then linSum x fun u => c.call a (.lin b) u y'
      else c.call (.lin a) (.lin b) x' y') =
    (if c.valid b a then linSum y fun u => linSum x fun v => c.call b a u v
      else if c.valid (.lin b) a then linSum x fun v => c.call (.lin b) a y' v
      else if c.valid b (.lin a) then linSum y fun u => c.call b (.lin a) u x'
      else c.call (.lin b) (.lin a) y' x') := by
  subst hx hy
  rw [h.valid_comm b a, h.valid_comm (.lin b) a, h.valid_comm b (.lin a)]
  by_cases h1 : c.valid a b = true
  · rw [if_pos h1, if_pos h1, linSum_comm]
    congr 1; funext v; congr 1; funext u
    exact h.call_comm _ _ _ _ h1
  rw [if_neg h1, if_neg h1]
  by_cases h2 : c.valid (.lin a) b = true
  · have h3 : ¬ c.valid a (.lin b) = true := by
      intro h3; simp [linValid, h1, h2, h3] at hv
    rw [if_pos h2, if_neg h3, if_pos h2]
    congr 1; funext v
    exact h.call_comm _ _ _ _ h2
  rw [if_neg h2, if_neg h2]
  by_cases h3 : c.valid a (.lin b) = true
  · rw [if_pos h3, if_pos h3]
    congr 1; funext v
    exact h.call_comm _ _ _ _ h3
  rw [if_neg h3, if_neg h3]
  apply h.call_comm
  simpa [linValid, h1, h2, h3] using hv

theorem linLayer_ok {c : Caller F} (h : SymmOk c) : SymmOk (linLayer c) where
  valid_comm τ σ := by
    cases τ <;> cases σ <;> simp only [linLayer, linValid] <;>
      first
        | exact h.valid_comm _ _
        | (rename_i a b
           rw [h.valid_comm a b, h.valid_comm (.lin a) b, h.valid_comm a (.lin b),
            h.valid_comm (.lin a) (.lin b)]
           cases c.valid b a <;> cases c.valid b (.lin a) <;> cases c.valid (.lin b) a <;> rfl)
        | (congr 1 <;> exact h.valid_comm _ _)
  call_comm τ σ x y hv := by
    cases τ <;> cases σ <;>
      first
        | exact h.call_comm _ _ x y hv
        | exact lin_two c h _ _ x x rfl y y rfl hv
        | exact lin_one c h _ _ x x rfl y hv
        | exact lin_one' c h _ _ y y rfl x hv

theorem meas_one (c : Caller F) (h : SymmOk c) (a σ : Ty T) (x : Val F a) (x' : Val F (.meas a))
    (hx : x = x') (y : Val F σ) (hv : (c.valid (.meas a) σ || c.valid a σ) = true) :
    (if c.valid (.meas a) σ then c.call (.meas a) σ x' y else c.call a σ x y) =
    (if c.valid σ (.meas a) then c.call σ (.meas a) y x' else c.call σ a y x) := by
  subst hx
  rw [h.valid_comm σ (.meas a)]
  split_ifs with h1
  · exact h.call_comm _ _ _ _ h1
  · apply h.call_comm
    simpa [h1] using hv

theorem meas_one' (c : Caller F) (h : SymmOk c) (a σ : Ty T) (x : Val F a) (x' : Val F (.meas a))
    (hx : x = x') (y : Val F σ) (hv : (c.valid σ (.meas a) || c.valid σ a) = true) :
    (if c.valid σ (.meas a) then c.call σ (.meas a) y x' else c.call σ a y x) =
    (if c.valid (.meas a) σ then c.call (.meas a) σ x' y else c.call a σ x y) :=
  (meas_one c h a σ x x' hx y (by rw [h.valid_comm a, h.valid_comm (.meas a)]; exact hv)).symm

theorem measLayer_ok {c : Caller F} (h : SymmOk c) : SymmOk (measLayer c) where
  valid_comm τ σ := by
    cases τ <;> cases σ <;> simp only [measLayer, measValid] <;>
      first
        | exact h.valid_comm _ _
        | (rename_i a b
           rw [h.valid_comm a b, h.valid_comm (.meas a) b, h.valid_comm a (.meas b),
            h.valid_comm (.meas a) (.meas b)]
           cases c.valid b a <;> cases c.valid b (.meas a) <;> cases c.valid (.meas b) a <;> rfl)
        | (congr 1 <;> exact h.valid_comm _ _)
  call_comm τ σ x y hv := by
    cases τ <;> cases σ <;> simp only [measLayer, measValid, measCall] at hv ⊢ <;>
      first
        | exact h.call_comm _ _ x y hv
        | (rename_i a b
           rw [h.valid_comm (.meas b) (.meas a), h.valid_comm b a, h.valid_comm b (.meas a)]
           split_ifs with h1 h2 h3 h4 h5
           all_goals first
             | exact h.call_comm _ _ _ _ (by assumption)
             | simp_all)
        | exact meas_one c h _ _ _ _ rfl _ hv
        | exact meas_one' c h _ _ _ _ rfl _ hv

theorem varLayer_ok {c : Caller F} (h : SymmOk c) : SymmOk (varLayer c) where
  valid_comm τ σ := by
    cases τ <;> cases σ <;> simp only [varLayer, varValid] <;>
      first
        | exact h.valid_comm _ _
        | exact Bool.and_comm _ _
  call_comm τ σ x y hv := by
    cases τ <;> cases σ <;>
      first
        | exact h.call_comm _ _ x y hv
        | rfl
        | (simp only [varLayer, varCall, callVisitor]
           rw [h.valid_comm]
           split_ifs with h1
           · exact (h.call_comm _ _ _ _ h1).symm
           · rfl)

theorem defaultCaller_ok (c : Caller F)
    (h : ∀ τ σ x y, c.valid τ σ = true → c.valid σ τ = true → c.call τ σ x y = c.call σ τ y x) :
    SymmOk (defaultCaller c) :=
  varLayer_ok (measLayer_ok (linLayer_ok (varLayer_ok (symLayer_ok c h))))

end helpers

/-! ## Specification -/

/-- A basic type or a variant of basic types. -/
inductive Plain : Ty T → Prop
  | base (t : T) : Plain (.base t)
  | var (n : Nat) (alts : Fin n → T) : Plain (.var n fun i => .base (alts i))

/-- `Σᵢ Σⱼ aᵢ bⱼ k(uᵢ, vⱼ)`. -/
def biSum {A B : Type} (xs : List (ℝ × A)) (ys : List (ℝ × B)) (k : A → B → ℝ) : ℝ :=
  (xs.map fun p => (ys.map fun q => p.1 * q.1 * k p.2 q.2).sum).sum

def isVar : Ty T → Bool
  | .var _ _ => true
  | _ => false

/-- The implementation never distinguishes measurements. -/
def NoMeas (c : Caller F) : Prop := ∀ τ σ, c.valid (.meas τ) σ = false ∧ c.valid τ (.meas σ) = false

/-- The implementation never takes linear combinations itself. -/
def NoLin (c : Caller F) : Prop := ∀ τ σ, c.valid (.lin τ) σ = false ∧ c.valid τ (.lin σ) = false

/-- The implementation never takes variants itself. -/
def NoVar (c : Caller F) : Prop :=
  ∀ τ σ, (isVar τ = true → c.valid τ σ = false) ∧ (isVar σ = true → c.valid τ σ = false)

section helpers

theorem linSum_linSum {A B : Type} (xs : List (ℝ × A)) (ys : List (ℝ × B)) (f : A → B → ℝ) :
    (linSum xs fun u => linSum ys fun v => f u v) = biSum xs ys f := by
  simp only [linSum_eq, biSum]
  congr 1
  apply List.map_congr_left
  intro p _
  rw [← List.sum_map_mul_left]
  congr 1
  apply List.map_congr_left
  intro q _
  ring

theorem inner_eq (c : Caller F) {τ σ : Ty T} (hτ : Plain τ) (hσ : Plain σ) :
    (varLayer (symLayer c)).valid τ σ = (defaultCaller c).valid τ σ ∧
    (varLayer (symLayer c)).call τ σ = (defaultCaller c).call τ σ := by
  cases hτ <;> cases hσ <;> refine ⟨?_, ?_⟩ <;> rfl

theorem default_linlin (c : Caller F) (τ σ : Ty T) (x : List (ℝ × Val F τ)) (y : List (ℝ × Val F σ)) :
    (defaultCaller c).call (.lin τ) (.lin σ) x y =
      linCall (varLayer (symLayer c)) (.lin τ) (.lin σ) x y := rfl

theorem noMeas_var (c : Caller F) (hc : NoMeas c) : NoMeas (varLayer (symLayer c)) := by
  have h : NoMeas (symLayer c) := fun τ σ => by simp [symLayer, (hc _ _).1, (hc _ _).2]
  intro τ σ
  refine ⟨?_, ?_⟩
  · cases σ <;> first | exact (h _ _).1 | simp [varLayer, varValid, (h _ _).1]
  · cases τ <;> first | exact (h _ _).2 | simp [varLayer, varValid, (h _ _).1]

theorem noMeas_inner (c : Caller F) (hc : NoMeas c) : NoMeas (linLayer (varLayer (symLayer c))) := by
  have h := noMeas_var c hc
  intro τ σ
  refine ⟨?_, ?_⟩
  · cases σ <;> first | exact (h _ _).1 | simp [linLayer, linValid, (h _ _).1]
  · cases τ <;> first | exact (h _ _).2 | simp [linLayer, linValid, (h _ _).2]

end helpers

/-! ## C21 -/

/-- Swapping the arguments changes neither whether a call is accepted nor its value, whatever the
nesting of the argument types, provided the implementation agrees with itself where it is defined in
both orders. -/
theorem C21_symmetric (c : Caller F)
    (h : ∀ τ σ x y, c.valid τ σ = true → c.valid σ τ = true → c.call τ σ x y = c.call σ τ y x)
    (τ σ : Ty T) :
    (defaultCaller c).valid τ σ = (defaultCaller c).valid σ τ ∧
    ∀ x y, (defaultCaller c).valid τ σ = true →
      (defaultCaller c).call τ σ x y = (defaultCaller c).call σ τ y x :=
  ⟨(defaultCaller_ok c h).valid_comm τ σ, fun x y hv => (defaultCaller_ok c h).call_comm τ σ x y hv⟩

/-- An implementation given for one order only is usable in both, with the same value. -/
theorem C21_one_order_suffices (c : Caller F) (s t : T) (x : F s) (y : F t)
    (h : c.valid (.base s) (.base t) = true) (h' : c.valid (.base t) (.base s) = false) :
    (defaultCaller c).valid (.base s) (.base t) = true ∧
    (defaultCaller c).valid (.base t) (.base s) = true ∧
    (defaultCaller c).call (.base s) (.base t) x y = c.call (.base s) (.base t) x y ∧
    (defaultCaller c).call (.base t) (.base s) y x = c.call (.base s) (.base t) x y := by
  refine ⟨?_, ?_, ?_, ?_⟩
  · show (c.valid _ _ || c.valid _ _) = true
    rw [h]; rfl
  · show (c.valid _ _ || c.valid _ _) = true
    rw [h, h']; rfl
  · show (if c.valid _ _ then _ else _) = _
    rw [if_pos h]
  · show (if c.valid _ _ then _ else _) = _
    rw [if_neg (by simp [h'])]

/-- Two linear combinations: the covariance is the double sum of coefficient products times the
covariance of the values. -/
theorem C21_bilinear (c : Caller F) (τ σ : Ty T) (hτ : Plain τ) (hσ : Plain σ)
    (hv : (defaultCaller c).valid τ σ = true)
    (x : List (ℝ × Val F τ)) (y : List (ℝ × Val F σ)) :
    (defaultCaller c).valid (.lin τ) (.lin σ) = true ∧
    (defaultCaller c).call (.lin τ) (.lin σ) x y = biSum x y fun u v => (defaultCaller c).call τ σ u v := by
  obtain ⟨e1, e2⟩ := inner_eq c hτ hσ
  rw [← e1] at hv
  refine ⟨?_, ?_⟩
  · show linValid (varLayer (symLayer c)) (.lin τ) (.lin σ) = true
    simp only [linValid, hv, Bool.true_or]
  · rw [default_linlin]
    show (if _ then _ else _) = _
    rw [if_pos hv, e2]
    exact linSum_linSum _ _ _

/-- A linear combination against a plain value, in either order. -/
theorem C21_linear_one_side (c : Caller F) (τ σ : Ty T) (hτ : Plain τ) (hσ : ∃ t, σ = .base t)
    (hv : (defaultCaller c).valid τ σ = true) (hv' : (defaultCaller c).valid σ τ = true)
    (x : List (ℝ × Val F τ)) (y : Val F σ) :
    (defaultCaller c).call (.lin τ) σ x y =
      (x.map fun p => p.1 * (defaultCaller c).call τ σ p.2 y).sum ∧
    (defaultCaller c).call σ (.lin τ) y x =
      (x.map fun p => p.1 * (defaultCaller c).call σ τ y p.2).sum := by
  obtain ⟨t, rfl⟩ := hσ
  obtain ⟨e1, e2⟩ := inner_eq c hτ (Plain.base t)
  obtain ⟨e3, e4⟩ := inner_eq c (Plain.base t) hτ
  rw [← e1] at hv
  rw [← e3] at hv'
  refine ⟨?_, ?_⟩
  · show (if _ then _ else _) = _
    rw [if_pos hv, e2]
    exact linSum_eq _ _
  · show (if _ then _ else _) = _
    rw [if_pos hv', e4]
    exact linSum_eq _ _

/-- Two variants: the covariance is that of the held alternatives, zero when they are not a pair the
function is defined for. -/
theorem C21_variant_dispatch (c : Caller F) (n m : Nat) (xs : Fin n → Ty T) (ys : Fin m → Ty T)
    (i : Fin n) (j : Fin m) (u : Val F (xs i)) (v : Val F (ys j))
    (hi : isVar (xs i) = false) (hj : isVar (ys j) = false) :
    (defaultCaller c).call (.var n xs) (.var m ys) ⟨i, u⟩ ⟨j, v⟩ =
      if (defaultCaller c).valid (xs i) (ys j) then (defaultCaller c).call (xs i) (ys j) u v else 0 := by
  show callVisitor _ (xs i) u (ys j) v = _
  generalize xs i = τ at u hi ⊢
  generalize ys j = σ at v hj ⊢
  cases τ <;> cases σ <;> first | rfl | (simp [isVar] at hi; done) | simp [isVar] at hj

/-- A variant against another type, in either order. -/
theorem C21_variant_one_side (c : Caller F)
    (h : ∀ τ σ x y, c.valid τ σ = true → c.valid σ τ = true → c.call τ σ x y = c.call σ τ y x)
    (n : Nat) (xs : Fin n → Ty T) (σ : Ty T)
    (i : Fin n) (u : Val F (xs i)) (v : Val F σ)
    (hi : isVar (xs i) = false) (hσ : isVar σ = false) :
    ((defaultCaller c).call σ (.var n xs) v ⟨i, u⟩ =
      if (defaultCaller c).valid σ (xs i) then (defaultCaller c).call σ (xs i) v u else 0) ∧
    ((defaultCaller c).call (.var n xs) σ ⟨i, u⟩ v =
      if (defaultCaller c).valid (xs i) σ then (defaultCaller c).call (xs i) σ u v else 0) := by
  have key : (defaultCaller c).call σ (.var n xs) v ⟨i, u⟩ =
      if (defaultCaller c).valid σ (xs i) then (defaultCaller c).call σ (xs i) v u else 0 := by
    have e : (defaultCaller c).call σ (.var n xs) v ⟨i, u⟩ =
        callVisitor (measLayer (linLayer (varLayer (symLayer c)))) σ v (xs i) u := by
      cases σ <;> first | rfl | simp [isVar] at hσ
    rw [e]
    clear e
    generalize xs i = τ at u hi ⊢
    cases τ <;> cases σ <;> first | rfl | (simp [isVar] at hi; done) | simp [isVar] at hσ
  refine ⟨key, ?_⟩
  have e : (defaultCaller c).call (.var n xs) σ ⟨i, u⟩ v =
      (defaultCaller c).call σ (.var n xs) v ⟨i, u⟩ := by
    cases σ <;> first | rfl | simp [isVar] at hσ
  obtain ⟨h1, h2⟩ := C21_symmetric c h σ (xs i)
  rw [e, key, h1]
  split_ifs with h3
  · exact h2 v u (by rw [h1]; exact h3)
  · rfl

/-- A type that may be wrapped in `Measurement`: a basic type, a linear combination of basic types or of
variants of them (wrapping a variant is rejected, measurement.hpp lines 18-21). -/
inductive Wrappable : Ty T → Prop
  | base (t : T) : Wrappable (.base t)
  | lin {τ : Ty T} (h : Plain τ) : Wrappable (.lin τ)

/-- Measurement wrappers are transparent for a function that does not distinguish measurements: wrapping
either or both arguments changes neither acceptance nor value. -/
theorem C21_measurement_transparent (c : Caller F) (hc : NoMeas c) (τ σ : Ty T)
    (hτ : Wrappable τ) (hσ : Wrappable σ) (x : Val F τ) (y : Val F σ) :
    (defaultCaller c).valid (.meas τ) (.meas σ) = (defaultCaller c).valid τ σ ∧
    (defaultCaller c).valid (.meas τ) σ = (defaultCaller c).valid τ σ ∧
    (defaultCaller c).valid τ (.meas σ) = (defaultCaller c).valid τ σ ∧
    ((defaultCaller c).valid τ σ = true →
      (defaultCaller c).call (.meas τ) (.meas σ) x y = (defaultCaller c).call τ σ x y ∧
      (defaultCaller c).call (.meas τ) σ x y = (defaultCaller c).call τ σ x y ∧
      (defaultCaller c).call τ (.meas σ) x y = (defaultCaller c).call τ σ x y) := by
  have key : ∀ c' : Caller F, (c'.valid (.meas τ) (.meas σ) = false) → (c'.valid (.meas τ) σ = false) →
      (c'.valid τ (.meas σ) = false) → isVar τ = false → isVar σ = false →
      (∀ a, τ ≠ .meas a) → (∀ a, σ ≠ .meas a) →
      (varLayer (measLayer c')).valid (.meas τ) (.meas σ) = (varLayer (measLayer c')).valid τ σ ∧
      (varLayer (measLayer c')).valid (.meas τ) σ = (varLayer (measLayer c')).valid τ σ ∧
      (varLayer (measLayer c')).valid τ (.meas σ) = (varLayer (measLayer c')).valid τ σ ∧
      ((varLayer (measLayer c')).valid τ σ = true →
      (varLayer (measLayer c')).call (.meas τ) (.meas σ) x y = (varLayer (measLayer c')).call τ σ x y ∧
      (varLayer (measLayer c')).call (.meas τ) σ x y = (varLayer (measLayer c')).call τ σ x y ∧
      (varLayer (measLayer c')).call τ (.meas σ) x y = (varLayer (measLayer c')).call τ σ x y) := by
    intro c' h1 h2 h3 h4 h5 h6 h7
    cases τ <;> cases σ <;> first
      | (simp [isVar] at h4; done) | (simp [isVar] at h5; done)
      | exact absurd rfl (h6 _) | exact absurd rfl (h7 _)
      | (simp only [varLayer, varValid, varCall, measLayer, measValid, measCall, h1, h2, h3]
         refine ⟨by simp, by simp, by simp, fun hv => ⟨by simp [hv], by simp, by simp⟩⟩)
  have hn := noMeas_inner c hc
  refine key _ (hn _ _).1 (hn _ _).1 (hn _ _).2 ?_ ?_ ?_ ?_
  · cases hτ <;> rfl
  · cases hσ <;> rfl
  · intro a; cases hτ <;> simp
  · intro a; cases hσ <;> simp

/-- A function with its own definition for measurements: wrapped arguments use that definition, plain
arguments the plain one. -/
theorem C21_measurement_distinguished (c : Caller F) (s t : T) (x : F s) (y : F t)
    (hm : c.valid (.meas (.base s)) (.meas (.base t)) = true)
    (hb : c.valid (.base s) (.base t) = true) :
    (defaultCaller c).call (.meas (.base s)) (.meas (.base t)) x y =
      c.call (.meas (.base s)) (.meas (.base t)) x y ∧
    (defaultCaller c).call (.base s) (.base t) x y = c.call (.base s) (.base t) x y := by
  refine ⟨?_, ?_⟩
  · have h1 : (linLayer (varLayer (symLayer c))).valid (.meas (.base s)) (.meas (.base t)) = true := by
      show (c.valid _ _ || c.valid _ _) = true
      rw [hm]; rfl
    show (if _ then _ else _) = _
    rw [if_pos h1]
    show (if _ then _ else _) = _
    rw [if_pos hm]
  · show (if _ then _ else _) = _
    rw [if_pos hb]

/-- `measurement_only(cov)`: the covariance of `cov` between two measurements, zero otherwise. -/
theorem C21_measurement_only (c : Caller F) (s t : T) (x : F s) (y : F t)
    (hb : c.valid (.base s) (.base t) = true) :
    (defaultCaller (measurementOnly c)).call (.meas (.base s)) (.meas (.base t)) x y =
      (defaultCaller c).call (.base s) (.base t) x y ∧
    (defaultCaller (measurementOnly c)).call (.base s) (.base t) x y = 0 ∧
    (defaultCaller (measurementOnly c)).call (.meas (.base s)) (.base t) x y = 0 ∧
    (defaultCaller (measurementOnly c)).call (.base s) (.meas (.base t)) x y = 0 := by
  have hm : (measurementOnly c).valid (.meas (.base s)) (.meas (.base t)) = true := by
    show (c.valid _ _ || c.valid _ _) = true
    rw [hb]; rfl
  obtain ⟨h1, h2⟩ := C21_measurement_distinguished (measurementOnly c) s t x y hm hb
  refine ⟨?_, h2.trans rfl, ?_, ?_⟩
  · rw [h1]
    show (if _ then _ else _) = _
    rw [if_pos hb]
  · show (if _ then (if _ then _ else _) else (if _ then _ else _)) = _
    split_ifs <;> rfl
  · show (if _ then (if _ then _ else _) else (if _ then _ else _)) = _
    split_ifs <;> rfl

/-- What the code does with a *measurement of a linear combination*: the wrapper is dropped before the
combination is expanded, so a measurement-only term contributes nothing to it, although it contributes
to a measurement of each of its parts. -/
theorem C21_measurement_only_linear_combination (c : Caller F) (hc : NoMeas c) (hl : NoLin c) (s t : T)
    (x : List (ℝ × F s)) (y : List (ℝ × F t)) (hb : c.valid (.base s) (.base t) = true) :
    (defaultCaller (measurementOnly c)).valid (.meas (.lin (.base s))) (.meas (.lin (.base t))) = true ∧
    (defaultCaller (measurementOnly c)).call (.meas (.lin (.base s))) (.meas (.lin (.base t))) x y = 0 := by
  have hv : (symLayer (measurementOnly c)).valid (.base s) (.base t) = true := by
    show (c.valid _ _ || c.valid _ _) = true
    rw [hb]; rfl
  have h0 : (linLayer (varLayer (symLayer (measurementOnly c)))).valid
      (.meas (.lin (.base s))) (.meas (.lin (.base t))) = false := by
    show ((c.valid _ _ || c.valid _ _) || (c.valid _ _ || c.valid _ _)) = false
    simp [(hl _ _).1, (hc _ _).1]
  have h1 : (linLayer (varLayer (symLayer (measurementOnly c)))).valid
      (.lin (.base s)) (.lin (.base t)) = true := by
    show (_ || _) = true
    rw [Bool.or_eq_true]
    exact Or.inl hv
  refine ⟨?_, ?_⟩
  · show (_ || _ || _) = true
    rw [h1, Bool.or_true, Bool.true_or]
  · show (if _ then _ else if _ then _ else _) = _
    rw [if_neg (by rw [h0]; simp), if_pos h1]
    refine ((C21_bilinear (measurementOnly c) (.base s) (.base t) (.base s) (.base t) hv x y).2).trans ?_
    simp only [biSum]
    have : ∀ u v, (defaultCaller (measurementOnly c)).call (.base s) (.base t) u v = 0 := by
      intro u v
      show (if _ then (0 : ℝ) else 0) = 0
      split_ifs <;> rfl
    simp only [this, mul_zero]
    have z : ∀ {A : Type} (l : List A), (l.map fun _ => (0 : ℝ)).sum = 0 := fun l => by simp
    refine (congrArg List.sum (List.map_congr_left fun p _ => z _)).trans (z _)

section examples

/-- Two feature types holding reals; covariance 1 + x y between `a`s, 3 x y from `a` to `b` (one order
only), nothing between `b`s. -/
def exCov : Caller (fun _ : Bool => ℝ) where
  valid
    | .base true, .base _ => true
    | _, _ => false
  call
    | .base true, .base true, x, y => 1 + (show ℝ from x) * (show ℝ from y)
    | .base true, .base false, x, y => 3 * (show ℝ from x) * (show ℝ from y)
    | _, _, _, _ => 0

example : (defaultCaller exCov).call (.base false) (.base true) (2 : ℝ) (5 : ℝ) = 30 := by
  obtain ⟨-, -, -, h⟩ := C21_one_order_suffices exCov true false (5 : ℝ) (2 : ℝ) rfl rfl
  rw [h]; show (3 : ℝ) * 5 * 2 = 30; norm_num

example : (defaultCaller exCov).call (.lin (.base true)) (.lin (.base true))
    [((2 : ℝ), (1 : ℝ)), (1, (3 : ℝ))] [((1 : ℝ), (2 : ℝ))] = 13 := by
  rw [(C21_bilinear exCov _ _ (.base true) (.base true) rfl _ _).2]
  simp only [biSum, List.map, List.sum_cons, List.sum_nil]
  show (2 * 1 * (1 + 1 * 2) + 0 + (1 * 1 * (1 + 3 * 2) + 0 + 0) : ℝ) = 13
  norm_num

/-- The variant of both types. -/
def exVar : Ty Bool := .var 2 fun i => .base (i == 0)

example : (defaultCaller exCov).call exVar exVar ⟨0, (5 : ℝ)⟩ ⟨1, (2 : ℝ)⟩ = 30 := by
  refine (C21_variant_dispatch exCov 2 2 _ _ 0 1 _ _ rfl rfl).trans ?_
  refine (if_pos rfl).trans ?_
  show (if exCov.valid (.base true) (.base false) then (3 : ℝ) * 5 * 2 else 0) = 30
  rw [if_pos (show exCov.valid (.base true) (.base false) = true from rfl)]
  norm_num

/-- two held `b`s: the function is not defined, the covariance is zero -/
example : (defaultCaller exCov).call exVar exVar ⟨1, (5 : ℝ)⟩ ⟨1, (2 : ℝ)⟩ = 0 := by
  refine (C21_variant_dispatch exCov 2 2 _ _ 1 1 _ _ rfl rfl).trans ?_
  exact if_neg (by show ¬ (false = true); simp)

example : NoMeas exCov := by
  intro τ σ
  refine ⟨rfl, ?_⟩
  cases τ with
  | base t => cases t <;> rfl
  | _ => rfl

end examples

end Albatross
