import Verif.CallersProps
import Verif.Psd

/-! # Sums, products and scalings of covariance functions: C20 and C75 -/

namespace Albatross

variable {T : Type} {F : T → Type}

/-! ## Specification -/

/-- A feature as it reaches a covariance function: a basic type, whether it is wrapped in `Measurement`,
and the value. -/
structure Feat (F : T → Type) where
  ty : T
  meas : Bool
  val : F ty

/-- The C++ type of a feature. -/
def atomTy (t : T) : Bool → Ty T
  | true => .meas (.base t)
  | false => .base t

/-- Its value. -/
def atomVal {t : T} (v : F t) : (m : Bool) → Val F (atomTy t m)
  | true => v
  | false => v

/-- Whether the covariance function `c` can be evaluated for a pair of features. -/
noncomputable def accepts (c : Caller F) (x y : Feat F) : Bool :=
  (defaultCaller c).valid (atomTy x.ty x.meas) (atomTy y.ty y.meas)

/-- Covariance between two features: what a covariance matrix of variants holding them contains
(`C21_variant_dispatch`), zero where the function is not defined. -/
noncomputable def kernel (c : Caller F) (x y : Feat F) : ℝ :=
  if accepts c x y then
    (defaultCaller c).call (atomTy x.ty x.meas) (atomTy y.ty y.meas) (atomVal x.val x.meas)
      (atomVal y.val y.meas)
  else 0

section helpers

theorem eqv_valid_atom (c : Caller F) (s t : T) (m n : Bool) :
    (equivalentCaller c).valid (atomTy s m) (atomTy t n) =
      (defaultCaller c).valid (atomTy s m) (atomTy t n) := by
  cases m <;> cases n <;> rfl

/-- Composite functions defined through the equivalent callers of their parts are called directly. -/
theorem composite_atom (p l r : Caller F)
    (hp : ∀ τ σ, p.valid τ σ = ((equivalentCaller l).valid τ σ || (equivalentCaller r).valid τ σ))
    (s t : T) (m n : Bool) (x : Val F (atomTy s m)) (y : Val F (atomTy t n)) :
    (defaultCaller p).valid (atomTy s m) (atomTy t n) = p.valid (atomTy s m) (atomTy t n) ∧
    (p.valid (atomTy s m) (atomTy t n) = true →
      (defaultCaller p).call (atomTy s m) (atomTy t n) x y = p.call (atomTy s m) (atomTy t n) x y) := by
  have hs : ∀ τ σ, p.valid τ σ = p.valid σ τ := fun τ σ => by
    rw [hp, hp]
    have hl := (measLayer_ok (F := F) (c := ⟨(symLayer l).valid, fun _ _ _ _ => 0⟩)
      ⟨fun _ _ => Bool.or_comm _ _, fun _ _ _ _ _ => rfl⟩).valid_comm τ σ
    have hr := (measLayer_ok (F := F) (c := ⟨(symLayer r).valid, fun _ _ _ _ => 0⟩)
      ⟨fun _ _ => Bool.or_comm _ _, fun _ _ _ _ _ => rfl⟩).valid_comm τ σ
    exact congrArg₂ (· || ·) hl hr
  have hsym : ∀ τ σ, (symLayer p).valid τ σ = p.valid τ σ := fun τ σ => by
    show (p.valid τ σ || p.valid σ τ) = _
    rw [hs σ τ, Bool.or_self]
  have hcall : ∀ τ σ x y, p.valid τ σ = true → (symLayer p).call τ σ x y = p.call τ σ x y :=
    fun τ σ x y h => by
      show (if _ then _ else _) = _
      rw [if_pos h]
  cases m <;> cases n
  · exact ⟨hsym _ _, hcall _ _ x y⟩
  · have h1 : p.valid (.base s) (.base t) = true → p.valid (.base s) (.meas (.base t)) = true := by
      rw [hp, hp]
      simp only [equivalentCaller, measLayer, measValid]
      intro h
      simp only [Bool.or_eq_true] at h ⊢
      tauto
    refine ⟨?_, fun h => ?_⟩
    · show ((symLayer p).valid _ _ || (symLayer p).valid _ _) = _
      rw [hsym, hsym]
      show (p.valid (.base s) (.meas (.base t)) || p.valid (.base s) (.base t)) =
        p.valid (.base s) (.meas (.base t))
      cases h2 : p.valid (.base s) (.base t)
      · rw [Bool.or_false]
      · rw [h1 h2]; rfl
    · exact (if_pos ((hsym _ _).trans h)).trans (hcall _ _ x y h)
  · have h1 : p.valid (.base s) (.base t) = true → p.valid (.meas (.base s)) (.base t) = true := by
      rw [hp, hp]
      simp only [equivalentCaller, measLayer, measValid]
      intro h
      simp only [Bool.or_eq_true] at h ⊢
      tauto
    refine ⟨?_, fun h => ?_⟩
    · show ((symLayer p).valid _ _ || (symLayer p).valid _ _) = _
      rw [hsym, hsym]
      show (p.valid (.meas (.base s)) (.base t) || p.valid (.base s) (.base t)) =
        p.valid (.meas (.base s)) (.base t)
      cases h2 : p.valid (.base s) (.base t)
      · rw [Bool.or_false]
      · rw [h1 h2]; rfl
    · exact (if_pos ((hsym _ _).trans h)).trans (hcall _ _ x y h)
  · refine ⟨?_, fun h => ?_⟩
    · show ((symLayer p).valid _ _ || (symLayer p).valid _ _ ||
        (((symLayer p).valid _ _ || (symLayer p).valid _ _) &&
          !((symLayer p).valid _ _ && (symLayer p).valid _ _))) = _
      simp only [hsym]
      show _ = p.valid (.meas (.base s)) (.meas (.base t))
      simp only [hp, equivalentCaller, measLayer, measValid]
      cases (symLayer l).valid (.base s) (.base t) <;>
        cases (symLayer l).valid (.base s) (.meas (.base t)) <;>
        cases (symLayer l).valid (.meas (.base s)) (.base t) <;>
        cases (symLayer l).valid (.meas (.base s)) (.meas (.base t)) <;>
        cases (symLayer r).valid (.base s) (.base t) <;>
        cases (symLayer r).valid (.base s) (.meas (.base t)) <;>
        cases (symLayer r).valid (.meas (.base s)) (.base t) <;>
        cases (symLayer r).valid (.meas (.base s)) (.meas (.base t)) <;> rfl
    · exact (if_pos ((hsym _ _).trans h)).trans (hcall _ _ x y h)

theorem kernel_comm (c : Caller F)
    (h : ∀ τ σ x y, c.valid τ σ = true → c.valid σ τ = true → c.call τ σ x y = c.call σ τ y x)
    (x y : Feat F) : kernel c x y = kernel c y x := by
  obtain ⟨h1, h2⟩ := C21_symmetric c h (atomTy x.ty x.meas) (atomTy y.ty y.meas)
  unfold kernel accepts
  rw [← h1]
  split_ifs with hv
  · exact h2 _ _ hv
  · rfl

theorem linSum_fin {A : Type} (xs : List (ℝ × A)) (f : A → ℝ) :
    linSum xs f = ∑ i : Fin xs.length, (xs.get i).1 * f (xs.get i).2 := by
  rw [linSum_eq, ← List.sum_ofFn]
  congr 1
  apply List.ext_getElem
  · simp
  · intro i h1 h2
    simp

theorem linSum_flatMap {A B : Type} (L : List B) (g : B → List (ℝ × A)) (f : A → ℝ) :
    linSum (L.flatMap g) f = (L.map fun i => linSum (g i) f).sum := by
  induction L with
  | nil => rfl
  | cons b L ih =>
    rw [List.flatMap_cons, List.map_cons, List.sum_cons, ← ih]
    simp only [linSum_eq, List.map_append, List.sum_append]

theorem linSum_sum {A ι : Type} (s : Finset ι) (xs : List (ℝ × A)) (g : ι → A → ℝ) :
    linSum xs (fun u => ∑ j ∈ s, g j u) = ∑ j ∈ s, linSum xs (g j) := by
  simp only [linSum_fin, Finset.mul_sum]
  exact Finset.sum_comm

theorem biSum_self_nonneg {X : Type} {k : X → X → ℝ} (hk : IsPSD k) (L : List (ℝ × X)) :
    0 ≤ biSum L L k := by
  have := hk.2 L.length (fun i => (L.get i).2) (fun i => (L.get i).1)
  rw [← linSum_linSum, linSum_fin]
  refine this.trans_eq ?_
  refine Finset.sum_congr rfl fun i _ => ?_
  rw [linSum_fin, Finset.mul_sum]
  exact Finset.sum_congr rfl fun j _ => by ring

end helpers

/-! ## C20 -/

/-- A sum is defined wherever one of its parts is, and its value is the sum of the values of the defined
parts. -/
theorem C20_sum_value (l r : Caller F) (x y : Feat F) :
    accepts (covSum l r) x y = (accepts l x y || accepts r x y) ∧
    kernel (covSum l r) x y = kernel l x y + kernel r x y := by
  obtain ⟨h1, h2⟩ := composite_atom (covSum l r) l r (fun _ _ => rfl) x.ty y.ty x.meas y.meas
    (atomVal x.val x.meas) (atomVal y.val y.meas)
  have h3 : (covSum l r).valid (atomTy x.ty x.meas) (atomTy y.ty y.meas) =
      (accepts l x y || accepts r x y) := by
    show (_ || _) = _
    rw [eqv_valid_atom, eqv_valid_atom]
    rfl
  have h4 : accepts (covSum l r) x y = (accepts l x y || accepts r x y) := h1.trans h3
  refine ⟨h4, ?_⟩
  unfold kernel
  rw [h4]
  by_cases hv : (accepts l x y || accepts r x y) = true
  · rw [if_pos hv, h2 (h3.trans hv)]
    show (if (_ && _) = true then _ else if _ then _ else _) = _
    rw [eqv_valid_atom, eqv_valid_atom]
    change (if (accepts l x y && accepts r x y) = true then _ else if accepts l x y then _ else _) = _
    cases ha : accepts l x y <;> cases hb : accepts r x y <;> simp [ha, hb] at hv ⊢
  · rw [if_neg hv]
    cases ha : accepts l x y <;> cases hb : accepts r x y <;> simp [ha, hb] at hv ⊢

/-- A product is defined wherever one of its factors is; its value is the product of the values where
both are defined and the value of the defined factor otherwise. -/
theorem C20_product_value (l r : Caller F) (x y : Feat F) :
    accepts (covProduct l r) x y = (accepts l x y || accepts r x y) ∧
    kernel (covProduct l r) x y =
      (if accepts l x y = true ∧ accepts r x y = true then kernel l x y * kernel r x y
        else kernel l x y + kernel r x y) := by
  obtain ⟨h1, h2⟩ := composite_atom (covProduct l r) l r (fun _ _ => rfl) x.ty y.ty x.meas y.meas
    (atomVal x.val x.meas) (atomVal y.val y.meas)
  have h3 : (covProduct l r).valid (atomTy x.ty x.meas) (atomTy y.ty y.meas) =
      (accepts l x y || accepts r x y) := by
    show (_ || _) = _
    rw [eqv_valid_atom, eqv_valid_atom]
    rfl
  have h4 : accepts (covProduct l r) x y = (accepts l x y || accepts r x y) := h1.trans h3
  refine ⟨h4, ?_⟩
  unfold kernel
  rw [h4]
  by_cases hv : (accepts l x y || accepts r x y) = true
  · rw [if_pos hv, h2 (h3.trans hv)]
    show (if (_ && _) = true then (if _ then _ else _) else if _ then _ else _) = _
    rw [eqv_valid_atom, eqv_valid_atom]
    change (if (accepts l x y && accepts r x y) = true then _ else if accepts l x y then _ else _) = _
    cases ha : accepts l x y <;> cases hb : accepts r x y <;> simp [ha, hb] at hv ⊢
    intro h0
    rw [h0, zero_mul]
  · rw [if_neg hv]
    cases ha : accepts l x y <;> cases hb : accepts r x y <;> simp [ha, hb] at hv ⊢

/-- A sum of positive semi-definite covariance functions is positive semi-definite, over features of any
mixture of types, wrapped or not. -/
theorem C20_sum_psd (l r : Caller F) (hl : IsPSD (kernel l)) (hr : IsPSD (kernel r)) :
    IsPSD (kernel (covSum l r)) := by
  refine cast (congrArg IsPSD ?_) (hl.add hr)
  funext x y
  exact (C20_sum_value l r x y).2.symm

/-- A product of positive semi-definite covariance functions is positive semi-definite over any set of
features for which the factors are defined on the same pairs (in particular features of one type).
Without that restriction the claim is false, see `C20_product_mixed_types_not_psd`. -/
theorem C20_product_psd_partial (l r : Caller F) (X : Type) (feat : X → Feat F)
    (hl : IsPSD fun a b => kernel l (feat a) (feat b)) (hr : IsPSD fun a b => kernel r (feat a) (feat b))
    (h : ∀ a b, accepts l (feat a) (feat b) = accepts r (feat a) (feat b)) :
    IsPSD fun a b => kernel (covProduct l r) (feat a) (feat b) := by
  refine cast (congrArg IsPSD ?_) (hl.mul hr)
  funext a b
  rw [(C20_product_value l r (feat a) (feat b)).2]
  split_ifs with hc
  · rfl
  · have : accepts l (feat a) (feat b) = false := by
      rw [← h a b] at hc
      simpa using hc
    have h2 : accepts r (feat a) (feat b) = false := by rw [← h a b]; exact this
    simp [kernel, this, h2]

/-- Linear combinations of features inherit positive semi-definiteness. -/
theorem C20_linear_combinations_psd {X : Type} (k : X → X → ℝ) (hk : IsPSD k) :
    IsPSD fun x y : List (ℝ × X) => biSum x y k := by
  refine ⟨fun x y => ?_, fun n x w => ?_⟩
  · simp only [← linSum_linSum]
    rw [linSum_comm]
    simp only [hk.1]
  · have h : ∀ f : X → ℝ,
        linSum ((List.finRange n).flatMap fun i => (x i).map fun p => (w i * p.1, p.2)) f =
          ∑ i, w i * linSum (x i) f := by
      intro f
      rw [linSum_flatMap, ← List.sum_ofFn, List.ofFn_eq_map]
      congr 1
      apply List.map_congr_left
      intro i _
      rw [linSum_eq, linSum_eq, List.map_map, ← List.sum_map_mul_left]
      congr 1
      apply List.map_congr_left
      intro p _
      simp only [Function.comp]
      ring
    have h2 := biSum_self_nonneg hk
      ((List.finRange n).flatMap fun i => (x i).map fun p => (w i * p.1, p.2))
    rw [← linSum_linSum, h] at h2
    refine h2.trans_eq ?_
    refine Finset.sum_congr rfl fun i _ => ?_
    simp only [h]
    rw [linSum_sum, Finset.mul_sum]
    refine Finset.sum_congr rfl fun j _ => ?_
    rw [← linSum_linSum, mul_assoc]
    congr 1
    simp only [linSum_fin, Finset.mul_sum]
    refine Finset.sum_congr rfl fun a _ => Finset.sum_congr rfl fun b _ => by ring

/-- The factor by which a scaling function defined on the types `on` is meant to scale a feature,
wrapped or not. -/
noncomputable def scale (on : T → Bool) (f : (t : T) → F t → ℝ) (x : Feat F) : ℝ :=
  if on x.ty then f x.ty x.val else 1

/-- The scaling function as the library sees it: defined on plain features only. -/
def scalingOn (on : T → Bool) : Ty T → Bool
  | .base t => on t
  | _ => false

def scalingFn (f : (t : T) → F t → ℝ) : (τ : Ty T) → Val F τ → ℝ
  | .base t, v => f t v
  | _, _ => 1

section helpers

/-- The value of a scaling term on a pair that is not (plain, measurement). -/
theorem scaling_value (on : T → Bool) (f : (t : T) → F t → ℝ) (x y : Feat F)
    (h : x.meas = y.meas ∨ on x.ty = false ∨ on y.ty = false) :
    (accepts (scalingTerm (scalingOn on) (scalingFn f)) x y = (on x.ty || on y.ty)) ∧
    ((on x.ty || on y.ty) = true →
      (defaultCaller (scalingTerm (scalingOn on) (scalingFn f))).call (atomTy x.ty x.meas)
        (atomTy y.ty y.meas) (atomVal x.val x.meas) (atomVal y.val y.meas) = scale on f x * scale on f y) := by
  obtain ⟨s, m, u⟩ := x
  obtain ⟨t, n, v⟩ := y
  simp only [accepts, scale] at h ⊢
  cases m <;> cases n <;> simp only [atomTy, atomVal, defaultCaller, varLayer, varValid, varCall, measLayer, measValid,
    measCall, linLayer, linValid, linCall, symLayer, scalingTerm, scalingOn, scalingFn] <;>
    by_cases hs : on s = true <;> by_cases ht : on t = true <;> simp [hs, ht] at h ⊢

/-- Products with a scaling term agree with the product of the values. -/
theorem scaled_value (p s r : Caller F) (x y : Feat F)
    (hv : ∀ τ σ, p.valid τ σ = (equivalentCaller r).valid τ σ)
    (hc : ∀ τ σ x y, p.call τ σ x y = if (equivalentCaller s).valid τ σ then
      (defaultCaller s).call τ σ x y * (defaultCaller r).call τ σ x y else (defaultCaller r).call τ σ x y) :
    accepts p x y = accepts r x y ∧
    kernel p x y = if accepts s x y then
      (defaultCaller s).call (atomTy x.ty x.meas) (atomTy y.ty y.meas) (atomVal x.val x.meas)
        (atomVal y.val y.meas) * kernel r x y else kernel r x y := by
  obtain ⟨h1, h2⟩ := composite_atom p r r (fun τ σ => by rw [hv, Bool.or_self]) x.ty y.ty x.meas y.meas
    (atomVal x.val x.meas) (atomVal y.val y.meas)
  have h3 : p.valid (atomTy x.ty x.meas) (atomTy y.ty y.meas) = accepts r x y := by
    rw [hv, eqv_valid_atom]; rfl
  have h4 : accepts p x y = accepts r x y := h1.trans h3
  refine ⟨h4, ?_⟩
  unfold kernel
  rw [h4]
  by_cases ha : accepts r x y = true
  · rw [if_pos ha, h2 (h3.trans ha), hc, eqv_valid_atom, if_pos ha]
    rfl
  · rw [if_neg ha]
    simp [ha]

theorem scaledProduct_call (s r : Caller F) (τ σ : Ty T) (x : Val F τ) (y : Val F σ) :
    (scaledProduct s r).call τ σ x y = if (equivalentCaller s).valid τ σ then
      (defaultCaller s).call τ σ x y * (defaultCaller r).call τ σ x y else (defaultCaller r).call τ σ x y := by
  simp only [scaledProduct]
  split_ifs with h1 h2 <;> first | rfl | (simp_all)

theorem scaledProductRight_call (s r : Caller F) (τ σ : Ty T) (x : Val F τ) (y : Val F σ) :
    (scaledProductRight r s).call τ σ x y = if (equivalentCaller s).valid τ σ then
      (defaultCaller s).call τ σ x y * (defaultCaller r).call τ σ x y else (defaultCaller r).call τ σ x y := by
  simp only [scaledProductRight]
  split_ifs with h1 h2 <;> first | rfl | (simp_all [mul_comm])

end helpers

/-! ## C75 -/

/-- A scaled covariance function multiplies by both scales, on either side of the product, when both
features are plain, both are measurements, or at most one of their types is scaled.  Missing from the full
claim: one of the two features wrapped, see `C75_measurement_not_scaled`. -/
theorem C75_scaling_partial (on : T → Bool) (f : (t : T) → F t → ℝ) (r : Caller F) (x y : Feat F)
    (h : x.meas = y.meas ∨ on x.ty = false ∨ on y.ty = false) :
    kernel (scaledProduct (scalingTerm (scalingOn on) (scalingFn f)) r) x y =
      scale on f x * scale on f y * kernel r x y ∧
    kernel (scaledProductRight r (scalingTerm (scalingOn on) (scalingFn f))) x y =
      scale on f x * scale on f y * kernel r x y := by
  obtain ⟨h1, h2⟩ := scaling_value on f x y h
  have key : (if accepts (scalingTerm (scalingOn on) (scalingFn f)) x y then
      (defaultCaller (scalingTerm (scalingOn on) (scalingFn f))).call (atomTy x.ty x.meas)
        (atomTy y.ty y.meas) (atomVal x.val x.meas) (atomVal y.val y.meas) * kernel r x y
      else kernel r x y) = scale on f x * scale on f y * kernel r x y := by
    rw [h1]
    by_cases ho : (on x.ty || on y.ty) = true
    · rw [if_pos ho, h2 ho]
    · rw [if_neg ho]
      simp only [Bool.or_eq_true, not_or, Bool.not_eq_true] at ho
      simp [scale, ho.1, ho.2]
  exact ⟨(scaled_value (scaledProduct (scalingTerm (scalingOn on) (scalingFn f)) r) _ r x y
      (fun _ _ => rfl) (scaledProduct_call _ r)).2.trans key,
    (scaled_value (scaledProductRight r (scalingTerm (scalingOn on) (scalingFn f))) _ r x y
      (fun _ _ => rfl) (scaledProductRight_call _ r)).2.trans key⟩

/-- Scaling preserves positive semi-definiteness over plain features (of any mixture of types), and over
measurements. -/
theorem C75_scaled_psd_partial (on : T → Bool) (f : (t : T) → F t → ℝ) (r : Caller F) (m : Bool)
    (hr : IsPSD (kernel r)) :
    IsPSD (fun x y : {x : Feat F // x.meas = m} =>
      kernel (scaledProduct (scalingTerm (scalingOn on) (scalingFn f)) r) x y) := by
  have h := ((IsPSD.rank_one (scale on f)).mul hr).comp (fun x : {x : Feat F // x.meas = m} => (x : Feat F))
  refine cast (congrArg IsPSD ?_) h
  funext x y
  exact ((C75_scaling_partial on f r x y (Or.inl (x.2.trans y.2.symm))).1).symm

section witnesses

/-- One feature type holding reals, a function defined for every pair. -/
def oneCov : Caller (fun _ : Unit => ℝ) where
  valid _ _ := true
  call _ _ _ _ := 1

/-- Scale a feature by its value. -/
def valueScaling : (t : Unit) → ℝ → ℝ := fun _ v => v

noncomputable def scaledOne : Caller (fun _ : Unit => ℝ) :=
  scaledProduct (scalingTerm (scalingOn fun _ => true) (scalingFn valueScaling)) oneCov

theorem scaledOne_value (x y : Feat (fun _ : Unit => ℝ)) :
    kernel scaledOne x y =
      if x.meas = y.meas then x.val * y.val else if x.meas then y.val else x.val := by
  unfold scaledOne
  rw [(scaled_value (scaledProduct (scalingTerm (scalingOn fun _ => true) (scalingFn valueScaling)) oneCov)
    _ oneCov x y (fun _ _ => rfl) (scaledProduct_call _ _)).2]
  obtain ⟨⟨⟩, m, u⟩ := x
  obtain ⟨⟨⟩, n, v⟩ := y
  cases m <;> cases n <;> simp [kernel, accepts, atomTy, atomVal, defaultCaller, varLayer, varValid, varCall, measLayer,
    measValid, measCall, linLayer, linValid, linCall, symLayer, scalingTerm, scalingOn, scalingFn, oneCov,
    valueScaling]

end witnesses

/-- The code violates the full claim: with one feature wrapped as a measurement only the plain one is
scaled, so the covariance of `x` with a measurement of `y` is not that of `x` with `y`, and the covariance
of features and measurements is not positive semi-definite. -/
theorem C75_measurement_not_scaled :
    (kernel scaledOne ⟨(), false, 1⟩ ⟨(), false, (1 / 2 : ℝ)⟩ = 1 / 2 ∧
     kernel scaledOne ⟨(), true, 1⟩ ⟨(), true, (1 / 2 : ℝ)⟩ = 1 / 2 ∧
     kernel scaledOne ⟨(), false, 1⟩ ⟨(), true, (1 / 2 : ℝ)⟩ = 1) ∧
    IsPSD (kernel oneCov) ∧ ¬ IsPSD (kernel scaledOne) := by
  refine ⟨⟨?_, ?_, ?_⟩, ?_, ?_⟩
  · rw [scaledOne_value]; norm_num
  · rw [scaledOne_value]; norm_num
  · rw [scaledOne_value]; norm_num
  · have : kernel oneCov = fun _ _ => 1 := by
      funext x y
      obtain ⟨⟨⟩, m, u⟩ := x
      obtain ⟨⟨⟩, n, v⟩ := y
      cases m <;> cases n <;> simp [kernel, accepts, atomTy, atomVal, defaultCaller, varLayer, varValid, varCall, measLayer,
        measValid, measCall, linLayer, linValid, linCall, symLayer, oneCov]
    rw [this]
    exact IsPSD.const (by norm_num)
  · intro h
    have := h.sq_le ⟨(), false, (1 : ℝ)⟩ ⟨(), true, (1 / 2 : ℝ)⟩
    rw [scaledOne_value, scaledOne_value, scaledOne_value] at this
    norm_num at this

section witnesses

/-- Variance 1/4 between features of the first type. -/
noncomputable def quarterOnFirst : Caller (fun _ : Bool => Unit) where
  valid
    | .base true, .base true => true
    | _, _ => false
  call _ _ _ _ := 1 / 4

/-- Constant covariance 1 between all features. -/
def oneOnAll : Caller (fun _ : Bool => Unit) where
  valid _ _ := true
  call _ _ _ _ := 1

theorem quarter_value (x y : Feat (fun _ : Bool => Unit)) :
    accepts quarterOnFirst x y = (x.ty && y.ty) ∧
    kernel quarterOnFirst x y = if x.ty && y.ty then 1 / 4 else 0 := by
  obtain ⟨s, m, u⟩ := x
  obtain ⟨t, n, v⟩ := y
  cases s <;> cases t <;> cases m <;> cases n <;> simp [kernel, accepts, atomTy, atomVal, defaultCaller, varLayer, varValid,
    varCall, measLayer, measValid, measCall, linLayer, linValid, linCall, symLayer, quarterOnFirst]

theorem oneOnAll_value (x y : Feat (fun _ : Bool => Unit)) :
    accepts oneOnAll x y = true ∧ kernel oneOnAll x y = 1 := by
  obtain ⟨s, m, u⟩ := x
  obtain ⟨t, n, v⟩ := y
  cases m <;> cases n <;> simp [kernel, accepts, atomTy, atomVal, defaultCaller, varLayer, varValid, varCall, measLayer, measValid,
    measCall, linLayer, linValid, linCall, symLayer, oneOnAll]

end witnesses

/-- The code violates the claim for products over features of different types: both factors below are
positive semi-definite, their product is not, because a pair of types known to one factor only takes that
factor's value unscaled by the other. -/
theorem C20_product_mixed_types_not_psd :
    IsPSD (kernel quarterOnFirst) ∧ IsPSD (kernel oneOnAll) ∧
    ¬ IsPSD (kernel (covProduct quarterOnFirst oneOnAll)) := by
  refine ⟨?_, ?_, ?_⟩
  · refine cast (congrArg IsPSD ?_)
      (IsPSD.rank_one fun x : Feat (fun _ : Bool => Unit) => if x.ty then (1 / 2 : ℝ) else 0)
    funext x y
    rw [(quarter_value x y).2]
    cases x.ty <;> cases y.ty <;> norm_num
  · have : kernel oneOnAll = fun _ _ => 1 := by
      funext x y; exact (oneOnAll_value x y).2
    rw [this]
    exact IsPSD.const (by norm_num)
  · intro h
    have := h.sq_le ⟨true, false, ()⟩ ⟨false, false, ()⟩
    simp only [C20_product_value, (quarter_value _ _).1, (quarter_value _ _).2, (oneOnAll_value _ _).1,
      (oneOnAll_value _ _).2] at this
    norm_num at this

/-- Sums and products do not depend on the order of the arguments. -/
theorem C20_symmetric (l r : Caller F)
    (hl : ∀ τ σ x y, l.valid τ σ = true → l.valid σ τ = true → l.call τ σ x y = l.call σ τ y x)
    (hr : ∀ τ σ x y, r.valid τ σ = true → r.valid σ τ = true → r.call τ σ x y = r.call σ τ y x)
    (x y : Feat F) :
    kernel (covSum l r) x y = kernel (covSum l r) y x ∧
    kernel (covProduct l r) x y = kernel (covProduct l r) y x := by
  have a1 : accepts l x y = accepts l y x := (C21_symmetric l hl _ _).1
  have a2 : accepts r x y = accepts r y x := (C21_symmetric r hr _ _).1
  refine ⟨?_, ?_⟩
  · rw [(C20_sum_value l r x y).2, (C20_sum_value l r y x).2, kernel_comm l hl, kernel_comm r hr]
  · rw [(C20_product_value l r x y).2, (C20_product_value l r y x).2, kernel_comm l hl, kernel_comm r hr,
      a1, a2]

section examples

/-- a sum over two types, one part defined on one of them only -/
example : kernel (covSum quarterOnFirst oneOnAll) ⟨true, false, ()⟩ ⟨true, true, ()⟩ = 5 / 4 := by
  rw [(C20_sum_value _ _ _ _).2, (quarter_value _ _).2, (oneOnAll_value _ _).2]; norm_num

example : kernel (covSum quarterOnFirst oneOnAll) ⟨true, false, ()⟩ ⟨false, true, ()⟩ = 1 := by
  rw [(C20_sum_value _ _ _ _).2, (quarter_value _ _).2, (oneOnAll_value _ _).2]; norm_num

end examples

end Albatross
