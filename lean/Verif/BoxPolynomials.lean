import Verif.Basic
import Mathlib.Algebra.Polynomial.Eval.Coeff
import Mathlib.Algebra.Polynomial.Eval.Degree
import Mathlib.Algebra.Polynomial.Inductions
import Mathlib.Data.Real.Basic
import Mathlib.Tactic.Ring
import Mathlib.Tactic.Linarith
import Mathlib.Tactic.Positivity

/-! # Polynomials in two variables whose coefficients the kernel compares

A proof device, no part of the code.  It serves to bound the denominator of the continued fraction of C93 from
below on a box: the denominator is a polynomial, and the comparison of coefficients is read off from its value at one
large natural number. -/

namespace Albatross

open Polynomial

/-! ## Reading coefficients off a value -/

/-- The coefficients of a polynomial with natural coefficients are the digits of its value at a large enough base. -/
theorem coeff_eq_digit (B : ℕ) (i : ℕ) (p : ℕ[X]) (h : ∀ j, p.coeff j < B) :
    p.coeff i = p.eval B / B ^ i % B := by
  have hB : 0 < B := lt_of_le_of_lt (Nat.zero_le _) (h 0)
  have key : ∀ q : ℕ[X], q.eval B = B * q.divX.eval B + q.coeff 0 := by
    intro q
    conv_lhs => rw [← Polynomial.divX_mul_X_add q]
    simp [mul_comm]
  induction i generalizing p with
  | zero => rw [pow_zero, Nat.div_one, key p, Nat.mul_add_mod, Nat.mod_eq_of_lt (h 0)]
  | succ i ih =>
    have h1 := ih p.divX (fun j => by rw [Polynomial.coeff_divX]; exact h _)
    rw [Polynomial.coeff_divX] at h1
    rw [h1, pow_succ', ← Nat.div_div_eq_div_mul]
    congr 2
    rw [key p, Nat.mul_add_div hB, Nat.div_eq_of_lt (h 0), add_zero]

theorem coeff_le_eval_one (p : ℕ[X]) (j : ℕ) : p.coeff j ≤ p.eval 1 := by
  rw [Polynomial.eval_eq_sum_range' (n := max (p.natDegree + 1) (j + 1)) (by omega)]
  simp only [one_pow, mul_one]
  exact Finset.single_le_sum (f := fun i => p.coeff i) (fun _ _ => Nat.zero_le _) (Finset.mem_range.2 (by omega))

theorem eval₂_mono {R : Type*} [CommSemiring R] (f : R →+* ℝ) {s : ℝ} (hs : 0 ≤ s) {p q : R[X]}
    (h : ∀ i, f (p.coeff i) ≤ f (q.coeff i)) : p.eval₂ f s ≤ q.eval₂ f s := by
  rw [Polynomial.eval₂_eq_sum_range' f (p := p) (n := max (p.natDegree + 1) (q.natDegree + 1)) (by omega),
    Polynomial.eval₂_eq_sum_range' f (p := q) (n := max (p.natDegree + 1) (q.natDegree + 1)) (by omega)]
  exact Finset.sum_le_sum fun i _ => mul_le_mul_of_nonneg_right (h i) (by positivity)

/-- The value of a polynomial in two variables. -/
noncomputable def eval2 (R : Type) [CommSemiring R] (s w : R) : ℕ[X][X] →+* R :=
  Polynomial.eval₂RingHom (Polynomial.eval₂RingHom (Nat.castRingHom R) w) s

theorem eval2_s (R : Type) [CommSemiring R] (s w : R) : eval2 R s w X = s := by simp [eval2]

theorem eval2_w (R : Type) [CommSemiring R] (s w : R) : eval2 R s w (C X) = w := by simp [eval2]

theorem eval2_rows (s w : ℕ) (p : ℕ[X][X]) : eval2 ℕ s w p = (p.map (Polynomial.evalRingHom w)).eval s := by
  unfold eval2
  rw [Polynomial.coe_eval₂RingHom, Polynomial.eval_map]
  congr 1

/-- One row of the comparison: the digits of `q` against those of `p`. -/
def rowLe (B : ℕ) : ℕ → ℕ → ℕ → Bool
  | 0, q, _ => Nat.beq q 0
  | n + 1, q, p => Nat.ble (q % B) (p % B) && rowLe B n (q / B) (p / B)

/-- All rows. -/
def tableLe (B Bs J : ℕ) : ℕ → ℕ → ℕ → Bool
  | 0, q, _ => Nat.beq q 0
  | n + 1, q, p => rowLe B J (q % Bs) (p % Bs) && tableLe B Bs J n (q / Bs) (p / Bs)

theorem rowLe_spec {B n q p : ℕ} (h : rowLe B n q p = true) (j : ℕ) : q / B ^ j % B ≤ p / B ^ j % B := by
  induction n generalizing q p j with
  | zero =>
    have : q = 0 := Nat.eq_of_beq_eq_true h
    subst this
    simp
  | succ n ih =>
    simp only [rowLe, Bool.and_eq_true] at h
    cases j with
    | zero => simpa using Nat.le_of_ble_eq_true h.1
    | succ j =>
      have := ih h.2 j
      rwa [Nat.div_div_eq_div_mul, Nat.div_div_eq_div_mul, ← pow_succ'] at this

theorem tableLe_spec {B Bs J n q p : ℕ} (h : tableLe B Bs J n q p = true) (i : ℕ) :
    ∃ m, rowLe B m (q / Bs ^ i % Bs) (p / Bs ^ i % Bs) = true := by
  induction n generalizing q p i with
  | zero =>
    have : q = 0 := Nat.eq_of_beq_eq_true h
    subst this
    exact ⟨0, by simp [rowLe]⟩
  | succ n ih =>
    simp only [tableLe, Bool.and_eq_true] at h
    cases i with
    | zero => exact ⟨J, by simpa using h.1⟩
    | succ i =>
      obtain ⟨m, hm⟩ := ih h.2 i
      rw [Nat.div_div_eq_div_mul, Nat.div_div_eq_div_mul, ← pow_succ'] at hm
      exact ⟨m, hm⟩

/-- The comparison: digits say which of two polynomials is larger at all points with coordinates at least zero. -/
theorem eval2_le {B Bs J n : ℕ} {q p : ℕ[X][X]} (hq1 : eval2 ℕ 1 1 q < B) (hp1 : eval2 ℕ 1 1 p < B)
    (hqB : eval2 ℕ 1 B q < Bs) (hpB : eval2 ℕ 1 B p < Bs)
    (h : tableLe B Bs J n (eval2 ℕ Bs B q) (eval2 ℕ Bs B p) = true) {s w : ℝ} (hs : 0 ≤ s) (hw : 0 ≤ w) :
    eval2 ℝ s w q ≤ eval2 ℝ s w p := by
  have small : ∀ r : ℕ[X][X], eval2 ℕ 1 1 r < B → ∀ i j, (r.coeff i).coeff j < B := by
    intro r hr i j
    refine lt_of_le_of_lt (coeff_le_eval_one _ j) (lt_of_le_of_lt ?_ hr)
    rw [eval2_rows]
    have := coeff_le_eval_one (r.map (Polynomial.evalRingHom 1)) i
    rwa [Polynomial.coeff_map, Polynomial.coe_evalRingHom] at this
  have row : ∀ r : ℕ[X][X], eval2 ℕ 1 B r < Bs → ∀ i, (r.coeff i).eval B = eval2 ℕ Bs B r / Bs ^ i % Bs := by
    intro r hr i
    rw [eval2_rows, ← coeff_eq_digit Bs i, Polynomial.coeff_map, Polynomial.coe_evalRingHom]
    intro j
    refine lt_of_le_of_lt (coeff_le_eval_one _ j) ?_
    rwa [eval2_rows] at hr
  unfold eval2
  rw [Polynomial.coe_eval₂RingHom]
  refine eval₂_mono _ hs fun i => ?_
  rw [Polynomial.coe_eval₂RingHom]
  refine eval₂_mono _ hw fun j => ?_
  simp only [Nat.coe_castRingHom, Nat.cast_le]
  rw [coeff_eq_digit B j _ (small q hq1 i), coeff_eq_digit B j _ (small p hp1 i), row q hqB i, row p hpB i]
  obtain ⟨m, hm⟩ := tableLe_spec h i
  exact rowLe_spec hm j

/-! ## The continued fraction of C93 on a box -/

/-- The positive and the negative part of two neighbouring continuants. -/
structure BoxState (R : Type) where
  xp : R
  xm : R
  yp : R
  ym : R

/-- Two levels of the continued fraction of C93 with the denominators cleared, on the box where `a` runs from
`c/2` to `d/2` and `z` from `e` to `f`: from the continuants at the depths `2k+3` and `2k+4` to those at `2k+1`
and `2k+2`. -/
def boxStep (R : Type) [CommSemiring R] (c d e f : ℕ) (s w : R) (k : ℕ) (st : BoxState R) : BoxState R :=
  let b0 := (((c + 4 * k + 2 : ℕ) : R) + ((d + 4 * k + 2 : ℕ) : R) * s) * (1 + w)
  let c0 := ((4 * k + 4 : ℕ) : R) * (1 + s) * (1 + s) * ((e : R) + (f : R) * w)
  let b1 := ((c + 4 * k : ℕ) : R) + ((d + 4 * k : ℕ) : R) * s
  let c1 := ((2 : ℕ) : R) * (1 + s) * (((c + 2 * k : ℕ) : R) + ((d + 2 * k : ℕ) : R) * s) * ((e : R) + (f : R) * w)
  let up := b0 * st.xp + c0 * st.yp
  let um := b0 * st.xm + c0 * st.ym
  ⟨b1 * up + c1 * st.xm, b1 * um + c1 * st.xp, up, um⟩

/-- The continuants after `j` such steps from the bottom. -/
def boxState (R : Type) [CommSemiring R] (c d e f : ℕ) (s w : R) : ℕ → BoxState R
  | 0 => ⟨((c + 108 : ℕ) : R) + ((d + 108 : ℕ) : R) * s, 0, 1, 0⟩
  | j + 1 => boxStep R c d e f s w (26 - j) (boxState R c d e f s w j)

/-- The same over the natural numbers, in the form the kernel computes. -/
def boxStateNat (c d e f s w : ℕ) : ℕ → BoxState ℕ
  | 0 => ⟨(c + 108) + (d + 108) * s, 0, 1, 0⟩
  | j + 1 =>
    let st := boxStateNat c d e f s w j
    let k := 26 - j
    let b0 := ((c + 4 * k + 2) + (d + 4 * k + 2) * s) * (1 + w)
    let c0 := (4 * k + 4) * (1 + s) * (1 + s) * (e + f * w)
    let b1 := (c + 4 * k) + (d + 4 * k) * s
    let c1 := 2 * (1 + s) * ((c + 2 * k) + (d + 2 * k) * s) * (e + f * w)
    let up := b0 * st.xp + c0 * st.yp
    let um := b0 * st.xm + c0 * st.ym
    ⟨b1 * up + c1 * st.xm, b1 * um + c1 * st.xp, up, um⟩

theorem boxState_nat (c d e f s w j : ℕ) : boxState ℕ c d e f s w j = boxStateNat c d e f s w j := by
  induction j with
  | zero => simp [boxState, boxStateNat]
  | succ j ih =>
    rw [boxState, boxStateNat, ih]
    simp only [boxStep, Nat.cast_id]

def BoxState.map {R S : Type} (g : R → S) (st : BoxState R) : BoxState S := ⟨g st.xp, g st.xm, g st.yp, g st.ym⟩

theorem boxState_map {R S : Type} [CommSemiring R] [CommSemiring S] (g : R →+* S) (c d e f : ℕ) (s w : R) (j : ℕ) :
    (boxState R c d e f s w j).map g = boxState S c d e f (g s) (g w) j := by
  induction j with
  | zero => simp only [boxState, BoxState.map, map_add, map_mul, map_natCast, map_one, map_zero]
  | succ j ih =>
    rw [boxState, boxState, ← ih]
    simp only [boxStep, BoxState.map, map_add, map_mul, map_natCast, map_one]

/-- The denominator, as a polynomial: its positive part and its negative part with a floor. -/
noncomputable def boxUpper (c d e f : ℕ) : ℕ[X][X] := (boxState ℕ[X][X] c d e f X (C X) 27).yp

noncomputable def boxLower (c d e f l : ℕ) : ℕ[X][X] :=
  (boxState ℕ[X][X] c d e f X (C X) 27).ym + (l : ℕ[X][X]) * (2 * (1 + X)) ^ 54 * (1 + C X) ^ 27

theorem eval2_boxUpper (R : Type) [CommSemiring R] (c d e f : ℕ) (s w : R) :
    eval2 R s w (boxUpper c d e f) = (boxState R c d e f s w 27).yp := by
  have := boxState_map (R := ℕ[X][X]) (S := R) (eval2 R s w) c d e f X (C X) 27
  rw [eval2_s, eval2_w] at this
  rw [← this]
  rfl

theorem eval2_boxLower (R : Type) [CommSemiring R] (c d e f l : ℕ) (s w : R) :
    eval2 R s w (boxLower c d e f l) =
      (boxState R c d e f s w 27).ym + (l : R) * (2 * (1 + s)) ^ 54 * (1 + w) ^ 27 := by
  have := boxState_map (R := ℕ[X][X]) (S := R) (eval2 R s w) c d e f X (C X) 27
  rw [eval2_s, eval2_w] at this
  rw [← this]
  unfold boxLower
  rw [map_add, map_mul, map_mul, map_natCast, map_pow, map_pow, map_mul, map_add, map_add, map_one, eval2_s, eval2_w,
    map_ofNat]
  rfl

/-- What the kernel computes for one box. -/
def boxCheck (c d e f l B Bs : ℕ) : Bool :=
  let up := fun s w => (boxStateNat c d e f s w 27).yp
  let lo := fun s w => (boxStateNat c d e f s w 27).ym + l * (2 * (1 + s)) ^ 54 * (1 + w) ^ 27
  Nat.blt (lo 1 1) B && Nat.blt (up 1 1) B && Nat.blt (lo 1 B) Bs && Nat.blt (up 1 B) Bs &&
    tableLe B Bs 30 60 (lo Bs B) (up Bs B)

theorem boxCheck_spec {c d e f l B Bs : ℕ} (h : boxCheck c d e f l B Bs = true) {s w : ℝ} (hs : 0 ≤ s) (hw : 0 ≤ w) :
    (boxState ℝ c d e f s w 27).ym + (l : ℝ) * (2 * (1 + s)) ^ 54 * (1 + w) ^ 27 ≤
      (boxState ℝ c d e f s w 27).yp := by
  simp only [boxCheck, Bool.and_eq_true] at h
  obtain ⟨⟨⟨⟨h1, h2⟩, h3⟩, h4⟩, h5⟩ := h
  rw [← eval2_boxUpper, ← eval2_boxLower]
  refine eval2_le (B := B) (Bs := Bs) (J := 30) (n := 60) ?_ ?_ ?_ ?_ ?_ hs hw
  all_goals simp only [eval2_boxUpper, eval2_boxLower, boxState_nat, Nat.cast_id]
  · simpa [Nat.blt] using h1
  · simpa [Nat.blt] using h2
  · simpa [Nat.blt] using h3
  · simpa [Nat.blt] using h4
  · exact h5

set_option maxRecDepth 100000 in
theorem boxCheck_one : boxCheck 1 6 12 24 (15 * 10 ^ 73) (2 ^ 700) (2 ^ 25000) = true := by decide +kernel

set_option maxRecDepth 100000 in
theorem boxCheck_two : boxCheck 6 10 12 27 (94 * 10 ^ 74) (2 ^ 700) (2 ^ 25000) = true := by decide +kernel

set_option maxRecDepth 100000 in
theorem boxCheck_three : boxCheck 10 14 12 30 (27 * 10 ^ 76) (2 ^ 700) (2 ^ 25000) = true := by decide +kernel

set_option maxRecDepth 100000 in
theorem boxCheck_four : boxCheck 14 18 12 33 (75 * 10 ^ 77) (2 ^ 700) (2 ^ 25000) = true := by decide +kernel

set_option maxRecDepth 100000 in
theorem boxCheck_five : boxCheck 18 20 12 34 (14 * 10 ^ 79) (2 ^ 700) (2 ^ 25000) = true := by decide +kernel

end Albatross
