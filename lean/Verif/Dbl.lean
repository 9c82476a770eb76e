import Mathlib.Data.Real.Basic
import Mathlib.Analysis.SpecialFunctions.Log.Basic

/-! # Doubles with infinities and NaN

`Dbl` is the model of `double` used where infinities and NaN decide which branch the code takes.
The finite values are exact reals: rounding, overflow of finite values and the sign of zero are not
modelled. -/

namespace Albatross

/-- A `double`: a finite value, an infinity, or NaN. -/
inductive Dbl
  | fin (x : ℝ)
  | pinf
  | ninf
  | nan

namespace Dbl

/-- `a < b`; false as soon as one side is NaN. -/
def lt : Dbl → Dbl → Prop
  | fin x, fin y => x < y
  | fin _, pinf => True
  | ninf, fin _ => True
  | ninf, pinf => True
  | _, _ => False

/-- `a <= b`; false as soon as one side is NaN. -/
def le : Dbl → Dbl → Prop
  | fin x, fin y => x ≤ y
  | fin _, pinf => True
  | ninf, fin _ => True
  | ninf, pinf => True
  | pinf, pinf => True
  | ninf, ninf => True
  | _, _ => False

instance : LT Dbl := ⟨lt⟩
instance : LE Dbl := ⟨le⟩
noncomputable instance (a b : Dbl) : Decidable (a < b) := Classical.propDecidable _
noncomputable instance (a b : Dbl) : Decidable (a ≤ b) := Classical.propDecidable _
noncomputable instance : DecidableEq Dbl := Classical.decEq _

/-- `std::isnan`. -/
def isNan : Dbl → Bool
  | nan => true
  | _ => false

/-- Addition. -/
def add : Dbl → Dbl → Dbl
  | fin x, fin y => fin (x + y)
  | nan, _ => nan
  | _, nan => nan
  | pinf, ninf => nan
  | ninf, pinf => nan
  | pinf, _ => pinf
  | _, pinf => pinf
  | ninf, _ => ninf
  | _, ninf => ninf

/-- Negation. -/
def neg : Dbl → Dbl
  | fin x => fin (-x)
  | pinf => ninf
  | ninf => pinf
  | nan => nan

/-- An infinity times the sign of a finite value; `0 * inf` is NaN. -/
noncomputable def signInf (x : ℝ) : Dbl := if 0 < x then pinf else if x < 0 then ninf else nan

/-- Multiplication. -/
noncomputable def mul : Dbl → Dbl → Dbl
  | fin x, fin y => fin (x * y)
  | nan, _ => nan
  | _, nan => nan
  | fin x, pinf => signInf x
  | pinf, fin x => signInf x
  | fin x, ninf => neg (signInf x)
  | ninf, fin x => neg (signInf x)
  | pinf, pinf => pinf
  | ninf, ninf => pinf
  | pinf, ninf => ninf
  | ninf, pinf => ninf

/-- Division; a zero divisor counts as `+0`. -/
noncomputable def div : Dbl → Dbl → Dbl
  | fin x, fin y => if y = 0 then signInf x else fin (x / y)
  | nan, _ => nan
  | _, nan => nan
  | fin _, _ => fin 0
  | pinf, fin y => if y < 0 then ninf else pinf
  | ninf, fin y => if y < 0 then pinf else ninf
  | _, _ => nan

/-- `log`. -/
noncomputable def log : Dbl → Dbl
  | fin x => if 0 < x then fin (Real.log x) else if x = 0 then ninf else nan
  | pinf => pinf
  | _ => nan

/-- `exp`. -/
noncomputable def exp : Dbl → Dbl
  | fin x => fin (Real.exp x)
  | pinf => pinf
  | ninf => fin 0
  | nan => nan

noncomputable instance : Add Dbl := ⟨add⟩
noncomputable instance : Neg Dbl := ⟨neg⟩
noncomputable instance : Sub Dbl := ⟨fun a b => a + -b⟩
noncomputable instance : Mul Dbl := ⟨mul⟩
noncomputable instance : Div Dbl := ⟨div⟩

@[simp] theorem fin_lt {x y : ℝ} : (fin x < fin y) ↔ x < y := Iff.rfl
@[simp] theorem fin_le {x y : ℝ} : (fin x ≤ fin y) ↔ x ≤ y := Iff.rfl
@[simp] theorem fin_lt_pinf {x : ℝ} : fin x < pinf := trivial
@[simp] theorem fin_le_pinf {x : ℝ} : fin x ≤ pinf := trivial
@[simp] theorem ninf_lt_fin {x : ℝ} : ninf < fin x := trivial
@[simp] theorem ninf_le_fin {x : ℝ} : ninf ≤ fin x := trivial
@[simp] theorem ninf_lt_pinf : ninf < pinf := trivial
@[simp] theorem ninf_le_pinf : ninf ≤ pinf := trivial
@[simp] theorem pinf_le_pinf : pinf ≤ pinf := trivial
@[simp] theorem ninf_le_ninf : ninf ≤ ninf := trivial
@[simp] theorem not_pinf_lt {a : Dbl} : ¬ pinf < a := by cases a <;> exact id
@[simp] theorem not_lt_ninf {a : Dbl} : ¬ a < ninf := by cases a <;> exact id
@[simp] theorem not_nan_lt {a : Dbl} : ¬ nan < a := by cases a <;> exact id
@[simp] theorem not_lt_nan {a : Dbl} : ¬ a < nan := by cases a <;> exact id
@[simp] theorem not_nan_le {a : Dbl} : ¬ nan ≤ a := by cases a <;> exact id
@[simp] theorem not_le_nan {a : Dbl} : ¬ a ≤ nan := by cases a <;> exact id
@[simp] theorem not_pinf_le_fin {x : ℝ} : ¬ pinf ≤ fin x := id
@[simp] theorem not_pinf_le_ninf : ¬ pinf ≤ ninf := id
@[simp] theorem not_fin_le_ninf {x : ℝ} : ¬ fin x ≤ ninf := id

@[simp] theorem fin_add {x y : ℝ} : fin x + fin y = fin (x + y) := rfl
@[simp] theorem fin_neg {x : ℝ} : -fin x = fin (-x) := rfl
@[simp] theorem neg_pinf : -pinf = ninf := rfl
@[simp] theorem neg_ninf : -ninf = pinf := rfl
@[simp] theorem fin_sub {x y : ℝ} : fin x - fin y = fin (x - y) := by
  show fin (x + -y) = _; rw [sub_eq_add_neg]
@[simp] theorem fin_mul {x y : ℝ} : fin x * fin y = fin (x * y) := rfl
theorem fin_div {x y : ℝ} (h : y ≠ 0) : fin x / fin y = fin (x / y) := by
  show (if y = 0 then signInf x else fin (x / y)) = _
  rw [if_neg h]
@[simp] theorem add_nan {a : Dbl} : a + nan = nan := by cases a <;> rfl
@[simp] theorem nan_add {a : Dbl} : nan + a = nan := by cases a <;> rfl

theorem lt_irrefl (a : Dbl) : ¬ a < a := by cases a <;> simp

theorem le_of_lt {a b : Dbl} (h : a < b) : a ≤ b := by
  cases a <;> cases b <;> simp_all
  exact h.le

theorem le_trans {a b c : Dbl} (h : a ≤ b) (h' : b ≤ c) : a ≤ c := by
  cases a <;> cases b <;> cases c <;> simp_all
  exact _root_.le_trans h h'

/-- Away from NaN the order is total. -/
theorem not_lt {a b : Dbl} (ha : a ≠ nan) (hb : b ≠ nan) : ¬ a < b ↔ b ≤ a := by
  cases a <;> cases b <;> simp_all

theorem not_lt_of_le {a b : Dbl} (h : a ≤ b) : ¬ b < a := by
  cases a <;> cases b <;> simp_all

theorem le_refl {a : Dbl} (h : a ≠ nan) : a ≤ a := by cases a <;> simp_all

theorem ne_nan_left {a b : Dbl} (h : a ≤ b) : a ≠ nan := by rintro rfl; simp at h
theorem ne_nan_right {a b : Dbl} (h : a ≤ b) : b ≠ nan := by rintro rfl; simp at h

theorem log_fin {x : ℝ} (h : 0 < x) : log (fin x) = fin (Real.log x) := if_pos h

/-- `exp(log(v)) = v` for every non-negative `v`, including `0` and `+inf`. -/
theorem exp_log {v : Dbl} (h : fin 0 ≤ v) : exp (log v) = v := by
  cases v with
  | fin x =>
    have h : (0 : ℝ) ≤ x := h
    rcases h.lt_or_eq with h | h
    · rw [log_fin h]; show fin _ = _; rw [Real.exp_log h]
    · subst h; simp [log, exp]
  | pinf => rfl
  | ninf => exact absurd h (by simp)
  | nan => exact absurd h (by simp)

/-- `log(exp(v)) = v` for every `v`. -/
theorem log_exp (v : Dbl) : log (exp v) = v := by
  cases v with
  | fin x => show log (fin (Real.exp x)) = _; rw [log_fin (Real.exp_pos x), Real.log_exp]
  | pinf => rfl
  | ninf => simp [exp, log]
  | nan => rfl

end Dbl
end Albatross
