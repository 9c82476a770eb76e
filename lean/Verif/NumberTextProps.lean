import Verif.NumberText
import Verif.SamplerCsvProps

/-! # Reading the numbers that streams write

Used for C100 to C102. -/

namespace Albatross

/-! ## Specification: the value of a decimal text -/

/-- The exponent part of a decimal text. -/
def readExponent : List Char → ℤ
  | 'e' :: '-' :: r => -((readDigits r 0 0).1 : ℤ)
  | 'e' :: '+' :: r => (readDigits r 0 0).1
  | _ => 0

/-- The value of a decimal text without sign: digits, optionally a point and digits, optionally an exponent. -/
noncomputable def readUnsigned (t : List Char) : ℝ :=
  match (readDigits t 0 0).2.2 with
  | '.' :: r =>
    let (m, nf, rest) := readDigits r (readDigits t 0 0).1 0
    (m : ℝ) * (10 : ℝ) ^ (readExponent rest - nf)
  | rest => ((readDigits t 0 0).1 : ℝ) * (10 : ℝ) ^ readExponent rest

/-- The value of a decimal text. -/
noncomputable def readDecimal : List Char → Dbl
  | ['i', 'n', 'f'] => .pinf
  | ['-', 'i', 'n', 'f'] => .ninf
  | ['n', 'a', 'n'] => .nan
  | '-' :: t => .fin (-readUnsigned t)
  | t => .fin (readUnsigned t)

/-- `y` is `x` up to a relative error. -/
def NearRel (eps : ℝ) : Dbl → Dbl → Prop
  | .fin x, .fin y => |y - x| ≤ eps * |x|
  | a, b => a = b

/-- `x` is infinite, NaN, or a decimal number with at most `p` significant digits. -/
def HasDigits (p : Nat) : Dbl → Prop
  | .fin x => ∃ (m : Nat) (j : ℤ), m < 10 ^ p ∧ |x| = m * (10 : ℝ) ^ j
  | _ => True

/-! ## Digits -/

theorem readDigits_stop {c : Char} (h : c.isDigit = false) (r : List Char) (acc n : Nat) :
    readDigits (c :: r) acc n = (acc, n, c :: r) := by rw [readDigits, if_neg (by simp [h])]

theorem readDigits_digits (ds : List Nat) (h : ∀ d ∈ ds, d < 10) (acc n : Nat) :
    readDigits (ds.map digitChar) acc n = (digitsValue acc ds, n + ds.length, []) := by
  have := readDigits_append ds h [] acc n
  rw [List.append_nil] at this
  rw [this]; rfl

/-- What may follow the digits of a number. -/
def ExpTail (e : ℤ) (t : List Char) : Prop := (t = [] ∧ e = 0) ∨ t = exponentText e

theorem exponentDigits_lt (e : ℤ) :
    (∀ d ∈ (if e.natAbs < 100 then padDigits 2 e.natAbs else decDigits e.natAbs), d < 10) ∧
      digitsValue 0 (if e.natAbs < 100 then padDigits 2 e.natAbs else decDigits e.natAbs) = e.natAbs := by
  split
  · next h =>
    obtain ⟨h1, h2, -⟩ := padDigits_spec 2 e.natAbs 0 (by simpa using h)
    exact ⟨h2, by simpa using h1⟩
  · exact ⟨(decDigits_spec _).2.1, (decDigits_spec _).1⟩

theorem readExponent_tail {e : ℤ} {t : List Char} (h : ExpTail e t) : readExponent t = e := by
  rcases h with ⟨rfl, rfl⟩ | rfl
  · rfl
  · obtain ⟨h1, h2⟩ := exponentDigits_lt e
    unfold exponentText
    by_cases he : e < 0
    · rw [if_pos he, readExponent, readDigits_digits _ h1, h2]
      simp only
      omega
    · rw [if_neg he, readExponent, readDigits_digits _ h1, h2]
      simp only
      omega

theorem expTail_read {e : ℤ} {t : List Char} (h : ExpTail e t) (acc n : Nat) : readDigits t acc n = (acc, n, t) := by
  rcases h with ⟨rfl, -⟩ | rfl
  · rfl
  · exact readDigits_stop (by decide) _ _ _

theorem readUnsigned_withPoint (ip frac : List Nat) (hi : ∀ d ∈ ip, d < 10) (hf : ∀ d ∈ frac, d < 10) {e : ℤ}
    {t : List Char} (ht : ExpTail e t) :
    readUnsigned (withPoint ip frac ++ t) = (digitsValue 0 (ip ++ frac) : ℝ) * (10 : ℝ) ^ (e - frac.length) := by
  unfold withPoint
  by_cases hfr : frac = []
  · subst hfr
    rw [if_pos rfl, List.append_nil, List.append_nil, readUnsigned, readDigits_append ip hi, expTail_read ht]
    rcases ht with ⟨rfl, rfl⟩ | rfl
    · simp [readExponent]
    · simp only [List.length_nil, Nat.cast_zero, sub_zero]
      have he : readExponent (exponentText e) = e := readExponent_tail (.inr rfl)
      conv_rhs => rw [← he]
      rfl
  · rw [if_neg hfr, List.append_assoc, readUnsigned, readDigits_append ip hi, List.cons_append,
      readDigits_stop (by decide)]
    simp only
    rw [readDigits_append frac hf, expTail_read ht]
    simp only
    rw [readExponent_tail ht, ← digitsValue_append, Nat.zero_add]

theorem digitsValue_zeros (acc m : Nat) : digitsValue acc (List.replicate m 0) = acc * 10 ^ m := by
  induction m generalizing acc with
  | zero => simp [digitsValue]
  | succ m ih =>
    rw [List.replicate_succ, digitsValue, List.foldl_cons]
    have := ih (10 * acc + 0)
    rw [digitsValue] at this
    rw [this, pow_succ]; ring

theorem stripZeros_append (ds : List Nat) : ∃ m, ds = stripZeros ds ++ List.replicate m 0 := by
  have h := List.takeWhile_append_dropWhile (p := fun d : Nat => decide (d = 0)) (l := ds.reverse)
  refine ⟨(ds.reverse.takeWhile fun d => decide (d = 0)).length, ?_⟩
  have ht : ds.reverse.takeWhile (fun d => decide (d = 0)) =
      List.replicate (ds.reverse.takeWhile fun d => decide (d = 0)).length 0 := by
    refine List.eq_replicate_iff.2 ⟨rfl, fun x hx => ?_⟩
    have := List.all_takeWhile (p := fun d : Nat => decide (d = 0)) (l := ds.reverse)
    simpa using List.all_eq_true.1 this x hx
  have h2 := congrArg List.reverse h
  rw [List.reverse_append, List.reverse_reverse] at h2
  rw [stripZeros]
  refine h2.symm.trans ?_
  congr 1
  rw [ht, List.reverse_replicate, List.length_replicate]

theorem stripZeros_mem {ds : List Nat} {d : Nat} (h : d ∈ stripZeros ds) : d ∈ ds := by
  obtain ⟨m, hm⟩ := stripZeros_append ds
  rw [hm]; exact List.mem_append_left _ h

theorem value_stripZeros (pre ds : List Nat) (z : ℤ) :
    (digitsValue 0 (pre ++ stripZeros ds) : ℝ) * (10 : ℝ) ^ (z - (stripZeros ds).length) =
      (digitsValue 0 (pre ++ ds) : ℝ) * (10 : ℝ) ^ (z - ds.length) := by
  obtain ⟨m, hm⟩ := stripZeros_append ds
  have hlen : (ds.length : ℤ) = (stripZeros ds).length + m := by
    have := congrArg List.length hm
    rw [List.length_append, List.length_replicate] at this
    rw [this]; push_cast; rfl
  have hval : digitsValue 0 (pre ++ ds) = digitsValue 0 (pre ++ stripZeros ds) * 10 ^ m := by
    conv_lhs => rw [hm]
    rw [← List.append_assoc, digitsValue_append, digitsValue_zeros]
  rw [hval, hlen]
  push_cast
  rw [mul_assoc, ← zpow_natCast, ← zpow_add₀ (by norm_num)]
  congr 2
  ring

/-! ## Rounding to significant digits -/

theorem roundHalfEven_le {y : ℝ} {n : Nat} (hy : 0 ≤ y) (h : y ≤ n) : roundHalfEven y ≤ n := by
  have h1 := roundHalfEven_spec hy
  have h2 := (abs_le.1 h1).1
  have : (roundHalfEven y : ℝ) < n + 1 := by linarith
  exact Nat.lt_succ_iff.1 (by exact_mod_cast this)

theorem sigRound_spec {p : Nat} (hp : 0 < p) {x : ℝ} (hx : 0 < x) :
    (sigRound p x).1 < 10 ^ p ∧
      |((sigRound p x).1 : ℝ) * (10 : ℝ) ^ ((sigRound p x).2 - ((p : ℤ) - 1)) - x| ≤
        1 / 2 * (10 : ℝ) ^ (1 - (p : ℤ)) * x := by
  have h10 : (0 : ℝ) < 10 := by norm_num
  set e := Int.log 10 x with he
  have h1 : (10 : ℝ) ^ e ≤ x := by exact_mod_cast Int.zpow_log_le_self (b := 10) (by norm_num) hx
  have h2 : x < (10 : ℝ) ^ (e + 1) := by exact_mod_cast Int.lt_zpow_succ_log_self (b := 10) (by norm_num) x
  set y := x * (10 : ℝ) ^ ((p : ℤ) - 1 - e) with hy
  have hy0 : 0 ≤ y := by positivity
  have hyp : y ≤ ((10 ^ p : Nat) : ℝ) := by
    have : y ≤ (10 : ℝ) ^ (e + 1) * (10 : ℝ) ^ ((p : ℤ) - 1 - e) := by
      exact mul_le_mul_of_nonneg_right h2.le (by positivity)
    rw [← zpow_add₀ h10.ne'] at this
    have e1 : e + 1 + ((p : ℤ) - 1 - e) = p := by ring
    rw [e1, zpow_natCast] at this
    push_cast; exact this
  have hk := roundHalfEven_le hy0 hyp
  have hr := roundHalfEven_spec hy0
  have hs : (0 : ℝ) < (10 : ℝ) ^ (e - ((p : ℤ) - 1)) := by positivity
  have hys : y * (10 : ℝ) ^ (e - ((p : ℤ) - 1)) = x := by
    rw [hy, mul_assoc, ← zpow_add₀ h10.ne']
    have : (p : ℤ) - 1 - e + (e - ((p : ℤ) - 1)) = 0 := by ring
    rw [this, zpow_zero, mul_one]
  have hbound : |(roundHalfEven y : ℝ) * (10 : ℝ) ^ (e - ((p : ℤ) - 1)) - x| ≤
      1 / 2 * (10 : ℝ) ^ (1 - (p : ℤ)) * x := by
    rw [← hys, ← sub_mul, abs_mul, abs_of_pos hs, abs_sub_comm, hys]
    have h3 : (10 : ℝ) ^ (e - ((p : ℤ) - 1)) ≤ (10 : ℝ) ^ (1 - (p : ℤ)) * x := by
      have : e - ((p : ℤ) - 1) = (1 - (p : ℤ)) + e := by ring
      rw [this, zpow_add₀ h10.ne']
      exact mul_le_mul_of_nonneg_left h1 (by positivity)
    calc |y - roundHalfEven y| * (10 : ℝ) ^ (e - ((p : ℤ) - 1))
        ≤ 1 / 2 * (10 : ℝ) ^ (e - ((p : ℤ) - 1)) := mul_le_mul_of_nonneg_right hr hs.le
      _ ≤ 1 / 2 * ((10 : ℝ) ^ (1 - (p : ℤ)) * x) := mul_le_mul_of_nonneg_left h3 (by norm_num)
      _ = _ := by ring
  have hsr : sigRound p x = if roundHalfEven y = 10 ^ p then (10 ^ (p - 1), e + 1) else (roundHalfEven y, e) := rfl
  rw [hsr]
  by_cases hc : roundHalfEven y = 10 ^ p
  · rw [if_pos hc]
    refine ⟨Nat.pow_lt_pow_right (by norm_num) (by omega), ?_⟩
    rw [hc] at hbound
    have e2 : (((10 : Nat) ^ (p - 1) : Nat) : ℝ) * (10 : ℝ) ^ (e + 1 - ((p : ℤ) - 1)) =
        (((10 : Nat) ^ p : Nat) : ℝ) * (10 : ℝ) ^ (e - ((p : ℤ) - 1)) := by
      push_cast
      rw [← zpow_natCast, ← zpow_natCast, ← zpow_add₀ h10.ne', ← zpow_add₀ h10.ne']
      congr 1
      rw [Nat.cast_sub (by omega)]
      push_cast; ring
    rw [e2]; exact hbound
  · rw [if_neg hc]
    exact ⟨lt_of_le_of_ne hk hc, hbound⟩

theorem sigRound_exact {p : Nat} (hp : 0 < p) {x : ℝ} (hx : 0 < x) (m : Nat) (j : ℤ) (hm : m < 10 ^ p)
    (h : x = m * (10 : ℝ) ^ j) :
    ((sigRound p x).1 : ℝ) * (10 : ℝ) ^ ((sigRound p x).2 - ((p : ℤ) - 1)) = x := by
  have h10 : (0 : ℝ) < 10 := by norm_num
  have hlt : x < (10 : ℝ) ^ (p + j) := by
    rw [h, zpow_add₀ h10.ne', zpow_natCast]
    exact mul_lt_mul_of_pos_right (by exact_mod_cast hm) (by positivity)
  have he : Int.log 10 x < p + j := (Int.lt_zpow_iff_log_lt (b := 10) (by norm_num) hx).1 (by exact_mod_cast hlt)
  obtain ⟨d, hd⟩ := Int.eq_ofNat_of_zero_le (by omega : 0 ≤ j + (p - 1 - Int.log 10 x))
  have hy : x * (10 : ℝ) ^ ((p : ℤ) - 1 - Int.log 10 x) = ((m * 10 ^ d : Nat) : ℝ) := by
    have : x * (10 : ℝ) ^ ((p : ℤ) - 1 - Int.log 10 x) = m * (10 : ℝ) ^ (j + (p - 1 - Int.log 10 x)) := by
      conv_lhs => rw [h]
      rw [mul_assoc, ← h, ← zpow_add₀ h10.ne']
    rw [this, hd, zpow_natCast]; push_cast; rfl
  have hk : roundHalfEven (x * (10 : ℝ) ^ ((p : ℤ) - 1 - Int.log 10 x)) = m * 10 ^ d := by
    rw [hy, roundHalfEven_nat]
  have hback : ((m * 10 ^ d : Nat) : ℝ) * (10 : ℝ) ^ (Int.log 10 x - ((p : ℤ) - 1)) = x := by
    rw [← hy, mul_assoc, ← zpow_add₀ h10.ne']
    have : (p : ℤ) - 1 - Int.log 10 x + (Int.log 10 x - ((p : ℤ) - 1)) = 0 := by ring
    rw [this, zpow_zero, mul_one]
  rw [sigRound]
  simp only [hk]
  by_cases hc : m * 10 ^ d = 10 ^ p
  · rw [if_pos hc]
    rw [hc] at hback
    rw [← hback]
    conv_lhs => rw [hback]
    push_cast
    rw [← zpow_natCast, ← zpow_natCast, ← zpow_add₀ h10.ne', ← zpow_add₀ h10.ne']
    congr 1
    rw [Nat.cast_sub (by omega)]
    push_cast; ring
  · rw [if_neg hc]; exact hback

/-! ## Reading back -/

theorem padDigits_value {p k : Nat} (h : k < 10 ^ p) : digitsValue 0 (padDigits p k) = k := by
  rw [(padDigits_spec p k 0 h).1]; simp

theorem take_drop_value {p k : Nat} (h : k < 10 ^ p) (i : Nat) :
    digitsValue 0 ((padDigits p k).take i ++ (padDigits p k).drop i) = k := by
  rw [List.take_append_drop, padDigits_value h]

theorem readUnsigned_sci {p : Nat} (hp : 0 < p) {x : ℝ} (hx : 0 < x) :
    readUnsigned (sciUnsigned p x) =
      ((sigRound p x).1 : ℝ) * (10 : ℝ) ^ ((sigRound p x).2 - ((p : ℤ) - 1)) := by
  have hk := (sigRound_spec hp hx).1
  obtain ⟨-, h2, h3⟩ := padDigits_spec p (sigRound p x).1 0 hk
  rw [sciUnsigned, if_neg hx.ne']
  show readUnsigned (withPoint ((padDigits p (sigRound p x).1).take 1) ((padDigits p (sigRound p x).1).drop 1) ++
    exponentText (sigRound p x).2) = _
  rw [readUnsigned_withPoint _ _ (fun d hd => h2 d (List.mem_of_mem_take hd))
    (fun d hd => h2 d (List.mem_of_mem_drop hd)) (.inr rfl), take_drop_value hk, List.length_drop, h3,
    Nat.cast_sub (by omega)]
  push_cast; rfl

theorem readUnsigned_general {p : Nat} (hp : 0 < p) {x : ℝ} (hx : 0 < x) :
    readUnsigned (generalUnsigned p x) =
      ((sigRound p x).1 : ℝ) * (10 : ℝ) ^ ((sigRound p x).2 - ((p : ℤ) - 1)) := by
  have hk := (sigRound_spec hp hx).1
  obtain ⟨-, h2, h3⟩ := padDigits_spec p (sigRound p x).1 0 hk
  have htake : ∀ i, ∀ d ∈ (padDigits p (sigRound p x).1).take i, d < 10 := fun i d hd =>
    h2 d (List.mem_of_mem_take hd)
  have hdrop : ∀ i, ∀ d ∈ stripZeros ((padDigits p (sigRound p x).1).drop i), d < 10 := fun i d hd =>
    h2 d (List.mem_of_mem_drop (stripZeros_mem hd))
  rw [generalUnsigned, if_neg hx.ne']
  simp only
  generalize hr : sigRound p x = ke at *
  obtain ⟨k, e⟩ := ke
  simp only at *
  split
  · rw [readUnsigned_withPoint _ _ (htake 1) (hdrop 1) (.inr rfl), value_stripZeros, take_drop_value hk,
      List.length_drop, h3, Nat.cast_sub (by omega)]
    push_cast; rfl
  · next hr1 =>
    push Not at hr1
    split
    · next h0 =>
      have := readUnsigned_withPoint _ _ (htake (e.toNat + 1)) (hdrop (e.toNat + 1)) (e := 0) (t := []) (.inl ⟨rfl, rfl⟩)
      rw [List.append_nil] at this
      rw [this, value_stripZeros, take_drop_value hk, List.length_drop, h3]
      congr 2
      omega
    · next h0 =>
      have hz : ∀ d ∈ List.replicate (-e - 1).toNat 0 ++ stripZeros (padDigits p k), d < 10 := fun d hd => by
        rcases List.mem_append.1 hd with hd | hd
        · rw [List.eq_of_mem_replicate hd]; norm_num
        · exact h2 d (stripZeros_mem hd)
      have := readUnsigned_withPoint [0] _ (by simp) hz (e := 0) (t := []) (.inl ⟨rfl, rfl⟩)
      rw [List.append_nil] at this
      rw [this, ← List.append_assoc, List.length_append, List.length_replicate]
      have hv := value_stripZeros ([0] ++ List.replicate (-e - 1).toNat 0) (padDigits p k) (-((-e - 1).toNat : ℤ))
      have e1 : (0 : ℤ) - (((-e - 1).toNat + (stripZeros (padDigits p k)).length : Nat) : ℤ) =
          -((-e - 1).toNat : ℤ) - ((stripZeros (padDigits p k)).length : ℤ) := by push_cast; ring
      rw [e1, hv, digitsValue_append, digitsValue_append, digitsValue_zeros]
      have e2 : digitsValue 0 [0] * 10 ^ (-e - 1).toNat = 0 := by simp [digitsValue]
      rw [e2, padDigits_value hk, h3]
      congr 2
      omega

theorem readUnsigned_sci_zero (p : Nat) : readUnsigned (sciUnsigned p 0) = 0 := by
  rw [sciUnsigned, if_pos rfl, readUnsigned_withPoint [0] _ (by simp) (fun d hd => by
    rw [List.eq_of_mem_replicate hd]; norm_num) (.inr rfl), digitsValue_append, digitsValue_zeros]
  simp [digitsValue]

theorem readUnsigned_general_zero (p : Nat) : readUnsigned (generalUnsigned p 0) = 0 := by
  have := readUnsigned_withPoint [0] [] (by simp) (by simp) (e := 0) (t := []) (.inl ⟨rfl, rfl⟩)
  rw [generalUnsigned, if_pos rfl]
  have e : withPoint [0] [] ++ [] = ['0'] := by decide
  rw [e] at this
  rw [this]; simp [digitsValue]

/-- A text that begins with a digit. -/
def StartsDigit (t : List Char) : Prop := ∃ d ds, d < 10 ∧ t = digitChar d :: ds

theorem startsDigit_withPoint {ip frac : List Nat} (h : ∀ d ∈ ip, d < 10) (hne : ip ≠ []) (t : List Char) :
    StartsDigit (withPoint ip frac ++ t) := by
  cases ip with
  | nil => exact absurd rfl hne
  | cons d ds => exact ⟨d, _, h d (by simp), rfl⟩

theorem padDigits_take_ne {p k : Nat} (hp : 0 < p) (i : Nat) (h : k < 10 ^ p) : (padDigits p k).take (i + 1) ≠ [] := by
  intro h0
  have := congrArg List.length h0
  rw [List.length_take, (padDigits_spec p k 0 h).2.2] at this
  simp at this
  omega

theorem startsDigit_sci {p : Nat} (hp : 0 < p) {x : ℝ} (hx : 0 ≤ x) : StartsDigit (sciUnsigned p x) := by
  rw [sciUnsigned]
  split
  · exact startsDigit_withPoint (by simp) (by simp) _
  · next h =>
    have hk := (sigRound_spec hp (lt_of_le_of_ne hx (Ne.symm h))).1
    exact startsDigit_withPoint (fun d hd => (padDigits_spec p _ 0 hk).2.1 d (List.mem_of_mem_take hd))
      (padDigits_take_ne hp 0 hk) _

theorem startsDigit_general {p : Nat} (hp : 0 < p) {x : ℝ} (hx : 0 ≤ x) : StartsDigit (generalUnsigned p x) := by
  rw [generalUnsigned]
  split
  · exact ⟨0, [], by norm_num, rfl⟩
  · next h =>
    have hk := (sigRound_spec hp (lt_of_le_of_ne hx (Ne.symm h))).1
    have h2 := (padDigits_spec p _ 0 hk).2.1
    simp only
    split
    · exact startsDigit_withPoint (fun d hd => h2 d (List.mem_of_mem_take hd)) (padDigits_take_ne hp 0 hk) _
    · split
      · have := startsDigit_withPoint (frac := stripZeros ((padDigits p (sigRound p x).1).drop
          ((sigRound p x).2.toNat + 1))) (fun d hd => h2 d (List.mem_of_mem_take hd))
          (padDigits_take_ne hp (sigRound p x).2.toNat hk) []
        rwa [List.append_nil] at this
      · have := startsDigit_withPoint (ip := [0]) (frac := List.replicate (-(sigRound p x).2 - 1).toNat 0 ++
          stripZeros (padDigits p (sigRound p x).1)) (by simp) (by simp) []
        rwa [List.append_nil] at this

theorem readDecimal_neg {t : List Char} (h : StartsDigit t) : readDecimal ('-' :: t) = .fin (-readUnsigned t) := by
  obtain ⟨d, ds, hd, rfl⟩ := h
  have := (digitChar_plain hd).2.2.2.2.1
  unfold readDecimal
  split
  · next h => simp at h
  · next h => simp only [List.cons.injEq, true_and] at h; exact absurd h.1 this
  · next h => simp at h
  · next h => simp only [List.cons.injEq, true_and] at h; rw [h]
  · next h => exact (h _ rfl).elim

theorem readDecimal_pos {t : List Char} (h : StartsDigit t) : readDecimal t = .fin (readUnsigned t) := by
  obtain ⟨d, ds, hd, rfl⟩ := h
  have h1 := (digitChar_plain hd).2.2.1
  have h2 := (digitChar_plain hd).2.2.2.2.1
  have h3 := (digitChar_plain hd).2.2.2.2.2
  unfold readDecimal
  split
  · next h => simp only [List.cons.injEq] at h; exact absurd h.1 h2
  · next h => simp only [List.cons.injEq] at h; exact absurd h.1 h1
  · next h => simp only [List.cons.injEq] at h; exact absurd h.1 h3
  · next h => simp only [List.cons.injEq] at h; exact absurd h.1 h1
  · rfl

/-- Reading what is printed gives the value up to half a unit of the last printed digit, and exactly for numbers that
have no more digits. -/
theorem signedText_read {p : Nat} (hp : 0 < p) (unsigned : ℝ → List Char)
    (h1 : ∀ x, 0 < x → readUnsigned (unsigned x) =
      ((sigRound p x).1 : ℝ) * (10 : ℝ) ^ ((sigRound p x).2 - ((p : ℤ) - 1)))
    (h0 : readUnsigned (unsigned 0) = 0) (hs : ∀ x, 0 ≤ x → StartsDigit (unsigned x)) (x : Dbl) :
    NearRel (1 / 2 * (10 : ℝ) ^ (1 - (p : ℤ))) x (readDecimal (signedText unsigned x)) ∧
      (HasDigits p x → readDecimal (signedText unsigned x) = x) := by
  cases x with
  | pinf => exact ⟨rfl, fun _ => rfl⟩
  | ninf => exact ⟨rfl, fun _ => rfl⟩
  | nan => exact ⟨rfl, fun _ => rfl⟩
  | fin x =>
    have hnear : |readUnsigned (unsigned |x|) - (|x|)| ≤ 1 / 2 * (10 : ℝ) ^ (1 - (p : ℤ)) * |x| := by
      rcases eq_or_ne x 0 with rfl | hx
      · rw [abs_zero, h0]; simp
      · rw [h1 _ (abs_pos.2 hx)]; exact (sigRound_spec hp (abs_pos.2 hx)).2
    have hex : HasDigits p (.fin x) → readUnsigned (unsigned |x|) = |x| := by
      rintro ⟨m, j, hm, hmj⟩
      rcases eq_or_ne x 0 with rfl | hx
      · rw [abs_zero, h0]
      · rw [h1 _ (abs_pos.2 hx)]; exact sigRound_exact hp (abs_pos.2 hx) m j hm hmj
    rw [signedText]
    by_cases hx : x < 0
    · rw [if_pos hx, List.singleton_append, readDecimal_neg (hs _ (abs_nonneg x))]
      rw [abs_of_neg hx] at hnear hex ⊢
      refine ⟨?_, fun hd => by rw [hex hd, neg_neg]⟩
      show |-readUnsigned (unsigned (-x)) - x| ≤ _ * |x|
      rw [abs_of_neg hx]
      have : -readUnsigned (unsigned (-x)) - x = -(readUnsigned (unsigned (-x)) - -x) := by ring
      rw [this, abs_neg]; exact hnear
    · rw [if_neg hx, List.nil_append, readDecimal_pos (hs _ (abs_nonneg x))]
      rw [abs_of_nonneg (not_lt.1 hx)] at hnear hex ⊢
      refine ⟨?_, fun hd => by rw [hex hd]⟩
      show |readUnsigned (unsigned x) - x| ≤ _ * |x|
      rw [abs_of_nonneg (not_lt.1 hx)]; exact hnear

theorem sciText_read {p : Nat} (hp : 0 < p) (x : Dbl) :
    NearRel (1 / 2 * (10 : ℝ) ^ (1 - (p : ℤ))) x (readDecimal (sciText p x)) ∧
      (HasDigits p x → readDecimal (sciText p x) = x) :=
  signedText_read hp _ (fun _ hx => readUnsigned_sci hp hx) (readUnsigned_sci_zero p)
    (fun _ hx => startsDigit_sci hp hx) x

theorem generalText_read {p : Nat} (hp : 0 < p) (x : Dbl) :
    NearRel (1 / 2 * (10 : ℝ) ^ (1 - (p : ℤ))) x (readDecimal (generalText p x)) ∧
      (HasDigits p x → readDecimal (generalText p x) = x) :=
  signedText_read hp _ (fun _ hx => readUnsigned_general hp hx) (readUnsigned_general_zero p)
    (fun _ hx => startsDigit_general hp hx) x

/-! ## Characters -/

/-- The characters of a printed number. -/
def NumberChar (c : Char) : Prop :=
  (∃ d, d < 10 ∧ c = digitChar d) ∨ c = '.' ∨ c = 'e' ∨ c = '+' ∨ c = '-' ∨ c = 'i' ∨ c = 'n' ∨ c = 'f' ∨ c = 'a'

theorem NumberChar.ne {c : Char} (h : NumberChar c) : c ≠ ',' ∧ c ≠ '\n' ∧ c ≠ '"' ∧ c ≠ ']' ∧ c ≠ '}' := by
  rcases h with ⟨d, hd, rfl⟩ | h
  · interval_cases d <;> decide
  · rcases h with rfl | rfl | rfl | rfl | rfl | rfl | rfl | rfl <;> decide

theorem numberChar_withPoint {ip frac : List Nat} (hi : ∀ d ∈ ip, d < 10) (hf : ∀ d ∈ frac, d < 10) :
    ∀ c ∈ withPoint ip frac, NumberChar c := by
  intro c hc
  unfold withPoint at hc
  rcases List.mem_append.1 hc with hc | hc
  · obtain ⟨d, hd, rfl⟩ := List.mem_map.1 hc
    exact .inl ⟨d, hi d hd, rfl⟩
  · split at hc
    · simp at hc
    · rcases List.mem_cons.1 hc with rfl | hc
      · exact .inr (.inl rfl)
      · obtain ⟨d, hd, rfl⟩ := List.mem_map.1 hc
        exact .inl ⟨d, hf d hd, rfl⟩

theorem numberChar_exponent (e : ℤ) : ∀ c ∈ exponentText e, NumberChar c := by
  intro c hc
  unfold exponentText at hc
  rcases List.mem_cons.1 hc with rfl | hc
  · exact .inr (.inr (.inl rfl))
  · rcases List.mem_cons.1 hc with rfl | hc
    · split
      · exact .inr (.inr (.inr (.inr (.inl rfl))))
      · exact .inr (.inr (.inr (.inl rfl)))
    · obtain ⟨d, hd, rfl⟩ := List.mem_map.1 hc
      exact .inl ⟨d, (exponentDigits_lt e).1 d hd, rfl⟩

theorem numberChar_signed {unsigned : ℝ → List Char} (h : ∀ x, 0 ≤ x → ∀ c ∈ unsigned x, NumberChar c) (x : Dbl) :
    ∀ c ∈ signedText unsigned x, NumberChar c := by
  intro c hc
  cases x with
  | fin x =>
    rcases List.mem_append.1 hc with hc | hc
    · split at hc
      · rw [List.mem_singleton.1 hc]; exact .inr (.inr (.inr (.inr (.inl rfl))))
      · simp at hc
    · exact h _ (abs_nonneg x) c hc
  | pinf =>
    simp only [signedText, List.mem_cons, List.not_mem_nil, or_false] at hc
    rcases hc with rfl | rfl | rfl <;> simp [NumberChar]
  | ninf =>
    simp only [signedText, List.mem_cons, List.not_mem_nil, or_false] at hc
    rcases hc with rfl | rfl | rfl | rfl <;> simp [NumberChar]
  | nan =>
    simp only [signedText, List.mem_cons, List.not_mem_nil, or_false] at hc
    rcases hc with rfl | rfl | rfl <;> simp [NumberChar]

theorem numberChar_sci {p : Nat} (hp : 0 < p) (x : Dbl) : ∀ c ∈ sciText p x, NumberChar c := by
  refine numberChar_signed (fun x hx c hc => ?_) x
  rw [sciUnsigned] at hc
  split at hc
  · rcases List.mem_append.1 hc with hc | hc
    · exact numberChar_withPoint (by simp) (fun d hd => by rw [List.eq_of_mem_replicate hd]; norm_num) c hc
    · exact numberChar_exponent _ c hc
  · next h =>
    have hk := (sigRound_spec hp (lt_of_le_of_ne hx (Ne.symm h))).1
    have h2 := (padDigits_spec p _ 0 hk).2.1
    rcases List.mem_append.1 hc with hc | hc
    · exact numberChar_withPoint (fun d hd => h2 d (List.mem_of_mem_take hd))
        (fun d hd => h2 d (List.mem_of_mem_drop hd)) c hc
    · exact numberChar_exponent _ c hc

theorem numberChar_general {p : Nat} (hp : 0 < p) (x : Dbl) : ∀ c ∈ generalText p x, NumberChar c := by
  refine numberChar_signed (fun x hx c hc => ?_) x
  rw [generalUnsigned] at hc
  split at hc
  · rw [List.mem_singleton.1 hc]; exact .inl ⟨0, by norm_num, rfl⟩
  · next h =>
    have hk := (sigRound_spec hp (lt_of_le_of_ne hx (Ne.symm h))).1
    have h2 := (padDigits_spec p _ 0 hk).2.1
    simp only at hc
    split at hc
    · rcases List.mem_append.1 hc with hc | hc
      · exact numberChar_withPoint (fun d hd => h2 d (List.mem_of_mem_take hd))
          (fun d hd => h2 d (List.mem_of_mem_drop (stripZeros_mem hd))) c hc
      · exact numberChar_exponent _ c hc
    · split at hc
      · exact numberChar_withPoint (fun d hd => h2 d (List.mem_of_mem_take hd))
          (fun d hd => h2 d (List.mem_of_mem_drop (stripZeros_mem hd))) c hc
      · refine numberChar_withPoint (by simp) (fun d hd => ?_) c hc
        rcases List.mem_append.1 hd with hd | hd
        · rw [List.eq_of_mem_replicate hd]; norm_num
        · exact h2 d (stripZeros_mem hd)

/-- Texts that end at the same character. -/
theorem cut_at {c : Char} : ∀ {a a' r r' : List Char}, c ∉ a → c ∉ a' → a ++ c :: r = a' ++ c :: r' → a = a' ∧ r = r'
  | [], [], _, _, _, _, h => ⟨rfl, (List.cons.inj h).2⟩
  | [], x :: a', _, _, _, h2, h => by
    have := (List.cons.inj h).1
    exact absurd (this ▸ List.mem_cons_self) h2
  | x :: a, [], _, _, h1, _, h => by
    have := (List.cons.inj h).1
    exact absurd (this ▸ List.mem_cons_self) h1
  | x :: a, y :: a', r, r', h1, h2, h => by
    obtain ⟨hxy, h3⟩ := List.cons.inj h
    subst hxy
    obtain ⟨rfl, rfl⟩ := cut_at (fun hm => h1 (List.mem_cons_of_mem _ hm))
      (fun hm => h2 (List.mem_cons_of_mem _ hm)) h3
    exact ⟨rfl, rfl⟩

end Albatross
