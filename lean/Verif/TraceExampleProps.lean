import Verif.TraceExample
import Verif.PrintingProps
import Verif.NumberTextProps
import Verif.SerializeProps

/-! # The numbers of a call trace and the call trace example: C139 -/

namespace Albatross

variable {T : Type} {F : T → Type} {X S : Type}

/-! ## Digits of `std::to_string` -/

theorem natToString_digits (n : Nat) : (toString n).toList = (decDigits n).map digitChar := by
  have hd : ∀ d, d < 10 → Nat.digitChar d = digitChar d := by
    intro d hd
    interval_cases d <;> decide
  show (Nat.repr n).toList = _
  rw [Nat.repr, String.toList_ofList]
  induction n using Nat.strong_induction_on with
  | _ n ih =>
    rw [Nat.toDigits_eq_if (by norm_num), decDigits]
    split_ifs with h
    · simp [hd n h]
    · rw [ih (n / 10) (by omega), List.map_append, hd _ (Nat.mod_lt n (by norm_num))]
      rfl

theorem decDigits_length (k n : Nat) (h : n < 10 ^ (k + 1)) : (decDigits n).length ≤ k + 1 := by
  induction k generalizing n with
  | zero => rw [decDigits, if_pos (by simpa using h)]; simp
  | succ k ih =>
    rw [decDigits]
    split_ifs with h'
    · simp
    · have := ih (n / 10) (by rw [pow_succ] at h; omega)
      simp only [List.length_append, List.length_cons, List.length_nil]
      omega

/-- The digits `std::to_string` writes, without the sign. -/
theorem fixed_read (n : Nat) (frac : List Char) (hf : frac = (toString (n % 10 ^ 6)).toList) :
    readUnsigned ((toString (n / 10 ^ 6)).toList ++ '.' :: (List.replicate (6 - frac.length) '0' ++ frac)) =
      (n : ℝ) / 10 ^ 6 ∧
    StartsDigit ((toString (n / 10 ^ 6)).toList ++ '.' :: (List.replicate (6 - frac.length) '0' ++ frac)) := by
  obtain ⟨hi1, hi2, hi3⟩ := decDigits_spec (n / 10 ^ 6)
  obtain ⟨hf1, hf2, hf3⟩ := decDigits_spec (n % 10 ^ 6)
  have hlen := decDigits_length 5 (n % 10 ^ 6) (Nat.mod_lt _ (by norm_num))
  have h0 : digitChar 0 = '0' := by decide
  set fd := List.replicate (6 - (decDigits (n % 10 ^ 6)).length) 0 ++ decDigits (n % 10 ^ 6) with hfd
  have htext : (toString (n / 10 ^ 6)).toList ++ '.' :: (List.replicate (6 - frac.length) '0' ++ frac) =
      withPoint (decDigits (n / 10 ^ 6)) fd ++ [] := by
    rw [withPoint, if_neg (fun h => hf3 (List.append_eq_nil_iff.1 h).2), hf, natToString_digits, natToString_digits, List.append_nil, hfd,
      List.map_append, List.map_replicate, h0, List.length_map]
  have hfdlt : ∀ d ∈ fd, d < 10 := by
    intro d hd
    rcases List.mem_append.1 hd with hd | hd
    · rw [(List.mem_replicate.1 hd).2]; norm_num
    · exact hf2 d hd
  have hfdlen : fd.length = 6 := by rw [hfd, List.length_append, List.length_replicate]; omega
  rw [htext]
  refine ⟨?_, startsDigit_withPoint hi2 hi3 []⟩
  rw [readUnsigned_withPoint _ _ hi2 hfdlt (.inl ⟨rfl, rfl⟩), hfdlen]
  have hval : digitsValue 0 (decDigits (n / 10 ^ 6) ++ fd) = n := by
    rw [digitsValue_append, hi1, hfd, digitsValue_append, digitsValue_zeros]
    have hshift : ∀ (ds : List Nat) (a : Nat), digitsValue a ds = a * 10 ^ ds.length + digitsValue 0 ds := by
      intro ds
      induction ds with
      | nil => intro a; simp [digitsValue]
      | cons d ds ih =>
        intro a
        have e1 : digitsValue a (d :: ds) = digitsValue (10 * a + d) ds := rfl
        have e2 : digitsValue 0 (d :: ds) = digitsValue (10 * 0 + d) ds := rfl
        rw [e1, e2, ih (10 * a + d), ih (10 * 0 + d), List.length_cons, pow_succ]
        ring
    rw [hshift, hf1, mul_assoc, ← pow_add, Nat.sub_add_cancel hlen]
    omega
  rw [hval]
  norm_num [zpow_neg, div_eq_mul_inv]

/-- What `std::to_string` writes reads as the value up to half a unit of the sixth decimal. -/
theorem toStringFixed_read (v : ℝ) :
    ∃ w, readDecimal (toStringFixed v) = .fin w ∧ |w - v| ≤ 1 / 2 / 10 ^ 6 := by
  obtain ⟨hr, hs⟩ := fixed_read (nearestNat (|v| * 10 ^ 6)) _ rfl
  have hn : |(|v| * 10 ^ 6) - (nearestNat (|v| * 10 ^ 6) : ℝ)| ≤ 1 / 2 :=
    roundHalfEven_spec (y := |v| * 10 ^ 6) (by positivity)
  have hc : |(nearestNat (|v| * 10 ^ 6) : ℝ) / 10 ^ 6 - (|v|)| ≤ 1 / 2 / 10 ^ 6 := by
    rw [abs_le] at hn ⊢
    constructor <;> norm_num at hn ⊢ <;> linarith [hn.1, hn.2]
  unfold toStringFixed
  by_cases hv : v < 0
  · refine ⟨-((nearestNat (|v| * 10 ^ 6) : ℝ) / 10 ^ 6), ?_, ?_⟩
    · simp only [if_pos hv, List.nil_append, List.cons_append]
      rw [readDecimal_neg hs, hr]
    · rw [abs_of_neg hv] at hc ⊢
      rw [← abs_neg]
      convert hc using 2
      ring
  · refine ⟨(nearestNat (|v| * 10 ^ 6) : ℝ) / 10 ^ 6, ?_, ?_⟩
    · simp only [if_neg hv, List.nil_append]
      rw [readDecimal_pos hs, hr]
    · rw [abs_of_nonneg (not_lt.1 hv)] at hc ⊢
      exact hc

/-- What a stream writes reads as the value up to half a unit of the sixth digit. -/
theorem streamText_read (v : ℝ) :
    ∃ w, readDecimal (streamText v) = .fin w ∧ |w - v| ≤ 1 / 2 / 10 ^ 5 * |v| := by
  have h := (generalText_read (p := 6) (by norm_num) (.fin v)).1
  unfold streamText
  cases hw : readDecimal (generalText 6 (.fin v)) with
  | fin w =>
    rw [hw] at h
    refine ⟨w, rfl, ?_⟩
    have h' : |w - v| ≤ 1 / 2 * (10 : ℝ) ^ (1 - ((6 : Nat) : ℤ)) * |v| := h
    norm_num at h' ⊢
    exact h'
  | pinf => rw [hw] at h; exact absurd h (by simp [NearRel])
  | ninf => rw [hw] at h; exact absurd h (by simp [NearRel])
  | nan => rw [hw] at h; exact absurd h (by simp [NearRel])

/-! ## Specification: what the lines of a trace show -/

/-- The value of a covariance function for two features. -/
noncomputable def CovTree.valueAt (t : CovTree F X S) {s u : T} (x : F s) (y : F u) : ℝ :=
  (defaultCaller t.caller).call (.base s) (.base u) x y

/-- It accepts the two features. -/
def CovTree.Accepts (t : CovTree F X S) (s u : T) : Prop := (defaultCaller t.caller).valid (.base s) (.base u) = true

/-- The number a reader finds in the line of a covariance function. -/
noncomputable def CovTree.shownNumber (t : CovTree F X S) {s u : T} (x : F s) (y : F u) : Dbl :=
  readDecimal (t.shownValue toStringFixed streamText (.base s) (.base u) x y)

/-- The error of a line that shows `v`: half a unit of the sixth decimal or of the sixth digit. -/
noncomputable def shownError (v : ℝ) : ℝ := 1 / 2 / 10 ^ 6 + 1 / 2 / 10 ^ 5 * |v|

/-- C139: the line of a single function shows its value up to half a unit of the sixth decimal, the line of a composed
one up to half a unit of the sixth significant digit. -/
theorem C139_shown (t : CovTree F X S) {s u : T} (x : F s) (y : F u) (h : t.Accepts s u) :
    ∃ w, t.shownNumber x y = .fin w ∧ |w - t.valueAt x y| ≤ shownError (t.valueAt x y) ∧
      ((∃ n m c r, t = .leaf n m c r) → |w - t.valueAt x y| ≤ 1 / 2 / 10 ^ 6) ∧
      ((∃ op l r, t = .node op l r) → |w - t.valueAt x y| ≤ 1 / 2 / 10 ^ 5 * |t.valueAt x y|) := by
  cases t with
  | leaf n m c r =>
    obtain ⟨w, hw, hb⟩ := toStringFixed_read ((CovTree.leaf n m c r).valueAt x y)
    refine ⟨w, (congrArg readDecimal (if_pos h)).trans hw, hb.trans ?_, fun _ => hb, ?_⟩
    · unfold shownError
      have := abs_nonneg ((CovTree.leaf n m c r).valueAt x y)
      linarith [mul_nonneg (by norm_num : (0 : ℝ) ≤ 1 / 2 / 10 ^ 5) this]
    · rintro ⟨op, l, r', h'⟩; cases h'
  | node op l r =>
    obtain ⟨w, hw, hb⟩ := streamText_read ((CovTree.node op l r).valueAt x y)
    refine ⟨w, (congrArg readDecimal (if_pos h)).trans hw, hb.trans ?_, ?_, fun _ => hb⟩
    · unfold shownError
      norm_num
    · rintro ⟨n, m, c, r', h'⟩; cases h'

/-! ## The values of composed functions -/

theorem sum_valueAt (l r : CovTree F X S) {s u : T} (x : F s) (y : F u) (hl : l.Accepts s u) (hr : r.Accepts s u) :
    (CovTree.node .sum l r).Accepts s u ∧
      (CovTree.node .sum l r).valueAt x y = l.valueAt x y + r.valueAt x y := by
  have hl' : (equivalentCaller l.caller).valid (.base s) (.base u) = true := hl
  have hr' : (equivalentCaller r.caller).valid (.base s) (.base u) = true := hr
  have hv : (covSum l.caller r.caller).valid (.base s) (.base u) = true := by
    show ((equivalentCaller l.caller).valid (.base s) (.base u) || _) = true
    rw [hl', Bool.true_or]
  constructor
  · show ((covSum l.caller r.caller).valid (.base s) (.base u) || _) = true
    rw [hv, Bool.true_or]
  · show (if (covSum l.caller r.caller).valid (.base s) (.base u) then
      (covSum l.caller r.caller).call (.base s) (.base u) x y else _) = _
    rw [if_pos hv]
    show (if ((equivalentCaller l.caller).valid (.base s) (.base u) &&
      (equivalentCaller r.caller).valid (.base s) (.base u)) = true then _ else _) = _
    rw [hl', hr']
    rfl

theorem product_valueAt (op : CovOp) (hop : op ≠ .sum) (l r : CovTree F X S) {s u : T} (x : F s) (y : F u)
    (hl : l.Accepts s u) (hr : r.Accepts s u) :
    (CovTree.node op l r).Accepts s u ∧ (CovTree.node op l r).valueAt x y = l.valueAt x y * r.valueAt x y := by
  have hl' : (equivalentCaller l.caller).valid (.base s) (.base u) = true := hl
  have hr' : (equivalentCaller r.caller).valid (.base s) (.base u) = true := hr
  have key : ∀ c : Caller F, c.valid (.base s) (.base u) = true →
      c.call (.base s) (.base u) x y = l.valueAt x y * r.valueAt x y →
      (defaultCaller c).valid (.base s) (.base u) = true ∧
        (defaultCaller c).call (.base s) (.base u) x y = l.valueAt x y * r.valueAt x y := by
    intro c hv hc
    constructor
    · show (c.valid (.base s) (.base u) || _) = true
      rw [hv, Bool.true_or]
    · show (if c.valid (.base s) (.base u) then c.call (.base s) (.base u) x y else _) = _
      rw [if_pos hv, hc]
  have hz : ∀ a b : ℝ, (if a ≠ 0 then a * b else a) = a * b := by
    intro a b
    split_ifs with h
    · rfl
    · rw [not_not.1 h, zero_mul]
  cases op with
  | sum => exact absurd rfl hop
  | product =>
    refine key (covProduct l.caller r.caller) ?_ ?_
    · show ((equivalentCaller l.caller).valid (.base s) (.base u) || _) = true
      rw [hl', Bool.true_or]
    · show (if ((equivalentCaller l.caller).valid (.base s) (.base u) &&
        (equivalentCaller r.caller).valid (.base s) (.base u)) = true then _ else _) = _
      rw [hl', hr']
      exact hz _ _
  | scaledLeft =>
    refine key (scaledProduct l.caller r.caller) hr' ?_
    show (if (equivalentCaller l.caller).valid (.base s) (.base u) = true then _ else _) = _
    rw [if_pos hl']
    exact hz _ _
  | scaledRight =>
    refine key (scaledProductRight l.caller r.caller) hl' ?_
    show (if (equivalentCaller r.caller).valid (.base s) (.base u) = true then _ else _) = _
    rw [if_pos hr']
    exact hz _ _

/-! ## A reader can check the arithmetic -/

/-- C139: the number shown for a sum is the sum of the two numbers shown below it, up to the errors of the three
lines. -/
theorem C139_sum_adds_up (l r : CovTree F X S) {s u : T} (x : F s) (y : F u) (hl : l.Accepts s u) (hr : r.Accepts s u) :
    ∃ w wl wr, (CovTree.node .sum l r).shownNumber x y = .fin w ∧ l.shownNumber x y = .fin wl ∧
      r.shownNumber x y = .fin wr ∧
      |w - (wl + wr)| ≤ shownError (l.valueAt x y + r.valueAt x y) + shownError (l.valueAt x y) +
        shownError (r.valueAt x y) := by
  obtain ⟨ha, hv⟩ := sum_valueAt l r x y hl hr
  obtain ⟨w, hw, hb, -⟩ := C139_shown _ x y ha
  obtain ⟨wl, hwl, hbl, -⟩ := C139_shown l x y hl
  obtain ⟨wr, hwr, hbr, -⟩ := C139_shown r x y hr
  refine ⟨w, wl, wr, hw, hwl, hwr, ?_⟩
  rw [hv] at hb
  rw [abs_le] at *
  constructor <;> linarith [hb.1, hb.2, hbl.1, hbl.2, hbr.1, hbr.2]

/-- C139: the number shown for a product, also with a scaling term on either side, is the product of the two numbers
shown below it, up to the errors of the three lines. -/
theorem C139_product_multiplies_partial (op : CovOp) (hop : op ≠ .sum) (l r : CovTree F X S) {s u : T} (x : F s) (y : F u)
    (hl : l.Accepts s u) (hr : r.Accepts s u) :
    ∃ w wl wr, (CovTree.node op l r).shownNumber x y = .fin w ∧ l.shownNumber x y = .fin wl ∧
      r.shownNumber x y = .fin wr ∧
      |w - wl * wr| ≤ shownError (l.valueAt x y * r.valueAt x y) + |l.valueAt x y| * shownError (r.valueAt x y) +
        |r.valueAt x y| * shownError (l.valueAt x y) + shownError (l.valueAt x y) * shownError (r.valueAt x y) := by
  obtain ⟨ha, hv⟩ := product_valueAt op hop l r x y hl hr
  obtain ⟨w, hw, hb, -⟩ := C139_shown _ x y ha
  obtain ⟨wl, hwl, hbl, -⟩ := C139_shown l x y hl
  obtain ⟨wr, hwr, hbr, -⟩ := C139_shown r x y hr
  refine ⟨w, wl, wr, hw, hwl, hwr, ?_⟩
  rw [hv] at hb
  set a := l.valueAt x y
  set c := r.valueAt x y
  have h1 : w - wl * wr = (w - a * c) - (a * (wr - c) + c * (wl - a) + (wl - a) * (wr - c)) := by ring
  rw [h1]
  refine (abs_sub _ _).trans ?_
  have h2 : |a * (wr - c) + c * (wl - a) + (wl - a) * (wr - c)| ≤
      |a| * shownError c + |c| * shownError a + shownError a * shownError c := by
    refine (abs_add_three _ _ _).trans ?_
    rw [abs_mul, abs_mul, abs_mul]
    have h3 := mul_le_mul_of_nonneg_left hbr (abs_nonneg a)
    have h4 := mul_le_mul_of_nonneg_left hbl (abs_nonneg c)
    have h5 := mul_le_mul hbl hbr (abs_nonneg _) ((abs_nonneg _).trans hbl)
    linarith
  linarith

/-- The full claim for products: the number shown is the product of the numbers shown below it up to a relative error of
one in a hundred thousand. -/
def ShownProductsMultiply (F : T → Type) (X S : Type) : Prop :=
  ∀ (l r : CovTree F X S) (s u : T) (x : F s) (y : F u), l.Accepts s u → r.Accepts s u →
    ∃ w wl wr, (CovTree.node .product l r).shownNumber x y = .fin w ∧ l.shownNumber x y = .fin wl ∧
      r.shownNumber x y = .fin wr ∧ |w - wl * wr| ≤ 1 / 10 ^ 5 * |wl * wr|

/-- A constant function for the counterexample. -/
def plainTree (v : ℝ) : CovTree (fun _ : Unit => ℝ) ℝ ℝ :=
  .leaf ['p'] ['p'] ⟨fun _ _ => true, fun _ _ _ _ => v⟩ none

/-- C139: it does not hold: a factor below half a unit of the sixth decimal is shown as zero, and its product with a
large factor is not. -/
theorem C139_product_multiplies_false : ¬ ShownProductsMultiply (fun _ : Unit => ℝ) ℝ ℝ := by
  intro h
  have hacc : ∀ v, (plainTree v).Accepts () () := fun v => rfl
  have hval : ∀ v, (plainTree v).valueAt (s := ()) (u := ()) (0 : ℝ) (0 : ℝ) = v := fun v => rfl
  obtain ⟨w, wl, wr, hw, hwl, hwr, hb⟩ := h (plainTree (1 / 10 ^ 7)) (plainTree (10 ^ 7)) () () 0 0 (hacc _) (hacc _)
  have h0 : wl = 0 := by
    have : (plainTree (1 / 10 ^ 7)).shownNumber (s := ()) (u := ()) (0 : ℝ) (0 : ℝ) =
        readDecimal (toStringFixed (1 / 10 ^ 7)) := rfl
    rw [this, C96_small_values _ (by norm_num) (by norm_num)] at hwl
    have hr : readDecimal "0.000000".toList = .fin 0 := by
      have h1 : "0.000000".toList = withPoint [0] [0, 0, 0, 0, 0, 0] ++ [] := by decide
      rw [h1, readDecimal_pos (startsDigit_withPoint (by decide) (by decide) []),
        readUnsigned_withPoint _ _ (by decide) (by decide) (.inl ⟨rfl, rfl⟩)]
      simp [digitsValue]
    rw [hr] at hwl
    exact (Dbl.fin.inj hwl).symm
  obtain ⟨ha, hv⟩ := product_valueAt .product (by decide) (plainTree (1 / 10 ^ 7)) (plainTree (10 ^ 7)) (s := ()) (u := ())
    (0 : ℝ) (0 : ℝ) (hacc _) (hacc _)
  obtain ⟨w', hw', -, -, hb'⟩ := C139_shown _ (0 : ℝ) (0 : ℝ) ha
  have hww : w' = w := Dbl.fin.inj (hw'.symm.trans hw)
  have hb' := hb' ⟨_, _, _, rfl⟩
  rw [hv, hval, hval, hww] at hb'
  rw [h0, zero_mul, sub_zero, abs_zero, mul_zero] at hb
  have hw0 : w = 0 := abs_eq_zero.1 (le_antisymm hb (abs_nonneg w))
  rw [hw0] at hb'
  norm_num at hb'

/-! ## The example -/

theorem streamText_five {x : ℝ} (h1 : 10 ^ 4 ≤ x) (h2 : x < 10 ^ 5) {k : Nat} (hk : k < 10 ^ 6) (h : |x * 10 - k| < 1 / 2) :
    streamText x = withPoint ((padDigits 6 k).take 5) (stripZeros ((padDigits 6 k).drop 5)) := by
  have hx : 0 < x := lt_of_lt_of_le (by norm_num) h1
  have hlog : Int.log 10 x = 4 := by
    apply le_antisymm
    · have := (Int.lt_zpow_iff_log_lt (b := 10) (by norm_num) (x := 5) hx).1 (by exact_mod_cast h2)
      omega
    · exact (Int.zpow_le_iff_le_log (b := 10) (by norm_num) (x := 4) hx).1 (by exact_mod_cast h1)
  have hs : sigRound 6 x = (k, 4) := by
    unfold sigRound
    simp only [hlog]
    have he : ((6 : Nat) : ℤ) - 1 - 4 = 1 := by norm_num
    rw [he, zpow_one, roundHalfEven_near (by positivity) h, if_neg hk.ne]
  unfold streamText generalText signedText
  simp only
  rw [if_neg (not_lt.2 hx.le), List.nil_append, abs_of_pos hx, generalUnsigned, if_neg hx.ne']
  simp only [hs]
  rw [if_neg (by norm_num), if_pos (by norm_num)]
  rfl

theorem toStringFixed_near {v : ℝ} (hv : 0 ≤ v) {n : Nat} (h : |v * 10 ^ 6 - n| < 1 / 2) :
    toStringFixed v = (toString (n / 10 ^ 6)).toList ++ '.' ::
      (List.replicate (6 - (toString (n % 10 ^ 6)).toList.length) '0' ++ (toString (n % 10 ^ 6)).toList) := by
  have hn : nearestNat (|v| * 10 ^ 6) = n := by
    rw [abs_of_nonneg hv]
    exact roundHalfEven_near (by positivity) h
  unfold toStringFixed
  simp only [hn, if_neg (not_lt.2 hv), List.nil_append]

/-- The value of the squared exponential in the example. -/
theorem example_squared_exponential :
    100 - 1 / 10 ^ 8 ≤ squaredExponential (euclideanDistance 1 0) 100000 10 ∧
      squaredExponential (euclideanDistance 1 0) 100000 10 < 100 := by
  unfold squaredExponential euclideanDistance
  rw [if_neg (by norm_num)]
  have h1 := Real.add_one_le_exp (-(|(1 : ℝ) - 0| / 100000) ^ 2)
  have h2 : Real.exp (-(|(1 : ℝ) - 0| / 100000) ^ 2) < 1 := by
    rw [Real.exp_lt_one_iff]
    norm_num
  set e := Real.exp (-(|(1 : ℝ) - 0| / 100000) ^ 2)
  constructor
  · norm_num at h1 ⊢
    linarith
  · linarith

/-- A row of the printed table: both columns are filled up with spaces, the second to a hundred characters. -/
def tableRow (width : Nat) (value function : String) : List Char :=
  value.toList ++ List.replicate (width - value.toList.length) ' ' ++ function.toList ++
    List.replicate (100 - function.toList.length) ' ' ++ ['\n']

/-- C139: what the example prints, in both builds, whatever was printed before. -/
theorem C139_example (b : Build) (ss : Streams) :
    ∃ out, callTraceExample b ss = .ok out ∧ WritesOnly coutStream
        (tableRow 22 "VALUE" "FUNCTION" ++
        tableRow 22 "-----" "--------" ++
        tableRow 22 "40400" "((constant+squared_exponential[euclidean_distance])*linear_scalar)" ++
        tableRow 22 " |* 10100" " |* (constant+squared_exponential[euclidean_distance])" ++
        tableRow 22 " |   |+ 10000.000000" " |   |+ constant" ++
        tableRow 22 " |   |+ 100.000000" " |   |+ squared_exponential[euclidean_distance]" ++
        tableRow 22 " |* 4.000000" " |* linear_scalar") ss out := by
  obtain ⟨hv1, hv2⟩ := example_squared_exponential
  set v := squaredExponential (euclideanDistance 1 0) 100000 10 with hv
  obtain ⟨ls, hls, hls', -⟩ := C96_trace (F := TraceFeature) b toStringFixed streamText (.base ()) (.base ()) (1 : ℝ) (0 : ℝ)
    complicatedCov ' '
  have hA : (constantTree (F := TraceFeature) (X := Dbl) (S := Dbl) 100).Accepts () () := rfl
  have hB : (squaredExponentialTree 100000 10).Accepts () () := rfl
  have hC : linearScalarTree.Accepts () () := rfl
  have hvA : (constantTree (F := TraceFeature) (X := Dbl) (S := Dbl) 100).valueAt (s := ()) (u := ()) (1 : ℝ) (0 : ℝ) =
      100 * 100 := rfl
  have hvB : (squaredExponentialTree 100000 10).valueAt (s := ()) (u := ()) (1 : ℝ) (0 : ℝ) = v := rfl
  have hvC : linearScalarTree.valueAt (s := ()) (u := ()) (1 : ℝ) (0 : ℝ) = linearScalar 1 * linearScalar 0 := rfl
  obtain ⟨hS, hvS⟩ := sum_valueAt _ _ (s := ()) (u := ()) (1 : ℝ) (0 : ℝ) hA hB
  obtain ⟨hP, hvP⟩ := product_valueAt .scaledRight (by decide) _ _ (s := ()) (u := ()) (1 : ℝ) (0 : ℝ) hS hC
  rw [hvA, hvB] at hvS
  rw [hvS, hvC] at hvP
  have tA : (constantTree (F := TraceFeature) (X := Dbl) (S := Dbl) 100).shownValue (F := TraceFeature) toStringFixed streamText (.base ())
      (.base ()) (1 : ℝ) (0 : ℝ) = "10000.000000".toList := by
    refine (if_pos hA).trans ?_
    show toStringFixed (100 * 100) = _
    rw [toStringFixed_near (n := 10000000000) (by norm_num) (by norm_num)]
    decide
  have tB : (squaredExponentialTree 100000 10).shownValue (F := TraceFeature) toStringFixed streamText (.base ()) (.base ()) (1 : ℝ) (0 : ℝ) =
      "100.000000".toList := by
    refine (if_pos hB).trans ?_
    show toStringFixed v = _
    rw [toStringFixed_near (n := 100000000) (by linarith) (by rw [abs_lt]; constructor <;> norm_num at hv1 ⊢ <;> linarith)]
    decide
  have tC : linearScalarTree.shownValue (F := TraceFeature) toStringFixed streamText (.base ()) (.base ()) (1 : ℝ) (0 : ℝ) =
      "4.000000".toList := by
    refine (if_pos hC).trans ?_
    show toStringFixed (linearScalar 1 * linearScalar 0) = _
    rw [toStringFixed_near (n := 4000000) (by norm_num [linearScalar]) (by norm_num [linearScalar])]
    decide
  have tS : (CovTree.node .sum (constantTree 100) (squaredExponentialTree 100000 10)).shownValue (F := TraceFeature) toStringFixed streamText
      (.base ()) (.base ()) (1 : ℝ) (0 : ℝ) = "10100".toList := by
    refine (if_pos hS).trans ?_
    refine (congrArg streamText hvS).trans ?_
    rw [streamText_five (k := 101000) (by norm_num at hv1 ⊢; linarith) (by norm_num; linarith) (by norm_num)
      (by rw [abs_lt]; constructor <;> norm_num at hv1 ⊢ <;> linarith)]
    decide
  have tP : complicatedCov.shownValue (F := TraceFeature) toStringFixed streamText (.base ()) (.base ()) (1 : ℝ) (0 : ℝ) = "40400".toList := by
    refine (if_pos hP).trans ?_
    refine (congrArg streamText hvP).trans ?_
    rw [streamText_five (k := 404000) (by norm_num [linearScalar] at hv1 ⊢; linarith)
      (by norm_num [linearScalar]; linarith) (by norm_num)
      (by rw [abs_lt]; constructor <;> norm_num [linearScalar] at hv1 ⊢ <;> linarith)]
    decide
  have hlist : ls = [⟨"((constant+squared_exponential[euclidean_distance])*linear_scalar)".toList, "40400".toList⟩,
      ⟨" |* (constant+squared_exponential[euclidean_distance])".toList, " |* 10100".toList⟩,
      ⟨" |   |+ constant".toList, " |   |+ 10000.000000".toList⟩,
      ⟨" |   |+ squared_exponential[euclidean_distance]".toList, " |   |+ 100.000000".toList⟩,
      ⟨" |* linear_scalar".toList, " |* 4.000000".toList⟩] := by
    rw [hls']
    show [CallAndValue.mk _ ([] ++ complicatedCov.shownValue (F := TraceFeature) toStringFixed streamText (.base ()) (.base ()) (1 : ℝ) (0 : ℝ)),
      CallAndValue.mk _ (CovTree.indentation 1 '*' ++
        (CovTree.node .sum (constantTree 100) (squaredExponentialTree 100000 10)).shownValue (F := TraceFeature) toStringFixed streamText
          (.base ()) (.base ()) (1 : ℝ) (0 : ℝ)),
      CallAndValue.mk _ (CovTree.indentation 2 '+' ++
        (constantTree (F := TraceFeature) (X := Dbl) (S := Dbl) 100).shownValue (F := TraceFeature) toStringFixed streamText (.base ())
          (.base ()) (1 : ℝ) (0 : ℝ)),
      CallAndValue.mk _ (CovTree.indentation 2 '+' ++
        (squaredExponentialTree 100000 10).shownValue (F := TraceFeature) toStringFixed streamText (.base ()) (.base ()) (1 : ℝ) (0 : ℝ)),
      CallAndValue.mk _ (CovTree.indentation 1 '*' ++
        linearScalarTree.shownValue (F := TraceFeature) toStringFixed streamText (.base ()) (.base ()) (1 : ℝ) (0 : ℝ))] = _
    rw [tA, tB, tC, tS, tP]
    rfl
  refine ⟨printCallTrace ls ss, ?_, ?_⟩
  · unfold callTraceExample printTrace
    rw [hls]
    rfl
  · obtain ⟨longest, h1, h2, h3⟩ := C108_table ls ss
    have hlong : longest = 20 := by
      rw [hlist] at h1 h2
      have hlo := h1 ⟨" |   |+ constant".toList, " |   |+ 10000.000000".toList⟩ (by simp)
      obtain ⟨cv, hcv, he⟩ := h2 (by simp)
      have hle : ∀ cv ∈ ([⟨"((constant+squared_exponential[euclidean_distance])*linear_scalar)".toList, "40400".toList⟩,
          ⟨" |* (constant+squared_exponential[euclidean_distance])".toList, " |* 10100".toList⟩,
          ⟨" |   |+ constant".toList, " |   |+ 10000.000000".toList⟩,
          ⟨" |   |+ squared_exponential[euclidean_distance]".toList, " |   |+ 100.000000".toList⟩,
          ⟨" |* linear_scalar".toList, " |* 4.000000".toList⟩] : List CallAndValue), cv.value.length ≤ 20 := by
        decide +kernel
      have hhi := hle cv hcv
      rw [he] at hhi
      exact le_antisymm hhi hlo
    subst hlong
    have htext : ∀ t t' : List Char, t = t' → WritesOnly coutStream t ss (printCallTrace ls ss) →
        WritesOnly coutStream t' ss (printCallTrace ls ss) := by
      rintro t _ rfl h
      exact h
    refine htext _ _ ?_ h3
    rw [hlist]
    decide +kernel

/-! ## The hypotheses can be met -/

/-- The functions of the example accept numbers: for `C139_shown`, `C139_sum_adds_up` and
`C139_product_multiplies_partial`. -/
example : (constantTree (F := TraceFeature) (X := Dbl) (S := Dbl) 100).Accepts () () ∧
    (squaredExponentialTree 100000 10).Accepts () () ∧ linearScalarTree.Accepts () () ∧ CovOp.scaledRight ≠ .sum :=
  ⟨rfl, rfl, rfl, by decide⟩

end Albatross
