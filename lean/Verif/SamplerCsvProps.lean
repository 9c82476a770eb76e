import Verif.SamplerCsv
import Verif.SamplerProps
import Verif.CsvProps
import Verif.ParametersProps
import Mathlib.Tactic.IntervalCases
import Mathlib.Tactic.Linarith
import Mathlib.Tactic.Positivity
import Mathlib.Tactic.FieldSimp
import Mathlib.Tactic.Ring
import Mathlib.Tactic.NormNum

/-! # C48: restarting the sampler from its CSV file -/

namespace Albatross

/-! ## Specification -/

/-- `y` is `x` rounded to six decimals (infinities and NaN are kept). -/
def Rounded6 : Dbl → Dbl → Prop
  | .fin x, .fin y => (∃ k : ℤ, y = k / 10 ^ 6) ∧ |x - y| ≤ 1 / 2 / 10 ^ 6
  | a, b => a = b

/-- `x` has at most six decimals (or is infinite or NaN). -/
def SixDecimals : Dbl → Prop
  | .fin x => ∃ k : ℤ, x = k / 10 ^ 6
  | _ => True

/-! ## Digits -/

theorem roundHalfEven_spec {y : ℝ} (hy : 0 ≤ y) : |y - roundHalfEven y| ≤ 1 / 2 := by
  have h1 := Nat.floor_le hy
  have h2 := Nat.lt_floor_add_one y
  unfold roundHalfEven
  simp only
  split_ifs with a b c
  · rw [abs_of_nonneg (by linarith)]; linarith
  · push_cast; rw [abs_of_nonpos (by linarith)]; linarith
  · rw [abs_of_nonneg (by linarith)]; linarith
  · push_cast; rw [abs_of_nonpos (by linarith)]; linarith

theorem roundHalfEven_nat (n : Nat) : roundHalfEven (n : ℝ) = n := by
  unfold roundHalfEven
  simp

/-- The number a list of digits stands for, continuing from `acc`. -/
def digitsValue (acc : Nat) (ds : List Nat) : Nat := ds.foldl (fun a d => 10 * a + d) acc

theorem digitsValue_append (acc : Nat) (a c : List Nat) :
    digitsValue acc (a ++ c) = digitsValue (digitsValue acc a) c := List.foldl_append ..

theorem decDigits_spec (n : Nat) :
    digitsValue 0 (decDigits n) = n ∧ (∀ d ∈ decDigits n, d < 10) ∧ decDigits n ≠ [] := by
  induction n using Nat.strong_induction_on with
  | _ n ih =>
  rw [decDigits]
  split_ifs with h
  · simp [digitsValue, h]
  · obtain ⟨h1, h2, h3⟩ := ih (n / 10) (by omega)
    refine ⟨?_, ?_, by simp⟩
    · rw [digitsValue_append, h1]
      simp only [digitsValue, List.foldl_cons, List.foldl_nil]; omega
    · intro d hd
      rcases List.mem_append.1 hd with hd | hd
      · exact h2 d hd
      · rw [List.mem_singleton.1 hd]; omega

theorem padDigits_spec (k n acc : Nat) (h : n < 10 ^ k) :
    digitsValue acc (padDigits k n) = acc * 10 ^ k + n ∧ (∀ d ∈ padDigits k n, d < 10) ∧
      (padDigits k n).length = k := by
  induction k generalizing n acc with
  | zero => simp at h; simp [padDigits, digitsValue, h]
  | succ k ih =>
    rw [pow_succ] at h
    obtain ⟨h1, h2, h3⟩ := ih (n / 10) acc (by omega)
    refine ⟨?_, ?_, by simp [padDigits, h3]⟩
    · rw [padDigits, digitsValue_append, h1]
      simp only [digitsValue, List.foldl_cons, List.foldl_nil]
      have : acc * 10 ^ (k + 1) = 10 * (acc * 10 ^ k) := by rw [pow_succ]; ring
      omega
    · intro d hd
      rw [padDigits] at hd
      rcases List.mem_append.1 hd with hd | hd
      · exact h2 d hd
      · rw [List.mem_singleton.1 hd]; omega

theorem digitChar_spec {d : Nat} (h : d < 10) :
    (digitChar d).isDigit = true ∧ (digitChar d).toNat - 48 = d := by
  interval_cases d <;> decide

theorem digitChar_plain {d : Nat} (h : d < 10) :
    digitChar d ≠ ',' ∧ digitChar d ≠ '\n' ∧ digitChar d ≠ '-' ∧ digitChar d ≠ '+' ∧
      digitChar d ≠ 'i' ∧ digitChar d ≠ 'n' := by
  interval_cases d <;> decide

theorem readDigits_append (ds : List Nat) (h : ∀ d ∈ ds, d < 10) (rest : List Char) (acc n : Nat) :
    readDigits (ds.map digitChar ++ rest) acc n =
      readDigits rest (digitsValue acc ds) (n + ds.length) := by
  induction ds generalizing acc n with
  | nil => simp [digitsValue]
  | cons d t ih =>
    obtain ⟨h1, h2⟩ := digitChar_spec (h d (by simp))
    rw [List.map_cons, List.cons_append, readDigits, if_pos h1, h2,
      ih (fun x hx => h x (by simp [hx]))]
    simp only [digitsValue, List.foldl_cons, List.length_cons]
    congr 1; omega

theorem not_prefix_digits (ds : List Nat) (h : ∀ d ∈ ds, d < 10) (hne : ds ≠ []) (rest : List Char)
    (c : Char) (hc : c = 'i' ∨ c = 'n') (w : List Char) :
    (c :: w).isPrefixOf (ds.map digitChar ++ rest) = false := by
  cases ds with
  | nil => exact absurd rfl hne
  | cons d t =>
    have := digitChar_plain (h d (by simp))
    have hcd : c ≠ digitChar d := by
      rcases hc with rfl | rfl
      · exact this.2.2.2.2.1.symm
      · exact this.2.2.2.2.2.symm
    simp [List.isPrefixOf, hcd]

theorem stodUnsigned_digits (a p : List Nat) (ha : ∀ d ∈ a, d < 10) (hp : ∀ d ∈ p, d < 10)
    (hne : a ≠ []) :
    stodUnsigned (a.map digitChar ++ '.' :: p.map digitChar) =
      some (.fin ((digitsValue (digitsValue 0 a) p : Nat) / 10 ^ p.length)) := by
  unfold stodUnsigned
  rw [not_prefix_digits a ha hne _ 'i' (.inl rfl), not_prefix_digits a ha hne _ 'n' (.inr rfl)]
  simp only [Bool.false_eq_true, if_false]
  rw [readDigits_append a ha]
  have h1 : readDigits ('.' :: p.map digitChar) (digitsValue 0 a) (0 + a.length) =
      (digitsValue 0 a, a.length, '.' :: p.map digitChar) := by
    rw [readDigits, if_neg (by decide)]; simp
  rw [h1]
  simp only
  have h2 : readDigits (p.map digitChar) (digitsValue 0 a) 0 =
      (digitsValue (digitsValue 0 a) p, p.length, []) := by
    have := readDigits_append p hp [] (digitsValue 0 a) 0
    simpa [readDigits] using this
  rw [h2]
  have : a.length ≠ 0 := by simpa using hne
  simp only
  rw [if_neg (by omega)]

theorem stodUnsigned_int (a : List Nat) (ha : ∀ d ∈ a, d < 10) (hne : a ≠ []) :
    stodUnsigned (a.map digitChar) = some (.fin (digitsValue 0 a : Nat)) := by
  unfold stodUnsigned
  have e := List.append_nil (a.map digitChar)
  rw [← e, not_prefix_digits a ha hne _ 'i' (.inl rfl), not_prefix_digits a ha hne _ 'n' (.inr rfl)]
  simp only [Bool.false_eq_true, if_false]
  rw [readDigits_append a ha]
  have : a.length ≠ 0 := by simpa using hne
  simp [readDigits, this]

theorem stod_of_digit (a : List Nat) (ha : ∀ d ∈ a, d < 10) (hne : a ≠ []) (rest : List Char) :
    stod (a.map digitChar ++ rest) = stodUnsigned (a.map digitChar ++ rest) := by
  cases a with
  | nil => exact absurd rfl hne
  | cons d t =>
    have := digitChar_plain (ha d (by simp))
    rw [List.map_cons, List.cons_append]
    unfold stod
    split
    · rename_i h; exact absurd (List.cons.inj h).1 this.2.2.1
    · rename_i h; exact absurd (List.cons.inj h).1 this.2.2.2.1
    · rfl

/-- Reading back an unsigned integer. -/
theorem stod_sizeToString (n : Nat) : stod (sizeToString n) = some (.fin n) := by
  obtain ⟨h1, h2, h3⟩ := decDigits_spec n
  have := stod_of_digit (decDigits n) h2 h3 []
  rw [List.append_nil] at this
  rw [sizeToString, this, stodUnsigned_int _ h2 h3, h1]

/-- Reading back a printed number gives the number rounded to six decimals. -/
theorem stod_doubleToString (x : Dbl) :
    ∃ y, stod (doubleToString x) = some y ∧ Rounded6 x y ∧ (SixDecimals x → y = x) := by
  cases x with
  | pinf => exact ⟨.pinf, by simp [doubleToString, stod, stodUnsigned], rfl, fun _ => rfl⟩
  | ninf => exact ⟨.ninf, by simp [doubleToString, stod, stodUnsigned], rfl, fun _ => rfl⟩
  | nan => exact ⟨.nan, by simp [doubleToString, stod, stodUnsigned], rfl, fun _ => rfl⟩
  | fin x =>
    set k := roundHalfEven (|x| * 10 ^ 6) with hk
    obtain ⟨a1, a2, a3⟩ := decDigits_spec (k / 10 ^ 6)
    obtain ⟨p1, p2, p3⟩ := padDigits_spec 6 (k % 10 ^ 6) (k / 10 ^ 6) (Nat.mod_lt _ (by norm_num))
    have hu : stodUnsigned ((decDigits (k / 10 ^ 6)).map digitChar ++
        '.' :: (padDigits 6 (k % 10 ^ 6)).map digitChar) = some (.fin ((k : ℝ) / 10 ^ 6)) := by
      rw [stodUnsigned_digits _ _ a2 p2 a3, a1, p1, p3]
      have : k / 10 ^ 6 * 10 ^ 6 + k % 10 ^ 6 = k := by omega
      rw [this]
    have hkr : |(|x| * 10 ^ 6) - k| ≤ 1 / 2 := roundHalfEven_spec (by positivity)
    have hcl : |(|x|) - k / 10 ^ 6| ≤ 1 / 2 / 10 ^ 6 := by
      have e : |x| - k / 10 ^ 6 = ((|x| * 10 ^ 6) - k) / 10 ^ 6 := by field_simp
      rw [e, abs_div, abs_of_pos (show (0 : ℝ) < 10 ^ 6 by norm_num)]
      exact div_le_div_of_nonneg_right hkr (by norm_num)
    have hexact : ∀ m : ℤ, x = m / 10 ^ 6 → (k : ℝ) / 10 ^ 6 = |x| := by
      intro m hm
      have e : |x| * 10 ^ 6 = (m.natAbs : ℝ) := by
        rw [hm, abs_div, abs_of_pos (show (0 : ℝ) < 10 ^ 6 by norm_num),
          div_mul_cancel₀ _ (by norm_num)]
        rw [← Int.cast_abs, Int.abs_eq_natAbs]; simp
      have hkn : k = m.natAbs := by rw [hk, e, roundHalfEven_nat]
      rw [eq_comm, eq_div_iff (by norm_num), e, hkn]
    by_cases hx : x < 0
    · refine ⟨.fin (-((k : ℝ) / 10 ^ 6)), ?_, ⟨⟨-k, by push_cast; ring⟩, ?_⟩, ?_⟩
      · simp only [doubleToString, ← hk, if_pos hx, List.cons_append, List.nil_append, stod]
        rw [hu]; rfl
      · rw [abs_of_neg hx] at hcl
        rw [← abs_neg]; convert hcl using 2; ring
      · rintro ⟨m, hm⟩
        rw [hexact m hm, abs_of_neg hx, neg_neg]
    · have hx' : 0 ≤ x := not_lt.1 hx
      refine ⟨.fin ((k : ℝ) / 10 ^ 6), ?_, ⟨⟨k, by push_cast; ring⟩, ?_⟩, ?_⟩
      · simp only [doubleToString, ← hk, if_neg hx, List.nil_append]
        rw [stod_of_digit _ a2 a3, hu]
      · rw [abs_of_nonneg hx'] at hcl; exact hcl
      · rintro ⟨m, hm⟩
        rw [hexact m hm, abs_of_nonneg hx']

/-- Characters of a number are never separators. -/
def PlainText (l : List Char) : Prop := l ≠ [] ∧ ',' ∉ l ∧ '\n' ∉ l

theorem plain_digits (ds : List Nat) (h : ∀ d ∈ ds, d < 10) :
    ',' ∉ ds.map digitChar ∧ '\n' ∉ ds.map digitChar := by
  constructor <;> intro hc <;> obtain ⟨d, hd, he⟩ := List.mem_map.1 hc <;>
    have := digitChar_plain (h d hd)
  · exact this.1 he
  · exact this.2.1 he

theorem plain_sizeToString (n : Nat) : PlainText (sizeToString n) := by
  obtain ⟨-, h2, h3⟩ := decDigits_spec n
  exact ⟨by simpa [sizeToString] using h3, plain_digits _ h2⟩

theorem plain_doubleToString (x : Dbl) : PlainText (doubleToString x) := by
  cases x with
  | pinf => exact ⟨by simp [doubleToString], by simp [doubleToString], by simp [doubleToString]⟩
  | ninf => exact ⟨by simp [doubleToString], by simp [doubleToString], by simp [doubleToString]⟩
  | nan => exact ⟨by simp [doubleToString], by simp [doubleToString], by simp [doubleToString]⟩
  | fin x =>
    simp only [doubleToString]
    set k := roundHalfEven (|x| * 10 ^ 6)
    obtain ⟨-, a2, -⟩ := decDigits_spec (k / 10 ^ 6)
    obtain ⟨-, p2, -⟩ := padDigits_spec 6 (k % 10 ^ 6) 0 (Nat.mod_lt _ (by norm_num))
    have ha := plain_digits _ a2
    have hp := plain_digits _ p2
    refine ⟨by simp, ?_, ?_⟩ <;> intro hc <;> simp only [List.mem_append, List.mem_cons] at hc
    · rcases hc with (hc | hc) | hc | hc
      · split_ifs at hc <;> simp at hc
      · exact ha.1 hc
      · exact absurd hc (by decide)
      · exact hp.1 hc
    · rcases hc with (hc | hc) | hc | hc
      · split_ifs at hc <;> simp at hc
      · exact ha.2 hc
      · exact absurd hc (by decide)
      · exact hp.2 hc

/-! ## Splitting -/

theorem splitString_append {d : Char} {a : List Char} (h : d ∉ a) (r : List Char) :
    splitString d (a ++ d :: r) = a :: splitString d r := by
  have hall : ∀ x ∈ a, (!decide (x = d)) = true := by
    intro x hx
    have : x ≠ d := fun e => h (e ▸ hx)
    simp [this]
  have h1 : (a ++ d :: r).takeWhile (fun x => !decide (x = d)) = a := by
    rw [List.takeWhile_append_of_pos hall]; simp
  have h2 : (a ++ d :: r).dropWhile (fun x => !decide (x = d)) = d :: r := by
    rw [List.dropWhile_append_of_pos hall]; simp
  cases hs : a ++ d :: r with
  | nil => simp at hs
  | cons c cs =>
    rw [splitString, ← hs, h1, h2]; rfl

theorem splitString_last {d : Char} {a : List Char} (h : d ∉ a) (hne : a ≠ []) :
    splitString d a = [a] := by
  have hall : ∀ x ∈ a, (!decide (x = d)) = true := by
    intro x hx
    have : x ≠ d := fun e => h (e ▸ hx)
    simp [this]
  have h1 : a.takeWhile (fun x => !decide (x = d)) = a := by
    clear hne; induction a with
    | nil => rfl
    | cons x t ih =>
      rw [List.takeWhile_cons_of_pos (by exact hall x (by simp)),
        ih (fun hh => h (by simp [hh])) (fun y hy => hall y (by simp [hy]))]
  have h2 : a.dropWhile (fun x => !decide (x = d)) = [] := by
    clear hne h1; induction a with
    | nil => rfl
    | cons x t ih =>
      rw [List.dropWhile_cons_of_pos (by exact hall x (by simp)),
        ih (fun hh => h (by simp [hh])) (fun y hy => hall y (by simp [hy]))]
  cases hs : a with
  | nil => exact absurd hs hne
  | cons c cs =>
    rw [splitString, ← hs, h1, h2]
    simp [splitString]

theorem splitString_joinSep {l : List (List Char)} (h : ∀ x ∈ l, ',' ∉ x)
    (hlast : ∀ x, l.getLast? = some x → x ≠ []) : splitString ',' (joinSep ',' l) = l := by
  induction l with
  | nil => simp [joinSep, splitString]
  | cons x t ih =>
    cases t with
    | nil => exact splitString_last (h x (by simp)) (hlast x (by simp))
    | cons y t =>
      rw [joinSep, splitString_append (h x (by simp)), ih (fun z hz => h z (by simp_all))]
      intro z hz
      exact hlast z (by simpa using hz)

theorem splitString_lines {ls : List (List Char)} (h : ∀ x ∈ ls, '\n' ∉ x) :
    splitString '\n' (ls.flatMap (· ++ ['\n'])) = ls := by
  induction ls with
  | nil => simp [splitString]
  | cons x t ih =>
    rw [List.flatMap_cons, List.append_assoc, List.singleton_append,
      splitString_append (h x (by simp)), ih (fun z hz => h z (by simp [hz]))]

/-! ## Writing -/

theorem foldl_put_spec {K V W : Type} [LinearOrder K] (g : V → W) (l : SMap K V) (hl : SMap.WF l)
    (m : SMap K W) (hm : SMap.WF m) :
    SMap.WF (l.foldl (fun m kv => SMap.put m kv.1 (g kv.2)) m) ∧
    ∀ k, (l.foldl (fun m kv => SMap.put m kv.1 (g kv.2)) m).find? k =
      ((l.find? k).map g).or (m.find? k) := by
  induction l generalizing m with
  | nil => exact ⟨hm, fun k => by simp [SMap.find?]⟩
  | cons a t ih =>
    obtain ⟨k₀, v₀⟩ := a
    have ⟨h1, h2⟩ := SMap.wf_cons.1 hl
    obtain ⟨i1, i2⟩ := ih h2 _ (SMap.wf_put hm k₀ (g v₀))
    refine ⟨i1, fun k => ?_⟩
    rw [List.foldl_cons, i2, SMap.find?_put hm]
    by_cases e : k = k₀
    · subst e
      have : SMap.find? t k = none := SMap.find?_none_of_lt h1
      simp [this, SMap.find?]
    · simp [SMap.find?, e]

/-- The parameter names a CSV header can carry. -/
structure CsvStore (store : ParameterStore) : Prop where
  wf : SMap.WF store
  plain : ∀ name ∈ store.keys, name ≠ "" ∧ PlainField name
  fresh : ∀ name ∈ store.keys, name ≠ "iteration" ∧ name ≠ "log_probability" ∧ name ≠ "ensemble_index"

/-- The fields of the line of one walker, given the parameters it stands for. -/
noncomputable def samplerFields (it i : Nat) (lp : Dbl) (ps : ParameterStore) : List (List Char) :=
  [sizeToString it, doubleToString lp, sizeToString i] ++ ps.map fun kv => doubleToString kv.2.value

theorem writeSamplerState_eq (ex : Dbl → Dbl) (b : Build) {store : ParameterStore}
    (hs : CsvStore store) (it : Nat) (s : OStream) (hf : s.fail = false) (st : SamplerState) (i : Nat)
    (ps : ParameterStore) (hps : setTunableParamsValues ex b store st.params true = .ok ps)
    (hw : SMap.WF ps) (hk : ps.keys = store.keys) :
    writeSamplerState ex b store it (samplerCsvColumns store) s (st, i) =
      .ok ⟨s.text ++ joinSep ',' (samplerFields it i st.logProb ps) ++ ['\n'], false⟩ := by
  unfold writeSamplerState
  simp only [hps, except_ok_bind, except_pure]
  obtain ⟨w0, f0⟩ := foldl_put_spec (fun p : Parameter => String.ofList (doubleToString p.value)) ps hw []
    SMap.wf_nil
  set row := ps.foldl (fun row kv => SMap.put row kv.1 (String.ofList (doubleToString kv.2.value)))
    ([] : SMap String String)
  have w1 := SMap.wf_put w0 "iteration" (String.ofList (sizeToString it))
  have w2 := SMap.wf_put w1 "log_probability" (String.ofList (doubleToString st.logProb))
  rw [writeRow_eq _ hf _ _ (by simp [samplerCsvColumns])]
  congr 5
  simp only [samplerCsvColumns, samplerFields, List.map_append, List.map_cons, List.map_nil,
    SMap.find?_put w2, SMap.find?_put w1, SMap.find?_put w0]
  congr 1
  · simp
  rw [← hk, SMap.keys, List.map_map]
  refine List.map_congr_left fun kv hkv => ?_
  have hmem : kv.1 ∈ store.keys := hk ▸ List.mem_map_of_mem hkv
  obtain ⟨n1, n2, n3⟩ := hs.fresh _ hmem
  simp only [Function.comp, n1, n2, n3, if_false, f0, SMap.find?_of_mem hw hkv]
  simp

/-- The lines of one iteration. -/
noncomputable def samplerLines (pss : SamplerState → ParameterStore) (it : Nat)
    (ens : List SamplerState) : List (List Char) :=
  ens.zipIdx.map fun x => joinSep ',' (samplerFields it x.2 x.1.logProb (pss x.1))

theorem writeEnsembleState_eq (ex : Dbl → Dbl) (b : Build) {store : ParameterStore}
    (hs : CsvStore store) (it : Nat) (pss : SamplerState → ParameterStore) (ens : List SamplerState)
    (hps : ∀ st ∈ ens, setTunableParamsValues ex b store st.params true = .ok (pss st) ∧
      SMap.WF (pss st) ∧ (pss st).keys = store.keys) (s : OStream) (hf : s.fail = false) :
    writeEnsembleState ex b s store ens it (samplerCsvColumns store) =
      .ok ⟨s.text ++ (samplerLines pss it ens).flatMap (· ++ ['\n']), false⟩ := by
  unfold writeEnsembleState samplerLines
  have key : ∀ (l : List (SamplerState × Nat)), (∀ x ∈ l, x.1 ∈ ens) → ∀ (s : OStream), s.fail = false →
      l.foldlM (writeSamplerState ex b store it (samplerCsvColumns store)) s = Except.ok (ε := Fault)
        ⟨s.text ++ (l.map fun x => joinSep ',' (samplerFields it x.2 x.1.logProb (pss x.1))).flatMap
          (· ++ ['\n']), false⟩ := by
    intro l
    induction l with
    | nil => intro _ s hf; cases s; simp_all [except_pure]
    | cons x t ih =>
      intro hx s hf
      obtain ⟨h1, h2, h3⟩ := hps x.1 (hx x (by simp))
      rw [List.foldlM_cons, writeSamplerState_eq ex b hs it s hf x.1 x.2 _ h1 h2 h3]
      simp only [except_ok_bind]
      rw [ih (fun y hy => hx y (by simp [hy])) _ rfl]
      simp
  refine key _ (fun x hx => ?_) s hf
  exact (List.fst_mem_of_mem_zipIdx hx)

/-- What the sampler does with its callback: called with 0, 1, 2, … and the successive ensembles. -/
noncomputable def runCsvCallback (ex : Dbl → Dbl) (b : Build) (store : ParameterStore)
    (hist : List (List SamplerState)) : Outcome CsvCallback :=
  hist.zipIdx.foldlM (fun cb x => CsvCallback.call ex b cb x.2 x.1) { store := store }

theorem runCsvCallback_eq (ex : Dbl → Dbl) (b : Build) {store : ParameterStore} (hs : CsvStore store)
    (pss : SamplerState → ParameterStore) (hist : List (List SamplerState)) (hne : hist ≠ [])
    (hps : ∀ ens ∈ hist, ∀ st ∈ ens, setTunableParamsValues ex b store st.params true = .ok (pss st) ∧
      SMap.WF (pss st) ∧ (pss st).keys = store.keys) :
    ∃ cb, runCsvCallback ex b store hist = .ok cb ∧ cb.stream.fail = false ∧
      cb.stream.text = (joinSep ',' ((samplerCsvColumns store).map String.toList) ::
        hist.zipIdx.flatMap fun x => samplerLines pss x.2 x.1).flatMap (· ++ ['\n']) := by
  have key : ∀ (h : List (List SamplerState)) (k : Nat), 0 < k → (∀ e ∈ h, e ∈ hist) →
      ∀ cb : CsvCallback, cb.store = store → cb.columns = samplerCsvColumns store →
        cb.stream.fail = false →
        ∃ cb', (h.zipIdx k).foldlM (fun cb x => CsvCallback.call ex b cb x.2 x.1) cb =
            Except.ok (ε := Fault) cb' ∧
          cb'.stream.fail = false ∧ cb'.stream.text = cb.stream.text ++
            ((h.zipIdx k).flatMap fun x => samplerLines pss x.2 x.1).flatMap (· ++ ['\n']) := by
    intro h
    induction h with
    | nil => intro k _ _ cb _ _ hf; exact ⟨cb, rfl, hf, by simp⟩
    | cons e t ih =>
      intro k hk he cb h1 h2 hf
      have hw := writeEnsembleState_eq ex b hs k pss e (hps e (he e (by simp))) cb.stream hf
      have hcall : CsvCallback.call ex b cb k e = .ok { cb with stream := ⟨cb.stream.text ++
          (samplerLines pss k e).flatMap (· ++ ['\n']), false⟩ } := by
        unfold CsvCallback.call
        simp only [if_neg (show k ≠ 0 by omega), h1, h2, hw, except_ok_bind, except_pure]
      obtain ⟨cb', c1, c2, c3⟩ := ih (k + 1) (by omega) (fun x hx => he x (by simp [hx]))
        { cb with stream := ⟨cb.stream.text ++
          (samplerLines pss k e).flatMap (· ++ ['\n']), false⟩ } h1 h2 rfl
      refine ⟨cb', ?_, c2, ?_⟩
      · rw [List.zipIdx_cons, List.foldlM_cons, hcall]
        exact c1
      · rw [c3, List.zipIdx_cons, List.flatMap_cons, List.flatMap_append]
        simp [List.append_assoc]
  cases hist with
  | nil => exact absurd rfl hne
  | cons e t =>
    have hh := writeHeader_eq (⟨[], false⟩ : OStream) rfl (samplerCsvColumns store)
      (by simp [samplerCsvColumns])
    have hw := writeEnsembleState_eq ex b hs 0 pss e (hps e (by simp))
      ⟨joinSep ',' ((samplerCsvColumns store).map String.toList) ++ ['\n'], false⟩ rfl
    have hcall : CsvCallback.call ex b { store := store } 0 e = .ok (⟨store,
        ⟨joinSep ',' ((samplerCsvColumns store).map String.toList) ++ ['\n'] ++
          (samplerLines pss 0 e).flatMap (· ++ ['\n']), false⟩, samplerCsvColumns store⟩) := by
      unfold CsvCallback.call
      simp only [if_true]
      rw [show (({} : OStream)) = ⟨[], false⟩ from rfl, hh]
      simp only [List.nil_append]
      rw [hw]
      rfl
    obtain ⟨cb', c1, c2, c3⟩ := key t 1 (by omega) (fun x hx => by simp [hx]) (⟨store,
        ⟨joinSep ',' ((samplerCsvColumns store).map String.toList) ++ ['\n'] ++
          (samplerLines pss 0 e).flatMap (· ++ ['\n']), false⟩, samplerCsvColumns store⟩) rfl rfl rfl
    refine ⟨cb', ?_, c2, ?_⟩
    · unfold runCsvCallback
      rw [List.zipIdx_cons, List.foldlM_cons, hcall]
      exact c1
    · rw [c3, List.zipIdx_cons]
      simp [List.flatMap_cons, List.flatMap_append, List.append_assoc]

/-! ## Reading -/

theorem range_fold_put (names : List String) (values : List Dbl) (hlen : values.length = names.length)
    (pc : List (List Char)) (pv : List Dbl) (h3 : pc.length = pv.length) (m : SMap String Dbl) :
    (List.range' pc.length names.length).foldlM (fun (m : SMap String Dbl) i => do
      let c ← vecGet (pc ++ names.map String.toList) i
      let v ← vecGet (pv ++ values) i
      pure (SMap.put m (String.ofList c) v)) m = Except.ok (ε := Fault)
      ((names.zip values).foldl (fun m kv => SMap.put m kv.1 kv.2) m) := by
  induction names generalizing values pc pv m with
  | nil => simp [except_pure]
  | cons n t ih =>
    cases values with
    | nil => simp at hlen
    | cons v vs =>
      rw [List.length_cons, List.range'_succ, List.foldlM_cons]
      have e1 : vecGet (pc ++ (n :: t).map String.toList) pc.length = .ok n.toList := by
        simp [vecGet]
      have e2 : vecGet (pv ++ v :: vs) pc.length = .ok v := by simp [vecGet, h3]
      rw [e1, e2]
      simp only [except_ok_bind, String.ofList_toList]
      have := ih vs (by simpa using hlen) (pc ++ [n.toList]) (pv ++ [v]) (by simp [h3])
        (SMap.put m n v)
      simpa using this

/-- What is read back from the text of a number. -/
noncomputable def restored (x : Dbl) : Dbl := (stod (doubleToString x)).getD .nan

theorem restored_spec (x : Dbl) : Rounded6 x (restored x) ∧ (SixDecimals x → restored x = x) := by
  obtain ⟨y, h1, h2, h3⟩ := stod_doubleToString x
  unfold restored
  rw [h1]
  exact ⟨h2, h3⟩

theorem samplerFields_plain (it i : Nat) (lp : Dbl) (ps : ParameterStore) :
    ∀ x ∈ samplerFields it i lp ps, PlainText x := by
  intro x hx
  simp only [samplerFields, List.mem_append, List.mem_cons, List.not_mem_nil, or_false,
    List.mem_map] at hx
  rcases hx with (rfl | rfl | rfl) | ⟨kv, -, rfl⟩
  · exact plain_sizeToString _
  · exact plain_doubleToString _
  · exact plain_sizeToString _
  · exact plain_doubleToString _

theorem parseLine_samplerFields (it i : Nat) (lp : Dbl) (ps : ParameterStore) :
    parseLine (joinSep ',' (samplerFields it i lp ps)) =
      [.fin it, restored lp, .fin i] ++ ps.map fun kv => restored kv.2.value := by
  unfold parseLine
  rw [splitString_joinSep (fun x hx => (samplerFields_plain _ _ _ _ x hx).2.1)
    (fun x hx => (samplerFields_plain _ _ _ _ x (List.mem_of_getLast? hx)).1)]
  simp only [samplerFields, List.map_append, List.map_cons, List.map_nil, stod_sizeToString,
    List.map_map, Option.getD_some]
  rfl

theorem zip_keys_map {V W : Type} (l : SMap String V) (g : V → W) :
    l.keys.zip (l.map fun kv => g kv.2) = l.map fun kv => (kv.1, g kv.2) := by
  induction l with
  | nil => rfl
  | cons a t ih => simp_all [SMap.keys]

/-- The map read for one walker. -/
noncomputable def restoredMap (ps : ParameterStore) : SMap String Dbl :=
  ps.map fun kv => (kv.1, restored kv.2.value)

theorem restoredMap_wf {ps : ParameterStore} (hw : SMap.WF ps) : SMap.WF (restoredMap ps) :=
  SMap.wf_map_values (fun kv : String × Parameter => restored kv.2.value) hw

theorem foldl_put_sorted {V : Type} (l : SMap String V) (hl : SMap.WF l) :
    l.foldl (fun m kv => SMap.put m kv.1 kv.2) [] = l := by
  obtain ⟨h1, h2⟩ := foldl_put_spec (id : V → V) l hl [] SMap.wf_nil
  refine SMap.ext h1 hl fun k => ?_
  simpa [SMap.find?] using h2 k

theorem readCsvLine_eq (b : Build) (store : ParameterStore) (it i : Nat) (lp : Dbl)
    (ps : ParameterStore) (hw : SMap.WF ps) (hk : ps.keys = store.keys) (c : Nat)
    (out : List (SMap String Dbl)) :
    readCsvLine b ((samplerCsvColumns store).map String.toList) (.fin c, out)
      (joinSep ',' (samplerFields it i lp ps)) =
      .ok (if c < it then (.fin it, [restoredMap ps]) else (.fin c, out ++ [restoredMap ps])) := by
  unfold readCsvLine
  rw [parseLine_samplerFields]
  have hlen : ps.length = store.length := by
    have := congrArg List.length hk; simpa [SMap.keys] using this
  have hl : (([.fin it, restored lp, .fin i] ++ ps.map fun kv => restored kv.2.value : List Dbl)).length
      = ((samplerCsvColumns store).map String.toList).length := by
    simp [samplerCsvColumns, SMap.keys, hlen]
  have hfold := range_fold_put ps.keys (ps.map fun kv => restored kv.2.value) (by simp [SMap.keys])
    ["iteration".toList, "log_probability".toList, "ensemble_index".toList]
    [.fin it, restored lp, .fin i] rfl []
  have hcols : (samplerCsvColumns store).map String.toList =
      ["iteration".toList, "log_probability".toList, "ensemble_index".toList] ++
        ps.keys.map String.toList := by
    simp [samplerCsvColumns, hk]
  have hn : ((samplerCsvColumns store).map String.toList).length - 3 = ps.keys.length := by
    simp [samplerCsvColumns, hk]
  rw [hn]
  rw [← hcols] at hfold
  simp only [hl, beq_self_eq_true, albatrossAssert_true, except_ok_bind]
  have e0 : vecGet ([.fin it, restored lp, .fin i] ++ ps.map fun kv => restored kv.2.value) 0 =
      .ok (.fin (it : ℝ)) := rfl
  have hw' : SMap.WF (restoredMap ps) := restoredMap_wf hw
  rw [zip_keys_map ps fun p => restored p.value] at hfold
  change _ = Except.ok ((restoredMap ps).foldl (fun m kv => SMap.put m kv.1 kv.2) []) at hfold
  rw [foldl_put_sorted _ hw'] at hfold
  rw [e0]
  simp only [except_ok_bind]
  rw [show (3 : Nat) = ["iteration".toList, "log_probability".toList, "ensemble_index".toList].length
    from rfl, hfold]
  simp only [except_ok_bind, except_pure, Dbl.fin_lt, Nat.cast_lt]
  split_ifs <;> rfl

/-- Reading the remaining lines of the current iteration. -/
theorem read_same_iteration (b : Build) (store : ParameterStore) (it : Nat)
    (pss : SamplerState → ParameterStore) (l : List (SamplerState × Nat))
    (hl : ∀ x ∈ l, SMap.WF (pss x.1) ∧ (pss x.1).keys = store.keys) (out : List (SMap String Dbl)) :
    (l.map fun x => joinSep ',' (samplerFields it x.2 x.1.logProb (pss x.1))).foldlM
      (readCsvLine b ((samplerCsvColumns store).map String.toList)) (.fin it, out) =
      Except.ok (ε := Fault) (.fin it, out ++ l.map fun x => restoredMap (pss x.1)) := by
  induction l generalizing out with
  | nil => simp [except_pure]
  | cons x t ih =>
    obtain ⟨h1, h2⟩ := hl x (by simp)
    rw [List.map_cons, List.foldlM_cons, readCsvLine_eq b store it x.2 _ _ h1 h2 it out,
      if_neg (lt_irrefl _)]
    simp only [except_ok_bind]
    rw [ih (fun y hy => hl y (by simp [hy]))]
    simp

/-- Reading the lines of one iteration: a later iteration discards what was read before. -/
theorem read_iteration (b : Build) (store : ParameterStore) (it c : Nat) (hc : c ≤ it)
    (pss : SamplerState → ParameterStore) (ens : List SamplerState) (hne : ens ≠ [])
    (hl : ∀ st ∈ ens, SMap.WF (pss st) ∧ (pss st).keys = store.keys) (out : List (SMap String Dbl)) :
    (samplerLines pss it ens).foldlM
      (readCsvLine b ((samplerCsvColumns store).map String.toList)) (.fin c, out) =
      Except.ok (ε := Fault) (.fin it, (if c < it then [] else out) ++
        ens.map fun st => restoredMap (pss st)) := by
  have hmap : ∀ (l : List SamplerState) (k : Nat),
      (l.zipIdx k).map (fun x => restoredMap (pss x.1)) = l.map fun st => restoredMap (pss st) := by
    intro l
    induction l with
    | nil => intro k; rfl
    | cons a t ih => intro k; simp [List.zipIdx_cons, ih]
  cases ens with
  | nil => exact absurd rfl hne
  | cons st t =>
    obtain ⟨h1, h2⟩ := hl st (by simp)
    have ht : ∀ x ∈ t.zipIdx 1, SMap.WF (pss x.1) ∧ (pss x.1).keys = store.keys := fun x hx =>
      hl x.1 (by simp [List.fst_mem_of_mem_zipIdx hx])
    unfold samplerLines
    rw [List.zipIdx_cons, List.map_cons, List.foldlM_cons, readCsvLine_eq b store it 0 _ _ h1 h2 c out]
    simp only [except_ok_bind]
    by_cases h : c < it
    · rw [if_pos h, read_same_iteration b store it pss _ ht, hmap, if_pos h]; rfl
    · have : c = it := by omega
      subst this
      rw [if_neg h, read_same_iteration b store c pss _ ht, hmap, if_neg h]
      simp

theorem read_history (b : Build) (store : ParameterStore) (pss : SamplerState → ParameterStore)
    (hist : List (List SamplerState)) (last : List SamplerState) (hlast : hist.getLast? = some last)
    (hne : ∀ ens ∈ hist, ens ≠ [])
    (hl : ∀ ens ∈ hist, ∀ st ∈ ens, SMap.WF (pss st) ∧ (pss st).keys = store.keys)
    (k c : Nat) (out : List (SMap String Dbl)) (hc : c < k ∨ (c = k ∧ out = [])) :
    ∃ r, ((hist.zipIdx k).flatMap fun x => samplerLines pss x.2 x.1).foldlM
      (readCsvLine b ((samplerCsvColumns store).map String.toList)) (.fin c, out) =
      Except.ok (ε := Fault) (r, last.map fun st => restoredMap (pss st)) := by
  induction hist generalizing k c out with
  | nil => simp at hlast
  | cons e t ih =>
    have h1 := read_iteration b store k c (by omega) pss e (hne e (by simp)) (hl e (by simp)) out
    have h1' : (if c < k then [] else out) = [] := by
      rcases hc with h | ⟨-, h⟩ <;> simp [h]
    rw [h1', List.nil_append] at h1
    rw [List.zipIdx_cons, List.flatMap_cons, List.foldlM_append, h1]
    simp only [except_ok_bind]
    cases t with
    | nil =>
      simp only [List.getLast?_singleton, Option.some.injEq] at hlast
      subst hlast
      exact ⟨.fin k, rfl⟩
    | cons e' t' =>
      exact ih (by simpa using hlast) (fun x hx => hne x (by simp [hx]))
        (fun x hx => hl x (by simp [hx])) (k + 1) k _ (.inl (by omega))

theorem plain_header {store : ParameterStore} (hs : CsvStore store) :
    ∀ x ∈ (samplerCsvColumns store).map String.toList, PlainText x := by
  intro x hx
  obtain ⟨n, hn, rfl⟩ := List.mem_map.1 hx
  simp only [samplerCsvColumns, List.mem_append, List.mem_cons, List.not_mem_nil, or_false] at hn
  rcases hn with (rfl | rfl | rfl) | hn
  · unfold PlainText; decide
  · unfold PlainText; decide
  · unfold PlainText; decide
  · obtain ⟨h1, h2⟩ := hs.plain n hn
    exact ⟨by simpa using h1, h2⟩

/-- What is read back from a file written by the callback. -/
theorem initialParams_of_history (ex : Dbl → Dbl) (b : Build) {store : ParameterStore}
    (hs : CsvStore store) (pss : SamplerState → ParameterStore) (hist : List (List SamplerState))
    (last : List SamplerState) (hlast : hist.getLast? = some last) (hne : ∀ ens ∈ hist, ens ≠ [])
    (hps : ∀ ens ∈ hist, ∀ st ∈ ens, setTunableParamsValues ex b store st.params true = .ok (pss st) ∧
      SMap.WF (pss st) ∧ (pss st).keys = store.keys) :
    ∃ cb, runCsvCallback ex b store hist = .ok cb ∧ cb.stream.fail = false ∧
      initialParamsFromCsv b cb.stream.text = .ok (last.map fun st => restoredMap (pss st)) := by
  have hhist : hist ≠ [] := by rintro rfl; simp at hlast
  obtain ⟨cb, h1, h2, h3⟩ := runCsvCallback_eq ex b hs pss hist hhist hps
  refine ⟨cb, h1, h2, ?_⟩
  have hlines : splitString '\n' cb.stream.text =
      joinSep ',' ((samplerCsvColumns store).map String.toList) ::
        hist.zipIdx.flatMap fun x => samplerLines pss x.2 x.1 := by
    rw [h3]
    apply splitString_lines
    intro l hl hc
    rcases List.mem_cons.1 hl with rfl | hl
    · rcases mem_joinSep hc with h | ⟨x, hx, hc⟩
      · exact absurd h (by decide)
      · exact (plain_header hs x hx).2.2 hc
    · obtain ⟨x, -, hl⟩ := List.mem_flatMap.1 hl
      obtain ⟨y, -, rfl⟩ := List.mem_map.1 hl
      rcases mem_joinSep hc with h | ⟨z, hz, hc⟩
      · exact absurd h (by decide)
      · exact (samplerFields_plain _ _ _ _ z hz).2.2 hc
  have hcols : splitString ',' (joinSep ',' ((samplerCsvColumns store).map String.toList)) =
      (samplerCsvColumns store).map String.toList :=
    splitString_joinSep (fun x hx => (plain_header hs x hx).2.1)
      (fun x hx => (plain_header hs x (List.mem_of_getLast? hx)).1)
  obtain ⟨r, hr⟩ := read_history b store pss hist last hlast hne
    (fun e he st hst => (hps e he st hst).2) 0 0 [] (.inr ⟨rfl, rfl⟩)
  rw [Nat.cast_zero] at hr
  unfold initialParamsFromCsv
  rw [hlines]
  simp only [List.isEmpty_cons, Bool.not_false, albatrossAssert_true, except_ok_bind,
    List.headD_cons, List.tail_cons, hcols]
  have e0 : vecGet ((samplerCsvColumns store).map String.toList) 0 = .ok "iteration".toList := rfl
  have e1 : vecGet ((samplerCsvColumns store).map String.toList) 1 = .ok "log_probability".toList := rfl
  have e2 : vecGet ((samplerCsvColumns store).map String.toList) 2 = .ok "ensemble_index".toList := rfl
  rw [e0, e1, e2]
  simp only [except_ok_bind, beq_self_eq_true, albatrossAssert_true, hr]
  rfl

/-- `set_tunable_params_values` on a walker of the right length. -/
theorem set_walker (ex : Dbl → Dbl) (b : Build) {store : ParameterStore} (hw : SMap.WF store)
    {x : List Dbl} (hlen : x.length = (tunable store).length) :
    ∃ ps, setTunableParamsValues ex b store x true = .ok ps ∧ SMap.WF ps ∧ ps.keys = store.keys := by
  obtain ⟨ps, h1, h2, h3, -⟩ := C24_entry_to_parameter ex b true store x hw hlen
  exact ⟨ps, h1, h2, h3⟩

open Classical in
/-- The parameters a walker stands for. -/
noncomputable def walkerParams (ex : Dbl → Dbl) (b : Build) (store : ParameterStore)
    (st : SamplerState) : ParameterStore :=
  match setTunableParamsValues ex b store st.params true with
  | .ok ps => ps
  | .error _ => []

theorem walkerParams_spec (ex : Dbl → Dbl) (b : Build) {store : ParameterStore} (hw : SMap.WF store)
    {st : SamplerState} (hlen : st.params.length = (tunable store).length) :
    setTunableParamsValues ex b store st.params true = .ok (walkerParams ex b store st) ∧
      SMap.WF (walkerParams ex b store st) ∧ (walkerParams ex b store st).keys = store.keys := by
  obtain ⟨ps, h1, h2, h3⟩ := set_walker ex b hw hlen
  have : walkerParams ex b store st = ps := by unfold walkerParams; rw [h1]
  rw [this]
  exact ⟨h1, h2, h3⟩

/-! ## C48 -/

/-- C48.  Full claim: whatever was sampled, reading back the file written by the CSV callback restores
exactly the parameter sets of the last iteration.  Proved here: exactly one parameter map per walker
of the last iteration, in order, with exactly the names of the store, each value *rounded to six
decimals* (that is what `std::to_string` writes).  The exact claim is false, see `C48_false`; it holds
for values of at most six decimals, see `C48_exact_partial`. -/
theorem C48_last_iteration_partial (ex : Dbl → Dbl) (b : Build) (store : ParameterStore)
    (hs : CsvStore store) (hist : List (List SamplerState)) (last : List SamplerState)
    (hlast : hist.getLast? = some last) (hne : ∀ ens ∈ hist, ens ≠ [])
    (hlen : ∀ ens ∈ hist, ∀ st ∈ ens, st.params.length = (tunable store).length) :
    ∃ cb restored, runCsvCallback ex b store hist = .ok cb ∧ cb.stream.fail = false ∧
      initialParamsFromCsv b cb.stream.text = .ok restored ∧
      List.Forall₂ (fun st m => ∃ ps, setTunableParamsValues ex b store st.params true = .ok ps ∧
        SMap.WF m ∧ m.keys = store.keys ∧
        ∀ name p, ps.find? name = some p → ∃ v, m.find? name = some v ∧ Rounded6 p.value v)
        last restored := by
  obtain ⟨cb, h1, h2, h3⟩ := initialParams_of_history ex b hs (walkerParams ex b store) hist last hlast
    hne fun e he st hst => walkerParams_spec ex b hs.wf (hlen e he st hst)
  refine ⟨cb, _, h1, h2, h3, ?_⟩
  rw [List.forall₂_map_right_iff, List.forall₂_same]
  intro st hst
  obtain ⟨p1, p2, p3⟩ := walkerParams_spec ex b hs.wf
    (hlen last (List.mem_of_getLast? hlast) st hst)
  refine ⟨_, p1, restoredMap_wf p2, ?_, fun name p hp => ?_⟩
  · rw [← p3]; simp [restoredMap, SMap.keys]
  · refine ⟨restored p.value, ?_, (restored_spec p.value).1⟩
    refine SMap.find?_of_mem (restoredMap_wf p2) ?_
    exact List.mem_map.2 ⟨(name, p), SMap.mem_of_find? hp, rfl⟩

theorem ensureWithinBounds_prior (p q : Parameter) (h : p.prior = q.prior) (v : Dbl) :
    ensureWithinBounds p v = ensureWithinBounds q v := by
  unfold ensureWithinBounds; rw [h]

theorem assigned_priors (ex : Dbl → Dbl) (fb : Bool) (ps : ParameterStore) (xs : List Dbl)
    (l : ParameterStore) (h : assigned ex fb ps xs = some l) :
    List.Forall₂ (fun p q => p.1 = q.1 ∧ p.2.prior = q.2.prior ∧
      ((p.2.isFixed = true ∧ q.2.value = p.2.value) ∨
        (p ∈ tunable ps ∧ ∃ v, q.2.value = tunedValue ex fb p.2 v))) ps l := by
  induction ps generalizing xs l with
  | nil => simp [assigned] at h; subst h; exact .nil
  | cons kv ps ih =>
    have wid : ∀ {l : ParameterStore}, List.Forall₂ (fun p q => p.1 = q.1 ∧ p.2.prior = q.2.prior ∧
      ((p.2.isFixed = true ∧ q.2.value = p.2.value) ∨
        (p ∈ tunable ps ∧ ∃ v, q.2.value = tunedValue ex fb p.2 v))) ps l →
      List.Forall₂ (fun p q => p.1 = q.1 ∧ p.2.prior = q.2.prior ∧
      ((p.2.isFixed = true ∧ q.2.value = p.2.value) ∨
        (p ∈ tunable (kv :: ps) ∧ ∃ v, q.2.value = tunedValue ex fb p.2 v))) ps l := by
      intro l h
      refine h.imp fun p q hpq => ⟨hpq.1, hpq.2.1, hpq.2.2.imp id fun h => ⟨?_, h.2⟩⟩
      have := h.1
      simp only [tunable, List.mem_filter, List.mem_cons] at this ⊢
      exact ⟨.inr this.1, this.2⟩
    by_cases hf : kv.2.isFixed = true
    · simp only [assigned, hf, if_true, Option.map_eq_some_iff] at h
      obtain ⟨l', h', rfl⟩ := h
      exact .cons ⟨rfl, rfl, .inl ⟨hf, rfl⟩⟩ (wid (ih xs l' h'))
    · have hf' : kv.2.isFixed = false := by simpa using hf
      cases xs with
      | nil => simp [assigned, hf] at h
      | cons v vs =>
        simp only [assigned, hf, Bool.false_eq_true, if_false, Option.map_eq_some_iff] at h
        obtain ⟨l', h', rfl⟩ := h
        exact .cons ⟨rfl, rfl, .inr ⟨by simp [tunable, hf'], v, rfl⟩⟩ (wid (ih vs l' h'))

theorem fold_setClamped (store ps : ParameterStore) (m : SMap String Dbl)
    (hsp : List.Forall₂ (fun p q => p.1 = q.1 ∧ p.2.prior = q.2.prior) store ps)
    (hm : List.Forall₂ (fun (q : String × Parameter) (e : String × Dbl) => q.1 = e.1 ∧
      ensureWithinBounds q.2 e.2 = q.2.value) ps m)
    (pre : ParameterStore) (hw : SMap.WF (pre ++ store)) :
    m.foldl (fun params kv => setClamped params kv.1 kv.2) (pre ++ store) = pre ++ ps := by
  induction hsp generalizing m pre with
  | nil => cases hm; rfl
  | @cons p q store ps hpq _ ih =>
    cases hm with
    | @cons _ e _ m hqe hm =>
      rw [List.foldl_cons]
      have hstep : setClamped (pre ++ p :: store) e.1 e.2 = pre ++ q :: store := by
        unfold setClamped
        rw [← hqe.1, ← hpq.1]
        obtain ⟨pk, pp⟩ := p
        rw [alter_at _ pk pp pre store hw]
        obtain ⟨qk, qp⟩ := q
        simp only at hpq hqe ⊢
        obtain ⟨rfl, hpr⟩ := hpq
        congr 3
        simp only [Option.getD_some]
        rw [ensureWithinBounds_prior pp qp hpr, hqe.2]
        cases pp; cases qp; simp_all
      rw [hstep]
      have := ih m hm (pre ++ [q]) (by
        have hw2 : SMap.WF (pre ++ q :: store) := by
          obtain ⟨pk, pp⟩ := p
          obtain ⟨qk, qp⟩ := q
          obtain ⟨rfl, -⟩ := hpq
          exact wf_replace pk pp qp pre store hw
        simpa using hw2)
      simpa using this

theorem clamp_idem (p : Parameter) (h : ¬ p.prior.upper < p.prior.lower) (v : Dbl) :
    ensureWithinBounds p (ensureWithinBounds p v) = ensureWithinBounds p v := by
  unfold ensureWithinBounds
  split_ifs with a b c d <;> simp_all [Dbl.lt_irrefl]

/-- C48 for walkers within their bounds whose parameter values have at most six decimals: restarting
from the file gives exactly the walkers of the last iteration. -/
theorem C48_exact_partial (b : Build) (store : ParameterStore)
    (hs : CsvStore store) (hist : List (List SamplerState)) (last : List SamplerState)
    (hlast : hist.getLast? = some last) (hne : ∀ ens ∈ hist, ens ≠ [])
    (hlen : ∀ ens ∈ hist, ∀ st ∈ ens, st.params.length = (tunable store).length)
    (hin : ∀ st ∈ last, ∀ (j : Nat) (name : String) (p : Parameter) (v : Dbl),
      (tunable store)[j]? = some (name, p) → st.params[j]? = some v →
      p.prior.lower ≤ toScale Dbl.exp p v ∧ toScale Dbl.exp p v ≤ p.prior.upper)
    (hsix : ∀ st ∈ last, ∀ ps, setTunableParamsValues Dbl.exp b store st.params true = .ok ps →
      ∀ kv ∈ ps, SixDecimals kv.2.value) :
    ∃ cb, runCsvCallback Dbl.exp b store hist = .ok cb ∧ cb.stream.fail = false ∧
      initialVectorsFromCsv Dbl.log b store cb.stream.text = .ok (last.map (·.params)) := by
  obtain ⟨cb, h1, h2, h3⟩ := initialParams_of_history Dbl.exp b hs (walkerParams Dbl.exp b store) hist
    last hlast hne fun e he st hst => walkerParams_spec Dbl.exp b hs.wf (hlen e he st hst)
  refine ⟨cb, h1, h2, ?_⟩
  unfold initialVectorsFromCsv
  rw [h3]
  simp only [except_ok_bind]
  have hl := hlen last (List.mem_of_getLast? hlast)
  clear h3 hlast
  induction last with
  | nil => rfl
  | cons st t ih =>
    have ih := ih (fun s hs => hin s (by simp [hs])) (fun s hs => hsix s (by simp [hs]))
      (fun s hs => hl s (by simp [hs]))
    obtain ⟨p1, p2, p3⟩ := walkerParams_spec Dbl.exp b hs.wf (hl st (by simp))
    have hsix := hsix st (by simp) _ p1
    have hget := C23_set_then_get b true store st.params hs.wf (hl st (by simp)) (hin st (by simp))
    rw [p1] at hget
    simp only [except_ok_bind] at hget
    set ps := walkerParams Dbl.exp b store st with hpsdef
    have hass : assigned Dbl.exp true store st.params = some ps := by
      have := p1
      rw [setTunable_eq _ _ _ _ _ hs.wf] at this
      cases ha : assigned Dbl.exp true store st.params with
      | none => rw [ha] at this; cases this
      | some l =>
        rw [ha] at this
        simp only [hl st (by simp), beq_self_eq_true, albatrossAssert_true, Except.bind] at this
        cases this; rfl
    have hpri := assigned_priors _ _ _ _ _ hass
    have hfold : (restoredMap ps).foldl (fun params kv => setClamped params kv.1 kv.2) store = ps := by
      have := fold_setClamped store ps (restoredMap ps) (hpri.imp fun p q h => ⟨h.1, h.2.1⟩) ?_ []
        (by simpa using hs.wf)
      · simpa using this
      · unfold restoredMap
        rw [List.forall₂_map_right_iff, List.forall₂_same]
        intro q hq
        refine ⟨rfl, ?_⟩
        show ensureWithinBounds q.2 (restored q.2.value) = q.2.value
        rw [(restored_spec q.2.value).2 (hsix q hq)]
        obtain ⟨i, hi, rfl⟩ := List.mem_iff_getElem.1 hq
        have hi' : i < List.length store := by rw [hpri.length_eq]; exact hi
        obtain ⟨-, hp, hcase⟩ := List.forall₂_iff_get.1 hpri |>.2 i hi' hi
        simp only [List.get_eq_getElem] at hp hcase
        rcases hcase with ⟨hfix, -⟩ | ⟨hmem, v, hv⟩
        · have : ps[i].2.prior = .fixed := by
            rw [← hp]
            unfold Parameter.isFixed at hfix
            cases hpr : store[i].2.prior <;> rw [hpr] at hfix <;> simp_all [Prior.isFixed]
          unfold ensureWithinBounds
          rw [this]
          simp [Prior.lower, Prior.upper]
        · rw [hv, tunedValue, if_pos rfl, ← ensureWithinBounds_prior _ _ hp]
          apply clamp_idem
          obtain ⟨j, hj⟩ := List.mem_iff_getElem?.1 hmem
          have hjl : j < st.params.length := by
            rw [hl st (by simp)]; exact (List.getElem?_eq_some_iff.1 hj).1
          have := hin st (by simp) j _ _ _ hj (List.getElem?_eq_getElem hjl)
          exact Dbl.not_lt_of_le (Dbl.le_trans this.1 this.2)
    have hlen' : (restoredMap ps).length = List.length store := by
      have := congrArg List.length p3
      simpa [SMap.keys, restoredMap] using this
    rw [List.map_cons, List.mapM_cons]
    rw [← hpsdef, hlen', hfold, beq_self_eq_true, albatrossAssert_true, except_ok_bind, hget,
      except_ok_bind, ih]
    rfl

/-- The claim of C48 fails: a parameter of `1e-7` is not restored, whatever comes back has at most six
decimals. -/
theorem C48_false (b : Build) :
    let store : ParameterStore := [("a", ⟨.fin 0, .uninformative⟩)]
    let hist : List (List SamplerState) := [[⟨[.fin (1 / 10 ^ 7)], .fin 0, true⟩]]
    ∃ cb, runCsvCallback Dbl.exp b store hist = .ok cb ∧
      initialVectorsFromCsv Dbl.log b store cb.stream.text = .ok [[.fin 0]] := by
  intro store hist
  have hw : SMap.WF store := by simp [store, SMap.WF]
  have hs : CsvStore store := by
    refine ⟨hw, fun n hn => ?_, fun n hn => ?_⟩ <;>
      simp only [store, SMap.keys, List.map_cons, List.map_nil, List.mem_singleton] at hn <;> subst hn
    · unfold PlainField; decide
    · decide
  have hset : setTunableParamsValues Dbl.exp b store [.fin (1 / 10 ^ 7)] true =
      .ok [("a", ⟨.fin (1 / 10 ^ 7), .uninformative⟩)] := by
    simp [setTunableParamsValues, setTunableLoop, store, Parameter.isFixed, Prior.isFixed,
      vecGet, Prior.isLogScale, ensureWithinBounds, setValue, SMap.alter, Prior.lower, Prior.upper]
  obtain ⟨cb, h1, -, h3⟩ := initialParams_of_history Dbl.exp b hs
    (fun _ => [("a", ⟨.fin (1 / 10 ^ 7), .uninformative⟩)]) hist _ rfl (by simp [hist])
    (by
      intro e he st hst
      simp only [hist, List.mem_singleton] at he
      subst he
      rw [List.mem_singleton.1 hst]
      exact ⟨hset, by simp [SMap.WF], rfl⟩)
  refine ⟨cb, h1, ?_⟩
  have hr : restored (.fin (1 / 10 ^ 7)) = .fin 0 := by
    have := (restored_spec (.fin (1 / 10 ^ 7))).1
    cases hy : restored (.fin (1 / 10 ^ 7)) with
    | fin y =>
      rw [hy] at this
      obtain ⟨⟨k, rfl⟩, hk⟩ := this
      rw [abs_le] at hk
      have h1 : (k : ℝ) < 1 := by have := hk.1; norm_num at this ⊢; linarith
      have h2 : (-1 : ℝ) < k := by have := hk.2; norm_num at this ⊢; linarith
      have : k = 0 := by
        have h1' : k < 1 := by exact_mod_cast h1
        have h2' : -1 < k := by exact_mod_cast h2
        omega
      rw [this]; simp
    | pinf => rw [hy] at this; cases this
    | ninf => rw [hy] at this; cases this
    | nan => rw [hy] at this; cases this
  unfold initialVectorsFromCsv
  rw [h3]
  simp only [except_ok_bind, List.map_cons, List.map_nil, restoredMap, hr]
  simp [store, setClamped, SMap.alter, ensureWithinBounds, getTunableParameters, getTunableStep,
    Parameter.isFixed, Prior.isFixed, Prior.isLogScale, Prior.lower, Prior.upper,
    TunableParameters.empty, except_pure]

/-- C48 for a run of the sampler itself: what the callback wrote restores the last ensemble the
sampler returned, every walker value rounded to six decimals. -/
theorem C48_sampler_run_partial (M : Nat) (b : Build) (u : UniformInt) (ur : UniformReal)
    (objective : List Dbl → Dbl) (store : ParameterStore) (hs : CsvStore store)
    (params : List (List Dbl)) (hp : params ≠ [])
    (hdim : ∀ p ∈ params, p.length = (tunable store).length) (maxIterations : Nat) (raw : List Nat)
    (out : List (List SamplerState)) (cb : Outcome CsvCallback) (rest : List Nat)
    (h : ensembleSamplerFrom M b u ur objective
      (fun cb it ens => cb >>= fun c => CsvCallback.call Dbl.exp b c it ens)
      params maxIterations (.ok { store := store }) raw = .ok (out, cb, rest)) :
    ∃ c last restored, cb = .ok c ∧ c.stream.fail = false ∧ out.getLast? = some last ∧
      last.length = params.length ∧
      initialParamsFromCsv b c.stream.text = .ok restored ∧
      List.Forall₂ (fun st m => ∃ ps, setTunableParamsValues Dbl.exp b store st.params true = .ok ps ∧
        SMap.WF m ∧ m.keys = store.keys ∧
        ∀ name p, ps.find? name = some p → ∃ v, m.find? name = some v ∧ Rounded6 p.value v)
        last restored := by
  obtain ⟨h1, h2, -, h4⟩ := C46_sampler_from_params M b u ur objective _ params _ maxIterations _ raw
    hdim out cb rest h
  have hne : out ≠ [] := by rintro rfl; simp at h1
  obtain ⟨last, hlast⟩ : ∃ l, out.getLast? = some l := ⟨_, List.getLast?_eq_some_getLast hne⟩
  obtain ⟨c, restored, c1, c2, c3, c4⟩ := C48_last_iteration_partial Dbl.exp b store hs out last hlast
    (fun e he => by
      rintro rfl
      have := (h2 _ he).1
      exact hp (List.length_eq_zero_iff.1 (by simpa using this.symm)))
    (fun e he st hst => ((h2 e he).2 st hst).2.2)
  refine ⟨c, last, restored, ?_, c2, hlast, (h2 last (List.mem_of_getLast? hlast)).1, c3, c4⟩
  rw [h4, ← c1, runCsvCallback]
  have key : ∀ (l : List (List SamplerState × Nat)) (o : Outcome CsvCallback),
      l.foldl (fun c x => c >>= fun c => CsvCallback.call Dbl.exp b c x.2 x.1) o =
        o >>= fun c => l.foldlM (fun cb x => CsvCallback.call Dbl.exp b cb x.2 x.1) c := by
    intro l
    induction l with
    | nil => intro o; cases o <;> rfl
    | cons x t ih =>
      intro o
      rw [List.foldl_cons, ih]
      cases o with
      | ok c => rfl
      | error e => rfl
  rw [key]
  rfl

/-! ## The hypotheses are met by non-trivial inputs -/

/-- Two iterations of two walkers; `a` is fixed, `b` is tuned. -/
example (bd : Build) :
    let store : ParameterStore := [("a", ⟨.fin 3, .fixed⟩), ("b", ⟨.fin 0, .uniform (.fin (-1)) (.fin 1)⟩)]
    let s1 : SamplerState := ⟨[.fin (1 / 8)], .fin (-5), true⟩
    let s2 : SamplerState := ⟨[.fin (-1 / 2)], .ninf, true⟩
    ∃ cb, runCsvCallback Dbl.exp bd store [[s1, s1], [s1, s2]] = .ok cb ∧ cb.stream.fail = false ∧
      initialVectorsFromCsv Dbl.log bd store cb.stream.text =
        .ok [[.fin (1 / 8)], [.fin (-1 / 2)]] := by
  intro store s1 s2
  have hab : ¬ "b" < "a" := by decide
  have hw : SMap.WF store := by
    rw [SMap.wf_iff_keys]
    show ["a", "b"].Pairwise (· < ·)
    decide
  have ht : tunable store = [("b", ⟨.fin 0, .uniform (.fin (-1)) (.fin 1)⟩)] := by
    simp [tunable, store, Parameter.isFixed, Prior.isFixed]
  refine C48_exact_partial bd store ⟨hw, ?_, ?_⟩ _ [s1, s2] rfl (by simp) ?_ ?_ ?_
  · intro n hn
    simp only [store, SMap.keys, List.map_cons, List.map_nil, List.mem_cons, List.not_mem_nil,
      or_false] at hn
    rcases hn with rfl | rfl <;> (unfold PlainField; decide)
  · intro n hn
    simp only [store, SMap.keys, List.map_cons, List.map_nil, List.mem_cons, List.not_mem_nil,
      or_false] at hn
    rcases hn with rfl | rfl <;> decide
  · simp [ht, s1, s2]
  · intro st hst j name p v hj hv
    rw [ht] at hj
    have : j = 0 := by
      by_contra h
      obtain ⟨k, rfl⟩ := Nat.exists_eq_succ_of_ne_zero h
      simp at hj
    subst this
    simp only [List.getElem?_cons_zero, Option.some.injEq, Prod.mk.injEq] at hj
    obtain ⟨rfl, rfl⟩ := hj
    simp only [List.mem_cons, List.not_mem_nil, or_false] at hst
    rcases hst with rfl | rfl <;> simp [s1, s2] at hv <;> subst hv <;>
      simp [toScale, Prior.isLogScale, Prior.lower, Prior.upper] <;> norm_num
  · intro st hst ps hps kv hkv
    have h1 : setTunableParamsValues Dbl.exp bd store s1.params true =
        .ok [("a", ⟨.fin 3, .fixed⟩), ("b", ⟨.fin (1 / 8), .uniform (.fin (-1)) (.fin 1)⟩)] := by
      have e1 : ¬ (8 : ℝ)⁻¹ < -1 := by norm_num
      have e2 : ¬ (1 : ℝ) < 8⁻¹ := by norm_num
      simp [setTunableParamsValues, setTunableLoop, hab, store, Parameter.isFixed, Prior.isFixed, s1,
        vecGet, Prior.isLogScale, ensureWithinBounds, setValue, SMap.alter, Prior.lower, Prior.upper,
        e1, e2]
    have h2 : setTunableParamsValues Dbl.exp bd store s2.params true =
        .ok [("a", ⟨.fin 3, .fixed⟩), ("b", ⟨.fin (-1 / 2), .uniform (.fin (-1)) (.fin 1)⟩)] := by
      have e1 : ¬ (-1 / 2 : ℝ) < -1 := by norm_num
      have e2 : ¬ (1 : ℝ) < -1 / 2 := by norm_num
      simp [setTunableParamsValues, setTunableLoop, hab, store, Parameter.isFixed, Prior.isFixed, s2,
        vecGet, Prior.isLogScale, ensureWithinBounds, setValue, SMap.alter, Prior.lower, Prior.upper,
        e1, e2]
    simp only [List.mem_cons, List.not_mem_nil, or_false] at hst
    rcases hst with rfl | rfl
    · rw [h1] at hps; cases hps
      simp only [List.mem_cons, List.not_mem_nil, or_false] at hkv
      rcases hkv with rfl | rfl
      · exact ⟨3000000, by norm_num⟩
      · exact ⟨125000, by norm_num⟩
    · rw [h2] at hps; cases hps
      simp only [List.mem_cons, List.not_mem_nil, or_false] at hkv
      rcases hkv with rfl | rfl
      · exact ⟨3000000, by norm_num⟩
      · exact ⟨-500000, by norm_num⟩

end Albatross
