import Verif.PrettyParams
import Verif.NumberTextProps
import Verif.ParametersProps

/-! # The text and the equality of priors and parameters: C101, C102 -/

namespace Albatross

/-! ## Specification vocabulary -/

/-- A name that can stand in a string literal. -/
def PlainName (s : String) : Prop := ∀ c ∈ s.toList, c ≠ '"' ∧ c ≠ '\\' ∧ c ≠ '\n'

/-- The entries of a braced initialiser, with the names and the values they stand for. -/
inductive ReadsEntries : List Char → List (String × Dbl) → Prop
  | done : ReadsEntries ['}', ';', '\n'] []
  | entry (name : String) (number rest : List Char) (l : List (String × Dbl)) : PlainName name → '}' ∉ number →
      ReadsEntries rest l →
      ReadsEntries ([' ', ' ', ' ', ' ', '{', '"'] ++ name.toList ++ ['"', ',', ' '] ++ number ++ ['}', ',',
        '\n'] ++ rest)
        ((name, readDecimal number) :: l)

/-- The text is a braced initialiser of these names and values. -/
def ReadsParams (t : List Char) (l : List (String × Dbl)) : Prop := ∃ r, t = ['{', '\n'] ++ r ∧ ReadsEntries r l

/-- Both are within a relative error of one number. -/
def NearBoth (eps : ℝ) (x y : Dbl) : Prop := ∃ r, NearRel eps x r ∧ NearRel eps y r

/-- The alternative of the variant. -/
def Prior.kind : Prior → Nat
  | uninformative => 0
  | fixed => 1
  | nonNegative => 2
  | positive => 3
  | uniform _ _ => 4
  | logScaleUniform _ _ => 5
  | gaussian _ _ => 6
  | logNormal _ _ => 7
  | positiveGaussian _ _ => 8

/-- The numbers a prior is made of. -/
def Prior.args : Prior → List Dbl
  | uniform l u => [l, u]
  | logScaleUniform l u => [l, u]
  | gaussian m s => [m, s]
  | logNormal m s => [m, s]
  | positiveGaussian m s => [m, s]
  | _ => []

theorem Prior.ext_args {a b : Prior} (h : a.kind = b.kind) (h2 : a.args = b.args) : a = b := by
  cases a <;> cases b <;> simp_all [Prior.kind, Prior.args]

/-! ## Numbers -/

theorem half_pow_six : (1 / 2 * (10 : ℝ) ^ (1 - ((6 : Nat) : ℤ))) = 5 / 10 ^ 6 := by norm_num

theorem half_pow_thirteen : (1 / 2 * (10 : ℝ) ^ (1 - ((13 : Nat) : ℤ))) = 5 / 10 ^ 13 := by norm_num

theorem defaultText_read (x : Dbl) :
    NearRel (5 / 10 ^ 6) x (readDecimal (defaultText x)) ∧ (HasDigits 6 x → readDecimal (defaultText x) = x) := by
  have := generalText_read (p := 6) (by norm_num) x
  rwa [half_pow_six] at this

theorem sciText_read_thirteen (x : Dbl) :
    NearRel (5 / 10 ^ 13) x (readDecimal (sciText 13 x)) ∧ (HasDigits 13 x → readDecimal (sciText 13 x) = x) := by
  have := sciText_read (p := 13) (by norm_num) x
  rwa [half_pow_thirteen] at this

theorem defaultText_chars (x : Dbl) : ∀ c ∈ defaultText x, NumberChar c := numberChar_general (by norm_num) x

theorem sameText_near {x y : Dbl} (h : defaultText x = defaultText y) :
    NearBoth (5 / 10 ^ 6) x y ∧ (HasDigits 6 x → HasDigits 6 y → x = y) := by
  refine ⟨⟨_, (defaultText_read x).1, h ▸ (defaultText_read y).1⟩, fun hx hy => ?_⟩
  rw [← (defaultText_read x).2 hx, ← (defaultText_read y).2 hy, h]

theorem sigRound_near_one {p : Nat} (hp : 0 < p) {d : ℝ} (h0 : 0 ≤ d) (h : d * 10 ^ (p - 1) < 1 / 2) :
    sigRound p (1 + d) = (10 ^ (p - 1), 0) := by
  have hpow : (1 : ℝ) ≤ 10 ^ (p - 1) := one_le_pow₀ (by norm_num)
  have hd : d < 1 / 2 := lt_of_le_of_lt (le_mul_of_one_le_right h0 hpow) h
  have hlog : Int.log 10 (1 + d) = 0 := by
    have h1 := Int.zpow_log_le_self (R := ℝ) (b := 10) (by norm_num) (by linarith : 0 < 1 + d)
    have h2 := Int.lt_zpow_succ_log_self (R := ℝ) (b := 10) (by norm_num) (1 + d)
    push_cast at h1 h2
    by_contra hne
    rcases lt_or_gt_of_ne hne with hl | hl
    · have : (10 : ℝ) ^ (Int.log 10 (1 + d) + 1) ≤ (10 : ℝ) ^ (0 : ℤ) :=
        zpow_le_zpow_right₀ (by norm_num) (by omega)
      rw [zpow_zero] at this
      linarith
    · have : (10 : ℝ) ^ (1 : ℤ) ≤ (10 : ℝ) ^ Int.log 10 (1 + d) := zpow_le_zpow_right₀ (by norm_num) (by omega)
      rw [zpow_one] at this
      linarith
  have hy : (1 + d) * (10 : ℝ) ^ ((p : ℤ) - 1 - 0) = ((10 ^ (p - 1) : Nat) : ℝ) + d * 10 ^ (p - 1) := by
    have : ((p : ℤ) - 1 - 0) = ((p - 1 : Nat) : ℤ) := by omega
    rw [this, zpow_natCast]
    push_cast; ring
  have hr : roundHalfEven ((1 + d) * (10 : ℝ) ^ ((p : ℤ) - 1 - 0)) = 10 ^ (p - 1) := by
    rw [hy]
    have hnn : 0 ≤ d * (10 : ℝ) ^ (p - 1) := by positivity
    have hfl : ⌊((10 ^ (p - 1) : Nat) : ℝ) + d * 10 ^ (p - 1)⌋₊ = 10 ^ (p - 1) := by
      rw [Nat.floor_eq_iff (by positivity)]
      exact ⟨by linarith, by linarith⟩
    unfold roundHalfEven
    simp only [hfl]
    rw [if_pos (by linarith)]
  rw [sigRound]
  simp only [hlog, hr]
  rw [if_neg (by
    intro hc
    exact absurd (Nat.pow_right_injective (by norm_num : 2 ≤ 10) hc) (by omega))]

theorem defaultText_near_one {d : ℝ} (h0 : 0 ≤ d) (h : d * 10 ^ 5 < 1 / 2) :
    defaultText (.fin (1 + d)) = defaultText (.fin 1) := by
  have h1 := sigRound_near_one (p := 6) (by norm_num) h0 h
  have h2 := sigRound_near_one (p := 6) (by norm_num) le_rfl (by norm_num : (0 : ℝ) * 10 ^ 5 < 1 / 2)
  rw [add_zero] at h2
  have e1 : |1 + d| = 1 + d := abs_of_nonneg (by linarith)
  have n1 : ¬ 1 + d < 0 := by linarith
  have n2 : ¬ 1 + d = 0 := by linarith
  simp only [defaultText, generalText, signedText, generalUnsigned, e1, abs_one, n1, n2, h1, h2,
    one_ne_zero, if_false, not_lt.2 zero_le_one]

theorem sciText_near_one {d : ℝ} (h0 : 0 ≤ d) (h : d * 10 ^ 12 < 1 / 2) :
    sciText 13 (.fin (1 + d)) = sciText 13 (.fin 1) := by
  have h1 := sigRound_near_one (p := 13) (by norm_num) h0 h
  have h2 := sigRound_near_one (p := 13) (by norm_num) le_rfl (by norm_num : (0 : ℝ) * 10 ^ 12 < 1 / 2)
  rw [add_zero] at h2
  have e1 : |1 + d| = 1 + d := abs_of_nonneg (by linarith)
  have n1 : ¬ 1 + d < 0 := by linarith
  have n2 : ¬ 1 + d = 0 := by linarith
  simp only [sciText, signedText, sciUnsigned, e1, abs_one, n1, n2, h1, h2, one_ne_zero, if_false,
    not_lt.2 zero_le_one]

/-! ## Texts -/

theorem foldl_append_text {α : Type} (f : α → List Char) (l : List α) (init : List Char) :
    l.foldl (fun ss x => ss ++ f x) init = init ++ l.flatMap f := by
  induction l generalizing init with
  | nil => simp
  | cons x l ih => rw [List.foldl_cons, ih, List.flatMap_cons, List.append_assoc]

theorem ReadsEntries.unique {t : List Char} {l l' : List (String × Dbl)} (h : ReadsEntries t l)
    (h' : ReadsEntries t l') : l = l' := by
  induction h generalizing l' with
  | done =>
    generalize ht : ['}', ';', '\n'] = t at h'
    cases h' with
    | done => rfl
    | entry name number rest l hn hb hr =>
      have := congrArg List.head? ht
      simp at this
  | entry name number rest l hn hb hr ih =>
    generalize ht : [' ', ' ', ' ', ' ', '{', '"'] ++ name.toList ++ ['"', ',', ' '] ++ number ++ ['}', ',',
      '\n'] ++ rest = t at h'
    cases h' with
    | done =>
      have := congrArg List.head? ht
      simp at this
    | entry name' number' rest' l' hn' hb' hr' =>
      have e1 : name.toList ++ '"' :: ([',', ' '] ++ number ++ ['}', ',', '\n'] ++ rest) =
          name'.toList ++ '"' :: ([',', ' '] ++ number' ++ ['}', ',', '\n'] ++ rest') := by
        simpa using ht
      obtain ⟨h1, h2⟩ := cut_at (fun hm => (hn _ hm).1 rfl) (fun hm => (hn' _ hm).1 rfl) e1
      have e2 : number ++ '}' :: ([',', '\n'] ++ rest) = number' ++ '}' :: ([',', '\n'] ++ rest') := by
        simpa using h2
      obtain ⟨rfl, h3⟩ := cut_at hb hb' e2
      have e3 : rest = rest' := by simpa using h3
      subst e3
      rw [ih hr', String.toList_inj.1 h1]

theorem reads_lines (ps : ParameterStore) (hn : ∀ kv ∈ ps, PlainName kv.1) :
    ReadsEntries (ps.flatMap paramLine ++ ['}', ';', '\n'])
      (ps.map fun kv => (kv.1, readDecimal (sciText 13 kv.2.value))) := by
  induction ps with
  | nil => exact .done
  | cons kv ps ih =>
    rw [List.flatMap_cons, List.append_assoc, List.map_cons]
    exact .entry kv.1 (sciText 13 kv.2.value) _ _ (hn kv (by simp))
      (fun hm => (numberChar_sci (by norm_num) _ _ hm).ne.2.2.2.2 rfl) (ih fun kv h => hn kv (by simp [h]))

theorem prettyParams_eq (ps : ParameterStore) :
    prettyParams ps = ['{', '\n'] ++ (ps.flatMap paramLine ++ ['}', ';', '\n']) := by
  rw [prettyParams, foldl_append_text, List.append_assoc]

/-- C101: `pretty_params` of parameters whose names can stand in a string literal is one braced initialiser with the
names in order, read in one way only; each value read differs from the value by at most 5e-13 of it, and not at all if
it has no more than 13 significant digits. -/
theorem C101_params_partial (ps : ParameterStore) (hn : ∀ kv ∈ ps, PlainName kv.1) :
    ∃ l, ReadsParams (prettyParams ps) l ∧ (∀ l', ReadsParams (prettyParams ps) l' → l' = l) ∧
      List.Forall₂ (fun kv r => r.1 = kv.1 ∧ NearRel (5 / 10 ^ 13) kv.2.value r.2 ∧
        (HasDigits 13 kv.2.value → r.2 = kv.2.value)) ps l := by
  refine ⟨_, ⟨_, prettyParams_eq ps, reads_lines ps hn⟩, ?_, ?_⟩
  · rintro l' ⟨r, hr, hl⟩
    rw [prettyParams_eq] at hr
    rw [← List.append_cancel_left hr] at hl
    exact hl.unique (reads_lines ps hn)
  · rw [List.forall₂_map_right_iff, List.forall₂_same]
    intro kv _
    exact ⟨rfl, sciText_read_thirteen kv.2.value⟩

/-- Parameters with plain names and values of at most 13 digits that print the same are the same. -/
theorem C101_params_injective (ps qs : ParameterStore) (hp : ∀ kv ∈ ps, PlainName kv.1)
    (hq : ∀ kv ∈ qs, PlainName kv.1) (dp : ∀ kv ∈ ps, HasDigits 13 kv.2.value)
    (dq : ∀ kv ∈ qs, HasDigits 13 kv.2.value) (h : prettyParams ps = prettyParams qs) :
    ps.map (fun kv => (kv.1, kv.2.value)) = qs.map (fun kv => (kv.1, kv.2.value)) := by
  obtain ⟨l, hl, -, fl⟩ := C101_params_partial ps hp
  obtain ⟨m, -, um, fm⟩ := C101_params_partial qs hq
  rw [h] at hl
  have hlm := um l hl
  subst hlm
  have key : ∀ (xs : ParameterStore) (l : List (String × Dbl)), (∀ kv ∈ xs, HasDigits 13 kv.2.value) →
      List.Forall₂ (fun kv r => r.1 = kv.1 ∧ NearRel (5 / 10 ^ 13) kv.2.value r.2 ∧
        (HasDigits 13 kv.2.value → r.2 = kv.2.value)) xs l → xs.map (fun kv => (kv.1, kv.2.value)) = l := by
    intro xs l hd hf
    induction hf with
    | nil => rfl
    | @cons x r xs l hx _ ih =>
      rw [List.map_cons, ih fun kv h => hd kv (by simp [h]), ← hx.1, ← hx.2.2 (hd x (by simp))]
  rw [key ps l dp fl, key qs l dq fm]

/-- C101 fails for names: a name with a quotation mark can make one parameter look like two. -/
theorem C101_quote_false :
    ∃ ps qs : ParameterStore, SMap.WF ps ∧ SMap.WF qs ∧ prettyParams ps = prettyParams qs ∧ ps.length ≠ qs.length := by
  refine ⟨[(String.ofList (['a', '"', ',', ' '] ++ sciText 13 (.fin 1) ++ ['}', ',', '\n', ' ', ' ', ' ', ' ', '{',
    '"', 'b']),
    ⟨.fin 2, .uninformative⟩)], [("a", ⟨.fin 1, .uninformative⟩), ("b", ⟨.fin 2, .uninformative⟩)],
    by simp [SMap.WF], ?_, ?_, by simp⟩
  · rw [SMap.wf_iff_keys]
    simp only [SMap.keys, List.map_cons, List.map_nil]
    decide
  · rw [prettyParams_eq, prettyParams_eq]
    simp [paramLine]

/-- C101 fails for values: a double and the next one print the same. -/
theorem C101_precision_false :
    ∃ x y : ℝ, x ≠ y ∧ (∃ k : Nat, k < 2 ^ 53 ∧ y = k / 2 ^ 52) ∧ x = 1 ∧
      prettyParams [("a", ⟨.fin x, .uninformative⟩)] = prettyParams [("a", ⟨.fin y, .uninformative⟩)] := by
  refine ⟨1, 1 + 1 / 2 ^ 52, by norm_num, ⟨2 ^ 52 + 1, by norm_num, by norm_num⟩, rfl, ?_⟩
  have := sciText_near_one (d := 1 / 2 ^ 52) (by positivity) (by norm_num)
  rw [prettyParams_eq, prettyParams_eq]
  simp only [List.flatMap_cons, List.flatMap_nil, paramLine, this]

example : ∃ ps : ParameterStore, ps.length = 2 ∧ (∀ kv ∈ ps, PlainName kv.1) ∧
    ∀ kv ∈ ps, HasDigits 13 kv.2.value := by
  refine ⟨[("length_scale", ⟨.fin (5 / 2), .positive⟩), ("sigma", ⟨.pinf, .positive⟩)], rfl, ?_, ?_⟩
  · intro kv hkv
    simp only [List.mem_cons, List.not_mem_nil, or_false] at hkv
    rcases hkv with rfl | rfl <;> simp [PlainName]
  · intro kv hkv
    simp only [List.mem_cons, List.not_mem_nil, or_false] at hkv
    rcases hkv with rfl | rfl
    · refine ⟨25, -1, by norm_num, ?_⟩
      rw [abs_of_nonneg (by norm_num)]; norm_num
    · trivial

/-! ## Texts of particular numbers -/

theorem sigRound_digits {p : Nat} (hp : 0 < p) (k : Nat) (e : ℤ) (h1 : 10 ^ (p - 1) ≤ k) (h2 : k < 10 ^ p) :
    sigRound p ((k : ℝ) * (10 : ℝ) ^ (e - ((p : ℤ) - 1))) = (k, e) := by
  have hk : (0 : ℝ) < k := by
    have : 0 < k := lt_of_lt_of_le (by positivity) h1
    exact_mod_cast this
  have hx : (0 : ℝ) < (k : ℝ) * (10 : ℝ) ^ (e - ((p : ℤ) - 1)) := by positivity
  have h1' : (10 : ℝ) ^ ((p : ℤ) - 1) ≤ k := by
    have : ((10 ^ (p - 1) : Nat) : ℝ) ≤ k := by exact_mod_cast h1
    rwa [Nat.cast_pow, Nat.cast_ofNat, ← zpow_natCast, Nat.cast_sub hp, Nat.cast_one] at this
  have h2' : (k : ℝ) < (10 : ℝ) ^ (p : ℤ) := by
    have : (k : ℝ) < ((10 ^ p : Nat) : ℝ) := by exact_mod_cast h2
    rwa [Nat.cast_pow, Nat.cast_ofNat, ← zpow_natCast] at this
  have h10 : (10 : ℝ) ≠ 0 := by norm_num
  have hlog : Int.log 10 ((k : ℝ) * (10 : ℝ) ^ (e - ((p : ℤ) - 1))) = e := by
    apply le_antisymm
    · rw [← Int.lt_add_one_iff, ← Int.lt_zpow_iff_log_lt (by norm_num : 1 < 10) hx, Nat.cast_ofNat]
      calc (k : ℝ) * (10 : ℝ) ^ (e - ((p : ℤ) - 1)) < (10 : ℝ) ^ (p : ℤ) * (10 : ℝ) ^ (e - ((p : ℤ) - 1)) :=
            mul_lt_mul_of_pos_right h2' (by positivity)
        _ = (10 : ℝ) ^ (e + 1) := by rw [← zpow_add₀ h10]; congr 1; ring
    · rw [← Int.zpow_le_iff_le_log (by norm_num : 1 < 10) hx, Nat.cast_ofNat]
      calc (10 : ℝ) ^ e = (10 : ℝ) ^ ((p : ℤ) - 1) * (10 : ℝ) ^ (e - ((p : ℤ) - 1)) := by
            rw [← zpow_add₀ h10]; congr 1; ring
        _ ≤ _ := mul_le_mul_of_nonneg_right h1' (by positivity)
  have hr : (k : ℝ) * (10 : ℝ) ^ (e - ((p : ℤ) - 1)) * (10 : ℝ) ^ ((p : ℤ) - 1 - e) = ((k : Nat) : ℝ) := by
    rw [mul_assoc, ← zpow_add₀ h10]; simp
  have hround : roundHalfEven ((k : Nat) : ℝ) = k := by
    unfold roundHalfEven
    simp
  rw [sigRound]
  simp only [hlog, hr, hround]
  rw [if_neg h2.ne]

/-- **C101**: the texts of some numbers: zero with all its digits, and the change between the two notations of a new
stream at 0.0001 and at a million. -/
theorem C101_number_texts :
    sciText 13 (.fin 0) = ['0', '.', '0', '0', '0', '0', '0', '0', '0', '0', '0', '0', '0', '0', 'e', '+', '0', '0'] ∧
      sciText 13 (.fin (-25 / 10)) =
        ['-', '2', '.', '5', '0', '0', '0', '0', '0', '0', '0', '0', '0', '0', '0', 'e', '+', '0', '0'] ∧
      defaultText (.fin (1 / 10000)) = ['0', '.', '0', '0', '0', '1'] ∧
      defaultText (.fin (1 / 100000)) = ['1', 'e', '-', '0', '5'] ∧
      defaultText (.fin 999999) = ['9', '9', '9', '9', '9', '9'] ∧
      defaultText (.fin 1000000) = ['1', 'e', '+', '0', '6'] := by
  have s1 : sigRound 13 (5 / 2) = (2500000000000, 0) := by
    have := sigRound_digits (p := 13) (by norm_num) 2500000000000 0 (by norm_num) (by norm_num)
    norm_num at this; exact this
  have s2 : sigRound 6 (1 / 10000) = (100000, -4) := by
    have := sigRound_digits (p := 6) (by norm_num) 100000 (-4) (by norm_num) (by norm_num)
    norm_num at this; exact this
  have s3 : sigRound 6 (1 / 100000) = (100000, -5) := by
    have := sigRound_digits (p := 6) (by norm_num) 100000 (-5) (by norm_num) (by norm_num)
    norm_num at this; exact this
  have s4 : sigRound 6 999999 = (999999, 5) := by
    have := sigRound_digits (p := 6) (by norm_num) 999999 5 (by norm_num) (by norm_num)
    norm_num at this; exact this
  have s5 : sigRound 6 1000000 = (100000, 6) := by
    have := sigRound_digits (p := 6) (by norm_num) 100000 6 (by norm_num) (by norm_num)
    norm_num at this; exact this
  refine ⟨?_, ?_, ?_, ?_, ?_, ?_⟩
  · simp only [sciText, signedText, sciUnsigned, lt_irrefl, if_false, abs_zero, if_true]
    decide
  · have e1 : |(-25 / 10 : ℝ)| = 5 / 2 := by rw [abs_of_neg (by norm_num)]; norm_num
    have e2 : (-25 / 10 : ℝ) < 0 := by norm_num
    have e3 : ¬ (5 / 2 : ℝ) = 0 := by norm_num
    simp only [sciText, signedText, sciUnsigned, e1, e2, e3, s1, if_true, if_false]
    decide
  · have e1 : |(1 / 10000 : ℝ)| = 1 / 10000 := abs_of_pos (by norm_num)
    have e2 : ¬ (1 / 10000 : ℝ) < 0 := by norm_num
    have e3 : ¬ (1 / 10000 : ℝ) = 0 := by norm_num
    simp only [defaultText, generalText, signedText, generalUnsigned, e1, e2, e3, s2, if_false]
    decide
  · have e1 : |(1 / 100000 : ℝ)| = 1 / 100000 := abs_of_pos (by norm_num)
    have e2 : ¬ (1 / 100000 : ℝ) < 0 := by norm_num
    have e3 : ¬ (1 / 100000 : ℝ) = 0 := by norm_num
    simp only [defaultText, generalText, signedText, generalUnsigned, e1, e2, e3, s3, if_false]
    decide
  · have e1 : |(999999 : ℝ)| = 999999 := abs_of_pos (by norm_num)
    have e2 : ¬ (999999 : ℝ) < 0 := by norm_num
    have e3 : ¬ (999999 : ℝ) = 0 := by norm_num
    simp only [defaultText, generalText, signedText, generalUnsigned, e1, e2, e3, s4, if_false]
    decide
  · have e1 : |(1000000 : ℝ)| = 1000000 := abs_of_pos (by norm_num)
    have e2 : ¬ (1000000 : ℝ) < 0 := by norm_num
    have e3 : ¬ (1000000 : ℝ) = 0 := by norm_num
    simp only [defaultText, generalText, signedText, generalUnsigned, e1, e2, e3, s5, if_false]
    decide

/-! ## Names of priors -/

/-- The text before the bracket. -/
def Prior.kindText : Prior → List Char
  | uninformative => ['u', 'n', 'i', 'n', 'f', 'o', 'r', 'm', 'a', 't', 'i', 'v', 'e']
  | fixed => ['f', 'i', 'x', 'e', 'd']
  | nonNegative => ['n', 'o', 'n', '_', 'n', 'e', 'g', 'a', 't', 'i', 'v', 'e']
  | positive => ['p', 'o', 's', 'i', 't', 'i', 'v', 'e']
  | uniform _ _ => ['u', 'n', 'i', 'f', 'o', 'r', 'm']
  | logScaleUniform _ _ => ['l', 'o', 'g', '_', 's', 'c', 'a', 'l', 'e', '_', 'u', 'n', 'i', 'f', 'o', 'r', 'm']
  | gaussian _ _ => ['g', 'a', 'u', 's', 's', 'i', 'a', 'n']
  | logNormal _ _ => ['l', 'o', 'g', '_', 'n', 'o', 'r', 'm', 'a', 'l']
  | positiveGaussian _ _ => ['p', 'o', 's', 'i', 't', 'i', 'v', 'e', '_', 'g', 'a', 'u', 's', 's', 'i', 'a', 'n']

theorem kindText_plain (a : Prior) : ∀ c ∈ a.kindText, c ≠ '[' ∧ c ≠ '\n' := by
  cases a <;> simp [Prior.kindText]

theorem kindText_inj {a b : Prior} (h : a.kindText = b.kindText) : a.kind = b.kind := by
  cases a <;> cases b <;> first | rfl | (simp [Prior.kindText] at h)

theorem name_eq (a : Prior) : a.name = a.kindText ++ (match a.args with
    | [x, y] => '[' :: defaultText x ++ ',' :: defaultText y ++ [']']
    | _ => []) := by
  cases a <;> simp [Prior.name, Prior.kindText, Prior.args, twoArgName]

theorem args_cases (a : Prior) : a.args = [] ∨ ∃ x y, a.args = [x, y] := by
  cases a <;> simp [Prior.args]

theorem name_inj {a b : Prior} (h : a.name = b.name) :
    a.kind = b.kind ∧ List.Forall₂ (fun x y => defaultText x = defaultText y) a.args b.args := by
  have nb : ∀ a : Prior, '[' ∉ a.kindText := fun a hm => (kindText_plain a _ hm).1 rfl
  rw [name_eq, name_eq] at h
  rcases args_cases a with ha | ⟨x, y, ha⟩ <;> rcases args_cases b with hb | ⟨x', y', hb⟩
  · rw [ha, hb] at h ⊢
    simp only [List.append_nil] at h
    exact ⟨kindText_inj h, .nil⟩
  · rw [ha, hb] at h
    simp only [List.append_nil] at h
    exact absurd (h ▸ by simp) (nb a)
  · rw [ha, hb] at h
    simp only [List.append_nil] at h
    exact absurd (h ▸ by simp) (nb b)
  · rw [ha, hb] at h ⊢
    simp only [List.cons_append] at h
    obtain ⟨h1, h2⟩ := cut_at (nb a) (nb b) h
    refine ⟨kindText_inj h1, ?_⟩
    have e : defaultText x ++ ',' :: (defaultText y ++ [']']) = defaultText x' ++ ',' :: (defaultText y' ++ [']']) := by
      simpa using h2
    obtain ⟨h3, h4⟩ := cut_at (fun hm => (defaultText_chars _ _ hm).ne.1 rfl)
      (fun hm => (defaultText_chars _ _ hm).ne.1 rfl) e
    exact .cons h3 (.cons (List.append_cancel_right h4) .nil)

theorem name_no_newline (a : Prior) : '\n' ∉ a.name := by
  rw [name_eq]
  intro hm
  rcases List.mem_append.1 hm with hm | hm
  · exact (kindText_plain a _ hm).2 rfl
  · rcases args_cases a with ha | ⟨x, y, ha⟩
    · rw [ha] at hm; simp at hm
    · rw [ha] at hm
      simp only [List.cons_append, List.mem_cons, List.mem_append, List.not_mem_nil, or_false] at hm
      rcases hm with hm | (hm | hm | hm) | hm
      · exact absurd hm (by decide)
      · exact (defaultText_chars _ _ hm).ne.2.1 rfl
      · exact absurd hm (by decide)
      · exact (defaultText_chars _ _ hm).ne.2.1 rfl
      · exact absurd hm (by decide)

/-- C101: two sets of parameters with plain names that `pretty_priors` prints the same have the same names and, one by
one, priors of the same kind whose numbers agree up to 5e-6, and exactly if they have at most 6 significant digits. -/
theorem C101_priors_partial (ps qs : ParameterStore) (hp : ∀ kv ∈ ps, PlainName kv.1)
    (hq : ∀ kv ∈ qs, PlainName kv.1) (h : prettyPriors ps = prettyPriors qs) :
    List.Forall₂ (fun p q => p.1 = q.1 ∧ p.2.prior.kind = q.2.prior.kind ∧
      List.Forall₂ (fun x y => NearBoth (5 / 10 ^ 6) x y ∧ (HasDigits 6 x → HasDigits 6 y → x = y))
        p.2.prior.args q.2.prior.args) ps qs := by
  rw [prettyPriors, prettyPriors, foldl_append_text, foldl_append_text] at h
  replace h := List.append_cancel_left h
  induction ps generalizing qs with
  | nil =>
    cases qs with
    | nil => exact .nil
    | cons q qs => simp [priorLine] at h
  | cons p ps ih =>
    cases qs with
    | nil => simp [priorLine] at h
    | cons q qs =>
      rw [List.flatMap_cons, List.flatMap_cons] at h
      have e1 : p.1.toList ++ '"' :: ([':', ' '] ++ p.2.prior.name ++ '\n' :: ps.flatMap priorLine) =
          q.1.toList ++ '"' :: ([':', ' '] ++ q.2.prior.name ++ '\n' :: qs.flatMap priorLine) := by
        simpa [priorLine] using h
      obtain ⟨h1, h2⟩ := cut_at (fun hm => (hp p (by simp) _ hm).1 rfl) (fun hm => (hq q (by simp) _ hm).1 rfl) e1
      have e2 : p.2.prior.name ++ '\n' :: ps.flatMap priorLine = q.2.prior.name ++ '\n' :: qs.flatMap priorLine := by
        simpa using h2
      obtain ⟨h3, h4⟩ := cut_at (name_no_newline _) (name_no_newline _) e2
      obtain ⟨h5, h6⟩ := name_inj h3
      exact .cons ⟨String.toList_inj.1 h1, h5, h6.imp fun _ _ h => sameText_near h⟩
        (ih qs (fun kv h => hp kv (by simp [h])) (fun kv h => hq kv (by simp [h])) h4)

/-! ## `pretty_param_details` -/

theorem longest_fold (rest : List (String × Parameter)) (best : String) :
    let r := rest.foldl (fun best kv => if best.toList.length < kv.1.toList.length then kv.1 else best) best
    (r = best ∨ ∃ kv ∈ rest, kv.1 = r) ∧ best.toList.length ≤ r.toList.length ∧
      ∀ kv ∈ rest, kv.1.toList.length ≤ r.toList.length := by
  induction rest generalizing best with
  | nil => simp
  | cons kv rest ih =>
    simp only [List.foldl_cons]
    obtain ⟨h1, h2, h3⟩ := ih (if best.toList.length < kv.1.toList.length then kv.1 else best)
    refine ⟨?_, ?_, fun x hx => ?_⟩
    · rcases h1 with h1 | ⟨x, hx, h1⟩
      · split at h1
        · next hlt => rw [if_pos hlt]; exact .inr ⟨kv, by simp, h1.symm⟩
        · next hlt => rw [if_neg hlt]; exact .inl h1
      · exact .inr ⟨x, by simp [hx], h1⟩
    · refine le_trans ?_ h2
      split
      · next hlt => exact hlt.le
      · exact le_rfl
    · rcases List.mem_cons.1 hx with rfl | hx
      · refine le_trans ?_ h2
        split
        · exact le_rfl
        · next hlt => exact not_lt.1 hlt
      · exact h3 x hx

/-- One line of the details: the columns line up, `w` is the width of the first. -/
def DetailLine (w : Nat) (kv : String × Parameter) (line : List Char) : Prop :=
  ∃ (value lower upper : List Char) (valid : Char) (i j k l : Nat),
    line = [' ', ' ', ' ', ' '] ++ kv.1.toList ++ List.replicate i ' ' ++ [' ', 'v', 'a', 'l', 'u', 'e', ':',
      ' '] ++ value ++ List.replicate j ' ' ++
      [' ', 'v', 'a', 'l', 'i', 'd', ':', ' '] ++ [valid] ++ List.replicate k ' ' ++ [' ', 'p', 'r', 'i', 'o', 'r',
        ':', ' '] ++ kv.2.prior.name ++
      List.replicate l ' ' ++ [' ', 'b', 'o', 'u', 'n', 'd', 's', ':', ' ', '['] ++ lower ++ [',', ' '] ++ upper ++
        [']', '\n'] ∧
    kv.1.toList.length + i = w ∧ value.length + j = max 12 value.length ∧ k = 2 ∧
    kv.2.prior.name.length + l = max 15 kv.2.prior.name.length ∧
    NearRel (5 / 10 ^ 6) kv.2.value (readDecimal value) ∧
    NearRel (5 / 10 ^ 6) kv.2.prior.lower (readDecimal lower) ∧
    NearRel (5 / 10 ^ 6) kv.2.prior.upper (readDecimal upper) ∧
    (valid = '1' ↔ kv.2.prior.lower ≤ kv.2.value ∧ kv.2.value ≤ kv.2.prior.upper) ∧ (valid = '1' ∨ valid = '0')

/-- C101: on a non-empty set of parameters `pretty_param_details` writes one line each, in order; the first column is
one wider than the longest name. -/
theorem C101_details (ps : ParameterStore) (hne : ps ≠ []) :
    ∃ (w : Nat) (lines : List (List Char)), prettyParamDetails ps = .ok lines.flatten ∧
      (∃ kv ∈ ps, kv.1.toList.length + 1 = w) ∧ (∀ kv ∈ ps, kv.1.toList.length + 1 ≤ w) ∧
      List.Forall₂ (DetailLine w) ps lines := by
  cases ps with
  | nil => exact absurd rfl hne
  | cons kv rest =>
    obtain ⟨h1, h2, h3⟩ := longest_fold rest kv.1
    set r := rest.foldl (fun best kv => if best.toList.length < kv.1.toList.length then kv.1 else best) kv.1 with hr
    have hle : ∀ x ∈ kv :: rest, x.1.toList.length ≤ r.toList.length := by
      intro x hx
      rcases List.mem_cons.1 hx with rfl | hx
      · exact h2
      · exact h3 x hx
    refine ⟨r.toList.length + 1, (kv :: rest).map (detailLine r.toList.length), ?_, ?_, ?_, ?_⟩
    · rw [prettyParamDetails, longestName]
      show Except.ok _ = _
      rw [foldl_append_text, List.nil_append, List.flatMap_def]
    · rcases h1 with h1 | ⟨x, hx, h1⟩
      · exact ⟨kv, by simp, by rw [h1]⟩
      · exact ⟨x, by simp [hx], by rw [h1]⟩
    · intro x hx
      exact Nat.succ_le_succ (hle x hx)
    · rw [List.forall₂_map_right_iff, List.forall₂_same]
      intro x hx
      have hx' := hle x hx
      refine ⟨defaultText x.2.value, defaultText x.2.prior.lower, defaultText x.2.prior.upper,
        if x.2.isValid then '1' else '0', r.toList.length + 1 - x.1.toList.length,
        12 - (defaultText x.2.value).length, 2, 15 - x.2.prior.name.length, ?_, by omega, by omega, rfl, by omega,
        (defaultText_read _).1, (defaultText_read _).1, (defaultText_read _).1, ?_, ?_⟩
      · rw [detailLine]
        simp only [padRight]
        cases x.2.isValid <;> simp
      · rw [Parameter.isValid]
        by_cases hv : x.2.prior.lower ≤ x.2.value ∧ x.2.value ≤ x.2.prior.upper
        · rw [if_pos (decide_eq_true hv)]; simp [hv]
        · rw [if_neg (by simpa using hv)]; simpa using hv
      · split <;> simp

/-- C101: an empty set of parameters has no longest name: the end of the map is dereferenced. -/
theorem C101_details_empty : prettyParamDetails [] = .error .ub := rfl

/-- C101: the tuner asks for details of invalid parameters only (tune.hpp lines 143-145), which are not empty. -/
theorem C101_details_invalid (ps : ParameterStore) (h : paramsAreValid ps = false) :
    ∃ text, prettyParamDetails ps = .ok text := by
  have hne : ps ≠ [] := by
    rintro rfl
    simp [paramsAreValid] at h
  obtain ⟨w, lines, h1, -⟩ := C101_details ps hne
  exact ⟨_, h1⟩

example : paramsAreValid [("a", ⟨.fin (-1), .nonNegative⟩)] = false := by
  simp [paramsAreValid, Parameter.isValid, Prior.lower]

/-! ## Equality -/

theorem dblEqual_iff {a b : Dbl} : dblEqual a b = true ↔ a = b ∧ a ≠ .nan := by simp [dblEqual]

/-- C102: priors that compare equal have the same kind and numbers that agree up to 5e-6; they are the same if they are
compared by number (Gaussian, log normal, positive Gaussian) or have at most 6 significant digits. -/
theorem C102_equal_partial (a b : Prior) (h : a.equal b = true) :
    a.kind = b.kind ∧ List.Forall₂ (NearBoth (5 / 10 ^ 6)) a.args b.args ∧
      (6 ≤ a.kind → a = b) ∧ ((∀ x ∈ a.args, HasDigits 6 x) → (∀ x ∈ b.args, HasDigits 6 x) → a = b) := by
  have refl : ∀ x, NearBoth (5 / 10 ^ 6) x x := fun x => (sameText_near rfl).1
  have self : ∀ a : Prior, a.kind = a.kind ∧ List.Forall₂ (NearBoth (5 / 10 ^ 6)) a.args a.args ∧
      (6 ≤ a.kind → a = a) ∧ ((∀ x ∈ a.args, HasDigits 6 x) → (∀ x ∈ a.args, HasDigits 6 x) → a = a) := fun a =>
    ⟨rfl, List.forall₂_same.2 fun x _ => refl x, fun _ => rfl, fun _ _ => rfl⟩
  have byName : ∀ a b : Prior, a.kind < 6 → a.name = b.name → a.kind = b.kind ∧
      List.Forall₂ (NearBoth (5 / 10 ^ 6)) a.args b.args ∧ (6 ≤ a.kind → a = b) ∧
      ((∀ x ∈ a.args, HasDigits 6 x) → (∀ x ∈ b.args, HasDigits 6 x) → a = b) := by
    intro a b hk hn
    obtain ⟨h1, h2⟩ := name_inj hn
    refine ⟨h1, h2.imp fun _ _ h => (sameText_near h).1, fun h => absurd h (by omega), fun ha hb => ?_⟩
    refine Prior.ext_args h1 ?_
    generalize a.args = xs at h2 ha
    generalize b.args = ys at h2 hb
    clear hn hk h1 self
    induction h2 with
    | nil => rfl
    | @cons x y xs ys hxy _ ih =>
      rw [(sameText_near hxy).2 (ha x (by simp)) (hb y (by simp)), ih (fun z hz => ha z (by simp [hz]))
        (fun z hz => hb z (by simp [hz]))]
  have byArgs : ∀ {m s m' s' : Dbl}, (dblEqual m' m && dblEqual s' s) = true → m = m' ∧ s = s' := by
    intro m s m' s' h
    rw [Bool.and_eq_true, dblEqual_iff, dblEqual_iff] at h
    exact ⟨h.1.1.symm, h.2.1.symm⟩
  cases a <;> cases b <;> first
    | (exfalso; simp [Prior.equal] at h; done)
    | exact self _
    | (obtain ⟨rfl, rfl⟩ := byArgs h; exact self _)
    | exact byName _ _ (by simp [Prior.kind]) (of_decide_eq_true h)

/-- C102: a prior with no NaN equals itself. -/
theorem C102_reflexive (a : Prior) (h : ∀ x ∈ a.args, x ≠ .nan) : a.equal a = true := by
  cases a <;> simp_all [Prior.equal, Prior.args, dblEqual]

/-- C102: equality is symmetric and transitive. -/
theorem C102_symmetric (a b : Prior) (h : a.equal b = true) : b.equal a = true := by
  cases a <;> cases b <;> simp_all [Prior.equal, dblEqual]
  all_goals
    obtain ⟨⟨rfl, h2⟩, rfl, h4⟩ := h
    exact ⟨h2, h4⟩

theorem C102_transitive (a b c : Prior) (h : a.equal b = true) (h' : b.equal c = true) : a.equal c = true := by
  cases a <;> cases b <;> simp [Prior.equal] at h <;> cases c <;> simp [Prior.equal] at h' ⊢ <;>
    simp_all [dblEqual]
  all_goals
    obtain ⟨⟨rfl, h2⟩, rfl, h4⟩ := h
    exact ⟨h2, h4⟩

/-- C102: `==` and `!=` of two containers never both hold. -/
theorem C102_never_both (a b : Prior) : ¬ (a.equal b = true ∧ a.notEqual b = true) := by
  rintro ⟨h1, h2⟩
  have hn : a.name = b.name := by
    by_cases hk : 6 ≤ a.kind
    · rw [(C102_equal_partial a b h1).2.2.1 hk]
    · cases a <;> cases b <;> first
        | rfl
        | exact of_decide_eq_true h1
        | (exfalso; simp [Prior.equal] at h1; done)
        | (exfalso; simp [Prior.kind] at hk)
  simp [Prior.notEqual, hn] at h2

/-- C102: `!=` means that the kinds or the printed numbers differ. -/
theorem C102_not_equal_partial (a b : Prior) (h : a.notEqual b = true) : a ≠ b := by
  rintro rfl
  simp [Prior.notEqual] at h

theorem tiny_step : defaultText (.fin (1 + 1 / 10 ^ 7)) = defaultText (.fin 1) :=
  defaultText_near_one (by positivity) (by norm_num)

/-- C102 fails for uniform priors, plain and log scale: bounds that differ in the eighth digit compare equal, though a
value is allowed by one and excluded by the other. -/
theorem C102_uniform_false :
    ∃ u v : Dbl, (Prior.uniform (.fin 0) u).equal (.uniform (.fin 0) v) = true ∧
      (Prior.logScaleUniform (.fin (1 / 2)) u).equal (.logScaleUniform (.fin (1 / 2)) v) = true ∧
      u < v ∧ (⟨v, .uniform (.fin 0) u⟩ : Parameter).equal ⟨v, .uniform (.fin 0) v⟩ = true ∧
      (⟨v, .uniform (.fin 0) u⟩ : Parameter).isValid = false ∧ (⟨v, .uniform (.fin 0) v⟩ : Parameter).isValid = true ∧
      Prior.logPdf (.uniform (.fin 0) u) v = .ninf ∧ Prior.logPdf (.uniform (.fin 0) v) v ≠ .ninf := by
  have hlt : ¬ (1 + 1 / 10 ^ 7 : ℝ) ≤ 1 := by norm_num
  have hpos : (0 : ℝ) ≤ 1 + 1 / 10 ^ 7 := by norm_num
  have hpos' : (0 : ℝ) < 1 + 1 / 10 ^ 7 := by norm_num
  have he : (Prior.uniform (.fin 0) (.fin 1)).equal (.uniform (.fin 0) (.fin (1 + 1 / 10 ^ 7))) = true := by
    simp only [Prior.equal, Prior.name, twoArgName, tiny_step, decide_true]
  refine ⟨.fin 1, .fin (1 + 1 / 10 ^ 7), he, ?_, ?_, ?_, ?_, ?_, ?_, ?_⟩
  · simp only [Prior.equal, Prior.name, twoArgName, tiny_step, decide_true]
  · rw [Dbl.fin_lt]; exact not_le.1 hlt
  · rw [Parameter.equal, he, Bool.and_true, dblEqual_iff]
    exact ⟨rfl, by simp⟩
  · exact decide_eq_false fun h => hlt h.2
  · exact decide_eq_true ⟨hpos, le_refl (1 + 1 / 10 ^ 7 : ℝ)⟩
  · exact if_neg fun h => hlt h.2
  · have e : Prior.logPdf (.uniform (.fin 0) (.fin (1 + 1 / 10 ^ 7))) (.fin (1 + 1 / 10 ^ 7)) =
        -(Dbl.fin (1 + 1 / 10 ^ 7) - .fin 0).log := if_pos ⟨hpos, le_refl (1 + 1 / 10 ^ 7 : ℝ)⟩
    rw [e, Dbl.fin_sub, sub_zero, Dbl.log, if_pos hpos']
    simp

/-- C102 fails for `!=` of containers: two Gaussian priors can be neither equal nor unequal. -/
theorem C102_not_equal_false :
    ∃ a b : Prior, a ≠ b ∧ a.equal b = false ∧ a.notEqual b = false := by
  have hne : (1 + 1 / 10 ^ 7 : ℝ) ≠ 1 := by norm_num
  refine ⟨.gaussian (.fin 0) (.fin 1), .gaussian (.fin 0) (.fin (1 + 1 / 10 ^ 7)), ?_, ?_, ?_⟩
  · simp only [ne_eq, Prior.gaussian.injEq, Dbl.fin.injEq, true_and]
    exact fun h => hne h.symm
  · have : dblEqual (.fin (1 + 1 / 10 ^ 7)) (.fin 1) = false := decide_eq_false fun h => hne (Dbl.fin.inj h.1)
    simp only [Prior.equal, this, Bool.and_false]
  · simp only [Prior.notEqual, Prior.name, twoArgName, tiny_step, decide_true, Bool.not_true]

/-- C102: a parameter with a NaN is not equal to itself. -/
theorem C102_nan (prior : Prior) : (⟨.nan, prior⟩ : Parameter).equal ⟨.nan, prior⟩ = false := by
  simp [Parameter.equal, dblEqual]

/-- C102: parameters are equal if their values are the same number and their priors are equal; `!=` is the opposite. -/
theorem C102_parameters (p q : Parameter) :
    (p.equal q = true ↔ (p.value = q.value ∧ p.value ≠ .nan) ∧ p.prior.equal q.prior = true) ∧
      p.notEqual q = !p.equal q := by
  refine ⟨?_, rfl⟩
  rw [Parameter.equal, Bool.and_eq_true, dblEqual_iff]

/-- C102: stores are equal if they have the same names with equal parameters. -/
theorem C102_stores (ps qs : ParameterStore) :
    storesEqual ps qs = true ↔ List.Forall₂ (fun p q => p.1 = q.1 ∧ p.2.equal q.2 = true) ps qs := by
  induction ps generalizing qs with
  | nil =>
    cases qs with
    | nil => simp [storesEqual]
    | cons q qs => simp [storesEqual]
  | cons p ps ih =>
    cases qs with
    | nil => simp [storesEqual]
    | cons q qs => rw [storesEqual, List.forall₂_cons, ← ih]; simp [and_assoc]

/-- C102: stores whose priors have at most 6 significant digits are equal only if they are the same. -/
theorem C102_stores_exact (ps qs : ParameterStore) (hp : ∀ kv ∈ ps, ∀ x ∈ kv.2.prior.args, HasDigits 6 x)
    (hq : ∀ kv ∈ qs, ∀ x ∈ kv.2.prior.args, HasDigits 6 x) (h : storesEqual ps qs = true) : ps = qs := by
  rw [C102_stores] at h
  induction h with
  | nil => rfl
  | @cons p q ps qs hpq _ ih =>
    obtain ⟨h1, h2⟩ := hpq
    obtain ⟨⟨h3, -⟩, h4⟩ := (C102_parameters _ _).1.1 h2
    have h5 := (C102_equal_partial _ _ h4).2.2.2 (hp p (by simp)) (hq q (by simp))
    have hpq : p = q := by
      obtain ⟨n, v, r⟩ := p
      obtain ⟨n', v', r'⟩ := q
      simp only at h1 h3 h5
      rw [h1, h3, h5]
    rw [hpq, ih (fun kv h => hp kv (by simp [h])) (fun kv h => hq kv (by simp [h]))]

example : ∃ a b : Prior, a.kind = 4 ∧ a.equal b = true ∧ (∀ x ∈ a.args, HasDigits 6 x) ∧ ∀ x ∈ b.args,
  HasDigits 6 x := by
  have h : ∀ x ∈ (Prior.uniform (.fin 0) (.fin 10)).args, HasDigits 6 x := by
    intro x hx
    simp only [Prior.args, List.mem_cons, List.not_mem_nil, or_false] at hx
    rcases hx with rfl | rfl
    · exact ⟨0, 0, by norm_num, by simp⟩
    · exact ⟨10, 0, by norm_num, by rw [abs_of_nonneg (by norm_num)]; norm_num⟩
  exact ⟨_, _, rfl, C102_reflexive (.uniform (.fin 0) (.fin 10)) (by simp [Prior.args]), h, h⟩

end Albatross
