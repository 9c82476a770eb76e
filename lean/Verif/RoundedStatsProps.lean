import Verif.RoundedStats
import Verif.RoundedErrorsProps

/-! # Metrics (C136) and predicted variances (C137) in doubles -/

namespace Albatross

open Finset

/-! ## Sums in any order -/

theorem SumTree.leaves_ne_nil (t : SumTree) : t.leaves ≠ [] := by
  induction t with
  | leaf x => simp [SumTree.leaves]
  | node a b iha _ => simp [SumTree.leaves, iha]

theorem SumTree.close (r : Rounding) (t : SumTree) :
    Close t.leaves.length (t.leaves.map (|·|)).sum (t.eval r) t.leaves.sum := by
  induction t with
  | leaf x =>
    have h := (Close.refl x).mono (Nat.zero_le 1) le_rfl
    simpa [SumTree.leaves, SumTree.eval] using h
  | node a b iha ihb =>
    have ha := List.length_pos_iff.2 a.leaves_ne_nil
    have hb := List.length_pos_iff.2 b.leaves_ne_nil
    have h := ((iha.mono (le_max_left _ b.leaves.length) le_rfl).add (ihb.mono (le_max_right a.leaves.length _) le_rfl)).fl r
    simp only [SumTree.leaves, List.length_append, List.map_append, List.sum_append, SumTree.eval]
    exact h.mono (by omega) le_rfl

theorem Summation.close {r : Rounding} (s : Summation r) (l : List ℝ) :
    Close l.length (l.map (|·|)).sum (s.sum l) l.sum := by
  by_cases hl : l = []
  · subst hl
    rw [s.empty]
    exact ⟨by simp, by simp⟩
  · obtain ⟨t, ht, hs⟩ := s.order l hl
    rw [hs, ← ht.length_eq, ← ht.sum_eq, ← (ht.map _).sum_eq]
    exact t.close r

theorem sum_finRange {n : Nat} (f : Fin n → ℝ) : ((List.finRange n).map f).sum = ∑ i, f i := by
  rw [Fin.sum_univ_def]

/-- Sums of terms that have errors already. -/
theorem Summation.close_terms {r : Rounding} (s : Summation r) {n N : Nat} {S y x : Fin n → ℝ}
    (h : ∀ i, Close N (S i) (y i) (x i)) : Close (N + n) (∑ i, S i) (s.sum ((List.finRange n).map y)) (∑ i, x i) := by
  have h1 := s.close ((List.finRange n).map y)
  rw [List.length_map, List.length_finRange, List.map_map, sum_finRange, sum_finRange] at h1
  have hS : ∑ i, |y i| ≤ (1 + 2⁻¹ ^ 53) ^ N * ∑ i, S i := by
    rw [mul_sum]
    exact sum_le_sum fun i _ => (h i).abs_le
  refine ⟨(abs_sum_le_sum_abs _ _).trans (sum_le_sum fun i _ => (h i).1), ?_⟩
  have h2 : |∑ i, y i - ∑ i, x i| ≤ ((1 + 2⁻¹ ^ 53) ^ N - 1) * ∑ i, S i := by
    rw [← sum_sub_distrib, mul_sum]
    exact (abs_sum_le_sum_abs _ _).trans (sum_le_sum fun i _ => (h i).2)
  have h3 := mul_le_mul_of_nonneg_left hS (Close.growth_nonneg n)
  have h4 : |s.sum ((List.finRange n).map y) - ∑ i, y i| ≤ ((1 + 2⁻¹ ^ 53) ^ n - 1) * ∑ i, |y i| := h1.2
  have h5 := abs_add_le (s.sum ((List.finRange n).map y) - ∑ i, y i) (∑ i, y i - ∑ i, x i)
  rw [sub_add_sub_cancel] at h5
  rw [pow_add]
  linarith

/-- Terms added in the order of a loop. -/
theorem Close.loop (r : Rounding) {ι : Type} {K : Nat} {S y x : ι → ℝ} (h : ∀ i, Close K (S i) (y i) (x i)) (l : List ι) :
    ∀ {N : Nat} {T a b : ℝ}, K ≤ N → Close N T a b →
    Close (N + l.length) (T + (l.map S).sum) (l.foldl (fun o i => r.fl (o + y i)) a) (b + (l.map x).sum) := by
  induction l with
  | nil => intro N T a b _ h'; simpa using h'
  | cons i l ih =>
    intro N T a b hN h'
    have h1 := ih (Nat.le_succ_of_le hN) ((h'.add ((h i).mono hN le_rfl)).fl r)
    simp only [List.length_cons, List.map_cons, List.sum_cons, List.foldl_cons]
    rw [show N + (l.length + 1) = N + 1 + l.length by omega, ← add_assoc T, ← add_assoc b]
    exact h1

theorem Close.sqrt {N : Nat} {x y : ℝ} (h : Close N x y x) : Close N (Real.sqrt x) (Real.sqrt y) (Real.sqrt x) := by
  have hx := h.scale_nonneg
  refine ⟨by rw [abs_of_nonneg (Real.sqrt_nonneg x)], ?_⟩
  rcases hx.eq_or_lt with h0 | h0
  · have := h.2
    rw [← h0, mul_zero, sub_zero] at this
    have hy := abs_eq_zero.1 (le_antisymm this (abs_nonneg _))
    rw [hy, ← h0]
    simp
  have hs := Real.sqrt_pos.2 h0
  have key : |Real.sqrt y - Real.sqrt x| * Real.sqrt x ≤ |y - x| := by
    rcases le_or_gt 0 y with hy | hy
    · have e : y - x = (Real.sqrt y - Real.sqrt x) * (Real.sqrt y + Real.sqrt x) := by
        nlinarith [Real.mul_self_sqrt hy, Real.mul_self_sqrt hx]
      rw [e, abs_mul, abs_of_nonneg (add_nonneg (Real.sqrt_nonneg y) hs.le)]
      exact mul_le_mul_of_nonneg_left (by linarith [Real.sqrt_nonneg y]) (abs_nonneg _)
    · rw [Real.sqrt_eq_zero_of_nonpos hy.le, zero_sub, abs_neg, abs_of_pos hs, Real.mul_self_sqrt hx,
        abs_of_neg (by linarith)]
      linarith
  have := key.trans h.2
  rw [← Real.mul_self_sqrt hx, ← mul_assoc] at this
  simp only [Real.mul_self_sqrt hx] at this
  exact le_of_mul_le_mul_right this hs

theorem Summation.single {r : Rounding} (s : Summation r) (x : ℝ) : s.sum [x] = x := by
  obtain ⟨t, ht, hs⟩ := s.order [x] (by simp)
  rw [hs]
  cases t with
  | leaf y => simpa [SumTree.leaves, SumTree.eval] using ht
  | node a b =>
    have ha := List.length_pos_iff.2 a.leaves_ne_nil
    have hb := List.length_pos_iff.2 b.leaves_ne_nil
    have hl := ht.length_eq
    simp only [SumTree.leaves, List.length_append, List.length_singleton] at hl
    omega

/-! ## C136: metrics -/

section

variable (r : Rounding) {lib : MathFunctions} (s : Summation r)

theorem fl_nat {n : Nat} (hn : n ≤ 2 ^ 53) : r.fl n = n := r.of_double (isDouble_nat n hn)

/-- C136: the root mean square error of doubles is the exact one up to `n + 5` roundings of itself, in whatever order Eigen
adds, however near the predictions are to the truth. -/
theorem C136_rmse {n : Nat} (hn0 : 0 < n) (hn : n ≤ 2 ^ 53) (p t : Fin n → ℝ) :
    |r.rmse s p t - Real.sqrt ((∑ i, (p i - t i) ^ 2) / n)| ≤
      ((1 + 2⁻¹ ^ 53) ^ (n + 5) - 1) * Real.sqrt ((∑ i, (p i - t i) ^ 2) / n) := by
  have hnpos : (0 : ℝ) < n := by exact_mod_cast hn0
  have hterm : ∀ i, Close 3 ((p i - t i) ^ 2) (r.fl (r.fl (p i - t i) * r.fl (p i - t i))) ((p i - t i) ^ 2) := by
    intro i
    have h := ((Close.refl (p i - t i)).fl r)
    have h2 := (h.mul h).fl r
    rw [abs_mul_abs_self, ← sq] at h2
    exact h2
  have h := ((((s.close_terms hterm).div hnpos).fl r).sqrt).fl r
  rw [Rounding.rmse]
  simp only [fl_nat r hn]
  exact (h.mono (by omega) le_rfl).2

/-- The two pass formula with another centre. -/
theorem squares_about {n : Nat} (hn0 : 0 < n) (x : Fin n → ℝ) (m : ℝ) :
    ∑ i, (x i - m) ^ 2 = ∑ i, (x i - (∑ j, x j) / n) ^ 2 + n * (m - (∑ j, x j) / n) ^ 2 := by
  have hnpos : (n : ℝ) ≠ 0 := by exact_mod_cast hn0.ne'
  set μ := (∑ j, x j) / n with hμ
  have hsum : ∑ j, x j = n * μ := by rw [hμ]; field_simp
  have e : ∀ i, (x i - m) ^ 2 = (x i - μ) ^ 2 + 2 * (μ - m) * (x i - μ) + (m - μ) ^ 2 := fun i => by ring
  simp only [e, sum_add_distrib, ← mul_sum, sum_sub_distrib, hsum, sum_const, card_univ, Fintype.card_fin, nsmul_eq_mul]
  ring

/-- The second pass: the standard deviation about the computed mean. -/
theorem standardDeviation_about (hlib : lib.Accurate) {n : Nat} (hn2 : 2 ≤ n) (hn : n ≤ 2 ^ 53) (x : Fin n → ℝ) {m' : ℝ}
    (hm' : m' = r.fl (s.sum ((List.finRange n).map x) / n)) :
    Close (n + 6) (Real.sqrt ((∑ i, (x i - m') ^ 2) / (n - 1))) (r.standardDeviation lib s x)
      (Real.sqrt ((∑ i, (x i - m') ^ 2) / (n - 1))) ∧ 0 ≤ r.standardDeviation lib s x := by
  have hn2' : (2 : ℝ) ≤ n := by exact_mod_cast hn2
  have hn1 : (0 : ℝ) < (n : ℝ) - 1 := by linarith
  have hfl1 : r.fl ((n : ℝ) - 1) = n - 1 := by
    have := fl_nat r (n := n - 1) (by omega)
    rwa [Nat.cast_sub (by omega), Nat.cast_one] at this
  have hterm : ∀ i, Close 5 ((x i - m') ^ 2 / (n - 1)) (r.fl (lib.pow (r.fl (x i - m')) 2 / (n - 1))) ((x i - m') ^ 2 / (n - 1)) := by
    intro i
    have h := (Close.refl (x i - m')).fl r
    have h2 := h.mul h
    rw [abs_mul_abs_self, ← sq, ← sq] at h2
    have h3 := h2.trans (z := lib.pow (r.fl (x i - m')) 2) (M := 2) (by
      have := hlib.pow (r.fl (x i - m')) 2
      norm_num only [Nat.cast_ofNat] at this ⊢
      exact this.trans (mul_le_mul_of_nonneg_right (by norm_num) (abs_nonneg _)))
    exact (h3.div hn1).fl r
  have hout := Close.loop r hterm (List.finRange n) le_rfl (⟨by simp, by simp⟩ : Close 5 0 0 0)
  rw [zero_add, List.length_finRange, sum_finRange, ← sum_div] at hout
  have hstd := hout.sqrt.fl r
  have hval : r.standardDeviation lib s x = r.fl (Real.sqrt ((List.finRange n).foldl
      (fun output i => r.fl (output + r.fl (lib.pow (r.fl (x i - m')) 2 / (n - 1)))) 0)) := by
    rw [Rounding.standardDeviation]
    simp only [fl_nat r hn, hfl1, hm']
  rw [← hval] at hstd
  refine ⟨hstd.mono (by omega) le_rfl, ?_⟩
  rw [hval]
  have := r.mono (Real.sqrt_nonneg ((List.finRange n).foldl
    (fun output i => r.fl (output + r.fl (lib.pow (r.fl (x i - m')) 2 / (n - 1)))) 0))
  rwa [r.of_double isDouble_zero] at this

/-- C136, partial: the standard deviation of `n` doubles is at least the exact one and at most the exact one plus 3/2 times
the error of the mean, up to `n + 6` roundings. Missing: an error that is small relative to the standard deviation, which is
false (`C136_constant_false`). -/
theorem C136_standard_deviation_partial (hlib : lib.Accurate) {n : Nat} (hn2 : 2 ≤ n) (hn : n ≤ 2 ^ 53) (x : Fin n → ℝ) :
    let mean := (∑ i, x i) / n
    let exact := Real.sqrt ((∑ i, (x i - mean) ^ 2) / (n - 1))
    let η := (1 + 2⁻¹ ^ 53 : ℝ) ^ (n + 6) - 1
    (1 - η) * exact ≤ r.standardDeviation lib s x ∧
    r.standardDeviation lib s x ≤ (1 + η) * (exact + 3 / 2 * (((1 + 2⁻¹ ^ 53) ^ (n + 1) - 1) * ((∑ i, |x i|) / n))) := by
  intro mean exact η
  have hn0 : 0 < n := by omega
  have hnpos : (0 : ℝ) < n := by exact_mod_cast hn0
  have hn2' : (2 : ℝ) ≤ n := by exact_mod_cast hn2
  have hn1 : (0 : ℝ) < (n : ℝ) - 1 := by linarith
  set m' := r.fl (s.sum ((List.finRange n).map x) / n) with hm'
  have hmean : Close (n + 1) ((∑ i, |x i|) / n) m' mean := by
    have := (((s.close_terms fun i => Close.refl (x i)).div hnpos).fl r)
    exact this.mono (by omega) le_rfl
  obtain ⟨hstd, hstd0⟩ := standardDeviation_about r s hlib hn2 hn x hm'
  set V := (∑ i, (x i - m') ^ 2) / (n - 1) with hV
  have hη : |r.standardDeviation lib s x - Real.sqrt V| ≤ η * Real.sqrt V := hstd.2
  have hη0 : 0 ≤ η := Close.growth_nonneg (n + 6)
  have hVe : V = (∑ i, (x i - mean) ^ 2) / (n - 1) + n / (n - 1) * (m' - mean) ^ 2 := by
    rw [hV, squares_about hn0 x m']
    ring
  have hge : exact ≤ Real.sqrt V := by
    refine Real.sqrt_le_sqrt ?_
    rw [hVe]
    have : 0 ≤ (n : ℝ) / (n - 1) * (m' - mean) ^ 2 := by positivity
    linarith
  have hle : Real.sqrt V ≤ exact + 3 / 2 * |m' - mean| := by
    have he0 : 0 ≤ exact := Real.sqrt_nonneg _
    refine Real.sqrt_le_iff.2 ⟨by positivity, ?_⟩
    have he2 : exact ^ 2 = (∑ i, (x i - mean) ^ 2) / (n - 1) := Real.sq_sqrt (by
      have : 0 ≤ ∑ i, (x i - mean) ^ 2 := sum_nonneg fun i _ => sq_nonneg _
      positivity)
    have hq : (n : ℝ) / (n - 1) ≤ 9 / 4 := by rw [div_le_iff₀ hn1]; linarith
    have h1 := mul_le_mul_of_nonneg_right hq (sq_nonneg (m' - mean))
    have h2 : 0 ≤ exact * |m' - mean| := by positivity
    rw [hVe, ← he2]
    nlinarith [sq_abs (m' - mean)]
  obtain ⟨h1, h2⟩ := abs_le.1 hη
  refine ⟨?_, ?_⟩
  · rcases le_or_gt η 1 with h | h
    · have := mul_le_mul_of_nonneg_left hge (sub_nonneg.2 h)
      linarith
    · have h4 : (1 - η) * exact ≤ 0 := mul_nonpos_of_nonpos_of_nonneg (by linarith) (Real.sqrt_nonneg _)
      linarith
  · have h3 : r.standardDeviation lib s x ≤ (1 + η) * Real.sqrt V := by linarith
    refine h3.trans (mul_le_mul_of_nonneg_left (hle.trans ?_) (by linarith))
    have := hmean.2
    linarith

/-- Three equal numbers are added in the same way in every order. -/
theorem SumTree.three (t : SumTree) {v : ℝ} (h : t.leaves.Perm [v, v, v]) : t.eval r = r.fl (r.fl (v + v) + v) := by
  have hl : t.leaves.length = 3 := h.length_eq
  have hv : ∀ y ∈ t.leaves, y = v := fun y hy => by simpa using h.subset hy
  have one : ∀ t : SumTree, (∀ y ∈ t.leaves, y = v) → t.leaves.length = 1 → t = .leaf v := by
    intro t hv hl
    cases t with
    | leaf x => rw [hv x (by simp [SumTree.leaves])]
    | node a b =>
      have ha := List.length_pos_iff.2 a.leaves_ne_nil
      have hb := List.length_pos_iff.2 b.leaves_ne_nil
      simp only [SumTree.leaves, List.length_append] at hl
      omega
  have two : ∀ t : SumTree, (∀ y ∈ t.leaves, y = v) → t.leaves.length = 2 → t = .node (.leaf v) (.leaf v) := by
    intro t hv hl
    cases t with
    | leaf x => simp [SumTree.leaves] at hl
    | node a b =>
      have ha := List.length_pos_iff.2 a.leaves_ne_nil
      have hb := List.length_pos_iff.2 b.leaves_ne_nil
      simp only [SumTree.leaves, List.length_append] at hl
      rw [one a (fun y hy => hv y (by simp [SumTree.leaves, hy])) (by omega),
        one b (fun y hy => hv y (by simp [SumTree.leaves, hy])) (by omega)]
  cases t with
  | leaf x => simp [SumTree.leaves] at hl
  | node a b =>
    have ha := List.length_pos_iff.2 a.leaves_ne_nil
    have hb := List.length_pos_iff.2 b.leaves_ne_nil
    simp only [SumTree.leaves, List.length_append] at hl
    have hva : ∀ y ∈ a.leaves, y = v := fun y hy => hv y (by simp [SumTree.leaves, hy])
    have hvb : ∀ y ∈ b.leaves, y = v := fun y hy => hv y (by simp [SumTree.leaves, hy])
    by_cases h1 : a.leaves.length = 1
    · rw [one a hva h1, two b hvb (by omega)]
      simp only [SumTree.eval]
      rw [add_comm]
    · rw [two a hva (by omega), one b hvb (by omega)]
      rfl

/-- C136 is false of equal numbers: the standard deviation of three times the double next to 0.1 is not zero. Its triple is
between two doubles, and a third of neither of them is the number. -/
theorem C136_constant_false (hlib : lib.Accurate) : ∃ v : ℝ, IsDouble v ∧ |v - 1 / 10| ≤ 2⁻¹ ^ 56 ∧
    0 < r.standardDeviation lib s (fun _ : Fin 3 => v) := by
  obtain ⟨v, hv⟩ : ∃ v : ℝ, v = 7205759403792794 * 2 ^ (-56 : ℤ) := ⟨_, rfl⟩
  have hd : IsDouble v := ⟨7205759403792794, -56, by norm_num, by rw [hv]; norm_num⟩
  refine ⟨v, hd, by rw [hv, abs_le]; norm_num, ?_⟩
  have h2v : r.fl (v + v) = v + v := r.of_double ⟨7205759403792794, -55, by norm_num, by rw [hv]; norm_num⟩
  have hsum : s.sum ((List.finRange 3).map fun _ => v) = r.fl (v + v + v) := by
    obtain ⟨t, ht, hs⟩ := s.order ((List.finRange 3).map fun _ => v) (by simp)
    rw [hs, t.three r ht, h2v]
  -- the sum is one of the two doubles around it
  have hcases : r.fl (v + v + v) = 5404319552844595 * 2 ^ (-54 : ℤ) ∨ r.fl (v + v + v) = 5404319552844596 * 2 ^ (-54 : ℤ) := by
    have hlo : IsDouble (5404319552844595 * 2 ^ (-54 : ℤ) : ℝ) := ⟨5404319552844595, -54, by norm_num, by norm_num⟩
    have hn := abs_le.1 (r.nearest (v + v + v) _ hlo)
    have hv3 : v + v + v = (5404319552844595 + 1 / 2) * 2 ^ (-54 : ℤ) := by rw [hv]; norm_num
    have hab : |v + v + v - 5404319552844595 * 2 ^ (-54 : ℤ)| = 1 / 2 * 2 ^ (-54 : ℤ) := by rw [hv3]; norm_num
    have hn' := r.nearest (v + v + v) _ hlo
    rw [hab] at hn'
    obtain ⟨ha, hb⟩ := abs_le.1 hn'
    obtain ⟨z, hz⟩ := (r.isDouble (v + v + v)).multiple (e := -2) (by
      have h4 : IsDouble (2 ^ (-2 : ℤ) : ℝ) := ⟨1, -2, by norm_num, by simp⟩
      have := r.mono (x := 2 ^ (-2 : ℤ)) (y := v + v + v) (by rw [hv]; norm_num)
      rw [r.of_double h4] at this
      exact this.trans (le_abs_self _))
    rw [hz] at ha hb ⊢
    rw [hv3] at ha hb
    norm_num at ha hb
    have e1 : (z : ℝ) < 5404319552844597 := by linarith
    have e2 : (5404319552844594 : ℝ) < z := by linarith
    have e1' : z < 5404319552844597 := by exact_mod_cast e1
    have e2' : 5404319552844594 < z := by exact_mod_cast e2
    have : z = 5404319552844595 ∨ z = 5404319552844596 := by omega
    rcases this with h | h <;> rw [h]
    · left; norm_num
    · right; norm_num
  have h3 : r.fl ((3 : ℕ) : ℝ) = 3 := by simpa using fl_nat r (n := 3) (by norm_num)
  have hmean : r.fl (r.fl (v + v + v) / 3) ≠ v := by
    rcases hcases with h | h <;> rw [h]
    · rw [r.eq_of_close (-4) 7205759403792793 (by norm_num) (by norm_num) (by norm_num [abs_lt]), hv]
      norm_num
    · rw [r.eq_of_close (-4) 7205759403792795 (by norm_num) (by norm_num) (by norm_num [abs_lt]), hv]
      norm_num
  obtain ⟨hstd, -⟩ := standardDeviation_about r s hlib (n := 3) (by norm_num) (by norm_num) (fun _ => v) rfl
  rw [hsum] at hstd
  norm_num only [Nat.cast_ofNat] at hstd
  set V := (∑ _i : Fin 3, (v - r.fl (r.fl (v + v + v) / 3)) ^ 2) / 2 with hV
  have hVpos : 0 < Real.sqrt V := by
    rw [Real.sqrt_pos, hV]
    have := sq_pos_of_ne_zero (sub_ne_zero.2 hmean.symm)
    simp only [sum_const, card_univ, Fintype.card_fin, nsmul_eq_mul]
    positivity
  have h := (abs_le.1 hstd.2).1
  have : ((1 + 2⁻¹ ^ 53 : ℝ) ^ 9 - 1) * Real.sqrt V < 1 * Real.sqrt V := mul_lt_mul_of_pos_right (by norm_num) hVpos
  norm_num at h this
  linarith

/-! ## C137: predicted variances -/

/-- C137: the variance predicted with any computed solution is the exact one up to the errors of the solution and `n + 2`
roundings, relative to the prior variance and the explained terms. -/
theorem C137_marginal {n M : Nat} (prior : ℝ) {explained weights S : Fin n → ℝ} (crossCov : Fin n → ℝ)
    (h : ∀ i, Close M (S i) (explained i) (weights i)) :
    |r.marginalVariance s prior explained crossCov - (prior - ∑ i, weights i * crossCov i)| ≤
      ((1 + 2⁻¹ ^ 53) ^ (M + n + 2) - 1) * (|prior| + ∑ i, S i * |crossCov i|) := by
  have ht := s.close_terms fun i => ((h i).mul (Close.refl (crossCov i))).fl r
  have hneg : Close (M + 0 + 1 + n) (∑ i, S i * |crossCov i|)
      (-s.sum ((List.finRange n).map fun i => r.fl (explained i * crossCov i))) (-∑ i, weights i * crossCov i) := by
    refine ⟨by rw [abs_neg]; exact ht.1, ?_⟩
    rw [sub_neg_eq_add, neg_add_eq_sub, abs_sub_comm]
    exact ht.2
  have hv := (((Close.refl prior).mono (Nat.zero_le _) le_rfl).add hneg).fl r
  rw [← sub_eq_add_neg, ← sub_eq_add_neg] at hv
  exact (hv.mono (by omega) le_rfl).2

theorem Close.reciprocal {D : ℝ} (hD : 0 < D) : Close 2 (1 / D) (1 / r.fl D) (1 / D) := by
  refine ⟨by rw [abs_of_pos (by positivity)], ?_⟩
  have he := r.error D
  rw [abs_of_pos hD] at he
  obtain ⟨h1, h2⟩ := _root_.abs_le.1 he
  have hD' : (1 - 2⁻¹ ^ 53) * D ≤ r.fl D := by linarith
  have hpos : 0 < r.fl D := lt_of_lt_of_le (by have : (0 : ℝ) < 1 - 2⁻¹ ^ 53 := by norm_num
                                               positivity) hD'
  rw [div_sub_div _ _ hpos.ne' hD.ne', abs_div, abs_of_pos (mul_pos hpos hD), div_le_iff₀ (mul_pos hpos hD)]
  have e : ((1 + 2⁻¹ ^ 53 : ℝ) ^ 2 - 1) * (1 / D) * (r.fl D * D) = ((1 + 2⁻¹ ^ 53) ^ 2 - 1) * r.fl D := by field_simp
  rw [e, one_mul, mul_one, abs_sub_comm]
  have h3 := mul_le_mul_of_nonneg_left hD' (show (0 : ℝ) ≤ (1 + 2⁻¹ ^ 53) ^ 2 - 1 by norm_num)
  refine he.trans (le_trans ?_ h3)
  rw [← mul_assoc]
  exact mul_le_mul_of_nonneg_right (by norm_num) hD.le

/-- C137, partial: the variance predicted from one observation is the exact one up to thirteen units of rounding of the
prior variance, so it is not more negative than that. Missing: it is not negative, which is false (`C137_negative_false`). -/
theorem C137_one_partial {cov noise crossCov prior : ℝ} (hcov : 0 < cov) (hnoise : 0 ≤ noise)
    (hc : crossCov * crossCov ≤ cov * prior) :
    |r.marginalFromOne s cov noise crossCov prior - (prior - crossCov * crossCov / (cov + noise))| ≤
      13 * 2⁻¹ ^ 53 * prior ∧ -(13 * 2⁻¹ ^ 53 * prior) ≤ r.marginalFromOne s cov noise crossCov prior := by
  have hD : 0 < cov + noise := by linarith
  have hp : 0 ≤ prior := by
    by_contra hp
    push Not at hp
    have := mul_neg_of_pos_of_neg hcov hp
    linarith [mul_self_nonneg crossCov]
  have hex : crossCov * crossCov / (cov + noise) ≤ prior := by
    rw [div_le_iff₀ hD]
    nlinarith
  have hsol : Close 3 (|crossCov| * (1 / (cov + noise))) (r.solveSingle (r.trainVariance cov noise) crossCov)
      (crossCov * (1 / (cov + noise))) := by
    have h := ((Close.refl crossCov).mul (Close.reciprocal r hD)).fl r
    rw [Rounding.solveSingle, Rounding.trainVariance, div_eq_mul_one_div crossCov]
    exact h
  have h := C137_marginal r s prior (fun _ : Fin 1 => crossCov) fun _ => hsol
  rw [← Rounding.marginalFromOne] at h
  simp only [univ_unique, sum_singleton] at h
  have e1 : crossCov * (1 / (cov + noise)) * crossCov = crossCov * crossCov / (cov + noise) := by ring
  have e2 : |crossCov| * (1 / (cov + noise)) * |crossCov| = crossCov * crossCov / (cov + noise) := by
    rw [← abs_mul_abs_self crossCov]; ring
  rw [e1, e2, abs_of_nonneg hp] at h
  have hb : |r.marginalFromOne s cov noise crossCov prior - (prior - crossCov * crossCov / (cov + noise))| ≤
      13 * 2⁻¹ ^ 53 * prior := by
    refine h.trans ?_
    have h1 : ((1 + 2⁻¹ ^ 53 : ℝ) ^ (3 + 1 + 2) - 1) * (prior + crossCov * crossCov / (cov + noise)) ≤
        ((1 + 2⁻¹ ^ 53) ^ (3 + 1 + 2) - 1) * (2 * prior) :=
      mul_le_mul_of_nonneg_left (by linarith) (Close.growth_nonneg _)
    refine h1.trans ?_
    rw [← mul_assoc]
    exact mul_le_mul_of_nonneg_right (by norm_num) hp
  exact ⟨hb, by linarith [(abs_le.1 hb).1]⟩

theorem marginalFromOne_eq (cov noise crossCov prior : ℝ) : r.marginalFromOne s cov noise crossCov prior =
    r.fl (prior - r.fl (r.fl (crossCov / r.fl (cov + noise)) * crossCov)) := by
  rw [Rounding.marginalFromOne, Rounding.marginalVariance]
  simp only [List.finRange_succ, List.finRange_zero, List.map_nil, List.map_cons, s.single, Rounding.solveSingle,
    Rounding.trainVariance]

/-- C137: at the observed feature itself the variance is not negative. -/
theorem C137_observed {cov noise : ℝ} (hd : IsDouble cov) (hcov : 0 < cov) (hnoise : 0 ≤ noise) :
    0 ≤ r.marginalFromOne s cov noise cov cov := by
  have hD : cov ≤ r.fl (cov + noise) := by
    have := r.mono (show cov ≤ cov + noise by linarith)
    rwa [r.of_double hd] at this
  have hq : r.fl (cov / r.fl (cov + noise)) ≤ 1 := by
    have := r.mono (show cov / r.fl (cov + noise) ≤ 1 by rw [div_le_one (by linarith)]; exact hD)
    rwa [r.of_double isDouble_one] at this
  have hp : r.fl (r.fl (cov / r.fl (cov + noise)) * cov) ≤ cov := by
    have := r.mono (show r.fl (cov / r.fl (cov + noise)) * cov ≤ cov by nlinarith)
    rwa [r.of_double hd] at this
  rw [marginalFromOne_eq]
  have := r.mono (sub_nonneg.2 hp)
  rwa [r.of_double isDouble_zero] at this

/-- C137 is false: with the linear covariance function, one observation of the feature 5 and any noise variance below
`2⁻⁴⁹` the variance predicted for the feature 11 is negative, although it is positive in exact arithmetic when there is
noise. -/
theorem C137_negative_false (h0 : ∀ x, lib.pow x 0 = 1) (h1 : ∀ x, lib.pow x 1 = x) {noise : ℝ} (hn : 0 ≤ noise)
    (hn' : noise < 2⁻¹ ^ 49) :
    let cov := (DoubleCov.polynomial [0, 1]).call r lib
    r.marginalFromOne s (cov 5 5) noise (cov 5 11) (cov 11 11) < 0 ∧
    (0 < noise → 0 < (11 * 11 : ℝ) - (5 * 11) * (5 * 11) / (5 * 5 + noise)) := by
  intro cov
  have hval : ∀ x y : ℕ, x * y ≤ 2 ^ 53 → x ≤ 2 ^ 53 → cov x y = (x * y : ℕ) := by
    intro x y h hx
    have hxd : r.fl (x : ℝ) = x := fl_nat r hx
    have hxy : r.fl ((x : ℝ) * y) = x * y := by rw [← Nat.cast_mul]; exact fl_nat r h
    simp only [cov, DoubleCov.call, Rounding.polynomialCall, List.zipIdx_cons, List.zipIdx_nil, List.foldl_cons, List.foldl_nil]
    norm_num [h0, h1, r.of_double isDouble_zero, r.of_double isDouble_one, hxd, hxy]
  have e1 : cov 5 5 = 25 := by simpa using hval 5 5 (by norm_num) (by norm_num)
  have e2 : cov 5 11 = 55 := by simpa using hval 5 11 (by norm_num) (by norm_num)
  have e3 : cov 11 11 = 121 := by simpa using hval 11 11 (by norm_num) (by norm_num)
  have h25 : r.fl (25 + noise) = 25 := by
    refine r.absorbs (by simpa using isDouble_nat 25 (by norm_num)) (e := 4) (by norm_num) hn (hn'.trans_eq ?_)
    norm_num
  refine ⟨?_, fun h => ?_⟩
  · rw [e1, e2, e3, marginalFromOne_eq, h25]
    rw [r.eq_of_close (x := 55 / 25) 1 4953959590107546 (by norm_num) (by norm_num) (by norm_num [abs_lt])]
    rw [r.eq_of_close (x := _ * 55) 6 8514618045497345 (by norm_num) (by norm_num) (by norm_num [abs_lt])]
    rw [r.of_double (⟨-1, -46, by norm_num, by norm_num⟩)]
    norm_num
  · rw [sub_pos, div_lt_iff₀ (by linarith)]
    linarith

end

/-- There is an order of adding: from the right. -/
theorem exists_summation (r : Rounding) : Nonempty (Summation r) := by
  have h : ∀ l : List ℝ, l ≠ [] → ∃ t : SumTree, t.leaves.Perm l := by
    intro l
    induction l with
    | nil => intro h; exact absurd rfl h
    | cons x l ih =>
      intro _
      by_cases hl : l = []
      · exact ⟨.leaf x, by simp [SumTree.leaves, hl]⟩
      · obtain ⟨t, ht⟩ := ih hl
        exact ⟨.node (.leaf x) t, by simpa [SumTree.leaves] using ht⟩
  classical
  refine ⟨⟨fun l => if hl : l = [] then 0 else (h l hl).choose.eval r, by simp, fun l hl => ?_⟩⟩
  exact ⟨(h l hl).choose, (h l hl).choose_spec, by simp [hl]⟩

/-- Roundings, orders of adding and libraries as the theorems want them exist; a million predictions are few enough, and a
noise of `10⁻¹⁶` is small enough for `C137_negative_false`. -/
example : ∃ r : Rounding, Nonempty (Summation r) ∧ (10 ^ 6 : ℕ) ≤ 2 ^ 53 ∧ ((0 : ℝ) < 10⁻¹ ^ 16 ∧ (10⁻¹ ^ 16 : ℝ) < 2⁻¹ ^ 49) ∧
    (55 * 55 : ℝ) ≤ 25 * 121 ∧ (∀ x : ℝ, (⟨Real.exp, fun x y => x ^ y, Real.sqrt⟩ : MathFunctions).pow x 0 = 1) ∧
    ∀ x : ℝ, (⟨Real.exp, fun x y => x ^ y, Real.sqrt⟩ : MathFunctions).pow x 1 = x := by
  obtain ⟨r⟩ := exists_rounding
  exact ⟨r, exists_summation r, by norm_num, by norm_num, by norm_num, fun x => by simp, fun x => by simp⟩

end Albatross
