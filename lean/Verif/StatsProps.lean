import Verif.Stats
import Verif.IndexingLemmas
import Mathlib.Analysis.SpecialFunctions.Integrals.Basic
import Mathlib.Algebra.Polynomial.Eval.Degree
import Mathlib.Tactic.Linarith
import Mathlib.Tactic.Positivity
import Mathlib.Tactic.FieldSimp
import Mathlib.Tactic.Ring
import Mathlib.Tactic.NormNum

/-! # C49, C50, C79: the Kolmogorov-Smirnov statistic, the chi squared CDF, Gauss-Legendre tables -/

namespace Albatross

/-! ## C49 -/

/-- The empirical distribution function: the fraction of samples that are at most `x`. -/
noncomputable def ecdf (samples : List ℝ) (x : ℝ) : ℝ :=
  (samples.countP fun s => decide (s ≤ x)) / samples.length

/-- A running maximum is an upper bound, and is the start value or one of the elements. -/
theorem foldl_max_spec {α : Type} (g : α → ℝ) (l : List α) (m : ℝ) :
    let r := l.foldl (fun largest x => if largest < g x then g x else largest) m
    m ≤ r ∧ (∀ x ∈ l, g x ≤ r) ∧ (r = m ∨ ∃ x ∈ l, r = g x) := by
  induction l generalizing m with
  | nil => simp
  | cons a t ih =>
    simp only [List.foldl_cons]
    obtain ⟨h1, h2, h3⟩ := ih (if m < g a then g a else m)
    have hm : m ≤ (if m < g a then g a else m) ∧ g a ≤ (if m < g a then g a else m) := by
      split_ifs with h
      · exact ⟨h.le, le_rfl⟩
      · exact ⟨le_rfl, not_lt.1 h⟩
    refine ⟨hm.1.trans h1, ?_, ?_⟩
    · intro x hx
      rcases List.mem_cons.1 hx with rfl | hx
      · exact hm.2.trans h1
      · exact h2 x hx
    · rcases h3 with h3 | ⟨x, hx, h3⟩
      · split_ifs at h3 with h
        · exact .inr ⟨a, by simp, by simpa [h] using h3⟩
        · exact .inl (by simpa [h] using h3)
      · exact .inr ⟨x, by simp [hx], h3⟩

/-- In a sorted list the elements at most `x` come first. -/
theorem countP_sorted {t : List ℝ} (ht : t.Pairwise (· ≤ ·)) (x : ℝ) (i : Nat) (hi : i < t.length) :
    i < t.countP (fun s => decide (s ≤ x)) ↔ t[i] ≤ x := by
  induction t generalizing i with
  | nil => simp at hi
  | cons a t ih =>
    rw [List.pairwise_cons] at ht
    by_cases ha : a ≤ x
    · rw [List.countP_cons_of_pos (by simpa using ha)]
      cases i with
      | zero => simp [ha]
      | succ j =>
        have := ih ht.2 j (by simpa using hi)
        simp only [List.getElem_cons_succ]
        rw [← this]; omega
    · rw [List.countP_cons_of_neg (by simpa using ha)]
      have h0 : t.countP (fun s => decide (s ≤ x)) = 0 := by
        rw [List.countP_eq_zero]
        intro s hs
        simp only [decide_eq_true_eq, not_le]
        exact lt_of_lt_of_le (not_le.1 ha) (ht.1 s hs)
      rw [h0]
      have : x < (a :: t)[i] := by
        cases i with
        | zero => exact not_le.1 ha
        | succ j => exact lt_of_lt_of_le (not_le.1 ha) (ht.1 _ (List.getElem_mem _))
      constructor
      · intro h; omega
      · intro h; exact absurd h (not_le.2 this)

/-- The sorted samples. -/
noncomputable abbrev sortedSamples (s : List ℝ) : List ℝ := s.insertionSort (· ≤ ·)

theorem sortedSamples_sorted (s : List ℝ) : (sortedSamples s).Pairwise (· ≤ ·) :=
  List.pairwise_insertionSort (· ≤ ·) s

theorem sortedSamples_perm (s : List ℝ) : (sortedSamples s).Perm s := List.perm_insertionSort _ s

theorem ecdf_sorted (s : List ℝ) (x : ℝ) : ecdf s x = ecdf (sortedSamples s) x := by
  unfold ecdf
  rw [(sortedSamples_perm s).countP_eq, (sortedSamples_perm s).length_eq]

theorem ks_spec (s : List ℝ) :
    let t := sortedSamples s
    0 ≤ uniformKsTest s ∧
    (∀ i (h : i < t.length), ((i : ℝ) + 1) / t.length - t[i] ≤ uniformKsTest s ∧
      t[i] - (i : ℝ) / t.length ≤ uniformKsTest s) ∧
    (uniformKsTest s = 0 ∨ ∃ i, ∃ h : i < t.length, uniformKsTest s =
      max (((i : ℝ) + 1) / t.length - t[i]) (t[i] - (i : ℝ) / t.length)) := by
  intro t
  obtain ⟨h1, h2, h3⟩ := foldl_max_spec
    (fun x : ℝ × Nat => max (((x.2 : ℝ) + 1) / t.length - x.1) (x.1 - (x.2 : ℝ) / t.length)) t.zipIdx 0
  refine ⟨h1, fun i hi => ?_, ?_⟩
  · have := h2 (t[i], i) (by rw [List.mem_zipIdx_iff_getElem?]; simp [hi])
    exact ⟨(le_max_left _ _).trans this, (le_max_right _ _).trans this⟩
  · rcases h3 with h3 | ⟨⟨v, i⟩, hx, h3⟩
    · exact .inl h3
    · rw [List.mem_zipIdx_iff_getElem?] at hx
      obtain ⟨hi, hv⟩ := List.getElem?_eq_some_iff.1 hx
      simp only at hi hv h3
      subst hv
      exact .inr ⟨i, hi, h3⟩

/-- C49: for samples in `[0, 1]` the statistic is the supremum over `x` in `[0, 1]` of the distance
between the empirical distribution function and the uniform one. -/
theorem C49_supremum (samples : List ℝ) (hne : samples ≠ [])
    (hin : ∀ s ∈ samples, 0 ≤ s ∧ s ≤ 1) :
    IsLUB {d | ∃ x, 0 ≤ x ∧ x ≤ 1 ∧ d = |ecdf samples x - x|} (uniformKsTest samples) := by
  obtain ⟨h0, hterm, hcase⟩ := ks_spec samples
  set t := sortedSamples samples with htdef
  have hsort := sortedSamples_sorted samples
  rw [← htdef] at hsort
  have hin' : ∀ s ∈ t, 0 ≤ s ∧ s ≤ 1 := fun s hs => hin s ((sortedSamples_perm samples).mem_iff.1 hs)
  have hlen : 0 < t.length := by
    rw [htdef, (sortedSamples_perm samples).length_eq]; exact List.length_pos_iff.2 hne
  have hn : (0 : ℝ) < t.length := by exact_mod_cast hlen
  have hF : ∀ x, ecdf samples x = (t.countP fun s => decide (s ≤ x)) / t.length := fun x =>
    ecdf_sorted samples x
  constructor
  · rintro d ⟨x, hx0, hx1, rfl⟩
    rw [hF, abs_le]
    set k := t.countP fun s => decide (s ≤ x) with hk
    have hkn : k ≤ t.length := List.countP_le_length
    constructor
    · rcases hkn.lt_or_eq with h | h
      · have h1 : x < t[k] := by
          have := (countP_sorted hsort x k h).not.1 (lt_irrefl _)
          exact not_le.1 this
        have := (hterm k h).2
        linarith
      · rw [h, div_self hn.ne']; linarith
    · cases hkc : k with
      | zero => simp; linarith
      | succ j =>
        have hj : j < t.length := by omega
        have h1 : t[j] ≤ x := (countP_sorted hsort x j hj).1 (by rw [← hk]; omega)
        have := (hterm j hj).1
        push_cast
        linarith
  · intro B hB
    have hB' : ∀ x, 0 ≤ x → x ≤ 1 → |ecdf samples x - x| ≤ B := fun x h h' => hB ⟨x, h, h', rfl⟩
    have hB0 : 0 ≤ B := (abs_nonneg _).trans (hB' 0 le_rfl zero_le_one)
    rcases hcase with h | ⟨i, hi, h⟩
    · rw [h]; exact hB0
    · rw [h]
      have hti := hin' _ (List.getElem_mem hi)
      refine max_le ?_ ?_
      · have h1 := hB' t[i] hti.1 hti.2
        have h2 : i < t.countP (fun s => decide (s ≤ t[i])) := (countP_sorted hsort _ i hi).2 le_rfl
        have h3 : ((i : ℝ) + 1) / t.length ≤ ecdf samples t[i] := by
          rw [hF]
          apply div_le_div_of_nonneg_right _ hn.le
          exact_mod_cast h2
        have := (abs_le.1 h1).2
        linarith
      · by_contra hcon
        rw [not_le] at hcon
        have hlt : max 0 (B + (i : ℝ) / t.length) < t[i] := by
          apply max_lt
          · have : 0 ≤ (i : ℝ) / t.length := by positivity
            linarith
          · linarith
        obtain ⟨x, hx1, hx2⟩ := exists_between hlt
        rw [max_lt_iff] at hx1
        have h1 := hB' x hx1.1.le (hx2.le.trans hti.2)
        have h2 : t.countP (fun s => decide (s ≤ x)) ≤ i := by
          by_contra hc
          exact absurd ((countP_sorted hsort x i hi).1 (not_le.1 hc)) (not_le.2 hx2)
        have h3 : ecdf samples x ≤ (i : ℝ) / t.length := by
          rw [hF]
          apply div_le_div_of_nonneg_right _ hn.le
          exact_mod_cast h2
        have := (abs_le.1 h1).1
        linarith

/-- C49: the statistic of samples in `[0, 1]` is in `[0, 1]`. -/
theorem C49_range (samples : List ℝ) (hin : ∀ s ∈ samples, 0 ≤ s ∧ s ≤ 1) :
    0 ≤ uniformKsTest samples ∧ uniformKsTest samples ≤ 1 := by
  obtain ⟨h0, -, hcase⟩ := ks_spec samples
  refine ⟨h0, ?_⟩
  set t := sortedSamples samples with htdef
  rcases hcase with h | ⟨i, hi, h⟩
  · rw [h]; exact zero_le_one
  · have hti := hin _ ((sortedSamples_perm samples).mem_iff.1 (List.getElem_mem hi))
    have hn : (0 : ℝ) < t.length := by exact_mod_cast (by omega : 0 < t.length)
    rw [h]
    refine max_le ?_ ?_
    · have : ((i : ℝ) + 1) / t.length ≤ 1 := by
        rw [div_le_one hn]; exact_mod_cast hi
      linarith [hti.1]
    · have : 0 ≤ (i : ℝ) / t.length := by positivity
      linarith [hti.2]

/-- C49: the order of the samples does not matter. -/
theorem C49_order (s s' : List ℝ) (h : s.Perm s') : uniformKsTest s = uniformKsTest s' := by
  have : s.insertionSort (· ≤ ·) = s'.insertionSort (· ≤ ·) :=
    List.Perm.eq_of_pairwise' (r := (· ≤ ·)) (sortedSamples_sorted s) (sortedSamples_sorted s')
      ((sortedSamples_perm s).trans (h.trans (sortedSamples_perm s').symm))
  unfold uniformKsTest
  rw [this]

/-- C49: no samples. -/
theorem C49_empty : uniformKsTest [] = 0 := rfl

example : uniformKsTest [1 / 4, 1 / 2] = 1 / 2 := by
  have : ([1 / 4, 1 / 2] : List ℝ).insertionSort (· ≤ ·) = [1 / 4, 1 / 2] := by
    apply List.Pairwise.insertionSort_eq
    simp; norm_num
  unfold uniformKsTest
  simp only [this]
  norm_num [List.zipIdx]

example : ∀ s ∈ ([1 / 2, 1 / 4] : List ℝ), 0 ≤ s ∧ s ≤ 1 := by
  intro s hs
  simp at hs
  rcases hs with rfl | rfl <;> norm_num

/-! ## C50 -/

/-- C50: the special cases of the chi squared CDF, in the order in which they are tested. -/
theorem C50_special_cases (b : Build) (x dof : Dbl) :
    (x = .nan ∨ x < .fin 0 → chiSquaredCdf b x dof = .ok .nan) ∧
    (.fin 0 ≤ x → chiSquaredCdf b x (.fin 0) = .ok (.fin 1)) ∧
    (.fin 0 ≤ x → x < .fin dblEpsilon → dof ≠ .fin 0 → chiSquaredCdf b x dof = .ok (.fin 0)) ∧
    chiSquaredCdf b .pinf dof = .ok (.fin 1) := by
  have hpos : ∀ {y : Dbl}, .fin 0 ≤ y → y.isNan = false ∧ ¬ y < .fin 0 := by
    intro y hy
    refine ⟨?_, Dbl.not_lt_of_le hy⟩
    cases y <;> simp_all [Dbl.isNan]
  refine ⟨?_, ?_, ?_, ?_⟩
  · rintro (rfl | h)
    · simp [chiSquaredCdf, Dbl.isNan]
    · simp [chiSquaredCdf, h]
  · intro h
    obtain ⟨h1, h2⟩ := hpos h
    simp [chiSquaredCdf, h1, h2]
  · intro h h' hd
    obtain ⟨h1, h2⟩ := hpos h
    simp [chiSquaredCdf, h1, h2, h', hd]
  · by_cases hd : dof = .fin 0 <;> simp [chiSquaredCdf, Dbl.isNan, hd]

/-- C50: the special cases of the incomplete gamma function. -/
theorem C50_incomplete_gamma_cases (b : Build) (a z : Dbl) :
    (a = .nan ∨ z = .nan → incompleteGamma b a z = .ok .nan) ∧
    (a < .fin 0 → incompleteGamma b a z = .ok .nan) ∧
    (.fin 0 ≤ a → z < .fin dblEpsilon → incompleteGamma b a z = .ok (.fin 0)) ∧
    (.fin 0 ≤ a → a < .fin dblEpsilon → .fin dblEpsilon ≤ z → incompleteGamma b a z = .ok (.fin 1)) := by
  have hnan : ∀ {y : Dbl}, y ≠ .nan → y.isNan = false := by
    intro y hy; cases y <;> simp_all [Dbl.isNan]
  refine ⟨?_, ?_, ?_, ?_⟩
  · rintro (rfl | rfl) <;> simp [incompleteGamma, Dbl.isNan]
  · intro h
    unfold incompleteGamma
    split_ifs <;> simp_all
  · intro h h'
    have h1 := hnan (Dbl.ne_nan_right h)
    have h2 : z.isNan = false := hnan (by rintro rfl; simp at h')
    simp [incompleteGamma, h1, h2, Dbl.not_lt_of_le h, h']
  · intro h h' hz
    have h1 := hnan (Dbl.ne_nan_right h)
    have h2 := hnan (Dbl.ne_nan_right hz)
    simp [incompleteGamma, h1, h2, Dbl.not_lt_of_le h, Dbl.not_lt_of_le hz, h']

/-- C50.  Full claim: the continued fraction returns a value in `[0, 1]` for every argument.  Proved for
every finite `z`; for `z = +inf` it returns NaN, see `C50_series_infinite_false`. -/
theorem C50_series_range_partial (a z : ℝ) (ha : 0 < a) (hz : 0 < z) :
    ∃ r, igContinuousFraction (.fin a) (.fin z) = .fin r ∧ 0 ≤ r ∧ r ≤ 1 := by
  unfold igContinuousFraction
  have hG := Real.Gamma_pos_of_pos ha
  have hnum : Dbl.exp (.fin a * Dbl.log (.fin z) - .fin z) / Dbl.tgamma (.fin a) =
      .fin (Real.exp (a * Real.log z - z) / Real.Gamma a) := by
    rw [Dbl.log_fin hz, Dbl.fin_mul, Dbl.fin_sub]
    exact Dbl.fin_div hG.ne'
  simp only [hnum]
  have hN : 0 < Real.exp (a * Real.log z - z) / Real.Gamma a := div_pos (Real.exp_pos _) hG
  generalize Real.exp (a * Real.log z - z) / Real.Gamma a = N at hN
  have hself : stdMax (.fin N) (igCfRec (.fin a) (.fin z) 1) = .fin N →
      ∃ r, (if stdMax (.fin N) (igCfRec (.fin a) (.fin z) 1) - .fin N < .fin (1 / 10 ^ 12) then Dbl.fin 1
        else .fin N / stdMax (.fin N) (igCfRec (.fin a) (.fin z) 1)) = .fin r ∧ 0 ≤ r ∧ r ≤ 1 := by
    intro h
    refine ⟨1, ?_, by norm_num, le_rfl⟩
    rw [h, Dbl.fin_sub, sub_self, if_pos (by rw [Dbl.fin_lt]; positivity)]
  cases hc : igCfRec (.fin a) (.fin z) 1 with
  | fin y =>
    by_cases h : N < y
    · have hm : stdMax (.fin N) (.fin y) = .fin y := if_pos h
      rw [hm, Dbl.fin_sub]
      by_cases ht : y - N < 1 / 10 ^ 12
      · exact ⟨1, if_pos ht, by norm_num, le_rfl⟩
      · refine ⟨N / y, ?_, div_nonneg hN.le (by linarith), ?_⟩
        · rw [if_neg (by rw [Dbl.fin_lt]; exact ht), Dbl.fin_div (by linarith)]
        · rw [div_le_one (by linarith)]; exact h.le
    · rw [hc] at hself
      exact hself (if_neg h)
  | pinf =>
    have hm : stdMax (.fin N) .pinf = .pinf := if_pos trivial
    rw [hm]
    refine ⟨0, ?_, le_rfl, zero_le_one⟩
    have : Dbl.pinf - Dbl.fin N = .pinf := rfl
    rw [this, if_neg (by simp)]
    rfl
  | ninf => rw [hc] at hself; exact hself (if_neg (by simp))
  | nan => rw [hc] at hself; exact hself (if_neg (by simp))

/-- C50 fails for the continued fraction at infinity: `a * log(z) - z` is `inf - inf`. -/
theorem C50_series_infinite_false (b : Build) : incompleteGamma b (.fin 1) .pinf = .ok .nan := by
  have h1 : dblEpsilon ≤ 1 := by unfold dblEpsilon; norm_num
  have hnum : Dbl.exp (.fin 1 * Dbl.log .pinf - .pinf) / Dbl.tgamma (.fin 1) = .nan := by
    have : Dbl.fin 1 * Dbl.log .pinf = .pinf := by
      show Dbl.signInf 1 = _
      simp [Dbl.signInf]
    rw [this]
    rfl
  have hcf : igContinuousFraction (.fin 1) .pinf = .nan := by
    unfold igContinuousFraction
    simp only [hnum]
    have : ∀ c, stdMax .nan c = .nan := fun c => if_neg (by simp)
    rw [this]
    have e : Dbl.nan - Dbl.nan = .nan := rfl
    rw [e, if_neg (by simp)]
    rfl
  simp [incompleteGamma, Dbl.isNan, hcf, show ¬ (1 : ℝ) < 0 by norm_num, Dbl.fin_lt,
    show (1 : ℝ) < 10 by norm_num, not_lt.2 h1]

/-- C50: with fewer than 20 degrees of freedom the chi squared CDF of every non-negative argument
(also `+inf`) is in `[0, 1]`. -/
theorem C50_chi_squared_range (b : Build) (x : Dbl) (hx : .fin 0 ≤ x) (dof : ℝ) (h0 : 0 ≤ dof)
    (h20 : dof < 20) : ∃ r, chiSquaredCdf b x (.fin dof) = .ok (.fin r) ∧ 0 ≤ r ∧ r ≤ 1 := by
  have heps : 0 < dblEpsilon := by unfold dblEpsilon; positivity
  cases x with
  | nan => simp at hx
  | ninf => simp at hx
  | pinf => exact ⟨1, (C50_special_cases b .pinf _).2.2.2, by norm_num, le_rfl⟩
  | fin x =>
    by_cases hd : dof = 0
    · subst hd
      exact ⟨1, (C50_special_cases b (.fin x) (.fin 0)).2.1 hx, by norm_num, le_rfl⟩
    · have hx' : 0 ≤ x := hx
      by_cases he : x < dblEpsilon
      · exact ⟨0, (C50_special_cases b (.fin x) (.fin dof)).2.2.1 hx he (by simpa using hd), le_rfl,
          zero_le_one⟩
      · have e1 : chiSquaredCdf b (.fin x) (.fin dof) =
            incompleteGamma b (.fin (1 / 2 * dof)) (.fin (1 / 2 * x)) := by
          simp [chiSquaredCdf, Dbl.isNan, not_lt.2 hx', hd, he, chiSquaredCdfUnsafe]
        rw [e1]
        have ha : 0 < 1 / 2 * dof := by
          have := lt_of_le_of_ne h0 (Ne.symm hd); positivity
        unfold incompleteGamma
        simp only [Dbl.isNan, Bool.or_self, Bool.false_eq_true, if_false, Dbl.fin_lt]
        rw [if_neg (not_lt.2 ha.le)]
        by_cases hz : 1 / 2 * x < dblEpsilon
        · exact ⟨0, by rw [if_pos hz]; rfl, le_rfl, zero_le_one⟩
        · rw [if_neg hz]
          by_cases ha' : 1 / 2 * dof < dblEpsilon
          · exact ⟨1, by rw [if_pos ha']; rfl, by norm_num, le_rfl⟩
          · rw [if_neg ha', if_pos (by linarith)]
            obtain ⟨r, h1, h2, h3⟩ := C50_series_range_partial _ (1 / 2 * x) ha (by linarith)
            exact ⟨r, by rw [h1]; rfl, h2, h3⟩

/-! ### The quadrature branch -/

theorem glWeights_length : glWeights.length = 50 := by simp [glWeights, glWeightsNum]

theorem glPoints_length : glPoints.length = 50 := by simp [glPoints, glPointsNum]

theorem glWeights_pos : ∀ w ∈ glWeights, 0 < w := by
  intro w hw
  obtain ⟨k, hk, rfl⟩ := List.mem_map.1 hw
  have : ∀ k ∈ glWeightsNum, (0 : ℤ) < k := by decide
  have : (0 : ℝ) < k := by exact_mod_cast this k hk
  positivity

theorem glPoints_lt : ∀ p ∈ glPoints, -1 < p ∧ p < 1 := by
  intro p hp
  obtain ⟨k, hk, rfl⟩ := List.mem_map.1 hp
  have : ∀ k ∈ glPointsNum, -(10 : ℤ) ^ 32 < k ∧ k < 10 ^ 32 := by decide
  obtain ⟨h1, h2⟩ := this k hk
  have h1 : -(10 : ℝ) ^ 32 < k := by exact_mod_cast h1
  have h2 : (k : ℝ) < 10 ^ 32 := by exact_mod_cast h2
  constructor
  · rw [lt_div_iff₀ (by positivity)]; linarith
  · rw [div_lt_iff₀ (by positivity)]; linarith

theorem igTerm_eq (b : Build) (l u a g : ℝ) (hl : 0 ≤ l) (hlu : l ≤ u) (hu : 0 < u) (c : Nat)
    (w p : ℝ) (hwp : (glWeights.zip glPoints)[c]? = some (w, p)) :
    igTerm b (.fin l) (.fin u) (.fin a) (.fin g) c = .ok (.fin (
      (fun x => Real.exp (-x + (a - 1) * Real.log x - g))
        ((u - l) * (1 / 2) * p + 1 / 2 * (u + l)) * ((u - l) * (1 / 2) * w))) := by
  rw [List.getElem?_zip_eq_some] at hwp
  obtain ⟨hw', hp'⟩ := hwp
  simp only at hw' hp'
  obtain ⟨hp, ep⟩ := List.getElem?_eq_some_iff.1 hp'
  obtain ⟨hw, ew⟩ := List.getElem?_eq_some_iff.1 hw'
  obtain ⟨p1, p2⟩ := glPoints_lt p (List.mem_of_getElem? hp')
  have hx : 0 < (u - l) * (1 / 2) * p + 1 / 2 * (u + l) := by
    rcases hlu.lt_or_eq with h | h
    · have : 0 < (u - l) * (1 + p) := mul_pos (by linarith) (by linarith)
      linarith
    · subst h; simp; linarith
  have h1 : igInpVals b (.fin l) (.fin u) c =
      .ok (.fin ((u - l) * (1 / 2) * p + 1 / 2 * (u + l))) := by
    unfold igInpVals
    rw [if_neg (by omega), vecGet_lt hp, ep]
    simp only [except_ok_bind, Dbl.fin_sub, Dbl.fin_mul, Dbl.fin_add, except_pure]
  have h2 : igWeightVals b (.fin l) (.fin u) c = .ok (.fin ((u - l) * (1 / 2) * w)) := by
    unfold igWeightVals
    rw [vecGet_lt hw, ew]
    simp only [hw, decide_true, albatrossAssert_true, except_ok_bind, Dbl.fin_sub, Dbl.fin_mul,
      except_pure]
  unfold igTerm igFn
  rw [h1, h2]
  simp only [except_ok_bind, Dbl.log_fin hx, Dbl.fin_neg, Dbl.fin_sub, Dbl.fin_mul, Dbl.fin_add,
    Dbl.exp, except_pure]

theorem glZip_get {c : Nat} (hc : c < 50) : ∃ w p, (glWeights.zip glPoints)[c]? = some (w, p) ∧ 0 < w := by
  have h : c < (glWeights.zip glPoints).length := by
    rw [List.length_zip, glWeights_length, glPoints_length]; exact hc
  refine ⟨_, _, List.getElem?_eq_getElem h, ?_⟩
  exact glWeights_pos _ (List.of_mem_zip (List.getElem_mem h)).1

theorem igTerm_nonneg (b : Build) (l u a g : ℝ) (hl : 0 ≤ l) (hlu : l ≤ u) (hu : 0 < u) (c : Nat)
    (hc : c < 50) : ∃ r, igTerm b (.fin l) (.fin u) (.fin a) (.fin g) c = .ok (.fin r) ∧ 0 ≤ r := by
  obtain ⟨w, p, h, hw⟩ := glZip_get hc
  refine ⟨_, igTerm_eq b l u a g hl hlu hu c w p h, ?_⟩
  have : 0 ≤ u - l := by linarith
  positivity

theorem igQuadratureRec_nonneg (b : Build) (l u a g : ℝ) (hl : 0 ≤ l) (hlu : l ≤ u) (hu : 0 < u) :
    ∀ k c, c + k = 49 →
      ∃ r, igQuadratureRec b (.fin l) (.fin u) (.fin a) (.fin g) c = .ok (.fin r) ∧ 0 ≤ r := by
  intro k
  induction k with
  | zero =>
    intro c hc
    rw [igQuadratureRec, glWeights_length, if_neg (by omega)]
    exact igTerm_nonneg b l u a g hl hlu hu c (by omega)
  | succ k ih =>
    intro c hc
    rw [igQuadratureRec, glWeights_length, if_pos (by omega)]
    obtain ⟨r1, h1, n1⟩ := igTerm_nonneg b l u a g hl hlu hu c (by omega)
    obtain ⟨r2, h2, n2⟩ := ih (c + 1) (by omega)
    rw [h1, h2]
    exact ⟨r1 + r2, rfl, add_nonneg n1 n2⟩

/-- The integration bounds are finite, ordered and the upper one is positive. -/
theorem igBounds_spec (a : ℝ) (z : Dbl) (ha : 0 < a) (hz : .fin 0 < z) :
    ∃ l u, igBounds (.fin a) z = (.fin l, .fin u) ∧ 0 ≤ l ∧ l ≤ u ∧ 0 < u := by
  have hs1 : Dbl.sqrt (.fin a) = .fin (Real.sqrt a) := if_neg (not_lt.2 ha.le)
  have hs2 : Dbl.sqrt (.fin a + .fin 1) = .fin (Real.sqrt (a + 1)) := by
    rw [Dbl.fin_add]; exact if_neg (by linarith)
  have hq1 := Real.sqrt_nonneg a
  have hq2 := Real.sqrt_nonneg (a + 1)
  unfold igBounds
  rw [hs1, hs2]
  simp only [Dbl.fin_mul, Dbl.fin_add]
  have hmin : ∀ m : ℝ, m ≤ a → ∃ l, stdMax (.fin 0) (.fin m - .fin (12 * Real.sqrt a)) = .fin l ∧
      0 ≤ l ∧ (l ≤ 0 ∨ l ≤ m) := by
    intro m hm
    rw [Dbl.fin_sub]
    unfold stdMax
    by_cases h : (0 : ℝ) < m - 12 * Real.sqrt a
    · exact ⟨_, if_pos h, h.le, .inr (by linarith)⟩
    · exact ⟨0, if_neg h, le_rfl, .inl le_rfl⟩
  cases z with
  | nan => simp at hz
  | ninf => simp at hz
  | pinf =>
    have e1 : stdMin .pinf (.fin a) = .fin a := if_pos trivial
    have e2 : stdMin .pinf (.fin (a + 13 * Real.sqrt (a + 1))) = .fin (a + 13 * Real.sqrt (a + 1)) :=
      if_pos trivial
    obtain ⟨l, h1, h2, h3⟩ := hmin a le_rfl
    refine ⟨l, a + 13 * Real.sqrt (a + 1), by rw [e1, e2, h1], h2, ?_, by linarith⟩
    rcases h3 with h3 | h3 <;> linarith
  | fin z =>
    have hz' : 0 < z := hz
    have e1 : stdMin (.fin z) (.fin a) = .fin (min z a) := by
      unfold stdMin
      by_cases h : a < z
      · rw [if_pos (by exact h), min_eq_right h.le]
      · rw [if_neg (by exact h), min_eq_left (not_lt.1 h)]
    have e2 : stdMin (.fin z) (.fin (a + 13 * Real.sqrt (a + 1))) =
        .fin (min z (a + 13 * Real.sqrt (a + 1))) := by
      unfold stdMin
      by_cases h : a + 13 * Real.sqrt (a + 1) < z
      · rw [if_pos (by exact h), min_eq_right h.le]
      · rw [if_neg (by exact h), min_eq_left (not_lt.1 h)]
    obtain ⟨l, h1, h2, h3⟩ := hmin (min z a) (min_le_right _ _)
    have hu : 0 < min z (a + 13 * Real.sqrt (a + 1)) := lt_min hz' (by linarith)
    refine ⟨l, _, by rw [e1, e2, h1], h2, ?_, hu⟩
    rcases h3 with h3 | h3
    · linarith
    · exact le_min (h3.trans (min_le_left _ _)) (by linarith [min_le_right z a])

/-- C50: the quadrature branch reads only existing table entries and returns a non-negative finite
number, also at infinity. -/
theorem C50_quadrature_nonneg (b : Build) (a : ℝ) (z : Dbl) (ha : 0 < a) (hz : .fin 0 < z) :
    ∃ r, igQuadrature b (.fin a) z = .ok (.fin r) ∧ 0 ≤ r := by
  obtain ⟨l, u, h1, h2, h3, h4⟩ := igBounds_spec a z ha hz
  unfold igQuadrature
  simp only [h1]
  exact igQuadratureRec_nonneg b l u a _ h2 h3 h4 49 0 rfl

/-- C50, vectors: the argument is the squared Mahalanobis distance, with as many degrees of freedom as
entries. -/
theorem C50_vector (b : Build) {n : Nat} (llt : Llt n) (d : Fin n → ℝ)
    (S : Matrix (Fin n) (Fin n) ℝ) (hS : S.PosDef) :
    chiSquaredCdfVector b llt d S = chiSquaredCdf b (.fin (d ⬝ᵥ S⁻¹.mulVec d)) (.fin n) := by
  unfold chiSquaredCdfVector
  simp only
  congr 2
  set L := llt.factor S
  have hL : L * L.transpose = S := llt.mul S hS
  have hdet : IsUnit L.det := isUnit_iff_ne_zero.2 (llt.det S hS)
  have e : S⁻¹ = L⁻¹.transpose * L⁻¹ := by
    rw [← hL, Matrix.mul_inv_rev, ← Matrix.transpose_nonsing_inv]
  have : ∑ i, (L⁻¹.mulVec d) i ^ 2 = (L⁻¹.mulVec d) ⬝ᵥ (L⁻¹.mulVec d) := by
    simp [dotProduct, pow_two]
  rw [this, e, ← Matrix.mulVec_mulVec, Matrix.dotProduct_mulVec d, Matrix.vecMul_transpose]

/-- C50, a deviation and its variance. -/
theorem C50_deviation (b : Build) (d v : ℝ) (hv : 0 < v) (dof : Nat) :
    chiSquaredCdfDeviation b (.fin d) (.fin v) dof = chiSquaredCdf b (.fin (d ^ 2 / v)) (.fin dof) := by
  unfold chiSquaredCdfDeviation
  rw [Dbl.fin_mul, Dbl.fin_div hv.ne', pow_two]

example (b : Build) : ∃ r, chiSquaredCdf b (.fin 3) (.fin 2) = .ok (.fin r) ∧ 0 ≤ r ∧ r ≤ 1 :=
  C50_chi_squared_range b (.fin 3) (by simp) 2 (by norm_num) (by norm_num)

example (b : Build) : ∃ r, igQuadrature b (.fin 12) .pinf = .ok (.fin r) ∧ 0 ≤ r :=
  C50_quadrature_nonneg b 12 .pinf (by norm_num) (by simp)

/-! ## C79: the Gauss-Legendre tables -/

/-- The defining equations of the rule, scaled to integers: `x ^ m` for `m < 100`. -/
theorem glTable_moments : ∀ m : Nat, m < 100 →
    |((m : ℤ) + 1) * ((glWeightsNum.zip glPointsNum).map fun x => x.1 * x.2 ^ m).sum -
      (1 - (-1) ^ (m + 1)) * (10 ^ 32) ^ (m + 1)| ≤ ((m : ℤ) + 1) * (10 ^ 32) ^ m := by
  decide +kernel

/-- The quadrature sum of the tables. -/
noncomputable def glSum (f : ℝ → ℝ) : ℝ := ((glWeights.zip glPoints).map fun x => x.1 * f x.2).sum

theorem list_sum_map_div {α : Type} (l : List α) (f : α → ℝ) (c : ℝ) :
    (l.map fun x => f x / c).sum = (l.map f).sum / c := by
  induction l with
  | nil => simp
  | cons a t ih => simp [ih, add_div]

theorem list_sum_cast (l : List (ℤ × ℤ)) (f : ℤ × ℤ → ℤ) :
    (((l.map f).sum : ℤ) : ℝ) = (l.map fun x => (f x : ℝ)).sum := by
  induction l with
  | nil => simp
  | cons a t ih => simp [ih]

theorem glSum_pow (m : Nat) : glSum (fun x => x ^ m) =
    (((glWeightsNum.zip glPointsNum).map fun x => x.1 * x.2 ^ m).sum : ℤ) / (10 ^ 32 : ℝ) ^ (m + 1) := by
  rw [list_sum_cast, ← list_sum_map_div]
  unfold glSum glWeights glPoints
  rw [List.zip_map, List.map_map]
  congr 1
  apply List.map_congr_left
  rintro ⟨w, p⟩ -
  simp only [Function.comp, Prod.map, Int.cast_mul, Int.cast_pow]
  rw [div_pow, div_mul_div_comm, pow_succ' ((10 : ℝ) ^ 32) m]

theorem glSum_pow_error (m : Nat) (hm : m < 100) :
    |glSum (fun x => x ^ m) - ∫ x in (-1 : ℝ)..1, x ^ m| ≤ 1 / 10 ^ 32 := by
  rw [glSum_pow, integral_pow]
  have h := glTable_moments m hm
  generalize ((glWeightsNum.zip glPointsNum).map fun x => x.1 * x.2 ^ m).sum = S at h
  have hq : (0 : ℝ) < (10 ^ 32) ^ (m + 1) := by positivity
  have hm1 : (0 : ℝ) < (m : ℝ) + 1 := by positivity
  have h' : |((m : ℝ) + 1) * S - (1 - (-1) ^ (m + 1)) * (10 ^ 32) ^ (m + 1)| ≤
      ((m : ℝ) + 1) * (10 ^ 32) ^ m := by exact_mod_cast h
  have e : (S : ℝ) / (10 ^ 32) ^ (m + 1) - ((1 : ℝ) ^ (m + 1) - (-1) ^ (m + 1)) / ((m : ℝ) + 1) =
      (((m : ℝ) + 1) * S - (1 - (-1) ^ (m + 1)) * (10 ^ 32) ^ (m + 1)) /
        (((m : ℝ) + 1) * (10 ^ 32) ^ (m + 1)) := by
    rw [div_sub_div _ _ hq.ne' hm1.ne', one_pow]
    congr 1 <;> ring
  rw [e, abs_div, abs_of_pos (mul_pos hm1 hq), div_le_iff₀ (mul_pos hm1 hq)]
  refine h'.trans (le_of_eq ?_)
  rw [pow_succ' ((10 : ℝ) ^ 32) m]
  have h10 : (10 : ℝ) ^ 32 ≠ 0 := by positivity
  generalize (10 : ℝ) ^ 32 = q at h10
  field_simp

theorem glSum_finset_sum (c : Nat → ℝ) (n : Nat) :
    glSum (fun x => ∑ m ∈ Finset.range n, c m * x ^ m) =
      ∑ m ∈ Finset.range n, c m * glSum (fun x => x ^ m) := by
  unfold glSum
  generalize glWeights.zip glPoints = l
  induction l with
  | nil => simp
  | cons a t ih =>
    simp only [List.map_cons, List.sum_cons, mul_add, Finset.sum_add_distrib]
    congr 1
    rw [Finset.mul_sum]
    apply Finset.sum_congr rfl
    intros; ring

open Polynomial in
/-- C79: the tables integrate every polynomial of degree at most 99 over `[-1, 1]`, up to the rounding of
the tables to 32 decimals. -/
theorem C79_exactness (p : ℝ[X]) (hp : p.natDegree < 100) :
    |glSum (fun x => p.eval x) - ∫ x in (-1 : ℝ)..1, p.eval x| ≤
      1 / 10 ^ 32 * ∑ m ∈ Finset.range 100, |p.coeff m| := by
  have he : (fun x => p.eval x) = fun x => ∑ m ∈ Finset.range 100, p.coeff m * x ^ m := by
    funext x; exact Polynomial.eval_eq_sum_range' hp x
  rw [he, glSum_finset_sum, intervalIntegral.integral_finsetSum
    (fun m _ => (Continuous.intervalIntegrable (by fun_prop) _ _)), ← Finset.sum_sub_distrib,
    Finset.mul_sum]
  refine (Finset.abs_sum_le_sum_abs _ _).trans (Finset.sum_le_sum fun m hm => ?_)
  rw [intervalIntegral.integral_const_mul, ← mul_sub, abs_mul, mul_comm]
  exact mul_le_mul_of_nonneg_right (glSum_pow_error m (Finset.mem_range.1 hm)) (abs_nonneg _)

/-- C79: the tables have fifty entries each, the weights are positive, the points are distinct, strictly
inside the interval, and symmetric with equal weights. -/
theorem C79_tables : glWeights.length = 50 ∧ glPoints.length = 50 ∧ (∀ w ∈ glWeights, 0 < w) ∧
    (∀ p ∈ glPoints, -1 < p ∧ p < 1) ∧ glPoints.Nodup ∧
    (∀ x ∈ glWeights.zip glPoints, (x.1, -x.2) ∈ glWeights.zip glPoints) := by
  refine ⟨glWeights_length, glPoints_length, glWeights_pos, glPoints_lt, ?_, ?_⟩
  · refine List.Nodup.map (fun a b h => ?_) (by decide)
    have : (a : ℝ) = b := by
      have h10 : (10 : ℝ) ^ 32 ≠ 0 := by positivity
      exact (div_left_inj' h10).1 h
    exact_mod_cast this
  · have h : ∀ x ∈ glWeightsNum.zip glPointsNum, (x.1, -x.2) ∈ glWeightsNum.zip glPointsNum := by
      decide
    unfold glWeights glPoints
    rw [List.zip_map]
    intro x hx
    obtain ⟨y, hy, rfl⟩ := List.mem_map.1 hx
    exact List.mem_map.2 ⟨_, h y hy, by simp [neg_div]⟩

/-- What `igInpVals`/`igWeightVals` make of the tables: the rule on `[l, u]`. -/
noncomputable def glSumOn (l u : ℝ) (f : ℝ → ℝ) : ℝ :=
  ((glWeights.zip glPoints).map fun x =>
    f ((u - l) * (1 / 2) * x.2 + 1 / 2 * (u + l)) * ((u - l) * (1 / 2) * x.1)).sum

open Polynomial in
/-- C79: the rescaled rule integrates polynomials over any interval. -/
theorem C79_rescaled (l u : ℝ) (p : ℝ[X]) (hp : p.natDegree < 100) :
    |glSumOn l u (fun x => p.eval x) - ∫ x in l..u, p.eval x| ≤ |u - l| / 2 * (1 / 10 ^ 32 *
      ∑ m ∈ Finset.range 100, |(p.comp (C ((u - l) / 2) * X + C ((u + l) / 2))).coeff m|) := by
  set q := p.comp (C ((u - l) / 2) * X + C ((u + l) / 2)) with hq
  have hdeg : q.natDegree < 100 := by
    rw [hq, natDegree_comp]
    have : (C ((u - l) / 2) * X + C ((u + l) / 2) : ℝ[X]).natDegree ≤ 1 := natDegree_linear_le
    nlinarith
  have hev : ∀ x, q.eval x = p.eval ((u - l) / 2 * x + (u + l) / 2) := by
    intro x; simp [hq]
  have h1 : glSumOn l u (fun x => p.eval x) = (u - l) / 2 * glSum (fun x => q.eval x) := by
    unfold glSumOn glSum
    rw [← List.sum_map_mul_left]
    congr 1
    apply List.map_congr_left
    rintro x -
    simp only [hev]
    have : (u - l) * (1 / 2) * x.2 + 1 / 2 * (u + l) = (u - l) / 2 * x.2 + (u + l) / 2 := by ring
    rw [this]; ring
  have h2 : ∫ x in l..u, p.eval x = (u - l) / 2 * ∫ x in (-1 : ℝ)..1, q.eval x := by
    simp only [hev]
    rw [intervalIntegral.mul_integral_comp_mul_add (f := fun x => p.eval x)]
    congr 1 <;> ring
  rw [h1, h2, ← mul_sub, abs_mul, abs_div, abs_of_pos (by norm_num : (0 : ℝ) < 2)]
  exact mul_le_mul_of_nonneg_left (C79_exactness q hdeg) (by positivity)

/-- C79: the sum the code computes is that rule applied to its integrand. -/
theorem C79_code_sum (b : Build) (l u a g : ℝ) (hl : 0 ≤ l) (hlu : l ≤ u) (hu : 0 < u) :
    igQuadratureRec b (.fin l) (.fin u) (.fin a) (.fin g) 0 =
      .ok (.fin (glSumOn l u fun x => Real.exp (-x + (a - 1) * Real.log x - g))) := by
  have key : ∀ k c, c + k = 49 → igQuadratureRec b (.fin l) (.fin u) (.fin a) (.fin g) c =
      .ok (.fin ((((glWeights.zip glPoints).drop c).map fun x =>
        (fun x => Real.exp (-x + (a - 1) * Real.log x - g))
          ((u - l) * (1 / 2) * x.2 + 1 / 2 * (u + l)) * ((u - l) * (1 / 2) * x.1)).sum)) := by
    have hz : (glWeights.zip glPoints).length = 50 := by
      rw [List.length_zip, glWeights_length, glPoints_length]; rfl
    intro k
    induction k with
    | zero =>
      intro c hc
      have hlt : c < (glWeights.zip glPoints).length := by omega
      rw [igQuadratureRec, glWeights_length, if_neg (by omega), List.drop_eq_getElem_cons hlt,
        List.drop_eq_nil_of_le (by omega), List.map_cons, List.sum_cons, List.map_nil, List.sum_nil,
        add_zero]
      exact igTerm_eq b l u a g hl hlu hu c _ _ (List.getElem?_eq_getElem hlt)
    | succ k ih =>
      intro c hc
      have hlt : c < (glWeights.zip glPoints).length := by omega
      rw [igQuadratureRec, glWeights_length, if_pos (by omega), List.drop_eq_getElem_cons hlt,
        List.map_cons, List.sum_cons, ih (c + 1) (by omega),
        igTerm_eq b l u a g hl hlu hu c _ _ (List.getElem?_eq_getElem hlt)]
      rfl
  exact key 49 0 rfl

example : (Polynomial.X ^ 99 : Polynomial ℝ).natDegree < 100 := by simp

end Albatross
