import Verif.QuadratureTable
import Mathlib.Analysis.Calculus.MeanValue
import Mathlib.Analysis.Calculus.Deriv.Pow
import Mathlib.Analysis.Calculus.Deriv.Inv
import Mathlib.Data.Nat.Factorial.Basic

/-!
# The Peano kernel of the fifty point Gauss-Legendre rule

Helper lemmas for C93.  The error of a quadrature rule on a function with `k` derivatives is the integral of the
`k`-th derivative against the rule's Peano kernel.  The kernel of the tables in
stats/gauss_legendre.hpp is bounded here by evaluating it, scaled to integers, at the centres of 200 cells and by
integrating from the centre to the rest of the cell.
-/

namespace Albatross

open scoped Nat

/-! ## The kernel -/

/-- `y ^ m / m!` for positive `y`, and zero otherwise. -/
noncomputable def ppow (m : ℕ) (y : ℝ) : ℝ := (max y 0) ^ m / m !

/-- The Peano kernel of order `m + 1` of the tables. -/
noncomputable def peano (m : ℕ) (t : ℝ) : ℝ := glSum (fun x => ppow m (x - t)) - ppow (m + 1) (1 - t)

theorem ppow_hasDerivAt {m : ℕ} (hm : 1 ≤ m) (y : ℝ) : HasDerivAt (ppow (m + 1)) (ppow m y) y := by
  have hf : ((m + 1)! : ℝ) ≠ 0 := by positivity
  have hf' : (m ! : ℝ) ≠ 0 := by positivity
  have hfs : ((m + 1)! : ℝ) = (m + 1) * m ! := by rw [Nat.factorial_succ]; push_cast; ring
  have hm1 : (m : ℝ) + 1 ≠ 0 := by positivity
  rcases lt_trichotomy y 0 with h | h | h
  · have e : ppow (m + 1) =ᶠ[nhds y] fun _ => 0 := by
      filter_upwards [Iio_mem_nhds h] with z hz
      simp [ppow, max_eq_right (le_of_lt (Set.mem_Iio.1 hz))]
    have : ppow m y = 0 := by simp [ppow, max_eq_right h.le]; left; omega
    rw [this]
    exact (hasDerivAt_const y 0).congr_of_eventuallyEq e
  · subst h
    have : ppow m 0 = 0 := by simp [ppow]; left; omega
    rw [this, hasDerivAt_iff_isLittleO_nhds_zero]
    have h0 : ppow (m + 1) 0 = 0 := by simp [ppow]
    simp only [zero_add, h0, smul_zero, sub_zero]
    have hb : (fun h : ℝ => ppow (m + 1) h) =O[nhds 0] fun h : ℝ => h ^ (m + 1) := by
      refine Asymptotics.IsBigO.of_bound (1 / (m + 1)!) (Filter.Eventually.of_forall fun z => ?_)
      rw [ppow, norm_div, norm_pow, Real.norm_of_nonneg (le_max_right z 0), norm_pow,
        Real.norm_of_nonneg (by positivity : (0 : ℝ) ≤ ((m + 1)! : ℝ)), div_eq_mul_one_div, mul_comm]
      refine mul_le_mul_of_nonneg_left (pow_le_pow_left₀ (le_max_right z 0) ?_ _) (by positivity)
      exact max_le (Real.le_norm_self z) (norm_nonneg z)
    exact hb.trans_isLittleO (by
      simpa using Asymptotics.isLittleO_pow_id (𝕜 := ℝ) (n := m + 1) (by omega))
  · have e : ppow (m + 1) =ᶠ[nhds y] fun z => z ^ (m + 1) / (m + 1)! := by
      filter_upwards [Ioi_mem_nhds h] with z hz
      simp [ppow, max_eq_left (le_of_lt (Set.mem_Ioi.1 hz))]
    have : ppow m y = (↑(m + 1) * y ^ m) / (m + 1)! := by
      rw [ppow, max_eq_left h.le, hfs]; push_cast; field_simp
    rw [this]
    have := (hasDerivAt_pow (m + 1) y).div_const ((m + 1)! : ℝ)
    simp only [Nat.add_sub_cancel] at this
    exact this.congr_of_eventuallyEq e

theorem peano_hasDerivAt {m : ℕ} (hm : 1 ≤ m) (t : ℝ) : HasDerivAt (peano (m + 1)) (-peano m t) t := by
  have h1 : ∀ c, HasDerivAt (fun t => ppow (m + 1) (c - t)) (-ppow m (c - t)) t := by
    intro c
    exact (ppow_hasDerivAt hm (c - t)).comp_const_sub c t
  have h2 : HasDerivAt (fun t => ppow (m + 2) (1 - t)) (-ppow (m + 1) (1 - t)) t := by
    exact (ppow_hasDerivAt (m := m + 1) (by omega) (1 - t)).comp_const_sub 1 t
  have h3 : HasDerivAt (fun t => glSum fun x => ppow (m + 1) (x - t)) (-glSum fun x => ppow m (x - t)) t := by
    unfold glSum
    generalize glWeights.zip glPoints = l
    induction l with
    | nil => simpa using hasDerivAt_const t (0 : ℝ)
    | cons a l ih =>
      simp only [List.map_cons, List.sum_cons, neg_add]
      refine HasDerivAt.add ?_ ih
      have := (h1 a.2).const_mul a.1
      rwa [mul_neg] at this
  have := h3.sub h2
  have e : -peano m t = (-glSum fun x => ppow m (x - t)) - -ppow (m + 1) (1 - t) := by unfold peano; ring
  rw [e]
  exact this

theorem peano_one_lipschitz {c t : ℝ} (hc : |c| ≤ 1) (ht : |t| ≤ 1) : |peano 1 t - peano 1 c| ≤ 5 * |t - c| := by
  have hw : ((glWeights.zip glPoints).map fun x => x.1).sum ≤ 3 := by
    have h := glSum_pow_error 0 (by norm_num)
    have e : glSum (fun x => x ^ 0) = ((glWeights.zip glPoints).map fun x => x.1).sum := by simp [glSum]
    rw [e] at h
    have h' := (abs_le.1 h).2
    norm_num at h'
    linarith
  have h0 : ∀ x ∈ glWeights.zip glPoints, 0 ≤ x.1 := fun x hx =>
    (glWeights_pos x.1 (List.of_mem_zip (show (x.1, x.2) ∈ _ from hx)).1).le
  have hl : |glSum (fun x => ppow 1 (x - t)) - glSum (fun x => ppow 1 (x - c))| ≤
      ((glWeights.zip glPoints).map fun x => x.1).sum * |t - c| := by
    unfold glSum
    revert h0
    generalize glWeights.zip glPoints = l
    intro h0
    induction l with
    | nil => simp
    | cons a l ih =>
      simp only [List.map_cons, List.sum_cons]
      have ha := h0 a List.mem_cons_self
      have ih := ih fun x hx => h0 x (List.mem_cons_of_mem _ hx)
      have e : |a.1 * ppow 1 (a.2 - t) - a.1 * ppow 1 (a.2 - c)| ≤ a.1 * |t - c| := by
        rw [← mul_sub, abs_mul, abs_of_nonneg ha]
        refine mul_le_mul_of_nonneg_left ?_ ha
        have := abs_max_sub_max_le_abs (a.2 - t) (a.2 - c) 0
        simp only [ppow, pow_one, Nat.factorial_one, Nat.cast_one, div_one]
        refine this.trans (le_of_eq ?_)
        rw [← abs_neg]; congr 1; ring
      have := abs_add_le (a.1 * ppow 1 (a.2 - t) - a.1 * ppow 1 (a.2 - c))
        ((l.map fun x => x.1 * ppow 1 (x.2 - t)).sum - (l.map fun x => x.1 * ppow 1 (x.2 - c)).sum)
      calc _ = |a.1 * ppow 1 (a.2 - t) - a.1 * ppow 1 (a.2 - c) +
            ((l.map fun x => x.1 * ppow 1 (x.2 - t)).sum - (l.map fun x => x.1 * ppow 1 (x.2 - c)).sum)| := by
            congr 1; ring
        _ ≤ _ := this
        _ ≤ a.1 * |t - c| + (l.map fun x => x.1).sum * |t - c| := add_le_add e ih
        _ = _ := by ring
  have h2 : |ppow 2 (1 - t) - ppow 2 (1 - c)| ≤ 2 * |t - c| := by
    rw [abs_le] at hc ht
    rw [ppow, ppow, max_eq_left (by linarith), max_eq_left (by linarith)]
    have : (1 - t) ^ 2 / ((2 : ℕ)! : ℝ) - (1 - c) ^ 2 / ((2 : ℕ)! : ℝ) = (1 - (t + c) / 2) * (c - t) := by
      norm_num [Nat.factorial]; ring
    rw [this, abs_mul, abs_sub_comm c t]
    refine mul_le_mul_of_nonneg_right ?_ (abs_nonneg _)
    rw [abs_le]
    constructor <;> linarith
  have hd := abs_nonneg (t - c)
  have e : peano 1 t - peano 1 c = (glSum (fun x => ppow 1 (x - t)) - glSum (fun x => ppow 1 (x - c))) -
      (ppow 2 (1 - t) - ppow 2 (1 - c)) := by
    unfold peano; ring
  rw [e]
  have := abs_sub (glSum (fun x => ppow 1 (x - t)) - glSum (fun x => ppow 1 (x - c)))
    (ppow 2 (1 - t) - ppow 2 (1 - c))
  nlinarith

/-- The value of the kernel at a centre is the scaled integer. -/
theorem quadKernel_eq {m u : ℕ} (hu : u ≤ 400) :
    |peano m ((u : ℝ) / 200 - 1)| * ((m + 1)! * (200 * 10 ^ 32) ^ (m + 1)) = quadKernel m u := by
  have hD : (0 : ℝ) < 200 * 10 ^ 32 := by positivity
  have hfs : ((m + 1)! : ℝ) = (m + 1) * m ! := by rw [Nat.factorial_succ]; push_cast; ring
  have hf' : (0 : ℝ) < m ! := by positivity
  have hsub : ∀ x : ℕ, (((200 * x - u * 10 ^ 32 : ℕ) : ℝ)) =
      max ((200 : ℝ) * x - u * 10 ^ 32) 0 := by
    intro x
    rcases le_total (u * 10 ^ 32) (200 * x) with h | h
    · rw [Nat.cast_sub h, max_eq_left]
      · push_cast; ring
      · have : ((u * 10 ^ 32 : ℕ) : ℝ) ≤ ((200 * x : ℕ) : ℝ) := by exact_mod_cast h
        push_cast at this; linarith
    · rw [Nat.sub_eq_zero_of_le h, max_eq_right]
      · simp
      · have : ((200 * x : ℕ) : ℝ) ≤ ((u * 10 ^ 32 : ℕ) : ℝ) := by exact_mod_cast h
        push_cast at this; linarith
  have hterm : ∀ w x : ℕ, ((w : ℤ) : ℝ) / 10 ^ 32 *
      ppow m ((((x : ℤ) - 10 ^ 32 : ℤ) : ℝ) / 10 ^ 32 - ((u : ℝ) / 200 - 1)) =
      200 * ((w * (200 * x - u * 10 ^ 32) ^ m : ℕ) : ℝ) / (m ! * (200 * 10 ^ 32) ^ (m + 1)) := by
    intro w x
    have e : (((x : ℤ) - 10 ^ 32 : ℤ) : ℝ) / 10 ^ 32 - ((u : ℝ) / 200 - 1) =
        ((200 : ℝ) * x - u * 10 ^ 32) * (1 / (200 * 10 ^ 32)) := by
      push_cast; field_simp; ring
    have hmax : max (((200 : ℝ) * x - u * 10 ^ 32) * (1 / (200 * 10 ^ 32))) 0 =
        max ((200 : ℝ) * x - u * 10 ^ 32) 0 * (1 / (200 * 10 ^ 32)) := by
      rw [max_mul_of_nonneg _ _ (by positivity), zero_mul]
    rw [e, ppow, hmax, Nat.cast_mul, Nat.cast_pow, hsub, mul_pow, one_div, inv_pow, pow_succ (200 * 10 ^ 32 : ℝ) m]
    push_cast
    have h1 : ((200 : ℝ) * 10 ^ 32) ^ m ≠ 0 := by positivity
    generalize ((200 : ℝ) * 10 ^ 32) ^ m = q at h1
    generalize max ((200 : ℝ) * x - u * 10 ^ 32) 0 ^ m = y
    field_simp
  have hsum : glSum (fun x => ppow m (x - ((u : ℝ) / 200 - 1))) =
      200 * ((quadTable.map fun x => x.1 * (200 * x.2 - u * 10 ^ 32) ^ m).sum : ℕ) /
        (m ! * (200 * 10 ^ 32) ^ (m + 1)) := by
    unfold glSum glWeights glPoints
    rw [List.zip_map, quadTable_eq, List.map_map, List.map_map]
    generalize quadTable = l
    induction l with
    | nil => simp
    | cons a l ih =>
      simp only [List.map_cons, List.sum_cons]
      rw [ih, Nat.cast_add, mul_add, add_div]
      congr 1
      exact hterm a.1 a.2
  have hlast : ppow (m + 1) (1 - ((u : ℝ) / 200 - 1)) =
      ((((400 - u) * 10 ^ 32) ^ (m + 1) : ℕ) : ℝ) / ((m + 1)! * (200 * 10 ^ 32) ^ (m + 1)) := by
    have hu' : (u : ℝ) ≤ 400 := by exact_mod_cast hu
    rw [ppow, max_eq_left (by linarith), Nat.cast_pow, Nat.cast_mul, Nat.cast_sub hu]
    have e : 1 - ((u : ℝ) / 200 - 1) = ((400 - u) * 10 ^ 32) / (200 * 10 ^ 32) := by field_simp; ring
    rw [e, div_pow, div_div, mul_comm ((200 * 10 ^ 32 : ℝ) ^ (m + 1))]
    push_cast
    ring
  have hall : peano m ((u : ℝ) / 200 - 1) * ((m + 1)! * (200 * 10 ^ 32) ^ (m + 1)) =
      (((m + 1) * 200 * (quadTable.map fun x => x.1 * (200 * x.2 - u * 10 ^ 32) ^ m).sum : ℕ) : ℝ) -
        ((((400 - u) * 10 ^ 32) ^ (m + 1) : ℕ) : ℝ) := by
    rw [peano, hsum, hlast, sub_mul, div_mul_cancel₀ _ (by positivity), hfs]
    generalize ((quadTable.map fun x => x.1 * (200 * x.2 - u * 10 ^ 32) ^ m).sum : ℕ) = S
    rw [Nat.cast_mul, Nat.cast_mul]
    push_cast
    have h1 : ((200 : ℝ) * 10 ^ 32) ^ (m + 1) ≠ 0 := by positivity
    generalize ((200 : ℝ) * 10 ^ 32) ^ (m + 1) = q at h1
    field_simp
  have habs : ∀ s r : ℕ, |(s : ℝ) - r| = ((s - r + (r - s) : ℕ) : ℝ) := by
    intro s r
    rcases le_total r s with h | h
    · rw [Nat.sub_eq_zero_of_le h, add_zero, Nat.cast_sub h, abs_of_nonneg (sub_nonneg.2 (by exact_mod_cast h))]
    · rw [Nat.sub_eq_zero_of_le h, zero_add, Nat.cast_sub h, abs_of_nonpos (sub_nonpos.2 (by exact_mod_cast h))]
      ring
  rw [← abs_of_pos (by positivity : (0 : ℝ) < (m + 1)! * (200 * 10 ^ 32) ^ (m + 1)), ← abs_mul, hall, habs]
  rfl

theorem quadCell_zero (u : ℕ) : quadCell u 0 = 1000 * 10 ^ 32 := rfl

attribute [local irreducible] quadCell quadKernel

theorem quadCell_bound {u : ℕ} (hu : 1 ≤ u) (hu' : u ≤ 399) (m : ℕ) : ∀ t, |t - ((u : ℝ) / 200 - 1)| ≤ 1 / 200 →
    |peano (m + 1) t| * ((m + 2)! * (200 * 10 ^ 32) ^ (m + 2)) ≤ quadCell u (m + 1) := by
  have hu1 : (1 : ℝ) ≤ u := by exact_mod_cast hu
  have hu2 : (u : ℝ) ≤ 399 := by exact_mod_cast hu'
  induction m with
  | zero =>
    intro t ht
    have h1 := quadKernel_eq (m := 1) (u := u) (by omega)
    have ht' := abs_le.1 ht
    have h2 := peano_one_lipschitz (c := (u : ℝ) / 200 - 1) (t := t) (abs_le.2 ⟨by linarith, by linarith⟩)
      (abs_le.2 ⟨by linarith, by linarith⟩)
    have h3 : |peano 1 t| ≤ |peano 1 ((u : ℝ) / 200 - 1)| + 5 * (1 / 200) := by
      have := abs_sub_abs_le_abs_sub (peano 1 t) (peano 1 ((u : ℝ) / 200 - 1))
      linarith
    have h4 := mul_le_mul_of_nonneg_right h3
      (by positivity : (0 : ℝ) ≤ ((2)! : ℝ) * (200 * 10 ^ 32) ^ 2)
    have h0 : (quadCell u 0 : ℝ) = 1000 * 10 ^ 32 := by rw [quadCell_zero]; norm_num
    rw [zero_add, quadCell_succ, Nat.cast_add, Nat.cast_mul, h0]
    rw [add_mul] at h4
    rw [h1] at h4
    refine h4.trans (add_le_add le_rfl ?_)
    have : ((2)! : ℝ) = 2 := by norm_num [Nat.factorial]
    rw [this]
    norm_num
  | succ m ih =>
    intro t ht
    have h1 := quadKernel_eq (m := m + 2) (u := u) (by omega)
    set c := (u : ℝ) / 200 - 1 with hc
    set q : ℝ := (m + 2)! * (200 * 10 ^ 32) ^ (m + 2) with hq
    have hq0 : 0 < q := by positivity
    have h2 : ‖peano (m + 2) t - peano (m + 2) c‖ ≤ (quadCell u (m + 1) / q) * ‖t - c‖ := by
      refine (convex_closedBall c (1 / 200)).norm_image_sub_le_of_norm_hasDerivWithin_le
        (f' := fun x => -peano (m + 1) x) (fun x _ => (peano_hasDerivAt (by omega) x).hasDerivWithinAt) ?_ ?_ ?_
      · intro x hx
        rw [norm_neg, Real.norm_eq_abs, le_div_iff₀ hq0]
        exact ih x (by rwa [Metric.mem_closedBall, Real.dist_eq] at hx)
      · simp
      · rwa [Metric.mem_closedBall, Real.dist_eq]
    rw [Real.norm_eq_abs, Real.norm_eq_abs] at h2
    have h3 : |peano (m + 2) t| ≤ |peano (m + 2) c| + quadCell u (m + 1) / q * (1 / 200) := by
      have := abs_sub_abs_le_abs_sub (peano (m + 2) t) (peano (m + 2) c)
      have h4 : (quadCell u (m + 1) / q) * |t - c| ≤ quadCell u (m + 1) / q * (1 / 200) :=
        mul_le_mul_of_nonneg_left ht (by positivity)
      linarith
    have h4 := mul_le_mul_of_nonneg_right h3
      (by positivity : (0 : ℝ) ≤ ((m + 3)! : ℝ) * (200 * 10 ^ 32) ^ (m + 3))
    rw [add_mul, h1] at h4
    refine h4.trans (le_of_eq ?_)
    have hfs : ((m + 3)! : ℝ) * (200 * 10 ^ 32) ^ (m + 3) = (m + 3) * (200 * 10 ^ 32) * q := by
      rw [hq, Nat.factorial_succ, pow_succ _ (m + 2)]; push_cast; ring
    rw [hfs, quadCell_succ u (m + 1), Nat.cast_add, Nat.cast_mul]
    push_cast
    field_simp
    ring

theorem exists_cell {t : ℝ} (h1 : -1 ≤ t) (h2 : t ≤ 1) :
    ∃ j < 200, |t - (((2 * j + 1 : ℕ) : ℝ) / 200 - 1)| ≤ 1 / 200 := by
  have h0 : 0 ≤ (t + 1) * 100 := by linarith
  have hf := Nat.floor_le h0
  have hl := Nat.lt_floor_add_one ((t + 1) * 100)
  rcases h2.lt_or_eq with h | h
  · refine ⟨⌊(t + 1) * 100⌋₊, ?_, ?_⟩
    · rw [Nat.floor_lt h0]; push_cast; linarith
    · rw [abs_le]; push_cast; constructor <;> linarith
  · refine ⟨199, by norm_num, ?_⟩
    rw [h, abs_le]; norm_num

theorem peano_bound {m : ℕ} {B : ℝ} (h : ∀ j < 200, (quadCell (2 * j + 1) (m + 1) : ℝ) ≤
    B * ((m + 2)! * (200 * 10 ^ 32) ^ (m + 2))) {t : ℝ} (h1 : -1 ≤ t) (h2 : t ≤ 1) : |peano (m + 1) t| ≤ B := by
  obtain ⟨j, hj, ht⟩ := exists_cell h1 h2
  have hb := quadCell_bound (u := 2 * j + 1) (by omega) (by omega) m t ht
  exact le_of_mul_le_mul_right (hb.trans (h j hj)) (by positivity)

theorem peano_8 {t : ℝ} (h1 : -1 ≤ t) (h2 : t ≤ 1) : |peano 8 t| ≤ 5 / 10 ^ 18 := by
  refine peano_bound (m := 7) (fun j hj => ?_) h1 h2
  have h : ((quadCell (2 * j + 1) 8 * 10 ^ 18 : ℕ) : ℝ) ≤ ((5 * 362880 * (200 * 10 ^ 32) ^ 9 : ℕ) : ℝ) :=
    Nat.cast_le.2 (quadCell_8 j hj)
  rw [Nat.cast_mul] at h
  have hf : ((7 + 2)! : ℝ) = 362880 := by norm_num [Nat.factorial]
  rw [hf, div_mul_eq_mul_div, le_div_iff₀ (by positivity)]
  refine le_of_eq_of_le (by norm_num) (h.trans (le_of_eq (by norm_num)))

theorem peano_13 {t : ℝ} (h1 : -1 ≤ t) (h2 : t ≤ 1) : |peano 13 t| ≤ 3 / 10 ^ 28 := by
  refine peano_bound (m := 12) (fun j hj => ?_) h1 h2
  have h : ((quadCell (2 * j + 1) 13 * 10 ^ 28 : ℕ) : ℝ) ≤ ((3 * 87178291200 * (200 * 10 ^ 32) ^ 14 : ℕ) : ℝ) :=
    Nat.cast_le.2 (quadCell_13 j hj)
  rw [Nat.cast_mul] at h
  have hf : ((12 + 2)! : ℝ) = 87178291200 := by norm_num [Nat.factorial]
  rw [hf, div_mul_eq_mul_div, le_div_iff₀ (by positivity)]
  refine le_of_eq_of_le (by norm_num) (h.trans (le_of_eq (by norm_num)))

theorem peano_18 {t : ℝ} (h1 : -1 ≤ t) (h2 : t ≤ 1) : |peano 18 t| ≤ 3 / 10 ^ 38 := by
  refine peano_bound (m := 17) (fun j hj => ?_) h1 h2
  have h : ((quadCell (2 * j + 1) 18 * 10 ^ 38 : ℕ) : ℝ) ≤
      ((3 * 121645100408832000 * (200 * 10 ^ 32) ^ 19 : ℕ) : ℝ) :=
    Nat.cast_le.2 (quadCell_18 j hj)
  rw [Nat.cast_mul] at h
  have hf : ((17 + 2)! : ℝ) = 121645100408832000 := by norm_num [Nat.factorial]
  rw [hf, div_mul_eq_mul_div, le_div_iff₀ (by positivity)]
  refine le_of_eq_of_le (by norm_num) (h.trans (le_of_eq (by norm_num)))

end Albatross
