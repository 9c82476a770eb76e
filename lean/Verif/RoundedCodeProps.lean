import Verif.RoundedCode
import Verif.SparseCloseProps

/-! # C133, C134: what rounding does to covariance matrices, grids and angles -/

namespace Albatross

open Matrix

/-! ## C133: the nuggets -/

/-- The default value of a nugget is `1e-16`. -/
theorem default_nugget_bounds (r : Rounding) :
    19 / 20 * 10⁻¹ ^ 16 ≤ r.fl (r.defaultNuggetNoise * r.defaultNuggetNoise) ∧
    r.fl (r.defaultNuggetNoise * r.defaultNuggetNoise) ≤ 21 / 20 * 10⁻¹ ^ 16 := by
  have h1 := abs_le.1 (r.error (10⁻¹ ^ 8))
  rw [← Rounding.defaultNuggetNoise] at h1
  set s := r.defaultNuggetNoise
  rw [abs_of_pos (by positivity)] at h1
  have hlo : (99 / 100 * 10⁻¹ ^ 8 : ℝ) ≤ s := by
    have : (99 / 100 * 10⁻¹ ^ 8 : ℝ) ≤ 10⁻¹ ^ 8 - 2⁻¹ ^ 53 * 10⁻¹ ^ 8 := by norm_num
    linarith [h1.1]
  have hup : s ≤ (101 / 100 * 10⁻¹ ^ 8 : ℝ) := by
    have : (10⁻¹ ^ 8 + 2⁻¹ ^ 53 * 10⁻¹ ^ 8 : ℝ) ≤ 101 / 100 * 10⁻¹ ^ 8 := by norm_num
    linarith [h1.2]
  have hs0 : 0 < s := lt_of_lt_of_le (by norm_num) hlo
  have q1 : (99 / 100 * 10⁻¹ ^ 8 : ℝ) * (99 / 100 * 10⁻¹ ^ 8) ≤ s * s := mul_le_mul hlo hlo (by norm_num) hs0.le
  have q2 : s * s ≤ (101 / 100 * 10⁻¹ ^ 8 : ℝ) * (101 / 100 * 10⁻¹ ^ 8) := mul_le_mul hup hup hs0.le (by norm_num)
  have h2 := abs_le.1 (r.error (s * s))
  rw [abs_of_pos (mul_pos hs0 hs0)] at h2
  constructor
  · have : (19 / 20 * 10⁻¹ ^ 16 : ℝ) ≤ (1 - 2⁻¹ ^ 53) * ((99 / 100 * 10⁻¹ ^ 8 : ℝ) * (99 / 100 * 10⁻¹ ^ 8)) := by norm_num
    have := mul_le_mul_of_nonneg_left q1 (by norm_num : (0 : ℝ) ≤ 1 - 2⁻¹ ^ 53)
    linarith [h2.1]
  · have : (1 + 2⁻¹ ^ 53) * ((101 / 100 * 10⁻¹ ^ 8 : ℝ) * (101 / 100 * 10⁻¹ ^ 8)) ≤ (21 / 20 * 10⁻¹ ^ 16 : ℝ) := by norm_num
    have := mul_le_mul_of_nonneg_left q2 (by norm_num : (0 : ℝ) ≤ 1 + 2⁻¹ ^ 53)
    linarith [h2.2]

/-- C133: the default nugget is lost in every sum with a variance of one or more: its parameter is a standard deviation of
`1e-8`, so what is added is `1e-16`, less than half of the distance to the next double. -/
theorem C133_nugget_lost {X : Type} [DecidableEq X] (r : Rounding) {k : ℝ} (hk : IsDouble k) (h1 : 1 ≤ k) (x y : X) :
    r.sumCall k (r.nuggetCall r.defaultNuggetNoise x y) = k := by
  obtain ⟨hlo, hup⟩ := default_nugget_bounds r
  rw [Rounding.sumCall, Rounding.nuggetCall]
  split_ifs with h
  · refine r.absorbs hk (e := 0) (by simpa using h1) (le_trans (by norm_num) hlo) (hup.trans_lt ?_)
    norm_num
  · rw [add_zero, r.of_double hk]

/-- C133: it counts for variances of at most 85 %. -/
theorem C133_nugget_counts {X : Type} [DecidableEq X] (r : Rounding) {k : ℝ} (h0 : 0 ≤ k) (h1 : k ≤ 17 / 20)
    (x : X) : k < r.sumCall k (r.nuggetCall r.defaultNuggetNoise x x) := by
  obtain ⟨hlo, hup⟩ := default_nugget_bounds r
  rw [Rounding.sumCall, Rounding.nuggetCall, if_pos rfl]
  set N := r.fl (r.defaultNuggetNoise * r.defaultNuggetNoise)
  have hN : 0 < N := lt_of_lt_of_le (by norm_num) hlo
  have h := (abs_le.1 (r.error (k + N))).1
  rw [abs_of_pos (by linarith)] at h
  norm_num at hlo hup h h1 ⊢
  linarith

/-- C133 is false of the default nugget: two features that are perfectly correlated, `Constant() + Nugget()` with the
default parameters. In exact arithmetic the matrix is positive definite, in doubles it is singular. -/
theorem C133_nugget_false (r : Rounding) (x : Fin 2 → ℝ) (hx : x 0 ≠ x 1) :
    (of fun i j : Fin 2 => (100 : ℝ) * 100 + if x i = x j then (10⁻¹ ^ 8 : ℝ) * 10⁻¹ ^ 8 else 0).PosDef ∧
    (∀ lib i j, (DoubleCov.sum (.constant 100) (.nugget r.defaultNuggetNoise)).call r lib (x i) (x j) = 10000) ∧
    ∀ lib, ¬ (of fun i j : Fin 2 => (DoubleCov.sum (.constant 100) (.nugget r.defaultNuggetNoise)).call r lib (x i) (x j)).PosDef := by
  have hval : ∀ lib i j, (DoubleCov.sum (.constant 100) (.nugget r.defaultNuggetNoise)).call r lib (x i) (x j) = 10000 := by
    intro lib i j
    have hd : IsDouble (10000 : ℝ) := by simpa using isDouble_nat 10000 (by norm_num)
    have hc : r.constantCall 100 = 10000 := by
      rw [Rounding.constantCall, show (100 : ℝ) * 100 = 10000 by norm_num, r.of_double hd]
    simp only [DoubleCov.call]
    rw [hc]
    exact C133_nugget_lost r hd (by norm_num) _ _
  refine ⟨?_, hval, fun lib h => ?_⟩
  · refine Matrix.PosDef.of_dotProduct_mulVec_pos ?_ fun v hv => ?_
    · ext i j
      simp only [conjTranspose_apply, of_apply, star_trivial, eq_comm]
    · simp only [star_trivial, dotProduct, mulVec, Fin.sum_univ_two, of_apply, if_true, if_neg hx, if_neg hx.symm]
      have hne : v 0 ≠ 0 ∨ v 1 ≠ 0 := by
        by_contra hc
        push Not at hc
        refine hv ?_
        funext i
        fin_cases i <;> simp [hc.1, hc.2]
      have : 0 < v 0 ^ 2 + v 1 ^ 2 := by
        rcases hne with h | h <;> positivity
      nlinarith [sq_nonneg (v 0 + v 1)]
  · have hp := h.det_pos
    rw [det_fin_two] at hp
    simp only [of_apply, hval] at hp
    norm_num at hp

/-- A positive semidefinite matrix plus more than the errors is positive definite. -/
theorem posDef_of_errors {n : Nat} {X : Type} {k : X → X → ℝ} (hk : IsPSD k) (x : Fin n → X) (M : Matrix (Fin n) (Fin n) ℝ)
    (hM : Mᵀ = M) {N ε : ℝ} (hε : ∀ i j, |M i j - (k (x i) (x j) + if i = j then N else 0)| ≤ ε) (h : n * ε < N) :
    M.PosDef := by
  refine Matrix.PosDef.of_dotProduct_mulVec_pos (by rw [Matrix.IsHermitian, conjTranspose_eq_transpose_of_trivial, hM])
    fun v hv => ?_
  rw [star_trivial]
  have e : M = (of fun i j => k (x i) (x j)) + (diagonal (fun _ => N) +
      of fun i j => M i j - (k (x i) (x j) + if i = j then N else 0)) := by
    ext i j
    simp only [Matrix.add_apply, of_apply, diagonal_apply]
    ring
  have h1 := form_covMat k x v
  have h2 := hk.2 n x v
  have h3 := (abs_le.1 (small_form (E := of fun i j => M i j - (k (x i) (x j) + if i = j then N else 0)) hε v v)).1
  have h4 : v ⬝ᵥ ((diagonal fun _ : Fin n => N) *ᵥ v) = N * lengthOf v ^ 2 := by
    rw [lengthOf_sq, Finset.mul_sum]
    refine Finset.sum_congr rfl fun i _ => ?_
    rw [mulVec_diagonal]
    ring
  have hl : 0 < lengthOf v ^ 2 := by
    rw [lengthOf_sq]
    obtain ⟨i, hi⟩ := Function.ne_iff.1 hv
    exact Finset.sum_pos' (fun _ _ => sq_nonneg _) ⟨i, Finset.mem_univ i, by
      have : v i ≠ 0 := hi
      positivity⟩
  rw [e, Matrix.add_mulVec, dotProduct_add, Matrix.add_mulVec, dotProduct_add, h1, h4]
  nlinarith

/-- The error of an entry with the nugget. -/
theorem rounded_entry (r : Rounding) {c k δ N b : ℝ} (hc : |c - k| ≤ δ) (hk0 : 0 ≤ k) (hkb : k ≤ b) (hN : 0 ≤ N) :
    |r.fl (c + N) - (k + N)| ≤ δ + 2⁻¹ ^ 53 * (b + δ + N) := by
  have h1 := r.error (c + N)
  have h2 : |c + N| ≤ b + δ + N := by
    obtain ⟨h3, h4⟩ := abs_le.1 hc
    rw [abs_le]
    constructor <;> linarith
  have h5 : r.fl (c + N) - (k + N) = (r.fl (c + N) - (c + N)) + (c - k) := by ring
  rw [h5]
  refine (abs_add_le _ _).trans ?_
  have : (2⁻¹ : ℝ) ^ 53 * |c + N| ≤ 2⁻¹ ^ 53 * (b + δ + N) := mul_le_mul_of_nonneg_left h2 (by norm_num)
  linarith

/-- C133, partial: covariances that are computed with errors of at most `δ`, plus a nugget of standard deviation `s`:
for distinct features the matrix in doubles is positive definite when the nugget is more than `n` times the errors, those
of the sum included. Missing: smaller nuggets, for which it is false (`C133_nugget_false`). -/
theorem C133_nugget_partial {X : Type} [DecidableEq X] (r : Rounding) {k : X → X → ℝ} (hk : IsPSD k) {n : Nat} (x : Fin n → X)
    (hx : Function.Injective x) (computed : X → X → ℝ) (hd : ∀ x y, IsDouble (computed x y))
    (hsym : ∀ x y, computed x y = computed y x) {δ b s : ℝ} (hδ : ∀ i j, |computed (x i) (x j) - k (x i) (x j)| ≤ δ)
    (hb : ∀ i, k (x i) (x i) ≤ b) (h : n * (δ + 2⁻¹ ^ 53 * (b + δ + r.fl (s * s))) < r.fl (s * s)) :
    (of fun i j => r.sumCall (computed (x i) (x j)) (r.nuggetCall s (x i) (x j))).PosDef := by
  have hN : 0 ≤ r.fl (s * s) := by
    have := r.mono (mul_self_nonneg s)
    rwa [r.of_double isDouble_zero] at this
  have hnug : ∀ i j, r.nuggetCall s (x i) (x j) = if i = j then r.fl (s * s) else 0 := by
    intro i j
    rw [Rounding.nuggetCall]
    simp only [hx.eq_iff]
  refine posDef_of_errors hk x _ ?_ (N := r.fl (s * s)) (fun i j => ?_) h
  · ext i j
    simp only [transpose_apply, of_apply]
    rw [hsym, Rounding.nuggetCall, Rounding.nuggetCall]
    simp only [eq_comm]
  · rw [of_apply, Rounding.sumCall, hnug]
    have hδ0 : 0 ≤ δ := (abs_nonneg _).trans (hδ i i)
    have hb0 : 0 ≤ b := (hk.diag_nonneg (x i)).trans (hb i)
    by_cases hij : i = j
    · subst hij
      simp only [if_true]
      exact rounded_entry r (hδ i i) (hk.diag_nonneg _) (hb i) hN
    · simp only [if_neg hij, add_zero]
      rw [r.of_double (hd _ _)]
      have : 0 ≤ (2⁻¹ : ℝ) ^ 53 * (b + δ + r.fl (s * s)) := by positivity
      linarith [hδ i j]

/-- C133: the default nugget of the sparse model, which is added as it is, keeps the covariance of `m` inducing points
with variances of at most `b` positive definite, when the covariances are computed up to sixteen units of rounding of `b` and
`m b` is at most five million. -/
theorem C133_inducing_nugget {X : Type} (r : Rounding) {k : X → X → ℝ} (hk : IsPSD k) {m : Nat} (u : Fin m → X)
    (K : Fin m → Fin m → ℝ) (hsym : ∀ i j, K i j = K j i) {b : ℝ} (hb1 : 1 ≤ b) (hb : ∀ i, k (u i) (u i) ≤ b)
    (hK : ∀ i j, |K i j - k (u i) (u j)| ≤ 2⁻¹ ^ 49 * b) (hm : m * b ≤ 5 * 10 ^ 6) :
    (of (r.addNugget K r.defaultNugget)).PosDef := by
  have h1 := abs_le.1 (r.error (10⁻¹ ^ 8))
  rw [← Rounding.defaultNugget, abs_of_pos (by positivity)] at h1
  have hν : r.fl (r.defaultNugget * 1) = r.defaultNugget := by
    rw [mul_one, Rounding.defaultNugget, r.of_double (r.isDouble _)]
  set ν := r.defaultNugget
  have hlo : (99 / 100 * 10⁻¹ ^ 8 : ℝ) ≤ ν := by
    have : (99 / 100 * 10⁻¹ ^ 8 : ℝ) ≤ 10⁻¹ ^ 8 - 2⁻¹ ^ 53 * 10⁻¹ ^ 8 := by norm_num
    linarith [h1.1]
  have hup : ν ≤ 1 / 4 := by
    have : (10⁻¹ ^ 8 + 2⁻¹ ^ 53 * 10⁻¹ ^ 8 : ℝ) ≤ 1 / 4 := by norm_num
    linarith [h1.2]
  have hν0 : 0 ≤ ν := le_trans (by norm_num) hlo
  refine posDef_of_errors hk u _ ?_ (N := ν) (ε := 2⁻¹ ^ 49 * b + 2⁻¹ ^ 53 * (b + 2⁻¹ ^ 49 * b + ν)) (fun i j => ?_) ?_
  · ext i j
    simp only [transpose_apply, of_apply, Rounding.addNugget]
    by_cases hij : i = j
    · subst hij; rfl
    · rw [if_neg hij, if_neg (Ne.symm hij), hsym]
  · rw [of_apply, Rounding.addNugget, hν]
    by_cases hij : i = j
    · subst hij
      simp only [if_true]
      exact rounded_entry r (hK i i) (hk.diag_nonneg _) (hb i) hν0
    · simp only [if_neg hij, add_zero]
      have : 0 ≤ (2⁻¹ : ℝ) ^ 53 * (b + 2⁻¹ ^ 49 * b + ν) := by positivity
      linarith [hK i j]
  · have hm0 : (0 : ℝ) ≤ m := Nat.cast_nonneg m
    have hε : (2⁻¹ : ℝ) ^ 49 * b + 2⁻¹ ^ 53 * (b + 2⁻¹ ^ 49 * b + ν) ≤ 35 / 2 * 2⁻¹ ^ 53 * b := by
      have : (2⁻¹ : ℝ) ^ 49 * b ≤ b / 4 := by
        have : (2⁻¹ : ℝ) ^ 49 ≤ 1 / 4 := by norm_num
        nlinarith
      have e : (2⁻¹ : ℝ) ^ 49 = 16 * 2⁻¹ ^ 53 := by norm_num
      have hu : (0 : ℝ) < 2⁻¹ ^ 53 := by positivity
      have : (2⁻¹ : ℝ) ^ 53 * (b + 2⁻¹ ^ 49 * b + ν) ≤ 2⁻¹ ^ 53 * (3 / 2 * b) :=
        mul_le_mul_of_nonneg_left (by linarith) hu.le
      rw [e] at this ⊢
      linarith
    calc _ ≤ m * (35 / 2 * 2⁻¹ ^ 53 * b) := mul_le_mul_of_nonneg_left hε hm0
      _ = 35 / 2 * 2⁻¹ ^ 53 * (m * b) := by ring
      _ ≤ 35 / 2 * 2⁻¹ ^ 53 * (5 * 10 ^ 6) := mul_le_mul_of_nonneg_left hm (by positivity)
      _ < 99 / 100 * 10⁻¹ ^ 8 := by norm_num
      _ ≤ ν := hlo

/-- C133: without a nugget covariance matrices in doubles need not be positive semidefinite: the linear covariance of the
doubles `1` and `1 + 2⁻²⁷`. -/
theorem C133_semidefinite_false (r : Rounding) (lib : MathFunctions) (h0 : ∀ x, lib.pow x 0 = 1) (h1 : ∀ x, lib.pow x 1 = x) :
    ∃ x : Fin 2 → ℝ, (∀ i, IsDouble (x i)) ∧ IsPSD (fun x y : ℝ => x * y) ∧
      ¬ (of fun i j => (DoubleCov.polynomial [0, 1]).call r lib (x i) (x j)).PosSemidef := by
  have hy : IsDouble (1 + 2⁻¹ ^ 27 : ℝ) := ⟨2 ^ 27 + 1, -27, by norm_num, by norm_num⟩
  have hval : ∀ x y : ℝ, IsDouble x → (DoubleCov.polynomial [0, 1]).call r lib x y = r.fl (x * y) := by
    intro x y hx
    simp only [DoubleCov.call, Rounding.polynomialCall, List.zipIdx_cons, List.zipIdx_nil, List.foldl_cons, List.foldl_nil]
    norm_num [h0, h1, r.of_double isDouble_zero, r.of_double isDouble_one, r.of_double hx, r.of_double (r.isDouble _)]
  refine ⟨![1, 1 + 2⁻¹ ^ 27], fun i => ?_, IsPSD.rank_one _, fun h => ?_⟩
  · fin_cases i
    · exact isDouble_one
    · exact hy
  · have e00 : r.fl (1 * 1) = 1 := by rw [mul_one, r.of_double isDouble_one]
    have e01 : r.fl (1 * (1 + 2⁻¹ ^ 27)) = 1 + 2⁻¹ ^ 27 := by rw [one_mul, r.of_double hy]
    have e10 : r.fl ((1 + 2⁻¹ ^ 27) * 1) = 1 + 2⁻¹ ^ 27 := by rw [mul_one, r.of_double hy]
    have e11 : r.fl ((1 + 2⁻¹ ^ 27) * (1 + 2⁻¹ ^ 27)) = 1 + 2⁻¹ ^ 26 := by
      rw [r.eq_of_close 0 (2 ^ 52 + 2 ^ 26) (by norm_num) (by norm_num) (by norm_num [abs_lt])]
      norm_num
    have hq := h.dotProduct_mulVec_nonneg ![1 + 2⁻¹ ^ 27, -1]
    simp only [star_trivial, dotProduct, mulVec, Fin.sum_univ_two, of_apply, cons_val_zero, cons_val_one,
      hval _ _ isDouble_one, hval _ _ hy, e00, e01, e10, e11] at hq
    norm_num at hq

/-- A variance of one, three perfectly correlated features and a nugget of standard deviation a half meet the hypotheses of
`C133_nugget_partial`; with a single inducing point more those of `C133_inducing_nugget`. -/
example : ∃ r : Rounding, (3 : ℕ) * ((0 : ℝ) + 2⁻¹ ^ 53 * (1 + 0 + r.fl (1 / 2 * (1 / 2)))) < r.fl (1 / 2 * (1 / 2)) ∧
    IsPSD (fun _ _ : ℕ => (1 : ℝ)) ∧ Function.Injective (fun i : Fin 3 => (i : ℕ)) ∧
    (∀ _ _ : Fin 4, |(1 : ℝ) - 1| ≤ 2⁻¹ ^ 49 * 1) ∧ ((4 : ℕ) : ℝ) * 1 ≤ 5 * 10 ^ 6 := by
  obtain ⟨r⟩ := exists_rounding
  have h : r.fl (1 / 2 * (1 / 2)) = 1 / 4 := by
    rw [show (1 / 2 * (1 / 2) : ℝ) = 1 / 4 by norm_num]
    exact r.of_double ⟨1, -2, by norm_num, by norm_num⟩
  refine ⟨r, ?_, IsPSD.const zero_le_one, Fin.val_injective, fun _ _ => by norm_num, by norm_num⟩
  rw [h]
  norm_num

/-! ## C134: grids, angles and symmetry -/

theorem linspaceLoop_eq (r : Rounding) (step : ℝ) (n : Nat) (a : ℝ) :
    r.linspaceLoop step n a = (List.range n).map fun i => (fun v => r.fl (v + step))^[i] a := by
  induction n generalizing a with
  | zero => rfl
  | succ n ih =>
    rw [Rounding.linspaceLoop, ih, List.range_succ_eq_map, List.map_cons, List.map_map]
    rfl

/-- C134, partial: the grid has `n` doubles, starts with `a`, does not decrease, and its points are those of the regular
grid up to `2 i` units of rounding of the largest number plus three spacings. Missing: the last point is `b`, and no point
is beyond `b`, which are false (`C134_last_false`). -/
theorem C134_grid_partial (r : Rounding) {a b : ℝ} (ha : IsDouble a) (hab : a ≤ b) {n : Nat} (hn : 2 ≤ n)
    (hn' : n ≤ 2 ^ 52) :
    (r.linspace a b n).length = n ∧ (r.linspace a b n)[0]? = some a ∧ (r.linspace a b n).Pairwise (· ≤ ·) ∧
    (∀ x ∈ r.linspace a b n, IsDouble x) ∧
    ∀ i < n, ∃ x, (r.linspace a b n)[i]? = some x ∧ |x - (a + i * ((b - a) / (n - 1)))| ≤
      2 * i * 2⁻¹ ^ 53 * (max |a| |b| + 3 * ((b - a) / (n - 1))) := by
  have hn1 : ((n - 1 : Nat) : ℝ) = n - 1 := by rw [Nat.cast_sub (by omega), Nat.cast_one]
  have hnpos : (0 : ℝ) < n - 1 := by
    have : (2 : ℝ) ≤ n := by exact_mod_cast hn
    linarith
  have hfn : r.fl ((n - 1 : Nat) : ℝ) = n - 1 := by rw [r.of_double (isDouble_nat _ (by omega)), hn1]
  set step := r.fl (r.fl (b - a) / (n - 1)) with hstep
  have hlin : r.linspace a b n = (List.range n).map fun i => (fun v => r.fl (v + step))^[i] a := by
    rw [Rounding.linspace]
    simp only [hfn]
    exact linspaceLoop_eq r step n a
  have hfl0 : r.fl 0 = 0 := r.of_double isDouble_zero
  have hstep0 : 0 ≤ step := by
    have h1 := r.mono (sub_nonneg.2 hab)
    rw [hfl0] at h1
    have h2 := r.mono (div_nonneg h1 hnpos.le)
    rwa [hfl0] at h2
  have hdbl : ∀ i, IsDouble ((fun v => r.fl (v + step))^[i] a) := by
    intro i
    cases i with
    | zero => exact ha
    | succ i => rw [Function.iterate_succ_apply']; exact r.isDouble _
  have hmono : Monotone fun i => (fun v => r.fl (v + step))^[i] a := by
    refine monotone_nat_of_le_succ fun i => ?_
    rw [Function.iterate_succ_apply']
    have := r.mono (le_add_of_nonneg_right hstep0 : (fun v => r.fl (v + step))^[i] a ≤ _)
    rwa [r.of_double (hdbl i)] at this
  refine ⟨by rw [hlin]; simp, ?_, ?_, ?_, fun i hi => ⟨(fun v => r.fl (v + step))^[i] a, by
    rw [hlin, List.getElem?_map, List.getElem?_range hi]; rfl, ?_⟩⟩
  · rw [hlin, List.getElem?_map, List.getElem?_range (by omega)]; rfl
  · rw [hlin, List.pairwise_map]
    exact List.pairwise_lt_range.imp fun h => hmono h.le
  · intro x hx
    rw [hlin] at hx
    obtain ⟨i, -, rfl⟩ := List.mem_map.1 hx
    exact hdbl i
  · set h := (b - a) / (n - 1) with hh
    set M := max |a| |b| with hM
    have hh0 : 0 ≤ h := div_nonneg (sub_nonneg.2 hab) hnpos.le
    have hu : (0 : ℝ) < 2⁻¹ ^ 53 := by positivity
    have hu1 : (2⁻¹ : ℝ) ^ 53 ≤ 1 / 100 := by norm_num
    have hiu : (2 : ℝ) ^ 52 * 2⁻¹ ^ 53 = 1 / 2 := by norm_num
    generalize huu : (2⁻¹ : ℝ) ^ 53 = u at hu hu1 hiu ⊢
    have herr : ∀ x, |r.fl x - x| ≤ u * |x| := fun x => huu ▸ r.error x
    have hD : |step - h| ≤ (2 * u + u ^ 2) * h := by
      set q := r.fl (b - a) / (n - 1) with hq
      have h1 : |q - h| ≤ u * h := by
        have e : q - h = (r.fl (b - a) - (b - a)) / (n - 1) := by rw [hq, hh]; ring
        rw [e, abs_div, abs_of_pos hnpos, div_le_iff₀ hnpos]
        have := herr (b - a)
        rw [abs_of_nonneg (sub_nonneg.2 hab)] at this
        refine this.trans_eq ?_
        rw [hh]
        field_simp
      have h2 := herr q
      have h3 : |q| ≤ (1 + u) * h := by
        have h5 := abs_sub_abs_le_abs_sub q h
        rw [abs_of_nonneg hh0] at h5
        linarith
      have e : step - h = (r.fl q - q) + (q - h) := by rw [hstep]; ring
      rw [e]
      refine (abs_add_le _ _).trans ?_
      nlinarith
    have ht : ∀ i : ℕ, i < n → |a + i * h| ≤ M := by
      intro i hi
      have hi' : (i : ℝ) ≤ n - 1 := by
        rw [← hn1]; exact_mod_cast (by omega : i ≤ n - 1)
      have hnh : ((n : ℝ) - 1) * h = b - a := by rw [hh]; field_simp
      have hi0 : (0 : ℝ) ≤ i := Nat.cast_nonneg i
      have h1 : a + i * h ≤ b := by nlinarith
      have h2 : a ≤ a + i * h := by nlinarith
      rw [abs_le]
      exact ⟨by have := neg_abs_le a; have := le_max_left |a| |b|; linarith,
        by have := le_abs_self b; have := le_max_right |a| |b|; linarith⟩
    have hM0 : 0 ≤ M := (abs_nonneg a).trans (le_max_left _ _)
    set B := u * (M + 3 * h) with hB
    have hB0 : 0 ≤ B := by positivity
    have main : ∀ i : ℕ, i < n → |(fun v => r.fl (v + step))^[i] a - (a + i * h)| ≤ 2 * i * B := by
      intro i
      induction i with
      | zero => intro _; simp
      | succ i ih =>
        intro hi
        have e1 := ih (by omega)
        rw [Function.iterate_succ_apply']
        set v := (fun v => r.fl (v + step))^[i] a
        have e2 := herr (v + step)
        have e3 : v + step - (a + ((i + 1 : ℕ) : ℝ) * h) = (v - (a + i * h)) + (step - h) := by push_cast; ring
        have e4 : |v + step - (a + ((i + 1 : ℕ) : ℝ) * h)| ≤ 2 * i * B + (2 * u + u ^ 2) * h := by
          rw [e3]
          exact (abs_add_le _ _).trans (add_le_add e1 hD)
        have e5 : |v + step| ≤ M + (2 * i * B + (2 * u + u ^ 2) * h) := by
          have h5 := abs_sub_abs_le_abs_sub (v + step) (a + ((i + 1 : ℕ) : ℝ) * h)
          linarith [ht (i + 1) hi]
        have e6 : r.fl (v + step) - (a + ((i + 1 : ℕ) : ℝ) * h) =
            (r.fl (v + step) - (v + step)) + (v + step - (a + ((i + 1 : ℕ) : ℝ) * h)) := by ring
        rw [e6]
        refine (abs_add_le _ _).trans ?_
        have hi2 : (i : ℝ) * u ≤ 1 / 2 := by
          rw [← hiu]
          exact mul_le_mul_of_nonneg_right (by exact_mod_cast (by omega : i ≤ 2 ^ 52)) hu.le
        have e7 : u * |v + step| ≤ u * (M + (2 * i * B + (2 * u + u ^ 2) * h)) := mul_le_mul_of_nonneg_left e5 hu.le
        have e8 : u * (2 * i * B) ≤ B := by
          calc u * (2 * i * B) = 2 * (i * u) * B := by ring
            _ ≤ 2 * (1 / 2) * B := by gcongr
            _ = B := by ring
        have e9 : u * M + (1 + u) * ((2 * u + u ^ 2) * h) ≤ B := by
          rw [hB]
          have : (1 + u) * (2 * u + u ^ 2) ≤ 3 * u := by nlinarith
          nlinarith
        have e10 : u * (M + (2 * i * B + (2 * u + u ^ 2) * h)) = u * M + u * (2 * i * B) + u * ((2 * u + u ^ 2) * h) := by
          ring
        have e11 : (1 + u) * ((2 * u + u ^ 2) * h) = (2 * u + u ^ 2) * h + u * ((2 * u + u ^ 2) * h) := by ring
        have e12 : 2 * ((i + 1 : ℕ) : ℝ) * B = 2 * i * B + B + B := by push_cast; ring
        rw [e12]
        linarith
    refine (main i hi).trans_eq ?_
    rw [hB]
    ring

/-- The double next to one third. -/
theorem third_rounds (r : Rounding) : r.fl (r.fl 1 / r.fl 3) = 6004799503160661 * 2 ^ (-54 : ℤ) := by
  have h3 : r.fl 3 = 3 := r.of_double (by simpa using isDouble_nat 3 (by norm_num))
  rw [h3, r.of_double isDouble_one, r.eq_of_close (-2) 6004799503160661 (by norm_num) (by norm_num) (by norm_num [abs_lt])]
  norm_num

/-- C134 is false of the last point: four points from 1 to 2 end before 2, four points from 2 to 3 end after 3. -/
theorem C134_last_false (r : Rounding) :
    (∃ x, (r.linspace 1 2 4)[3]? = some x ∧ x < 2) ∧ ∃ x, (r.linspace 2 3 4)[3]? = some x ∧ 3 < x := by
  have grid : ∀ a b : ℝ, b - a = 1 → (r.linspace a b 4)[3]? = some (r.fl (r.fl (r.fl (a + r.fl (r.fl 1 / r.fl 3)) +
      r.fl (r.fl 1 / r.fl 3)) + r.fl (r.fl 1 / r.fl 3))) := by
    intro a b h
    rw [Rounding.linspace]
    simp only [Rounding.linspaceLoop, h]
    norm_num
  refine ⟨⟨_, grid 1 2 (by norm_num), ?_⟩, ⟨_, grid 2 3 (by norm_num), ?_⟩⟩
  · rw [third_rounds]
    rw [r.eq_of_close (x := 1 + _) 0 6004799503160661 (by norm_num) (by norm_num) (by norm_num [abs_lt])]
    rw [r.eq_of_close (x := _ * _ + _) 0 7505999378950826 (by norm_num) (by norm_num) (by norm_num [abs_lt])]
    rw [r.eq_of_close (x := _ * _ + _) 0 9007199254740991 (by norm_num) (by norm_num) (by norm_num [abs_lt])]
    norm_num
  · rw [third_rounds]
    rw [r.eq_of_close (x := 2 + _) 1 5254199565265579 (by norm_num) (by norm_num) (by norm_num [abs_lt])]
    rw [r.eq_of_close (x := _ * _ + _) 1 6004799503160662 (by norm_num) (by norm_num) (by norm_num [abs_lt])]
    rw [r.eq_of_close (x := _ * _ + _) 1 6755399441055745 (by norm_num) (by norm_num) (by norm_num [abs_lt])]
    norm_num

/-- C134: the special cases of `angular_distance` are exactly the dot products of at least 1 and of at most -1: `acos`
is called with arguments strictly between, for which it is defined, and no other angle is rounded to zero. -/
theorem C134_angular (r : Rounding) {d : ℝ} (hd : IsDouble d) :
    r.angularBranch d = if 1 ≤ d then .zero else if d ≤ -1 then .pi else .acos d := by
  have h1 := abs_le.1 (r.error (10⁻¹ ^ 16))
  rw [← Rounding.epsilon, abs_of_pos (by positivity)] at h1
  set ε := r.epsilon
  have hlo : (99 / 100 * 10⁻¹ ^ 16 : ℝ) ≤ ε := by
    have : (99 / 100 * 10⁻¹ ^ 16 : ℝ) ≤ 10⁻¹ ^ 16 - 2⁻¹ ^ 53 * 10⁻¹ ^ 16 := by norm_num
    linarith [h1.1]
  have hup : ε ≤ 101 / 100 * 10⁻¹ ^ 16 := by
    have : (10⁻¹ ^ 16 + 2⁻¹ ^ 53 * 10⁻¹ ^ 16 : ℝ) ≤ 101 / 100 * 10⁻¹ ^ 16 := by norm_num
    linarith [h1.2]
  have hone : r.fl (1 - ε) = 1 - 2⁻¹ ^ 53 := by
    norm_num at hlo hup
    rw [r.eq_of_close (x := 1 - ε) (-1) (2 ^ 53 - 1) (by norm_num; linarith) (by norm_num; linarith) (by
      rw [abs_lt]; norm_num; constructor <;> linarith)]
    norm_num
  have hmone : r.fl (-1 + ε) = -(1 - 2⁻¹ ^ 53) := by
    rw [show -1 + ε = -(1 - ε) by ring, r.neg, hone]
  have key : ∀ d, IsDouble d → (d > 1 - 2⁻¹ ^ 53 ↔ 1 ≤ d) := by
    intro d hd
    constructor
    · intro h
      have hhalf : (2 : ℝ) ^ (-1 : ℤ) ≤ |d| := by
        refine le_trans ?_ (le_abs_self d)
        norm_num at h ⊢
        linarith
      obtain ⟨m, hm⟩ := hd.multiple hhalf
      have hp : (2 : ℝ) ^ (-1 - 52 : ℤ) = 2⁻¹ ^ 53 := by norm_num
      rw [hp] at hm
      have h2 : (2 : ℝ) ^ 53 - 1 < m := by
        rw [hm] at h
        norm_num at h ⊢
        linarith
      have h3 : (2 : ℤ) ^ 53 - 1 < m := by exact_mod_cast h2
      have h4 : (2 : ℤ) ^ 53 ≤ m := by omega
      have h5 : (2 : ℝ) ^ 53 ≤ m := by exact_mod_cast h4
      rw [hm]
      norm_num at h5 ⊢
      linarith
    · intro h
      have : (0 : ℝ) < 2⁻¹ ^ 53 := by positivity
      linarith
  rw [Rounding.angularBranch, hone, hmone]
  have k1 := key d hd
  have k2 := key (-d) hd.neg
  have k2' : d < -(1 - 2⁻¹ ^ 53) ↔ d ≤ -1 := by
    constructor
    · intro h; have := k2.1 (by linarith); linarith
    · intro h; have := k2.2 (by linarith); linarith
  simp only [k1, k2']

/-- No polynomial is part of the covariance function. -/
def DoubleCov.NoPolynomial : DoubleCov → Prop
  | .polynomial _ => False
  | .sum a b => a.NoPolynomial ∧ b.NoPolynomial
  | .product a b => a.NoPolynomial ∧ b.NoPolynomial
  | _ => True

/-- C134, partial: covariance functions without polynomials are exactly symmetric in doubles, whatever the mathematics
library returns. Missing: polynomials, for which it is false (`C134_symmetric_false`). -/
theorem C134_symmetric_partial (r : Rounding) (lib : MathFunctions) (c : DoubleCov) (hc : c.NoPolynomial) (x y : ℝ) :
    c.call r lib x y = c.call r lib y x := by
  have hdist : r.distanceCall x y = r.distanceCall y x := by
    rw [Rounding.distanceCall, Rounding.distanceCall, ← neg_sub y x, r.neg, abs_neg]
  induction c with
  | constant s => rfl
  | polynomial s => exact hc.elim
  | nugget s => simp only [DoubleCov.call, Rounding.nuggetCall, eq_comm]
  | sum a b iha ihb => simp only [DoubleCov.call, iha hc.1, ihb hc.2]
  | product a b iha ihb => simp only [DoubleCov.call, iha hc.1, ihb hc.2]
  | _ => simp only [DoubleCov.call, hdist]

/-- C134 is false of polynomials: the linear covariance with the default sigma multiplies the variance with one feature
and then with the other, which depends on the order. The features are the doubles next to 1/9 and 17/9. -/
theorem C134_symmetric_false (r : Rounding) (lib : MathFunctions) (h0 : ∀ x, lib.pow x 0 = 1) (h1 : ∀ x, lib.pow x 1 = x) :
    ∃ x y : ℝ, IsDouble x ∧ IsDouble y ∧
      (DoubleCov.polynomial [0, 100]).call r lib x y ≠ (DoubleCov.polynomial [0, 100]).call r lib y x := by
  have hd : IsDouble (10000 : ℝ) := by simpa using isDouble_nat 10000 (by norm_num)
  have hval : ∀ x y : ℝ, (DoubleCov.polynomial [0, 100]).call r lib x y = r.fl (r.fl (10000 * x) * y) := by
    intro x y
    simp only [DoubleCov.call, Rounding.polynomialCall, List.zipIdx_cons, List.zipIdx_nil, List.foldl_cons, List.foldl_nil]
    norm_num [h0, h1, r.of_double isDouble_zero, r.of_double hd, r.of_double (r.isDouble _)]
  refine ⟨8006399337547548 * 2⁻¹ ^ 56, 8506799296144270 * 2⁻¹ ^ 52, ⟨8006399337547548, -56, by norm_num, by norm_num⟩,
    ⟨8506799296144270, -52, by norm_num, by norm_num⟩, ?_⟩
  rw [hval, hval]
  rw [r.eq_of_close (x := 10000 * (8006399337547548 * 2⁻¹ ^ 56)) 10 4886718345671111 (by norm_num) (by norm_num) (by norm_num [abs_lt]),
    r.eq_of_close (x := 10000 * (8506799296144270 * 2⁻¹ ^ 52)) 14 5192138242275555 (by norm_num) (by norm_num) (by norm_num [abs_lt]),
    r.eq_of_close (x := _ * (8506799296144270 * 2⁻¹ ^ 52)) 11 4615233993133827 (by norm_num) (by norm_num) (by norm_num [abs_lt]),
    r.eq_of_close (x := _ * (8006399337547548 * 2⁻¹ ^ 56)) 11 4615233993133826 (by norm_num) (by norm_num) (by norm_num [abs_lt])]
  norm_num

/-- A grid of five points from 0 to 1 meets the hypotheses of `C134_grid_partial`; a product of a sum and a radial function
those of `C134_symmetric_partial`; and a half is a double for `C134_angular`. -/
example : IsDouble 0 ∧ (0 : ℝ) ≤ 1 ∧ 2 ≤ 5 ∧ 5 ≤ 2 ^ 52 ∧ IsDouble (1 / 2) ∧
    (DoubleCov.product (.sum (.constant 1) (.nugget 1)) (.matern52 1 2)).NoPolynomial :=
  ⟨isDouble_zero, by norm_num, by norm_num, by norm_num, ⟨1, -1, by norm_num, by norm_num⟩, ⟨trivial, trivial⟩, trivial⟩

end Albatross
