import Verif.EigenUtils
import Verif.Bures
import Verif.UtilsProps

/-! # C84: stacking matrices and the truncated solve -/

namespace Albatross

open Matrix

/-! ## vertical_stack -/

theorem stackRows_ok {b : Build} {cols : Nat} :
    ∀ (blocks : List DMat) (r : Nat), (∀ m ∈ blocks, m.cols = cols) →
      blocks.foldlM (fun rows block => do
        albatrossAssert b (decide (block.cols = cols))
        pure (rows + block.rows)) r = (.ok (r + (blocks.map DMat.rows).sum) : Outcome Nat) := by
  intro blocks
  induction blocks with
  | nil => intro r _; rfl
  | cons m ms ih =>
    intro r h
    rw [List.foldlM_cons]
    have hm := h m (by simp)
    simp only [hm, decide_true, albatrossAssert_true, except_ok_bind]
    refine (ih _ fun q hq => h q (by simp [hq])).trans ?_
    simp [Nat.add_assoc]

theorem stackCopy_fold {b : Build} {cols : Nat} :
    ∀ (blocks : List DMat) (out : DMat) (row : Nat), (∀ m ∈ blocks, m.cols = cols) → out.cols = cols →
      row + (blocks.map DMat.rows).sum ≤ out.rows →
      ∃ res, blocks.foldlM (stackCopy b cols) (out, row) = .ok (res, row + (blocks.map DMat.rows).sum) ∧
        res.rows = out.rows ∧ res.cols = cols ∧
        (∀ i j, i < row → res.get i j = out.get i j) ∧
        ∀ (pre post : List DMat) (m : DMat), blocks = pre ++ m :: post → ∀ i j, i < m.rows → j < cols →
          res.get (row + (pre.map DMat.rows).sum + i) j = m.get i j := by
  intro blocks
  induction blocks with
  | nil =>
    intro out row _ hc _
    exact ⟨out, rfl, rfl, hc, fun _ _ _ => rfl, fun pre post m h => by simp at h⟩
  | cons b0 bs ih =>
    intro out row hcols hc hr
    have h0 := hcols b0 (by simp)
    rw [List.map_cons, List.sum_cons] at hr
    have hstep : stackCopy b cols (out, row) b0 = .ok (⟨out.rows, out.cols, fun a c =>
        if h : (row ≤ a ∧ a < row + b0.rows) ∧ 0 ≤ c ∧ c < 0 + cols then
          (of fun (i : Fin b0.rows) (j : Fin cols) => b0.get i j) ⟨a - row, by omega⟩ ⟨c - 0, by omega⟩
        else out.get a c⟩, row + b0.rows) := by
      unfold stackCopy
      simp only [h0, decide_true]
      rw [show eigenAssert b true = .ok () by cases b <;> rfl]
      simp only [except_ok_bind]
      unfold DMat.setBlock
      rw [if_pos ⟨by omega, by omega⟩]
      rfl
    obtain ⟨res, e, r1, r2, r3, r4⟩ := ih ⟨out.rows, out.cols, fun a c =>
        if h : (row ≤ a ∧ a < row + b0.rows) ∧ 0 ≤ c ∧ c < 0 + cols then
          (of fun (i : Fin b0.rows) (j : Fin cols) => b0.get i j) ⟨a - row, by omega⟩ ⟨c - 0, by omega⟩
        else out.get a c⟩ (row + b0.rows) (fun q hq => hcols q (by simp [hq])) hc (by simpa using by omega)
    refine ⟨res, ?_, r1, r2, fun i j hi => ?_, fun pre post m hsplit i j hi hj => ?_⟩
    · rw [List.foldlM_cons, hstep]
      simp only [except_ok_bind]
      rw [e, List.map_cons, List.sum_cons, Nat.add_assoc]
    · rw [r3 i j (by omega)]
      simp only
      rw [dif_neg (by omega)]
    · cases pre with
      | nil =>
        simp only [List.nil_append, List.cons.injEq] at hsplit
        obtain ⟨rfl, rfl⟩ := hsplit
        rw [List.map_nil, List.sum_nil, Nat.add_zero, r3 _ j (by omega)]
        simp only
        rw [dif_pos (by omega)]
        simp
      | cons p ps =>
        simp only [List.cons_append, List.cons.injEq] at hsplit
        obtain ⟨rfl, rfl⟩ := hsplit
        rw [List.map_cons, List.sum_cons, ← Nat.add_assoc]
        exact r4 ps post m rfl i j hi hj

/-- Blocks of equal width are stacked in the given order: the rows add up, and row `i` of a block is the row of the
output reached after the rows of all the blocks before it. -/
theorem C84_vertical_stack {b : Build} {first : DMat} {rest : List DMat} (h : ∀ m ∈ rest, m.cols = first.cols) :
    ∃ res, verticalStack b (first :: rest) = .ok res ∧
      res.rows = ((first :: rest).map DMat.rows).sum ∧ res.cols = first.cols ∧
      ∀ (pre post : List DMat) (m : DMat), first :: rest = pre ++ m :: post →
        ∀ i j, i < m.rows → j < first.cols → res.get ((pre.map DMat.rows).sum + i) j = m.get i j := by
  have hall : ∀ m ∈ first :: rest, m.cols = first.cols := by
    intro m hm
    rcases List.mem_cons.mp hm with rfl | hm
    · rfl
    · exact h m hm
  obtain ⟨res, e, r1, r2, -, r4⟩ := stackCopy_fold (b := b) (first :: rest)
    ⟨((first :: rest).map DMat.rows).sum, first.cols, fun _ _ => 0⟩ 0 hall rfl (by simp)
  refine ⟨res, ?_, r1, r2, fun pre post m hs i j hi hj => ?_⟩
  · unfold verticalStack
    rw [vecGet_lt (show 0 < (first :: rest).length by simp)]
    simp only [List.getElem_cons_zero, except_ok_bind]
    unfold stackRows
    rw [stackRows_ok _ _ hall]
    simp only [except_ok_bind, Nat.zero_add]
    rw [e]
    rfl
  · have := r4 pre post m hs i j hi hj
    rwa [Nat.zero_add] at this

/-- An empty list is undefined behaviour; a block of another width is caught in debug builds and undefined
behaviour otherwise. -/
theorem C84_vertical_stack_errors :
    (∀ b, verticalStack b [] = .error .ub) ∧
      ∀ (first : DMat) (rest : List DMat), (∃ m ∈ rest, m.cols ≠ first.cols) →
        verticalStack .debug (first :: rest) = .error .assertFail ∧
          verticalStack .ndebug (first :: rest) = .error .ub := by
  refine ⟨fun b => by cases b <;> rfl, fun first rest hbad => ?_⟩
  have hrows : ∀ (cols : Nat) (l : List DMat) (r : Nat), (∃ m ∈ l, m.cols ≠ cols) →
      l.foldlM (fun rows block => do
        albatrossAssert .debug (decide (block.cols = cols))
        pure (rows + block.rows)) r = (.error .assertFail : Outcome Nat) := by
    intro cols l
    induction l with
    | nil => intro r h; simp at h
    | cons m ms ih =>
      intro r h
      rw [List.foldlM_cons]
      by_cases hm : m.cols = cols
      · simp only [hm, decide_true, albatrossAssert_true, except_ok_bind, except_pure]
        apply ih
        obtain ⟨q, hq, hne⟩ := h
        rcases List.mem_cons.mp hq with rfl | hq
        · exact absurd hm hne
        · exact ⟨q, hq, hne⟩
      · simp only [hm, decide_false, assert_debug_false, except_error_bind]
  have hrows2 : ∀ (cols : Nat) (l : List DMat) (r : Nat),
      l.foldlM (fun rows block => do
        albatrossAssert .ndebug (decide (block.cols = cols))
        pure (rows + block.rows)) r = (.ok (r + (l.map DMat.rows).sum) : Outcome Nat) := by
    intro cols l
    induction l with
    | nil => intro r; rfl
    | cons m ms ih =>
      intro r
      rw [List.foldlM_cons]
      rw [show (albatrossAssert .ndebug (decide (m.cols = cols))) = .ok () from assert_ndebug _]
      refine (ih (r + m.rows)).trans ?_
      simp [Nat.add_assoc]
  have hcopy : ∀ (cols : Nat) (l : List DMat) (out : DMat × Nat), (∃ m ∈ l, m.cols ≠ cols) →
      l.foldlM (stackCopy .ndebug cols) out = (.error .ub : Outcome (DMat × Nat)) := by
    intro cols l
    induction l with
    | nil => intro r h; simp at h
    | cons m ms ih =>
      intro out h
      rw [List.foldlM_cons]
      by_cases hm : m.cols = cols
      · unfold stackCopy
        simp only [hm, decide_true]
        rw [show eigenAssert .ndebug true = .ok () from rfl]
        simp only [except_ok_bind]
        unfold DMat.setBlock
        split_ifs
        · simp only [except_ok_bind, except_pure]
          apply ih
          obtain ⟨q, hq, hne⟩ := h
          rcases List.mem_cons.mp hq with rfl | hq
          · exact absurd hm hne
          · exact ⟨q, hq, hne⟩
        · rfl
      · unfold stackCopy
        simp only [hm, decide_false]
        rfl
  have hbad' : ∃ m ∈ first :: rest, m.cols ≠ first.cols := by
    obtain ⟨m, hm, hne⟩ := hbad; exact ⟨m, by simp [hm], hne⟩
  constructor
  · unfold verticalStack
    rw [vecGet_lt (show 0 < (first :: rest).length by simp)]
    simp only [List.getElem_cons_zero, except_ok_bind]
    unfold stackRows
    rw [hrows _ _ _ hbad']
    rfl
  · unfold verticalStack
    rw [vecGet_lt (show 0 < (first :: rest).length by simp)]
    simp only [List.getElem_cons_zero, except_ok_bind]
    unfold stackRows
    rw [hrows2]
    simp only [except_ok_bind]
    rw [hcopy _ _ _ hbad']
    rfl

/-! ## truncated_psd_solve -/

theorem sum_getElem_list {n : Nat} (l : List (Fin n)) (g : Fin n → ℝ) :
    ∑ k : Fin l.length, g l[k] = (l.map g).sum := by
  rw [← List.sum_ofFn]
  congr 1
  exact List.ofFn_getElem_eq_map l g

theorem sum_kept {n : Nat} (values : Fin n → ℝ) (t : ℝ) (g : Fin n → ℝ) :
    ∑ k : Fin (keptIndices values t).length, g (keptIndices values t)[k] =
      ∑ i, if t ≤ values i then g i else 0 := by
  rw [sum_getElem_list]
  unfold keptIndices
  rw [← Finset.sum_filter, ← List.sum_toFinset g ((List.nodup_finRange n).filter _)]
  congr 1
  ext i
  simp

/-- The matrix the code multiplies with. -/
noncomputable def truncatedInverse {n : Nat} (evd : EigenDecomp n) (t : ℝ) : Matrix (Fin n) (Fin n) ℝ :=
  evd.vectors * diagonal (fun i => if t ≤ evd.values i then 1 / evd.values i else 0) * evd.vectorsᵀ

theorem truncatedPsdSolve_eq {n m : Nat} (evd : EigenDecomp n) (rhs : Matrix (Fin n) (Fin m) ℝ) {t : ℝ} (ht : 0 < t) :
    truncatedPsdSolve evd rhs t = some (truncatedInverse evd t * rhs) := by
  unfold truncatedPsdSolve
  simp only
  rw [if_neg]
  · congr 2
    ext i j
    unfold truncatedInverse
    rw [mul_apply, mul_apply]
    simp only [mul_diagonal, transpose_apply, of_apply]
    refine (sum_kept evd.values t fun q => evd.vectors i q * (1 / evd.values q) * evd.vectors j q).trans ?_
    refine Finset.sum_congr rfl fun q _ => ?_
    split_ifs <;> simp
  · rintro ⟨k, hk⟩
    have hmem : (keptIndices evd.values t)[k] ∈ keptIndices evd.values t := List.getElem_mem _
    unfold keptIndices at hmem
    simp only [List.mem_filter, List.mem_finRange, true_and, decide_eq_true_eq] at hmem
    have hk' : evd.values (keptIndices evd.values t)[k] = 0 := hk
    unfold keptIndices at hk'
    linarith

theorem orth_sandwich {n : Nat} {V : Matrix (Fin n) (Fin n) ℝ} (h : Vᵀ * V = 1) (d e : Fin n → ℝ) :
    (V * diagonal d * Vᵀ) * (V * diagonal e * Vᵀ) = V * diagonal (fun i => d i * e i) * Vᵀ := by
  calc (V * diagonal d * Vᵀ) * (V * diagonal e * Vᵀ) = V * diagonal d * (Vᵀ * V) * diagonal e * Vᵀ := by
        simp only [Matrix.mul_assoc]
    _ = _ := by rw [h, Matrix.mul_one, Matrix.mul_assoc V, diagonal_mul_diagonal]

/-- With every eigenvalue above the (positive) threshold the solve is exact. -/
theorem C84_solve_exact {n m : Nat} {A : Matrix (Fin n) (Fin n) ℝ} {evd : EigenDecomp n} (h : evd.Of A)
    (rhs : Matrix (Fin n) (Fin m) ℝ) {t : ℝ} (ht : 0 < t) (hall : ∀ i, t ≤ evd.values i) :
    ∃ x, truncatedPsdSolve evd rhs t = some x ∧ A * x = rhs ∧ ∀ y, A * y = rhs → y = x := by
  have h1 : A * truncatedInverse evd t = 1 := by
    rw [h.factor]; unfold truncatedInverse
    rw [orth_sandwich h.orthogonal]
    have : (fun i => evd.values i * (if t ≤ evd.values i then 1 / evd.values i else 0)) = fun _ => 1 := by
      funext i
      rw [if_pos (hall i)]
      have : evd.values i ≠ 0 := by have := hall i; linarith
      field_simp
    rw [this, diagonal_one, Matrix.mul_one, Bures.orth_comm h.orthogonal]
  refine ⟨_, truncatedPsdSolve_eq evd rhs ht, ?_, ?_⟩
  · rw [← Matrix.mul_assoc, h1, Matrix.one_mul]
  · rintro y rfl
    rw [← Matrix.mul_assoc, _root_.mul_eq_one_comm.mp h1, Matrix.one_mul]

/-- The squared length of a vector. -/
def sqLength {n : Nat} (x : Fin n → ℝ) : ℝ := ∑ i, x i ^ 2

theorem sqLength_eq {n : Nat} (x : Fin n → ℝ) : sqLength x = x ⬝ᵥ x :=
  Finset.sum_congr rfl fun _ _ => pow_two _

theorem sqLength_orth {n : Nat} {V : Matrix (Fin n) (Fin n) ℝ} (h : Vᵀ * V = 1) (x : Fin n → ℝ) :
    sqLength (V *ᵥ x) = sqLength x := by
  rw [sqLength_eq, sqLength_eq, dotProduct_mulVec, vecMul_mulVec, h, vecMul_one]

theorem col_mul {n m : Nat} (B : Matrix (Fin n) (Fin n) ℝ) (R : Matrix (Fin n) (Fin m) ℝ) (j : Fin m) :
    (B * R).col j = B *ᵥ R.col j := by
  ext i; rfl

/-- For a positive semidefinite matrix without eigenvalues strictly between zero and the threshold every column of
the result is the least squares solution of smallest length. -/
theorem C84_solve_least_squares {n m : Nat} {A : Matrix (Fin n) (Fin n) ℝ} {evd : EigenDecomp n} (h : evd.Of A)
    (rhs : Matrix (Fin n) (Fin m) ℝ) {t : ℝ} (ht : 0 < t) (hgap : ∀ i, evd.values i = 0 ∨ t ≤ evd.values i) :
    ∃ x, truncatedPsdSolve evd rhs t = some x ∧ ∀ (j : Fin m) (y : Fin n → ℝ),
      sqLength (A *ᵥ x.col j - rhs.col j) ≤ sqLength (A *ᵥ y - rhs.col j) ∧
        (sqLength (A *ᵥ y - rhs.col j) = sqLength (A *ᵥ x.col j - rhs.col j) →
          y = x.col j ∨ sqLength (x.col j) < sqLength y) := by
  refine ⟨_, truncatedPsdSolve_eq evd rhs ht, fun j y => ?_⟩
  set V := evd.vectors with hVdef
  set d := evd.values with hddef
  have hV : Vᵀ * V = 1 := h.orthogonal
  have hV' : V * Vᵀ = 1 := Bures.orth_comm hV
  -- coordinates along the eigenvectors
  set r : Fin n → ℝ := Vᵀ *ᵥ rhs.col j with hr
  set z : Fin n → ℝ := Vᵀ *ᵥ y with hz
  have hrhs : rhs.col j = V *ᵥ r := by rw [hr, mulVec_mulVec, hV', one_mulVec]
  have hy : y = V *ᵥ z := by rw [hz, mulVec_mulVec, hV', one_mulVec]
  set g : Fin n → ℝ := fun i => if t ≤ d i then 1 / d i else 0 with hg
  have hx : (truncatedInverse evd t * rhs).col j = V *ᵥ (fun i => g i * r i) := by
    rw [col_mul]; unfold truncatedInverse
    rw [← mulVec_mulVec, ← mulVec_mulVec]
    congr 1
    funext i
    rw [mulVec_diagonal]
  have hA : ∀ w : Fin n → ℝ, A *ᵥ (V *ᵥ w) = V *ᵥ (fun i => d i * w i) := by
    intro w
    rw [h.factor, ← mulVec_mulVec, ← mulVec_mulVec, mulVec_mulVec w, hV, one_mulVec]
    congr 1
    funext i
    rw [mulVec_diagonal]
  have e1 : ∀ w : Fin n → ℝ, sqLength (A *ᵥ (V *ᵥ w) - V *ᵥ r) = ∑ i, (d i * w i - r i) ^ 2 := by
    intro w
    rw [hA, ← mulVec_sub, sqLength_orth hV]
    rfl
  rw [hx, hrhs, hy, e1, e1, sqLength_orth hV, sqLength_orth hV]
  have key : ∀ i, (d i * (g i * r i) - r i) ^ 2 ≤ (d i * z i - r i) ^ 2 := by
    intro i
    rcases hgap i with h0 | h1
    · rw [h0]; simp
    · have hne : d i ≠ 0 := by have := h1; linarith
      have : d i * (g i * r i) - r i = 0 := by
        simp only [hg, if_pos h1]; field_simp; ring
      rw [this, zero_pow two_ne_zero]; exact sq_nonneg _
  refine ⟨Finset.sum_le_sum fun i _ => key i, fun heq => ?_⟩
  have hall : ∀ i, (d i * (g i * r i) - r i) ^ 2 = (d i * z i - r i) ^ 2 := by
    intro i
    exact (Finset.sum_eq_sum_iff_of_le fun i _ => key i).mp heq.symm i (Finset.mem_univ i)
  have hz2 : ∀ i, t ≤ d i → z i = g i * r i := by
    intro i h1
    have hne : d i ≠ 0 := by linarith
    have h0 : d i * (g i * r i) - r i = 0 := by
      simp only [hg, if_pos h1]; field_simp; ring
    have := hall i
    rw [h0] at this
    have h2 : d i * z i - r i = 0 := by
      have : (d i * z i - r i) ^ 2 = 0 := by rw [← this]; norm_num
      exact pow_eq_zero_iff (two_ne_zero) |>.mp this
    have : d i * z i = d i * (g i * r i) := by linarith
    exact mul_left_cancel₀ hne this
  have hg0 : ∀ i, ¬ t ≤ d i → g i * r i = 0 := by
    intro i h1; simp only [hg, if_neg h1, zero_mul]
  by_cases hzeq : z = fun i => g i * r i
  · left; rw [hzeq]
  · right
    unfold sqLength
    have hle : ∀ i, (g i * r i) ^ 2 ≤ z i ^ 2 := by
      intro i
      by_cases h1 : t ≤ d i
      · rw [hz2 i h1]
      · rw [hg0 i h1, zero_pow two_ne_zero]; exact sq_nonneg _
    obtain ⟨i, hi⟩ := Function.ne_iff.mp hzeq
    refine Finset.sum_lt_sum (fun i _ => hle i) ⟨i, Finset.mem_univ i, ?_⟩
    by_cases h1 : t ≤ d i
    · exact absurd (hz2 i h1) hi
    · show (g i * r i) ^ 2 < z i ^ 2
      rw [hg0 i h1]
      have : z i ≠ 0 := by
        intro h0; apply hi; rw [h0]; exact (hg0 i h1).symm
      have : 0 < z i ^ 2 := by positivity
      simpa using this

/-- For every positive semidefinite matrix and every right hand side in its range the residual is smaller than
the threshold times the length of any solution. -/
theorem C84_solve_residual {n m : Nat} {A : Matrix (Fin n) (Fin n) ℝ} {evd : EigenDecomp n} (h : evd.Of A)
    (hA : A.PosSemidef) (y : Matrix (Fin n) (Fin m) ℝ) {t : ℝ} (ht : 0 < t) :
    ∃ x, truncatedPsdSolve evd (A * y) t = some x ∧
      ∀ j : Fin m, sqLength (A *ᵥ x.col j - (A * y).col j) ≤ t ^ 2 * sqLength (y.col j) := by
  refine ⟨_, truncatedPsdSolve_eq evd _ ht, fun j => ?_⟩
  set V := evd.vectors with hVdef
  set d := evd.values with hddef
  have hV : Vᵀ * V = 1 := h.orthogonal
  have hV' : V * Vᵀ = 1 := Bures.orth_comm hV
  have hd : ∀ i, 0 ≤ d i := Bures.eigen_nonneg hA hV h.factor
  set z : Fin n → ℝ := Vᵀ *ᵥ y.col j with hz
  have hy : y.col j = V *ᵥ z := by rw [hz, mulVec_mulVec, hV', one_mulVec]
  have hAw : ∀ w : Fin n → ℝ, A *ᵥ (V *ᵥ w) = V *ᵥ (fun i => d i * w i) := by
    intro w
    rw [h.factor, ← mulVec_mulVec, ← mulVec_mulVec, mulVec_mulVec w, hV, one_mulVec]
    congr 1
    funext i
    rw [mulVec_diagonal]
  have hTw : ∀ w : Fin n → ℝ, truncatedInverse evd t *ᵥ (V *ᵥ w) =
      V *ᵥ (fun i => (if t ≤ d i then 1 / d i else 0) * w i) := by
    intro w
    unfold truncatedInverse
    rw [← mulVec_mulVec, ← mulVec_mulVec, mulVec_mulVec w, hV, one_mulVec]
    congr 1
    funext i
    rw [mulVec_diagonal]
  rw [col_mul, col_mul, hy, hAw, hTw, hAw, ← mulVec_sub, sqLength_orth hV, sqLength_orth hV]
  unfold sqLength
  rw [Finset.mul_sum]
  refine Finset.sum_le_sum fun i _ => ?_
  simp only [Pi.sub_apply]
  split_ifs with h1
  · have : d i ≠ 0 := by linarith
    have : d i * (1 / d i * (d i * z i)) - d i * z i = 0 := by field_simp; ring
    rw [this]
    have : 0 ≤ t ^ 2 * z i ^ 2 := by positivity
    simpa using this
  · have h2 := lt_of_not_ge h1
    have h3 : d i ^ 2 ≤ t ^ 2 := pow_le_pow_left₀ (hd i) h2.le 2
    have : 0 ≤ z i ^ 2 := by positivity
    nlinarith

/-- The result depends on the matrix only, not on which eigenvectors the solver happened to return. -/
theorem C84_solve_unique {n m : Nat} {A : Matrix (Fin n) (Fin n) ℝ} {evd evd' : EigenDecomp n} (h : evd.Of A)
    (h' : evd'.Of A) (rhs : Matrix (Fin n) (Fin m) ℝ) {t : ℝ} (ht : 0 < t) :
    truncatedPsdSolve evd rhs t = truncatedPsdSolve evd' rhs t := by
  rw [truncatedPsdSolve_eq evd rhs ht, truncatedPsdSolve_eq evd' rhs ht]
  congr 2
  unfold truncatedInverse
  set V := evd.vectors
  set V' := evd'.vectors
  set f : ℝ → ℝ := fun x => if t ≤ x then 1 / x else 0 with hf
  show V * diagonal (fun i => f (evd.values i)) * Vᵀ = V' * diagonal (fun i => f (evd'.values i)) * V'ᵀ
  have hV : Vᵀ * V = 1 := h.orthogonal
  have hV' : V'ᵀ * V' = 1 := h'.orthogonal
  set W := Vᵀ * V' with hW
  have hWd : diagonal evd.values * W = W * diagonal evd'.values := by
    have hA := h.factor.symm.trans h'.factor
    calc diagonal evd.values * (Vᵀ * V') = Vᵀ * V * diagonal evd.values * (Vᵀ * V') := by rw [hV, Matrix.one_mul]
      _ = Vᵀ * (V * diagonal evd.values * Vᵀ) * V' := by simp only [Matrix.mul_assoc]
      _ = Vᵀ * (V' * diagonal evd'.values * V'ᵀ) * V' := by rw [hA]
      _ = Vᵀ * V' * diagonal evd'.values * (V'ᵀ * V') := by simp only [Matrix.mul_assoc]
      _ = _ := by rw [hV', Matrix.mul_one]
  have hWf : diagonal (fun i => f (evd.values i)) * W = W * diagonal (fun i => f (evd'.values i)) := by
    ext i j
    have := congrFun (congrFun hWd i) j
    rw [diagonal_mul, mul_diagonal] at this ⊢
    by_cases hw : W i j = 0
    · rw [hw]; ring
    · have : evd.values i = evd'.values j := by
        have h2 : evd.values i * W i j = evd'.values j * W i j := by rw [this]; ring
        exact mul_right_cancel₀ hw h2
      rw [this]; ring
  have hVV : V * Vᵀ = 1 := Bures.orth_comm hV
  have hVV' : V' * V'ᵀ = 1 := Bures.orth_comm hV'
  calc V * diagonal (fun i => f (evd.values i)) * Vᵀ
      = V * (diagonal (fun i => f (evd.values i)) * W) * V'ᵀ := by
        rw [hW]
        have : V * (diagonal (fun i => f (evd.values i)) * (Vᵀ * V')) * V'ᵀ =
          V * diagonal (fun i => f (evd.values i)) * Vᵀ * (V' * V'ᵀ) := by simp only [Matrix.mul_assoc]
        rw [this, hVV', Matrix.mul_one]
    _ = V * (W * diagonal (fun i => f (evd'.values i))) * V'ᵀ := by rw [hWf]
    _ = V * Vᵀ * V' * diagonal (fun i => f (evd'.values i)) * V'ᵀ := by rw [hW]; simp only [Matrix.mul_assoc]
    _ = _ := by rw [hVV, Matrix.one_mul]

/-! ## Examples -/

example : ∃ res, verticalStack .debug [⟨1, 2, fun _ j => j⟩, ⟨2, 2, fun i j => 10 * i + j⟩] = .ok res ∧
    res.rows = 3 ∧ res.get 2 1 = 11 := by
  obtain ⟨res, e, r, -, h⟩ := C84_vertical_stack (b := .debug) (first := ⟨1, 2, fun _ j => j⟩)
    (rest := [⟨2, 2, fun i j => 10 * i + j⟩]) (by simp)
  refine ⟨res, e, by simpa using r, ?_⟩
  have := h [⟨1, 2, fun _ j => j⟩] [] ⟨2, 2, fun i j => 10 * i + j⟩ rfl 1 1 (by decide) (by decide)
  norm_num at this
  exact this

example : ∃ x : Matrix (Fin 2) (Fin 1) ℝ,
    truncatedPsdSolve (⟨![0, 2], 1⟩ : EigenDecomp 2) !![3; 4] (1 / 2) = some x ∧
      ∀ (j : Fin 1) (y : Fin 2 → ℝ),
        sqLength ((diagonal ![0, 2] : Matrix (Fin 2) (Fin 2) ℝ) *ᵥ x.col j - (!![3; 4] : Matrix (Fin 2) (Fin 1) ℝ).col j) ≤
          sqLength ((diagonal ![0, 2] : Matrix (Fin 2) (Fin 2) ℝ) *ᵥ y - (!![3; 4] : Matrix (Fin 2) (Fin 1) ℝ).col j) := by
  obtain ⟨x, e, hx⟩ := C84_solve_least_squares (A := diagonal ![0, 2]) (evd := ⟨![0, 2], 1⟩)
    ⟨by simp, by simp⟩ (!![3; 4] : Matrix (Fin 2) (Fin 1) ℝ) (t := 1 / 2) (by norm_num)
    (by intro i; fin_cases i <;> norm_num)
  exact ⟨x, e, fun j y => (hx j y).1⟩

end Albatross
