import Verif.BlockRcond
import Verif.BlockDiagonalProps

/-! # C141: the condition number of a block diagonal decomposition -/

namespace Albatross

open Matrix

/-! ## Specification -/

/-- `c` is the norm of `A` induced by the sum of absolute values. -/
def IsOpNorm1 {ι : Type} [Fintype ι] (A : Matrix ι ι ℝ) (c : ℝ) : Prop :=
  (∀ v, ∑ i, |(A *ᵥ v) i| ≤ c * ∑ i, |v i|) ∧ ∀ c', (∀ v, ∑ i, |(A *ᵥ v) i| ≤ c' * ∑ i, |v i|) → c ≤ c'

/-! ## Columns -/

/-- The absolute sum of a column. -/
def colSum {ι : Type} [Fintype ι] (A : Matrix ι ι ℝ) (j : ι) : ℝ := ∑ i, |A i j|

theorem colSum_nonneg {ι : Type} [Fintype ι] (A : Matrix ι ι ℝ) (j : ι) : 0 ≤ colSum A j :=
  Finset.sum_nonneg fun _ _ => abs_nonneg _

/-- The largest absolute column sum is the induced norm. -/
theorem isOpNorm1_of_columns {ι : Type} [Fintype ι] [DecidableEq ι] {A : Matrix ι ι ℝ} {m : ℝ}
    (h1 : ∀ j, colSum A j ≤ m) (h2 : ∃ j, colSum A j = m) : IsOpNorm1 A m := by
  constructor
  · intro v
    calc ∑ i, |(A *ᵥ v) i| ≤ ∑ i, ∑ j, |A i j| * |v j| := by
          refine Finset.sum_le_sum fun i _ => (Finset.abs_sum_le_sum_abs _ _).trans (le_of_eq ?_)
          exact Finset.sum_congr rfl fun j _ => abs_mul _ _
      _ = ∑ j, colSum A j * |v j| := by
          rw [Finset.sum_comm]
          exact Finset.sum_congr rfl fun j _ => (Finset.sum_mul _ _ _).symm
      _ ≤ ∑ j, m * |v j| := Finset.sum_le_sum fun j _ => mul_le_mul_of_nonneg_right (h1 j) (abs_nonneg _)
      _ = m * ∑ j, |v j| := (Finset.mul_sum _ _ _).symm
  · intro c' hc
    obtain ⟨j, rfl⟩ := h2
    have := hc (Pi.single j 1)
    have e1 : ∑ i, |(Pi.single j 1 : ι → ℝ) i| = 1 := by
      rw [Finset.sum_eq_single j (fun i _ hi => by simp [hi]) (by simp)]
      simp
    rw [e1, mul_one] at this
    simpa [colSum, mulVec_single_one] using this

theorem foldl_largest_spec {α : Type} (f : α → ℝ) (l : List α) (s : ℝ) :
    s ≤ l.foldl (fun m a => if m < f a then f a else m) s ∧
    (∀ a ∈ l, f a ≤ l.foldl (fun m a => if m < f a then f a else m) s) ∧
    (l.foldl (fun m a => if m < f a then f a else m) s = s ∨
      ∃ a ∈ l, f a = l.foldl (fun m a => if m < f a then f a else m) s) := by
  induction l generalizing s with
  | nil => simp
  | cons a l ih =>
    rw [List.foldl_cons]
    obtain ⟨h1, h2, h3⟩ := ih (if s < f a then f a else s)
    have hs : s ≤ (if s < f a then f a else s) := by split_ifs with h <;> linarith
    have ha : f a ≤ (if s < f a then f a else s) := by split_ifs with h <;> linarith
    refine ⟨hs.trans h1, fun x hx => ?_, ?_⟩
    · rcases List.mem_cons.1 hx with rfl | hx
      · exact ha.trans h1
      · exact h2 x hx
    · rcases h3 with h3 | ⟨x, hx, h3⟩
      · rw [h3]
        split_ifs with h
        · exact .inr ⟨a, by simp, rfl⟩
        · exact .inl rfl
      · exact .inr ⟨x, List.mem_cons_of_mem _ hx, h3⟩

theorem ldltL1Norm_spec {d : Nat} {A : Matrix (Fin d) (Fin d) ℝ} (hA : Aᵀ = A) :
    0 ≤ ldltL1Norm A ∧ (∀ j, colSum A j ≤ ldltL1Norm A) ∧ (ldltL1Norm A = 0 ∨ ∃ j, colSum A j = ldltL1Norm A) := by
  have hc : ∀ col : Fin d, (∑ i, if col ≤ i then |A i col| else 0) + (∑ k, if k < col then |A col k| else 0) =
      colSum A col := by
    intro col
    rw [← Finset.sum_add_distrib]
    refine Finset.sum_congr rfl fun i _ => ?_
    have hs : A col i = A i col := congrFun (congrFun hA i) col
    by_cases h : col ≤ i
    · rw [if_pos h, if_neg (not_lt.2 h), add_zero]
    · rw [if_neg h, if_pos (not_le.1 h), zero_add, hs]
  have he : ldltL1Norm A = (List.finRange d).foldl (fun m a => if m < colSum A a then colSum A a else m) 0 := by
    unfold ldltL1Norm
    simp only [hc]
  obtain ⟨h1, h2, h3⟩ := foldl_largest_spec (colSum A) (List.finRange d) 0
  rw [he]
  refine ⟨h1, fun j => h2 j (List.mem_finRange j), ?_⟩
  rcases h3 with h3 | ⟨j, -, h3⟩
  · exact .inl h3
  · exact .inr ⟨j, h3⟩

theorem blockL1Norm_fin (norms : List ℝ) (s : ℝ) :
    norms.foldl (fun (l1 : Dbl) x => if l1 < .fin x then .fin x else l1) (.fin s) =
      .fin (norms.foldl (fun m a => if m < a then a else m) s) := by
  induction norms generalizing s with
  | nil => rfl
  | cons a l ih =>
    rw [List.foldl_cons, List.foldl_cons]
    have : (if Dbl.fin s < .fin a then Dbl.fin a else .fin s) = .fin (if s < a then a else s) := by
      simp only [Dbl.fin_lt]
      split_ifs <;> rfl
    rw [this, ih]

theorem blockL1Norm_spec (norms : List ℝ) (hne : norms ≠ []) :
    ∃ m, blockL1Norm norms = .fin m ∧ (∀ x ∈ norms, x ≤ m) ∧ m ∈ norms := by
  cases norms with
  | nil => exact absurd rfl hne
  | cons a l =>
    obtain ⟨h1, h2, h3⟩ := foldl_largest_spec (fun x : ℝ => x) l a
    refine ⟨l.foldl (fun m a => if m < a then a else m) a, ?_, ?_, ?_⟩
    · unfold blockL1Norm
      rw [List.foldl_cons, if_pos (by exact trivial), blockL1Norm_fin]
    · intro x hx
      rcases List.mem_cons.1 hx with rfl | hx
      · exact h1
      · exact h2 x hx
    · rcases h3 with h3 | ⟨x, hx, h3⟩
      · rw [h3]; simp
      · rw [← h3]; exact List.mem_cons_of_mem _ hx

theorem colSum_stack_inl (b : SqBlock) (bs : List SqBlock) (k : Fin b.dim) :
    colSum (denseSpec (b :: bs)) (stackEquiv SqBlock.dim b bs (.inl k)) = colSum b.mat k := by
  unfold colSum
  rw [← (stackEquiv SqBlock.dim b bs).sum_comp, Fintype.sum_sum_type]
  simp [denseSpec, blockDiagSpec]

theorem colSum_stack_inr (b : SqBlock) (bs : List SqBlock) (k : Fin (stackedDim SqBlock.dim bs)) :
    colSum (denseSpec (b :: bs)) (stackEquiv SqBlock.dim b bs (.inr k)) = colSum (denseSpec bs) k := by
  unfold colSum
  rw [← (stackEquiv SqBlock.dim b bs).sum_comp, Fintype.sum_sum_type]
  simp [denseSpec, blockDiagSpec]

theorem denseSpec_columns (bs : List SqBlock) :
    (∀ j, ∃ b ∈ bs, ∃ k, colSum (denseSpec bs) j = colSum b.mat k) ∧
    ∀ b ∈ bs, ∀ k, ∃ j, colSum (denseSpec bs) j = colSum b.mat k := by
  induction bs with
  | nil => exact ⟨fun j => j.elim0, by simp⟩
  | cons b bs ih =>
    constructor
    · intro j
      obtain ⟨s, rfl⟩ := (stackEquiv SqBlock.dim b bs).surjective j
      rcases s with k | k
      · exact ⟨b, by simp, k, colSum_stack_inl b bs k⟩
      · obtain ⟨c, hc, l, h⟩ := ih.1 k
        exact ⟨c, List.mem_cons_of_mem _ hc, l, (colSum_stack_inr b bs k).trans h⟩
    · intro c hc k
      rcases List.mem_cons.1 hc with rfl | hc
      · exact ⟨_, colSum_stack_inl c bs k⟩
      · obtain ⟨j, hj⟩ := ih.2 c hc k
        exact ⟨_, (colSum_stack_inr b bs j).trans hj⟩

/-! ## C141 -/

/-- The largest norm of the blocks is the norm of the whole matrix. -/
theorem C141_norm (bs : List SqBlock) (hs : ∀ x ∈ bs, x.matᵀ = x.mat) (hn : 0 < stackedDim SqBlock.dim bs) :
    ∃ m, blockL1Norm (bs.map fun x => ldltL1Norm x.mat) = .fin m ∧ IsOpNorm1 (denseSpec bs) m := by
  have hne : bs ≠ [] := by
    rintro rfl
    exact absurd hn (lt_irrefl 0)
  obtain ⟨m, h1, h2, h3⟩ := blockL1Norm_spec (bs.map fun x => ldltL1Norm x.mat) (by simpa using hne)
  refine ⟨m, h1, ?_⟩
  obtain ⟨hc1, hc2⟩ := denseSpec_columns bs
  have hle : ∀ j, colSum (denseSpec bs) j ≤ m := by
    intro j
    obtain ⟨b, hb, k, hk⟩ := hc1 j
    rw [hk]
    exact ((ldltL1Norm_spec (hs b hb)).2.1 k).trans (h2 _ (List.mem_map.2 ⟨b, hb, rfl⟩))
  refine isOpNorm1_of_columns hle ?_
  obtain ⟨b, hb, rfl⟩ := List.mem_map.1 h3
  rcases (ldltL1Norm_spec (hs b hb)).2.2 with h0 | ⟨k, hk⟩
  · refine ⟨⟨0, hn⟩, le_antisymm (hle _) ?_⟩
    rw [h0]
    exact colSum_nonneg _ _
  · obtain ⟨j, hj⟩ := hc2 b hb k
    exact ⟨j, hj.trans hk⟩

theorem denseSpec_det_unit (bs : List SqBlock) (hp : ∀ x ∈ bs, x.mat.PosDef) : IsUnit (denseSpec bs).det := by
  rw [denseSpec, blockDiagSpec_det, isUnit_iff_ne_zero]
  intro h
  obtain ⟨x, hx, h0⟩ := List.mem_map.1 (List.prod_eq_zero_iff.1 h)
  exact (hp x hx).det_pos.ne' h0

/-- `rcond` of the decomposition of positive definite blocks that have a row: a number between the true reciprocal of the condition number of the whole matrix and one, whichever right hand side of norm
one the estimate ends at. -/
theorem C141_rcond (b : Build) (uninit : Nat → Nat → ℝ) (ldlt : (d : Nat) → Matrix (Fin d) (Fin d) ℝ → Ldlt (Fin d))
    (bs : List SqBlock) (hf : ∀ x ∈ bs, (ldlt x.dim x.mat).Factors x.mat) (hp : ∀ x ∈ bs, x.mat.PosDef) (w : Nat → ℝ)
    (hw : ∑ i ∈ Finset.range (stackedDim SqBlock.dim bs), |w i| = 1) :
    ∃ r, blockRcond b uninit (blockLdlt ldlt bs) (bs.map fun x => ldltL1Norm x.mat) w = .ok (.fin r) ∧ 0 < r ∧ r ≤ 1 ∧
      ∀ N N', IsOpNorm1 (denseSpec bs) N → IsOpNorm1 (denseSpec bs)⁻¹ N' → 1 / (N * N') ≤ r := by
  have hn : 0 < stackedDim SqBlock.dim bs := by
    rcases Nat.eq_zero_or_pos (stackedDim SqBlock.dim bs) with h | h
    · rw [h] at hw
      simp at hw
    · exact h
  have hu := denseSpec_det_unit bs hp
  obtain ⟨m, hm, hop⟩ := C141_norm bs (fun x hx => by
    have := (hp x hx).isHermitian.eq
    rwa [conjTranspose_eq_transpose_of_trivial] at this) hn
  let wv : Fin (stackedDim SqBlock.dim bs) → ℝ := fun i => w i
  have hw1 : ∑ i, |wv i| = 1 := by
    rw [← hw, Finset.sum_range]
  let x := (denseSpec bs)⁻¹ *ᵥ wv
  have hAx : denseSpec bs *ᵥ x = wv := by
    show denseSpec bs *ᵥ ((denseSpec bs)⁻¹ *ᵥ wv) = wv
    rw [mulVec_mulVec, mul_nonsing_inv _ hu, one_mulVec]
  have hlow : ∀ N, IsOpNorm1 (denseSpec bs) N → 1 ≤ N * ∑ i, |x i| := by
    intro N hN
    have := hN.1 x
    rwa [hAx, hw1] at this
  have hhigh : ∀ N', IsOpNorm1 (denseSpec bs)⁻¹ N' → ∑ i, |x i| ≤ N' := by
    intro N' hN'
    have := hN'.1 wv
    rwa [hw1, mul_one] at this
  have hs0 : 0 ≤ ∑ i, |x i| := Finset.sum_nonneg fun _ _ => abs_nonneg _
  have hspos : 0 < ∑ i, |x i| := by
    rcases hs0.lt_or_eq with h | h
    · exact h
    · have := hlow m hop
      rw [← h] at this
      norm_num at this
  have hNpos : ∀ N, IsOpNorm1 (denseSpec bs) N → 0 < N := by
    intro N hN
    by_contra h
    have := mul_nonpos_of_nonpos_of_nonneg (not_lt.1 h) hs0
    linarith [hlow N hN]
  have hmpos := hNpos m hop
  unfold blockRcond
  rw [blockRows_ldlt, hm]
  simp only [if_neg hn.ne', Dbl.fin.injEq, if_neg hmpos.ne']
  by_cases h1 : stackedDim SqBlock.dim bs = 1
  · rw [if_pos h1]
    refine ⟨1, rfl, one_pos, le_rfl, fun N N' hN hN' => ?_⟩
    have h2 := hNpos N hN
    have h3 := hhigh N' hN'
    have h4 := hlow N hN
    have h5 : 1 ≤ N * N' := h4.trans (mul_le_mul_of_nonneg_left h3 h2.le)
    rw [div_le_one (by linarith)]
    exact h5
  · rw [if_neg h1]
    obtain ⟨out, ho, -, -, hget⟩ := C33_solve b uninit ldlt bs ⟨stackedDim SqBlock.dim bs, 1, fun i _ => w i⟩ hf hu rfl
    have hsum : ∑ i ∈ Finset.range (stackedDim SqBlock.dim bs), |out.get i 0| = ∑ i, |x i| := by
      rw [Finset.sum_range]
      refine Finset.sum_congr rfl fun i _ => ?_
      have := hget i (0 : Fin 1)
      have e : out.get i 0 = x i := by
        rw [show out.get i 0 = out.get i (0 : Fin 1).1 from rfl, this]
        rfl
      rw [e]
    rw [ho]
    simp only [except_ok_bind, hsum, if_neg hspos.ne', Dbl.fin_div hspos.ne', Dbl.fin_div hmpos.ne']
    refine ⟨1 / (∑ i, |x i|) / m, rfl, by positivity, ?_, fun N N' hN hN' => ?_⟩
    · rw [div_div, div_le_one (by positivity), mul_comm]
      exact hlow m hop
    · rw [div_div]
      refine one_div_le_one_div_of_le (by positivity) ?_
      rw [mul_comm (∑ i, |x i|) m]
      exact mul_le_mul (hop.2 N hN.1) (hhigh N' hN') hs0 (hNpos N hN).le

/-- Without rows it is infinity. -/
theorem C141_empty (b : Build) (uninit : Nat → Nat → ℝ) (ldlt : (d : Nat) → Matrix (Fin d) (Fin d) ℝ → Ldlt (Fin d))
    (bs : List SqBlock) (h0 : stackedDim SqBlock.dim bs = 0) (norms : List ℝ) (w : Nat → ℝ) :
    blockRcond b uninit (blockLdlt ldlt bs) norms w = .ok .pinf := by
  unfold blockRcond
  rw [blockRows_ldlt, h0]
  rfl

/-- Two blocks, and the mean of the unit vectors as the right hand side. -/
example : ∃ (ldlt : (d : Nat) → Matrix (Fin d) (Fin d) ℝ → Ldlt (Fin d)) (r : ℝ),
    blockRcond .debug (fun _ _ => 0) (blockLdlt ldlt [⟨1, !![1]⟩, ⟨2, !![4, 1; 1, 4]⟩])
      ([⟨1, !![1]⟩, ⟨2, !![4, 1; 1, 4]⟩].map fun x : SqBlock => ldltL1Norm x.mat) (fun _ => 1 / 3) = .ok (.fin r) ∧
    0 < r ∧ r ≤ 1 := by
  choose ldlt hl using fun d : Nat => exists_ldlt (Fin d)
  have hp : ∀ x ∈ [(⟨1, !![1]⟩ : SqBlock), ⟨2, !![4, 1; 1, 4]⟩], x.mat.PosDef := by
    intro x hx
    simp only [List.mem_cons, List.not_mem_nil, or_false] at hx
    rcases hx with rfl | rfl
    · have : (!![1] : Matrix (Fin 1) (Fin 1) ℝ) = 1 := by ext i j; fin_cases i; fin_cases j; rfl
      rw [this]
      exact Matrix.PosDef.one
    · refine Matrix.PosDef.of_dotProduct_mulVec_pos ?_ fun v hv => ?_
      · ext i j; fin_cases i <;> fin_cases j <;> rfl
      · have h : star v ⬝ᵥ (!![4, 1; 1, 4] *ᵥ v) = 3 * (v 0 ^ 2 + v 1 ^ 2) + (v 0 + v 1) ^ 2 := by
          simp [dotProduct, mulVec, Fin.sum_univ_two]
          ring
        rw [h]
        have : 0 < v 0 ^ 2 + v 1 ^ 2 := by
          by_contra h0
          apply hv
          have h1 : v 0 = 0 := by nlinarith [sq_nonneg (v 0), sq_nonneg (v 1)]
          have h2 : v 1 = 0 := by nlinarith [sq_nonneg (v 0), sq_nonneg (v 1)]
          ext i; fin_cases i
          · exact h1
          · exact h2
        nlinarith [sq_nonneg (v 0 + v 1)]
  obtain ⟨r, h1, h2, h3, -⟩ := C141_rcond .debug (fun _ _ => 0) ldlt [⟨1, !![1]⟩, ⟨2, !![4, 1; 1, 4]⟩]
    (fun x hx => hl x.dim x.mat (hp x hx)) hp (fun _ => 1 / 3) (by
      show ∑ i ∈ Finset.range 3, _ = _
      simp)
  exact ⟨ldlt, r, h1, h2, h3⟩

/-- No rows: no blocks, or only blocks without rows. -/
example (ldlt : (d : Nat) → Matrix (Fin d) (Fin d) ℝ → Ldlt (Fin d)) :
    blockRcond .debug (fun _ _ => 0) (blockLdlt ldlt [⟨0, 0⟩]) [0] (fun _ => 0) = .ok .pinf :=
  C141_empty .debug _ ldlt [⟨0, 0⟩] rfl [0] _

end Albatross
