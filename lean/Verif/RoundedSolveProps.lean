import Verif.RoundedSolve
import Verif.RoundedStatsProps

/-! # C146: solutions computed in doubles satisfy their equations up to rounding -/

namespace Albatross

open Finset

/-- An entry of the unit lower triangular matrix. -/
def unitEntry {n : Nat} (L : Fin n → Fin n → ℝ) (i j : Fin n) : ℝ := if j < i then L i j else if i = j then 1 else 0

/-- `P A P'` for the decomposed matrix `A`: the product of `L`, `D` and the transpose of `L`. -/
noncomputable def decomposed {n : Nat} (L : Fin n → Fin n → ℝ) (d : Fin n → ℝ) (i j : Fin n) : ℝ :=
  ∑ k, unitEntry L i k * d k * unitEntry L j k

/-- The same with absolute values. -/
noncomputable def decomposedAbs {n : Nat} (L : Fin n → Fin n → ℝ) (d : Fin n → ℝ) (i j : Fin n) : ℝ :=
  ∑ k, |unitEntry L i k| * |d k| * |unitEntry L j k|

/-- The error of `n + 1` roundings when it is relative to the result. -/
noncomputable def solveGrowth (n : Nat) : ℝ := 2 * ((1 + 2⁻¹ ^ 53) ^ (n + 1) - 1) / (2 - (1 + 2⁻¹ ^ 53) ^ (n + 1))

variable (r : Rounding) (s : Summation r)

theorem sum_below {n : Nat} (i : Fin n) (f : Fin n → ℝ) :
    ∑ j : Fin i.val, f ⟨j, j.isLt.trans i.isLt⟩ = ∑ j, if j < i then f j else 0 := by
  rw [← sum_filter]
  refine sum_bij' (fun j _ => ⟨j, j.isLt.trans i.isLt⟩) (fun j hj => ⟨j.val, (mem_filter.1 hj).2⟩) ?_ ?_ ?_ ?_ ?_
  · exact fun j _ => mem_filter.2 ⟨mem_univ _, j.isLt⟩
  · exact fun j _ => mem_univ _
  · exact fun j _ => rfl
  · exact fun j _ => rfl
  · exact fun j _ => rfl

theorem sum_unitEntry {n : Nat} (L : Fin n → Fin n → ℝ) (x : Fin n → ℝ) (i : Fin n) :
    ∑ j, unitEntry L i j * x j = (∑ j, if j < i then L i j * x j else 0) + x i := by
  have h : ∀ j, unitEntry L i j * x j = (if j < i then L i j * x j else 0) + if i = j then x j else 0 := by
    intro j
    rw [unitEntry]
    by_cases h1 : j < i
    · simp [h1, h1.ne']
    · by_cases h2 : i = j <;> simp [h1, h2]
  simp only [h, sum_add_distrib, sum_ite_eq, mem_univ, if_true]

theorem sum_abs_unitEntry {n : Nat} (L : Fin n → Fin n → ℝ) (x : Fin n → ℝ) (i : Fin n) :
    ∑ j, |unitEntry L i j| * |x j| = (∑ j, if j < i then |L i j| * |x j| else 0) + |x i| := by
  have h : ∀ j, |unitEntry L i j| = unitEntry (fun i j => |L i j|) i j := by
    intro j
    rw [unitEntry, unitEntry]
    split_ifs <;> simp
  simp only [h]
  exact sum_unitEntry (fun i j => |L i j|) (fun j => |x j|) i

/-- A row of a triangular solve. -/
theorem forward_row {n : Nat} (L : Fin n → Fin n → ℝ) (b : Fin n → ℝ) (i : Fin n) :
    |b i - ∑ j, unitEntry L i j * r.forwardSolve s L b j| ≤ ((1 + 2⁻¹ ^ 53) ^ (n + 1) - 1) *
      (|b i| + ∑ j, if j < i then |L i j| * |r.forwardSolve s L b j| else 0) := by
  set x := r.forwardSolve s L b with hx
  have hxi : x i = s.sum ((List.finRange (i.val + 1)).map
      (Fin.cases (b i) fun j : Fin i.val => r.fl (-(L i ⟨j, j.isLt.trans i.isLt⟩ * x ⟨j, j.isLt.trans i.isLt⟩)))) := by
    rw [hx, Rounding.forwardSolve, List.finRange_succ, List.map_cons, List.map_map]
    rfl
  have hterms : ∀ k : Fin (i.val + 1), Close 1
      (Fin.cases (motive := fun _ => ℝ) |b i| (fun j : Fin i.val => |L i ⟨j, j.isLt.trans i.isLt⟩| * |x ⟨j, j.isLt.trans i.isLt⟩|) k)
      (Fin.cases (motive := fun _ => ℝ) (b i) (fun j : Fin i.val => r.fl (-(L i ⟨j, j.isLt.trans i.isLt⟩ * x ⟨j, j.isLt.trans i.isLt⟩))) k)
      (Fin.cases (motive := fun _ => ℝ) (b i) (fun j : Fin i.val => -(L i ⟨j, j.isLt.trans i.isLt⟩ * x ⟨j, j.isLt.trans i.isLt⟩)) k) := by
    intro k
    refine Fin.cases ?_ (fun j => ?_) k
    · exact (Close.refl (b i)).mono (Nat.zero_le _) le_rfl
    · have := (Close.refl (-(L i ⟨j, j.isLt.trans i.isLt⟩ * x ⟨j, j.isLt.trans i.isLt⟩))).fl r
      rw [abs_neg, abs_mul] at this
      exact this
  have h := s.close_terms hterms
  rw [← hxi] at h
  simp only [Fin.sum_univ_succ, Fin.cases_zero, Fin.cases_succ, sum_neg_distrib] at h
  rw [sum_below i fun j => L i j * x j, sum_below i fun j => |L i j| * |x j|] at h
  have h2 := (h.mono (M := n + 1) (by omega) le_rfl).2
  rw [sum_unitEntry]
  rw [← abs_neg] at h2
  refine le_of_eq_of_le (congrArg _ ?_) h2
  ring

theorem solveGrowth_nonneg {n : Nat} (hn : (1 + 2⁻¹ ^ 53 : ℝ) ^ (n + 1) < 2) : 0 ≤ solveGrowth n :=
  div_nonneg (mul_nonneg zero_le_two (Close.growth_nonneg _)) (by linarith)

/-- C146: forward substitution in doubles leaves a residual that is small relative to the absolute terms of its row. -/
theorem C146_forward {n : Nat} (hn : (1 + 2⁻¹ ^ 53 : ℝ) ^ (n + 1) < 2) (L : Fin n → Fin n → ℝ) (b : Fin n → ℝ) (i : Fin n) :
    |b i - ∑ j, unitEntry L i j * r.forwardSolve s L b j| ≤
      solveGrowth n * ∑ j, |unitEntry L i j| * |r.forwardSolve s L b j| := by
  have h := forward_row r s L b i
  have hg := Close.growth_nonneg (n + 1)
  set x := r.forwardSolve s L b
  set g : ℝ := (1 + 2⁻¹ ^ 53) ^ (n + 1) - 1 with hgd
  set R := |b i - ∑ j, unitEntry L i j * x j| with hR
  rw [sum_abs_unitEntry]
  set T := ∑ j, if j < i then |L i j| * |x j| else 0 with hT
  have hT0 : 0 ≤ T := sum_nonneg fun j _ => by split_ifs <;> positivity
  have hsum : |∑ j, unitEntry L i j * x j| ≤ T + |x i| := by
    rw [hT, ← sum_abs_unitEntry]
    refine (abs_sum_le_sum_abs _ _).trans (sum_le_sum fun j _ => (abs_mul _ _).le)
  have hb : |b i| ≤ R + (T + |x i|) := by
    have := abs_add_le (b i - ∑ j, unitEntry L i j * x j) (∑ j, unitEntry L i j * x j)
    rw [sub_add_cancel] at this
    linarith
  have hden : 0 < 2 - (1 + 2⁻¹ ^ 53 : ℝ) ^ (n + 1) := by linarith
  rw [solveGrowth, ← hgd, div_mul_eq_mul_div, le_div_iff₀ hden]
  have e : 2 - (1 + 2⁻¹ ^ 53 : ℝ) ^ (n + 1) = 1 - g := by rw [hgd]; ring
  rw [e]
  have h1 := mul_le_mul_of_nonneg_left hb hg
  have h2 := mul_nonneg hg (abs_nonneg (x i))
  nlinarith

/-- C146: so does backward substitution. -/
theorem C146_backward {n : Nat} (hn : (1 + 2⁻¹ ^ 53 : ℝ) ^ (n + 1) < 2) (L : Fin n → Fin n → ℝ) (y : Fin n → ℝ) (i : Fin n) :
    |y i - ∑ j, unitEntry L j i * r.backwardSolve s L y j| ≤
      solveGrowth n * ∑ j, |unitEntry L j i| * |r.backwardSolve s L y j| := by
  have h := C146_forward r s hn (fun i j => L j.rev i.rev) (fun i => y i.rev) i.rev
  have hu : ∀ j : Fin n, unitEntry (fun i j => L j.rev i.rev) i.rev j = unitEntry L j.rev i := by
    intro j
    have h1 : j < i.rev ↔ i < j.rev := by rw [Fin.lt_def, Fin.lt_def, Fin.val_rev, Fin.val_rev]; omega
    have h2 : i.rev = j ↔ j.rev = i := by rw [Fin.ext_iff, Fin.ext_iff, Fin.val_rev, Fin.val_rev]; omega
    simp only [unitEntry, h1, h2, Fin.rev_rev]
  have hs : ∀ f : Fin n → ℝ, ∑ j, f j = ∑ j, f (Fin.rev j) := fun f => (Equiv.sum_comp Fin.revPerm f).symm
  simp only [hu, Fin.rev_rev] at h
  rw [hs fun j => unitEntry L j i * _, hs fun j => |unitEntry L j i| * _]
  simp only [Rounding.backwardSolve, Fin.rev_rev]
  exact h

/-- C146: and the division by the pivots. -/
theorem C146_pivot {n : Nat} {d : Fin n → ℝ} (x : Fin n → ℝ) {k : Fin n} (hd : 2⁻¹ ^ 1022 < |d k|) :
    |x k - d k * r.pivotSolve d x k| ≤ ((1 + 2⁻¹ ^ 53) ^ 2 - 1) * (|d k| * |r.pivotSolve d x k|) := by
  have h0 : 0 < |d k| := lt_trans (by positivity) hd
  have hdk : d k ≠ 0 := abs_pos.1 h0
  rw [Rounding.pivotSolve, if_pos hd]
  set q := r.fl (x k / d k)
  have he : |q - x k / d k| ≤ 2⁻¹ ^ 53 * |x k / d k| := r.error _
  have e : x k - d k * q = -(d k * (q - x k / d k)) := by field_simp; ring
  rw [e, abs_neg, abs_mul]
  have hq : |x k / d k| ≤ |q - x k / d k| + |q| := by
    have := abs_sub_abs_le_abs_sub (x k / d k) q
    rw [abs_sub_comm] at this
    linarith
  have h1 : |q - x k / d k| ≤ ((1 + 2⁻¹ ^ 53) ^ 2 - 1) * |q| := by
    norm_num at he ⊢
    have := abs_nonneg q
    linarith
  calc |d k| * |q - x k / d k| ≤ |d k| * (((1 + 2⁻¹ ^ 53) ^ 2 - 1) * |q|) := mul_le_mul_of_nonneg_left h1 h0.le
    _ = _ := by ring

/-- C146: what `solve` of a decomposition with nonzero pivots returns satisfies its equations up to an error that is small
relative to the absolute terms, whatever the right hand side and the condition of the matrix. -/
theorem C146_residual {n : Nat} (hn : (1 + 2⁻¹ ^ 53 : ℝ) ^ (n + 1) < 2) (σ : Equiv.Perm (Fin n)) (L : Fin n → Fin n → ℝ)
    {d : Fin n → ℝ} (hd : ∀ k, 2⁻¹ ^ 1022 < |d k|) (b : Fin n → ℝ) (i : Fin n) :
    let z := r.decompositionSolve s σ L d b
    |b (σ i) - ∑ j, decomposed L d i j * z (σ j)| ≤
      ((1 + solveGrowth n) ^ 2 * (1 + 2⁻¹ ^ 53) ^ 2 - 1) * ∑ j, decomposedAbs L d i j * |z (σ j)| := by
  intro z'
  set x := r.forwardSolve s L fun i => b (σ i) with hx
  set y := r.pivotSolve d x with hy
  set z := r.backwardSolve s L y with hz
  have hz' : ∀ j, z' (σ j) = z j := fun j => by simp [z', Rounding.decompositionSolve, hz, hy, hx]
  simp only [hz']
  set g := solveGrowth n with hg
  have hg0 : 0 ≤ g := solveGrowth_nonneg hn
  set u : ℝ := (1 + 2⁻¹ ^ 53) ^ 2 - 1 with hu
  have hu0 : 0 ≤ u := Close.growth_nonneg 2
  set l := unitEntry L with hl
  set w : Fin n → ℝ := fun k => ∑ j, |l j k| * |z j| with hw
  have hw0 : ∀ k, 0 ≤ w k := fun k => sum_nonneg fun j _ => by positivity
  have h1 : |b (σ i) - ∑ j, l i j * x j| ≤ g * ∑ j, |l i j| * |x j| := C146_forward r s hn L (fun i => b (σ i)) i
  have h2 : ∀ k, |x k - d k * y k| ≤ u * (|d k| * |y k|) := fun k => C146_pivot r x (hd k)
  have h3 : ∀ k, |y k - ∑ j, l j k * z j| ≤ g * w k := fun k => C146_backward r s hn L y k
  have hyk : ∀ k, |y k| ≤ (1 + g) * w k := fun k => by
    have a1 := abs_add_le (y k - ∑ j, l j k * z j) (∑ j, l j k * z j)
    rw [sub_add_cancel] at a1
    have a2 : |∑ j, l j k * z j| ≤ w k := (abs_sum_le_sum_abs _ _).trans (sum_le_sum fun j _ => (abs_mul _ _).le)
    linarith [h3 k]
  have hxk : ∀ k, |x k| ≤ (1 + u) * (1 + g) * (|d k| * w k) := fun k => by
    have a1 := abs_add_le (x k - d k * y k) (d k * y k)
    rw [sub_add_cancel, abs_mul] at a1
    have a2 := mul_le_mul_of_nonneg_left (mul_le_mul_of_nonneg_left (hyk k) (abs_nonneg (d k))) (show 0 ≤ 1 + u by linarith)
    linarith [h2 k]
  have hsplit : b (σ i) - ∑ j, decomposed L d i j * z j = (b (σ i) - ∑ k, l i k * x k) + ∑ k, l i k * (x k - d k * y k) +
      ∑ k, l i k * d k * (y k - ∑ j, l j k * z j) := by
    have e : ∑ j, decomposed L d i j * z j = ∑ k, l i k * d k * ∑ j, l j k * z j := by
      simp only [decomposed, sum_mul, mul_sum]
      rw [sum_comm]
      exact sum_congr rfl fun k _ => sum_congr rfl fun j _ => by ring
    rw [e]
    simp only [mul_sub, sum_sub_distrib]
    have e2 : ∀ k, l i k * (d k * y k) = l i k * d k * y k := fun k => by ring
    simp only [e2]
    ring
  have hW : ∑ j, decomposedAbs L d i j * |z j| = ∑ k, |l i k| * (|d k| * w k) := by
    simp only [decomposedAbs, hw, sum_mul, mul_sum]
    rw [sum_comm]
    exact sum_congr rfl fun k _ => sum_congr rfl fun j _ => by ring
  rw [hsplit, hW]
  set W := ∑ k, |l i k| * (|d k| * w k) with hWd
  have b1 : |b (σ i) - ∑ j, l i j * x j| ≤ g * ((1 + u) * (1 + g)) * W := by
    refine h1.trans ?_
    rw [mul_assoc]
    refine mul_le_mul_of_nonneg_left ?_ hg0
    rw [hWd, mul_sum]
    refine sum_le_sum fun k _ => ?_
    have := mul_le_mul_of_nonneg_left (hxk k) (abs_nonneg (l i k))
    linarith
  have b2 : |∑ k, l i k * (x k - d k * y k)| ≤ u * (1 + g) * W := by
    refine (abs_sum_le_sum_abs _ _).trans ?_
    rw [hWd, mul_sum]
    refine sum_le_sum fun k _ => ?_
    rw [abs_mul]
    have a1 := mul_le_mul_of_nonneg_left (mul_le_mul_of_nonneg_left (hyk k) (abs_nonneg (d k))) hu0
    have := mul_le_mul_of_nonneg_left ((h2 k).trans a1) (abs_nonneg (l i k))
    linarith
  have b3 : |∑ k, l i k * d k * (y k - ∑ j, l j k * z j)| ≤ g * W := by
    refine (abs_sum_le_sum_abs _ _).trans ?_
    rw [hWd, mul_sum]
    refine sum_le_sum fun k _ => ?_
    rw [abs_mul, abs_mul]
    have := mul_le_mul_of_nonneg_left (h3 k) (mul_nonneg (abs_nonneg (l i k)) (abs_nonneg (d k)))
    linarith
  refine (abs_add_le _ _).trans ((add_le_add ((abs_add_le _ _).trans (add_le_add b1 b2)) b3).trans_eq ?_)
  have e : (1 + 2⁻¹ ^ 53 : ℝ) ^ 2 = 1 + u := by rw [hu]; ring
  rw [e]
  ring

theorem million_roundings : (1 + 2⁻¹ ^ 53 : ℝ) ^ (1000000 + 1) ≤ 1 + 225 / 10 ^ 12 := by
  have h1 : (1 + 2⁻¹ ^ 53 : ℝ) ^ (1000000 + 1) ≤ Real.exp (1000001 * 2⁻¹ ^ 53) := by
    have h2 : (1 + 2⁻¹ ^ 53 : ℝ) ≤ Real.exp (2⁻¹ ^ 53) := by linarith [Real.add_one_le_exp ((2⁻¹ : ℝ) ^ 53)]
    have h3 := pow_le_pow_left₀ (by positivity) h2 (1000000 + 1)
    rw [← Real.exp_nat_mul] at h3
    exact h3.trans_eq (by norm_num only [Nat.cast_ofNat])
  refine h1.trans ?_
  have h4 := Real.abs_exp_sub_one_le (x := 1000001 * 2⁻¹ ^ 53) (by rw [abs_of_nonneg (by positivity)]; norm_num)
  rw [abs_of_nonneg (a := (1000001 * 2⁻¹ ^ 53 : ℝ)) (by positivity)] at h4
  have h5 : (2 * (1000001 * 2⁻¹ ^ 53) : ℝ) ≤ 225 / 10 ^ 12 := by norm_num
  linarith [(abs_le.1 h4).2]

/-- C146: the number of unknowns may be a million, for which the residual is below `10⁻⁹` of the absolute terms. -/
theorem C146_million : (1 + 2⁻¹ ^ 53 : ℝ) ^ (1000000 + 1) < 2 ∧
    (1 + solveGrowth 1000000) ^ 2 * (1 + 2⁻¹ ^ 53) ^ 2 - 1 < 10⁻¹ ^ 9 := by
  have h := million_roundings
  have hlt : (1 + 2⁻¹ ^ 53 : ℝ) ^ (1000000 + 1) < 2 := lt_of_le_of_lt h (by norm_num)
  refine ⟨hlt, ?_⟩
  have hg0 := solveGrowth_nonneg hlt
  have hg : solveGrowth 1000000 ≤ 46 / 10 ^ 11 := by
    rw [solveGrowth]
    generalize (1 + 2⁻¹ ^ 53 : ℝ) ^ (1000000 + 1) = p at h hlt
    rw [div_le_iff₀ (by linarith)]
    norm_num at h ⊢
    linarith
  generalize solveGrowth 1000000 = g at hg hg0
  have h2 : (1 + g) ^ 2 ≤ (1 + 46 / 10 ^ 11) ^ 2 := pow_le_pow_left₀ (by linarith) (by linarith) 2
  have h3 := mul_le_mul_of_nonneg_right h2 (show (0 : ℝ) ≤ (1 + 2⁻¹ ^ 53) ^ 2 by positivity)
  refine lt_of_le_of_lt (sub_le_sub_right h3 1) ?_
  norm_num

/-- Three unknowns with the second pivot negative: the decomposition need not be positive. -/
example : ∃ r : Rounding, Nonempty (Summation r) ∧ (1 + 2⁻¹ ^ 53 : ℝ) ^ (3 + 1) < 2 ∧
    ∀ k : Fin 3, (2⁻¹ ^ 1022 : ℝ) < |(![4, -1 / 3, 2] : Fin 3 → ℝ) k| := by
  obtain ⟨r⟩ := exists_rounding
  have h : (2⁻¹ ^ 1022 : ℝ) ≤ 2⁻¹ ^ 2 := pow_le_pow_of_le_one (by norm_num) (by norm_num) (by norm_num)
  refine ⟨r, exists_summation r, by norm_num, fun k => lt_of_le_of_lt h ?_⟩
  fin_cases k <;> norm_num [abs_of_pos, abs_of_neg]

end Albatross
